import Verif.Kinematic.Model
import Mathlib.Analysis.SpecialFunctions.Trigonometric.Deriv

/-!
C65: what the global quantities of a kinematic chain have to do with the motion of its frames.
-/
namespace Verif.Kinematic
open Matrix Verif.Geo

namespace Spec

/-- A frame moves as its data says: its rotation is a rotation turning at `omega`, and the other quantities are time derivatives of each other. -/
structure Moves (f : Frame) (t : ℝ) : Prop where
  rot : ∀ s, IsRot (valR f.R s)
  turn : MDeriv (valR f.R) (crossMx (valE f.omega t) * valR f.R t) t
  vel : VDeriv (valE f.p) (valE f.v t) t
  acc : VDeriv (valE f.v) (valE f.a t) t
  ang : VDeriv (valE f.omega) (valE f.alpha t) t

/-- All frames of a chain do. -/
def AllMove : Chain → ℝ → Prop
  | .root f, t => Moves f t
  | .child c f, t => AllMove c t ∧ Moves f t

/-- Global coordinates at time `t` of the point with coordinates `x` in the last frame: from frame to frame up to the root. -/
def toGlobal : Chain → ℝ → V3 → V3
  | .root f, t, x => valR f.R t *ᵥ x + valE f.p t
  | .child c f, t, x => toGlobal c t (valR f.R t *ᵥ x + valE f.p t)

/-- Global coordinates of the direction `x`. -/
def turned (c : Chain) (t : ℝ) (x : V3) : V3 := toGlobal c t x - toGlobal c t 0

/-- The sum of the second Coriolis terms: for each child, global angular velocity of its parent × its own relative velocity. -/
def coriolis : Chain → ℝ → V3
  | .root _, _ => 0
  | .child c f, t => coriolis c t + valE (getOmega c) t ⨯₃ turned c t (valE f.v t)

/-- `Sub d c`: the chain `d` is `c` or one of its ancestors. -/
inductive Sub : Chain → Chain → Prop
  | here {c} : Sub c c
  | up {d c f} : Sub d c → Sub d (.child c f)

end Spec

@[simp] theorem valE_add (a b : Eu) (t : ℝ) : valE (add a b) t = valE a t + valE b t := by
  cases a <;> cases b <;> simp [add, valE]
@[simp] theorem valE_cross (a b : Eu) (t : ℝ) : valE (cross a b) t = valE a t ⨯₃ valE b t := by
  cases a <;> cases b <;> simp [cross, valE]
@[simp] theorem valR_mulR (a b : Ro) (t : ℝ) : valR (mulR a b) t = valR a t * valR b t := by
  cases a <;> cases b <;> simp [mulR, valR]
@[simp] theorem valE_rot (a : Ro) (b : Eu) (t : ℝ) : valE (rot a b) t = valR a t *ᵥ valE b t := by
  cases a <;> cases b <;> simp [rot, valE, valR]

/-- **C65.** The global rotation and position map coordinates as composing the frames does. -/
theorem C65_pose (c : Chain) (t : ℝ) (x : V3) : Spec.toGlobal c t x = valR (getR c) t *ᵥ x + valE (getP c) t := by
  induction c generalizing x with
  | root f => simp [Spec.toGlobal, getR, getP]
  | child c f ih =>
    rw [Spec.toGlobal, ih]
    simp only [getR, getP, valR_mulR, valE_add, valE_rot, Matrix.mulVec_add, Matrix.mulVec_mulVec]
    abel

theorem turned_eq (c : Chain) (t : ℝ) (x : V3) : Spec.turned c t x = valR (getR c) t *ᵥ x := by
  rw [Spec.turned, C65_pose, C65_pose, Matrix.mulVec_zero, zero_add, add_sub_cancel_right]

theorem isRot_getR (c : Chain) (t : ℝ) (h : Spec.AllMove c t) (s : ℝ) : IsRot (valR (getR c) s) := by
  induction c with
  | root f => exact h.rot s
  | child c f ih => rw [getR, valR_mulR]; exact (ih h.1).mul (h.2.rot s)

theorem turn (c : Chain) (t : ℝ) (h : Spec.AllMove c t) :
    MDeriv (valR (getR c)) (crossMx (valE (getOmega c) t) * valR (getR c) t) t := by
  induction c with
  | root f => exact h.turn
  | child c f ih =>
    have hm := (ih h.1).mul h.2.turn
    have e : valR (getR (.child c f)) = fun s => valR (getR c) s * valR f.R s := funext fun s => by simp [getR]
    rw [e]
    refine hm.congr ?_
    simp only [getOmega, valE_add, valE_rot, crossMx_add, Matrix.add_mul, ← Matrix.mul_assoc]
    rw [(isRot_getR c t h.1 t).crossMx]

theorem turn_vec (c : Chain) (t : ℝ) (h : Spec.AllMove c t) {g : ℝ → V3} {g' : V3} (hg : VDeriv g g' t) :
    VDeriv (fun s => valR (getR c) s *ᵥ g s) (valE (getOmega c) t ⨯₃ (valR (getR c) t *ᵥ g t) + valR (getR c) t *ᵥ g') t := by
  refine ((turn c t h).mulVec hg).congr ?_
  rw [← Matrix.mulVec_mulVec, crossMx_mulVec]

/-- **C65.** The global position moves at the global velocity, for chains of any depth. -/
theorem C65_velocity (c : Chain) (t : ℝ) (h : Spec.AllMove c t) :
    VDeriv (fun s => Spec.toGlobal c s 0) (valE (getV c) t) t := by
  have e : (fun s => Spec.toGlobal c s 0) = valE (getP c) := funext fun s => by rw [C65_pose, Matrix.mulVec_zero, zero_add]
  rw [e]
  clear e
  induction c with
  | root f => exact h.vel
  | child c f ih =>
    have e : valE (getP (.child c f)) = fun s => valE (getP c) s + valR (getR c) s *ᵥ valE f.p s := funext fun s => by simp [getP]
    rw [e]
    refine ((ih h.1).add (turn_vec c t h.1 h.2.vel)).congr ?_
    simp only [getV, valE_add, valE_cross, valE_rot]
    abel

/-- **C65.** Directions attached to the frame turn at the global angular velocity. -/
theorem C65_angular_velocity (c : Chain) (t : ℝ) (x : V3) (h : Spec.AllMove c t) :
    VDeriv (fun s => Spec.turned c s x) (valE (getOmega c) t ⨯₃ Spec.turned c t x) t := by
  simp only [turned_eq]
  refine (turn_vec c t h (VDeriv.const x)).congr ?_
  simp

/-- **C65.** Together: every point attached to the frame moves as rigid body motion with these two velocities says. -/
theorem C65_point_velocity (c : Chain) (t : ℝ) (x : V3) (h : Spec.AllMove c t) :
    VDeriv (fun s => Spec.toGlobal c s x) (valE (getV c) t + valE (getOmega c) t ⨯₃ Spec.turned c t x) t := by
  have e : (fun s => Spec.toGlobal c s x) = fun s => Spec.toGlobal c s 0 + Spec.turned c s x := funext fun s => by
    rw [Spec.turned]; abel
  rw [e]
  exact (C65_velocity c t h).add (C65_angular_velocity c t x h)

/-- **C65.** The global angular velocity changes at the global angular acceleration. -/
theorem C65_angular_acceleration (c : Chain) (t : ℝ) (h : Spec.AllMove c t) :
    VDeriv (valE (getOmega c)) (valE (getAlpha c) t) t := by
  induction c with
  | root f => exact h.ang
  | child c f ih =>
    have e : valE (getOmega (.child c f)) = fun s => valE (getOmega c) s + valR (getR c) s *ᵥ valE f.omega s := funext fun s => by simp [getOmega]
    rw [e]
    refine ((ih h.1).add (turn_vec c t h.1 h.2.ang)).congr ?_
    simp only [getAlpha, valE_add, valE_cross, valE_rot]
    abel

/-- **C65, what the global acceleration is.** The global velocity changes at the reported acceleration plus, for each child, the
Coriolis term the code counts once instead of twice. -/
theorem C65_acceleration_defect (c : Chain) (t : ℝ) (h : Spec.AllMove c t) :
    VDeriv (valE (getV c)) (valE (getA c) t + Spec.coriolis c t) t := by
  induction c with
  | root f => simpa [getV, getA, Spec.coriolis] using h.acc
  | child c f ih =>
    have e : valE (getV (.child c f)) =
        fun s => valE (getV c) s + valR (getR c) s *ᵥ valE f.v s + valE (getOmega c) s ⨯₃ (valR (getR c) s *ᵥ valE f.p s) := funext fun s => by simp [getV]
    rw [e]
    refine (((ih h.1).add (turn_vec c t h.1 h.2.acc)).add
      ((C65_angular_acceleration c t h.1).cross (turn_vec c t h.1 h.2.vel))).congr ?_
    simp only [getA, Spec.coriolis, turned_eq, valE_add, valE_cross, valE_rot, map_add]
    abel

/-- **C65, partial.** The reported acceleration is the true one for chains in which no frame moves relative to a turning parent.
Missing: all other chains, for which it is wrong by `C65_acceleration_defect`. -/
theorem C65_acceleration_partial (c : Chain) (t : ℝ) (h : Spec.AllMove c t)
    (hv : ∀ c' f, Spec.Sub (.child c' f) c → valE (getOmega c') t = 0 ∨ valE f.v t = 0) :
    VDeriv (valE (getV c)) (valE (getA c) t) t := by
  refine (C65_acceleration_defect c t h).congr ?_
  suffices Spec.coriolis c t = 0 by rw [this, add_zero]
  clear h
  induction c with
  | root f => rfl
  | child c f ih =>
    rw [Spec.coriolis, ih fun c' f' hs => hv c' f' (.up hs), zero_add, turned_eq]
    rcases hv c f .here with h | h <;> simp [h]

/-- A frame turning about the vertical axis at unit speed. -/
noncomputable def spin : Frame where
  R := some fun t => !![Real.cos t, -Real.sin t, 0; Real.sin t, Real.cos t, 0; 0, 0, 1]
  omega := some fun _ => ![0, 0, 1]

/-- A frame moving away along the first axis of its parent at unit speed. -/
def slide : Frame where
  p := some fun t => ![t, 0, 0]
  v := some fun _ => ![1, 0, 0]

theorem spin_moves (t : ℝ) : Spec.Moves spin t where
  rot s := by
    have hs := Real.sin_sq_add_cos_sq s
    constructor
    · ext i j
      fin_cases i <;> fin_cases j <;> simp [spin, valR, Matrix.mul_apply, Fin.sum_univ_three] <;> linarith
    · simp [spin, valR, Matrix.det_fin_three]
      linarith
  turn := by
    intro i j
    have hc := Real.hasDerivAt_cos t
    have hs := Real.hasDerivAt_sin t
    fin_cases i <;> fin_cases j <;>
      simp [spin, valR, valE, crossMx, Matrix.mul_apply, Fin.sum_univ_three] <;>
      first | exact hc | exact hs | exact hs.neg | exact hasDerivAt_const _ _
  vel i := hasDerivAt_const _ _
  acc i := hasDerivAt_const _ _
  ang i := by
    have := hasDerivAt_const t ((![0, 0, 1] : V3) i)
    simpa [spin, valE] using this

theorem slide_moves (t : ℝ) : Spec.Moves slide t where
  rot s := IsRot.one
  turn i j := by
    have := hasDerivAt_const t ((1 : M3) i j)
    simpa [slide, valR, valE, crossMx_zero] using this
  vel i := by
    fin_cases i
    · exact hasDerivAt_id t
    · exact hasDerivAt_const _ _
    · exact hasDerivAt_const _ _
  acc i := by
    have := hasDerivAt_const t ((![1, 0, 0] : V3) i)
    simpa [slide, valE] using this
  ang i := hasDerivAt_const _ _

/-- A frame sliding on a spinning one, a chain to which the theorems above apply. -/
noncomputable def slideOnSpin : Chain := .child (.root spin) slide

example : Spec.AllMove slideOnSpin 0 ∧ valE (getOmega slideOnSpin) 0 ≠ 0 ∧ valE (getV slideOnSpin) 0 ≠ 0 := by
  refine ⟨⟨spin_moves 0, slide_moves 0⟩, fun h => ?_, fun h => ?_⟩
  · simpa [slideOnSpin, getOmega, getR, spin, slide, add, rot, valE] using congrFun h 2
  · simpa [slideOnSpin, getV, getOmega, getR, spin, slide, add, rot, cross, valE, cross_apply, Matrix.mulVec, dotProduct, Fin.sum_univ_three, Matrix.vecHead] using congrFun h 0

/-- Two spinning frames on top of each other meet the condition of the partial theorem. -/
example : Spec.AllMove (.child (.root spin) spin) 0 ∧
    ∀ c' f, Spec.Sub (.child c' f) (.child (.root spin) spin) → valE (getOmega c') 0 = 0 ∨ valE f.v 0 = 0 := by
  refine ⟨⟨spin_moves 0, spin_moves 0⟩, fun c' f hs => ?_⟩
  cases hs with
  | here => right; rfl
  | up hs => cases hs

/-- **C65, counterexample.** A frame sliding along a spinning one: the reported acceleration at time 0 is not the derivative of the
reported velocity, it is `(0, 1, 0)` instead of `(0, 2, 0)`. -/
theorem C65_acceleration_counterexample :
    ∃ c, Spec.AllMove c 0 ∧ valE (getA c) 0 = ![0, 1, 0] ∧ VDeriv (valE (getV c)) ![0, 2, 0] 0 ∧ ¬ VDeriv (valE (getV c)) (valE (getA c) 0) 0 := by
  have hm : Spec.AllMove slideOnSpin 0 := ⟨spin_moves 0, slide_moves 0⟩
  have ha : valE (getA slideOnSpin) 0 = ![0, 1, 0] := by
    funext i
    fin_cases i <;>
      simp [slideOnSpin, getA, getOmega, getR, getAlpha, spin, slide, add, rot, cross, valE, cross_apply, Matrix.mulVec, dotProduct, Fin.sum_univ_three]
  have hd : VDeriv (valE (getV slideOnSpin)) ![0, 2, 0] 0 := by
    refine (C65_acceleration_defect _ _ hm).congr ?_
    rw [ha]
    funext i
    fin_cases i <;>
      simp [slideOnSpin, Spec.coriolis, turned_eq, getOmega, getR, spin, slide, valE, valR, cross_apply, Matrix.mulVec, dotProduct, Fin.sum_univ_three]
    change (1 : ℝ) + 1 = 2
    norm_num
  refine ⟨slideOnSpin, hm, ha, hd, fun h => ?_⟩
  have := congrFun (hd.unique h) 1
  rw [ha] at this
  norm_num at this

end Verif.Kinematic
