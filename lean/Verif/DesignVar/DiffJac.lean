import Verif.DesignVar.Props
import Mathlib.Analysis.SpecialFunctions.Trigonometric.InverseDeriv
import Mathlib.Analysis.SpecialFunctions.Sqrt
import Verif.Geo

/-!
C91: the Jacobian of the minimal difference.

Model of `minimalDifferenceAndJacobianImplementation` of the design variable classes and of the expression
`DesignVariableMinimalDifferenceExpression` (aslam_backend_expressions/include/aslam/backend/DesignVariableMinimalDifferenceExpression.hpp,
below `N`).  `X`, `I`, `H` as in `Verif/DesignVar/Model`.
-/
namespace Verif.DesignVar
open Verif.Geo
open Verif.Quat (Q4 axisAngle2quat dot4 quatPlus Mode Geometry)
open Matrix

/-- The Jacobians of sm_kinematics used by the rotation and homogeneous classes (external to the repository). -/
structure SmJac where
  quatLogJacobian : Q4 ℝ → Matrix (Fin 3) (Fin 4) ℝ
  quatLogJacobian2 : Q4 ℝ → Matrix (Fin 3) (Fin 4) ℝ
  quatJacobian : Q4 ℝ → Matrix (Fin 4) (Fin 3) ℝ

/-- The Jacobian computed by `minimalDifferenceAndJacobianImplementation` and the member it reads; `none`: the function
throws. The lines stand before each case. -/
noncomputable def Class.jac (sm : Sm) (j : SmJac) : (c : Class) →
    Option (DiffOn × (Mat (c.cls sm).r (c.cls sm).c → Mat (c.cls sm).r (c.cls sm).c →
      Matrix (Fin (c.cls sm).d) (Fin (c.cls sm).d) ℝ))
  /- X/src/EuclideanPoint.cpp:81-85 -/
  | .euclideanPoint => some (.current, fun _ _ => (1 : Matrix (Fin 3) (Fin 3) ℝ))
  /- I/DesignVariableVector.hpp:95-100 -/
  | .vector n => some (.current, fun _ _ => (1 : Matrix (Fin n) (Fin n) ℝ))
  /- X/src/Scalar.cpp:82-86 -/
  | .scalar => some (.current, fun _ _ => (1 : Matrix (Fin 1) (Fin 1) ℝ))
  /- I/GenericScalar.hpp:67-70 -/
  | .genericScalar => some (.current, fun _ _ => (1 : Matrix (Fin 1) (Fin 1) ℝ))
  /- aslam_backend/src/DesignVariable.cpp:68-72 -/
  | .matrixBasic _ _ => none
  /- X/src/HomogeneousPoint.cpp:77-84 -/
  | .homogeneousPoint => some (.current, fun A x =>
      (j.quatLogJacobian (sm.qplus (vec (n := 4) A) (sm.quatInv (vec (n := 4) x))) *
        j.quatJacobian (sm.qplus (vec (n := 4) A) (sm.quatInv (vec (n := 4) x))) : Matrix (Fin 3) (Fin 3) ℝ))
  /- X/src/RotationQuaternion.cpp:82-89 -/
  | .rotationQuaternion => some (.current, fun A x =>
      (j.quatLogJacobian2 (sm.qplus (vec (n := 4) A) (sm.quatInv (vec (n := 4) x))) *
        j.quatJacobian (sm.qplus (vec (n := 4) A) (sm.quatInv (vec (n := 4) x))) : Matrix (Fin 3) (Fin 3) ℝ))
  /- X/src/EuclideanDirection.cpp:92-98 -/
  | .euclideanDirection _ _ => none
  /- I/DesignVariableMappedVector.hpp:114-119 -/
  | .mappedVector n => some (.previous, fun _ _ => (1 : Matrix (Fin n) (Fin n) ℝ))
  /- X/src/MappedEuclideanPoint.cpp:77-81 -/
  | .mappedEuclideanPoint => some (.previous, fun _ _ => (1 : Matrix (Fin 3) (Fin 3) ℝ))
  /- X/src/MappedHomogeneousPoint.cpp:77-84 -/
  | .mappedHomogeneousPoint => some (.previous, fun A x =>
      (j.quatLogJacobian (sm.qplus (vec (n := 4) A) (sm.quatInv (vec (n := 4) x))) *
        j.quatJacobian (sm.qplus (vec (n := 4) A) (sm.quatInv (vec (n := 4) x))) : Matrix (Fin 3) (Fin 3) ℝ))
  /- X/src/MappedRotationQuaternion.cpp:76-83 -/
  | .mappedRotationQuaternion => some (.previous, fun A x =>
      (j.quatLogJacobian (sm.qplus (vec (n := 4) A) (sm.quatInv (vec (n := 4) x))) *
        j.quatJacobian (sm.qplus (vec (n := 4) A) (sm.quatInv (vec (n := 4) x))) : Matrix (Fin 3) (Fin 3) ℝ))
  /- aslam_backend/src/DesignVariable.cpp:68-72 -/
  | .genericVector _ => none
  /- aslam_backend/src/DesignVariable.cpp:68-72 -/
  | .unitQuaternion _ _ => none

/-- `minimalDifferenceAndJacobian`: the difference, computed by `minimalDifferenceImplementation` (which checks the size of
`xHat`), and the Jacobian. aslam_backend/src/DesignVariable.cpp:18-80; the lines of the classes are in `Class.jac`. -/
noncomputable def differenceJac (sm : Sm) (j : SmJac) {c : Class} (s : St (c.cls sm)) (x : Param) :
    Res ((Fin (c.cls sm).d → ℝ) × Matrix (Fin (c.cls sm).d) (Fin (c.cls sm).d) ℝ) :=
  difference s x >>= fun v =>
    match c.jac sm j with
    | none => .exc
    | some (on, J) =>
      match x.to (c.cls sm).r (c.cls sm).c with
      | none => .exc
      | some M =>
        match on with
        | .current => .ok (v, J s.val M)
        | .previous => match s.prev with | none => .ub | some p => .ok (v, J p M)

/-- N:26-30: the difference is returned as a vector of the dimension `D` of the expression; another size is undefined
behaviour (an Eigen assertion in debug builds). -/
def nodeEvaluate (D : Nat) (v : List ℝ) : Res (List ℝ) := if v.length = D then .ok v else .ub

/-- N:32-37: what is added to the Jacobian container for the design variable. -/
noncomputable def nodeJacobian (sm : Sm) (j : SmJac) {c : Class} (s : St (c.cls sm)) (xHat : Param) :
    Res (Matrix (Fin (c.cls sm).d) (Fin (c.cls sm).d) ℝ) := differenceJac sm j s xHat >>= fun p => .ok p.2

/-! ### What is asked of the external functions -/

/-- An update commutes with a product from the right, a zero step changes nothing, and the product of the two Jacobians is
the derivative of the logarithm along updates, at unit quaternions with positive real part (rotations by less than half a
turn). -/
structure SmJac.Lawful (sm : Sm) (j : SmJac) : Prop where
  shift : ∀ q r δ, sm.qplus (sm.updateQuat q δ) r = sm.updateQuat (sm.qplus q r) δ
  zero : ∀ q, sm.updateQuat q 0 = q
  log : ∀ q : Q4 ℝ, dot4 q q = 1 → 0 < q 3 → ∀ δ : Fin 3 → ℝ,
    VDeriv (fun t => sm.qlog (sm.updateQuat q (t • δ))) ((j.quatLogJacobian q * j.quatJacobian q) *ᵥ δ) 0
  log2 : ∀ q : Q4 ℝ, dot4 q q = 1 → 0 < q 3 → ∀ δ : Fin 3 → ℝ,
    VDeriv (fun t => sm.qlog (sm.updateQuat q (t • δ))) ((j.quatLogJacobian2 q * j.quatJacobian q) *ᵥ δ) 0

/-- The derivative of the logarithm of `smQuat`. -/
noncomputable def logJac (q : Q4 ℝ) : Matrix (Fin 3) (Fin 4) ℝ := Matrix.of fun i k =>
  let n := Real.sqrt (q 0 * q 0 + q 1 * q 1 + q 2 * q 2)
  if n = 0 then if k.val = i.val then 2 else 0
  else if k = 3 then -(2 * q i.castSucc) / (n * Real.sqrt (1 - q 3 ^ 2))
    else (if k.val = i.val then 2 * Real.arccos (q 3) / n else 0) - q i.castSucc * (2 * Real.arccos (q 3)) * (q k / n) / n ^ 2

/-- The derivative of the update of `smQuat`. -/
noncomputable def quatJac (q : Q4 ℝ) : Matrix (Fin 4) (Fin 3) ℝ := (1 / 2 : ℝ) • Verif.Quat.dUpdate ⟨false, true⟩ .right q

noncomputable def smJac : SmJac := ⟨logJac, logJac, quatJac⟩

theorem smQuat_update (q : Q4 ℝ) (δ : Fin 3 → ℝ) :
    smQuat.updateQuat q δ = Verif.Quat.update ⟨false, true⟩ .right q (fun k => δ k / 2) := by
  simp only [smQuat, Verif.Quat.update, Verif.Quat.exp, Verif.Quat.convert]
  have : (fun k => 2 * (δ k / 2)) = δ := funext fun k => by ring
  simp [this]

theorem smQuat_zero (q : Q4 ℝ) : smQuat.updateQuat q 0 = q := by
  rw [smQuat_update]
  have : (fun k : Fin 3 => (0 : Fin 3 → ℝ) k / 2) = 0 := funext fun k => by simp
  rw [this, Verif.Quat.update, Verif.Quat.exp_zero, (Verif.Quat.C64_identity _ q).1]

theorem smQuat_deriv (q : Q4 ℝ) (δ : Fin 3 → ℝ) :
    VDeriv (fun t => smQuat.updateQuat q (t • δ)) (quatJac q *ᵥ δ) 0 := by
  have h := Verif.Quat.C64_update_derivative (m := ⟨false, true⟩) .right q (fun k => δ k / 2)
  have e1 : (fun t : ℝ => smQuat.updateQuat q (t • δ)) =
      fun t => Verif.Quat.update ⟨false, true⟩ .right q (fun k => t * (δ k / 2)) := by
    funext t
    rw [smQuat_update]
    congr 1
    funext k
    simp only [Pi.smul_apply, smul_eq_mul]
    ring
  have e2 : quatJac q *ᵥ δ = Verif.Quat.dUpdate ⟨false, true⟩ .right q *ᵥ (fun k => δ k / 2) := by
    rw [quatJac, smul_mulVec, ← mulVec_smul]
    congr 1
    funext k
    simp only [Pi.smul_apply, smul_eq_mul]
    ring
  rw [e1, e2]
  exact h

theorem log_deriv {f : ℝ → Q4 ℝ} {f' : Q4 ℝ} (hf : VDeriv f f' 0) (hu : dot4 (f 0) (f 0) = 1) (h3 : 0 < f 0 3)
    (hn : Real.sqrt (f 0 0 * f 0 0 + f 0 1 * f 0 1 + f 0 2 * f 0 2) ≠ 0) :
    VDeriv (fun t => smQuat.qlog (f t)) (logJac (f 0) *ᵥ f') 0 := by
  set S : ℝ → ℝ := fun t => f t 0 * f t 0 + f t 1 * f t 1 + f t 2 * f t 2 with hS
  have hS0 : S 0 ≠ 0 := fun h => hn (by rw [show f 0 0 * f 0 0 + f 0 1 * f 0 1 + f 0 2 * f 0 2 = 0 from h, Real.sqrt_zero])
  have hSnn : 0 ≤ S 0 := by simp only [hS]; nlinarith [mul_self_nonneg (f 0 0), mul_self_nonneg (f 0 1), mul_self_nonneg (f 0 2)]
  have hSpos : 0 < S 0 := lt_of_le_of_ne hSnn (Ne.symm hS0)
  have hunit : S 0 + f 0 3 * f 0 3 = 1 := by simpa [hS, dot4] using hu
  have h31 : f 0 3 < 1 := by nlinarith
  have hdS : HasDerivAt S (f' 0 * f 0 0 + f 0 0 * f' 0 + (f' 1 * f 0 1 + f 0 1 * f' 1) + (f' 2 * f 0 2 + f 0 2 * f' 2)) 0 :=
    (((hf 0).mul (hf 0)).add ((hf 1).mul (hf 1))).add ((hf 2).mul (hf 2))
  have hdn := hdS.sqrt hS0
  have hda : HasDerivAt (fun t => Real.arccos (f t 3)) (-(1 / Real.sqrt (1 - f 0 3 ^ 2)) * f' 3) 0 :=
    (Real.hasDerivAt_arccos (by linarith) (by linarith)).comp (0 : ℝ) (hf 3)
  have hev : ∀ᶠ t in nhds (0 : ℝ), smQuat.qlog (f t) =
      fun i => f t i.castSucc * (2 * Real.arccos (f t 3) / Real.sqrt (S t)) := by
    have c1 : ∀ᶠ t in nhds (0 : ℝ), 0 < S t := hdS.continuousAt.eventually_const_lt hSpos
    have c2 : ∀ᶠ t in nhds (0 : ℝ), 0 < f t 3 := (hf 3).continuousAt.eventually_const_lt h3
    filter_upwards [c1, c2] with t ht1 ht2
    have hne : Real.sqrt (f t 0 * f t 0 + f t 1 * f t 1 + f t 2 * f t 2) ≠ 0 := (Real.sqrt_pos.2 ht1).ne'
    funext i
    simp only [smQuat, if_neg hne, if_pos ht2.le]
    fin_cases i <;> rfl
  intro i
  have hmain := (hf i.castSucc).mul ((hda.const_mul 2).div hdn hn)
  refine (hmain.congr_of_eventuallyEq (hev.mono fun t ht => by simp only [ht]; rfl)).congr_deriv ?_
  have hq : Real.sqrt (f 0 0 * f 0 0 + f 0 1 * f 0 1 + f 0 2 * f 0 2) = Real.sqrt (S 0) := rfl
  have hsq : Real.sqrt (1 - f 0 3 ^ 2) ≠ 0 := by
    rw [show 1 - f 0 3 ^ 2 = S 0 by linarith [hunit, sq (f 0 3)]]
    exact hn
  have hn' : Real.sqrt (S 0) ≠ 0 := hn
  have hJ : ∀ i k, logJac (f 0) i k = if k = 3 then -(2 * f 0 i.castSucc) / (Real.sqrt (S 0) * Real.sqrt (1 - f 0 3 ^ 2))
      else (if k.val = i.val then 2 * Real.arccos (f 0 3) / Real.sqrt (S 0) else 0) -
        f 0 i.castSucc * (2 * Real.arccos (f 0 3)) * (f 0 k / Real.sqrt (S 0)) / Real.sqrt (S 0) ^ 2 := by
    intro i k
    rw [logJac, Matrix.of_apply]
    exact if_neg hn
  simp only [mulVec, dotProduct, Fin.sum_univ_four, hJ]
  clear_value S
  generalize hD : Real.sqrt (S 0) = n at *
  generalize Real.sqrt (1 - f 0 3 ^ 2) = m at *
  fin_cases i <;> simp <;> rw [hD] <;> field_simp <;> ring

theorem smJac_lawful : SmJac.Lawful smQuat smJac := by
  have hlog : ∀ q : Q4 ℝ, dot4 q q = 1 → 0 < q 3 → ∀ δ : Fin 3 → ℝ,
      VDeriv (fun t => smQuat.qlog (smQuat.updateQuat q (t • δ))) ((logJac q * quatJac q) *ᵥ δ) 0 := by
    intro q hq h3 δ
    have hz : smQuat.updateQuat q ((0 : ℝ) • δ) = q := by rw [zero_smul, smQuat_zero]
    by_cases hn : Real.sqrt (q 0 * q 0 + q 1 * q 1 + q 2 * q 2) = 0
    · have hs := (Real.sqrt_eq_zero (add_nonneg (add_nonneg (mul_self_nonneg _) (mul_self_nonneg _)) (mul_self_nonneg _))).mp hn
      obtain ⟨a, b, c⟩ := Verif.Quat.sq_sum_eq_zero hs
      have hq3 : q 3 = 1 := by
        have : q 3 * q 3 = 1 := by simpa [dot4, a, b, c] using hq
        nlinarith
      have hid : q = Verif.Quat.identity ⟨false, true⟩ := by
        funext k
        fin_cases k <;> simp [Verif.Quat.identity, a, b, c, hq3]
      have hJ : (logJac q * quatJac q) *ᵥ δ = δ := by
        funext i
        rw [← mulVec_mulVec]
        have hl : ∀ i k, logJac q i k = if k.val = i.val then 2 else 0 := by
          intro i k
          rw [logJac, Matrix.of_apply]
          exact if_pos hn
        have hj : ∀ i k, quatJac q i k = 1 / 2 * Verif.Quat.dUpdate ⟨false, true⟩ .right q i k := fun _ _ => rfl
        fin_cases i <;>
          simp [mulVec, dotProduct, Fin.sum_univ_four, Fin.sum_univ_three, hl, hj, Verif.Quat.dUpdate, Verif.Quat.convert, Verif.Quat.quatPlus,
            a, b, c, hq3]
      rw [hJ]
      have hexp : ∀ t : ℝ, smQuat.updateQuat q (t • δ) = axisAngle2quat (t • δ) := by
        intro t
        rw [hid]
        exact (Verif.Quat.C64_identity (m := ⟨false, true⟩) (axisAngle2quat (t • δ))).2
      have hev : ∀ᶠ t in nhds (0 : ℝ), smQuat.qlog (smQuat.updateQuat q (t • δ)) = t • δ := by
        have hc : ContinuousAt (fun t : ℝ => (t • δ) 0 * (t • δ) 0 + (t • δ) 1 * (t • δ) 1 + (t • δ) 2 * (t • δ) 2) 0 := by
          simp only [Pi.smul_apply, smul_eq_mul]
          fun_prop
        have h0 : (fun t : ℝ => (t • δ) 0 * (t • δ) 0 + (t • δ) 1 * (t • δ) 1 + (t • δ) 2 * (t • δ) 2) 0 < Real.pi ^ 2 := by
          simpa using pow_pos Real.pi_pos 2
        filter_upwards [hc.eventually_lt_const h0] with t ht
        rw [hexp]
        exact smQuat_lawful.log _ ht
      intro i
      have hl : HasDerivAt (fun t : ℝ => t * δ i) (δ i) 0 := by
        simpa using (hasDerivAt_id (0 : ℝ)).mul_const (δ i)
      exact hl.congr_of_eventuallyEq (hev.mono fun t ht => by simp only [ht]; rfl)
    · rw [← mulVec_mulVec]
      have := log_deriv (smQuat_deriv q δ) (by simpa only [hz] using hq) (by simpa only [hz] using h3) (by simpa only [hz] using hn)
      rwa [hz] at this
  refine ⟨fun q r δ => ?_, smQuat_zero, hlog, hlog⟩
  exact Verif.Quat.C64_associative ⟨false, true⟩ (axisAngle2quat δ) q r


/-! ### The properties -/

/-- `J` is the Jacobian of the difference to `x`: at step zero the difference is `v`, and along every line of steps from the
state `s` the difference after the update moves with the derivative `J δ`. -/
def IsDiffJac (debug : Bool) {k : Cls} (s : St k) (x : Param) (v : Fin k.d → ℝ) (J : Matrix (Fin k.d) (Fin k.d) ℝ) : Prop :=
  difference s x = .ok v ∧ ∀ δ : Fin k.d → ℝ, ∃ g : ℝ → Fin k.d → ℝ,
    (∀ t, ∃ s', update debug s (List.ofFn (t • δ)) = .ok s' ∧ difference s' x = .ok (g t)) ∧ g 0 = v ∧ VDeriv g (J *ᵥ δ) 0

variable {debug : Bool}

theorem additive_jac {n : Nat} {uc : UpdCheck} {sc : SetCheck} {mp : Bool} (s : St (additive n uc sc mp .current)) (x : Param)
    {v : Fin n → ℝ} (h : difference s x = .ok v) : IsDiffJac debug s x v (1 : Matrix (Fin n) (Fin n) ℝ) := by
  obtain ⟨M, rfl, hv⟩ := difference_inv s rfl h
  refine ⟨h, fun (δ : Fin n → ℝ) => ⟨fun t => vec (n := n) s.val + t • δ - vec (n := n) M, fun t => ⟨_, update_fits s _ (List.length_ofFn (f := t • δ)), ?_⟩, ?_, ?_⟩⟩
  · refine (difference_current _ rfl M).trans (congrArg Res.ok ?_)
    change vec (n := n) (unvec (vec (n := n) s.val + fun i : Fin n => (List.ofFn (t • δ)).getD i.val 0)) - vec (n := n) M = _
    rw [getD_ofFn, vec_unvec]
  · rw [hv]
    change vec (n := n) s.val + (0 : ℝ) • δ - vec (n := n) M = vec (n := n) s.val - vec (n := n) M
    rw [zero_smul, add_zero]
  · intro i
    have hl : HasDerivAt (fun t : ℝ => vec (n := n) s.val i + t * δ i - vec (n := n) M i) (δ i) 0 := by
      simpa using (((hasDerivAt_id (0 : ℝ)).mul_const (δ i)).const_add (vec (n := n) s.val i)).sub_const (vec (n := n) M i)
    refine HasDerivAt.congr_deriv hl ?_
    exact (congrFun (one_mulVec (m := Fin n) δ) i).symm

theorem differenceJac_fits {sm : Sm} {j : SmJac} {c : Class} {f J} (hd : (c.cls sm).diff = some (.current, f))
    (hJ : c.jac sm j = some (.current, J)) (s : St (c.cls sm)) (M : Mat (c.cls sm).r (c.cls sm).c) :
    differenceJac sm j s ⟨_, _, M⟩ = .ok (f s.val M, J s.val M) := by
  rw [differenceJac, difference_current s hd M, Res.bind_ok]
  simp only [hJ, Param.to_mk]

theorem differenceJac_before {sm : Sm} {j : SmJac} {c : Class} {f J} (hd : (c.cls sm).diff = some (.previous, f))
    (hJ : c.jac sm j = some (.previous, J)) (s : St (c.cls sm)) (M P : Mat (c.cls sm).r (c.cls sm).c) (hp : s.prev = some P) :
    differenceJac sm j s ⟨_, _, M⟩ = .ok (f P M, J P M) := by
  rw [differenceJac, difference_previous s hd M P hp, Res.bind_ok]
  simp only [hJ, Param.to_mk, hp]

theorem differenceJac_current {sm : Sm} {j : SmJac} {c : Class} {f J} {s : St (c.cls sm)} {x : Param} {v A}
    (hd : (c.cls sm).diff = some (.current, f)) (hJ : c.jac sm j = some (.current, J)) (h : differenceJac sm j s x = .ok (v, A)) :
    ∃ M : Mat (c.cls sm).r (c.cls sm).c, x = ⟨_, _, M⟩ ∧ difference s x = .ok v ∧ v = f s.val M ∧ A = J s.val M := by
  unfold differenceJac at h
  cases hdif : difference s x with
  | exc => rw [hdif] at h; cases h
  | ub => rw [hdif] at h; cases h
  | ok y =>
    obtain ⟨M, rfl, hy⟩ := difference_inv s hd hdif
    rw [hdif, Res.bind_ok] at h
    simp only [hJ, Param.to_mk] at h
    cases h
    exact ⟨M, rfl, rfl, hy, rfl⟩

/-- For vectors, points and scalars that are not mapped: whenever the difference and its Jacobian are returned, the value is
that of `minimalDifference` and the matrix its derivative along updates, in every state and for every `x`.  Partial: rotations
and homogeneous points are below, the mapped variables are counterexamples, and directions, matrices and the generic variables
throw. -/
theorem C91_jacobian_partial (sm : Sm) (j : SmJac) (c : Class) (hc : c.Vector) (s : St (c.cls sm)) (x : Param) (v A)
    (h : differenceJac sm j s x = .ok (v, A)) : IsDiffJac debug s x v A := by
  cases c with
  | euclideanPoint =>
    obtain ⟨M, hx, hv, -, rfl⟩ := differenceJac_current rfl rfl h
    exact additive_jac s x hv
  | vector n =>
    obtain ⟨M, hx, hv, -, rfl⟩ := differenceJac_current rfl rfl h
    exact additive_jac s x hv
  | scalar =>
    obtain ⟨M, hx, hv, -, rfl⟩ := differenceJac_current rfl rfl h
    exact additive_jac s x hv
  | genericScalar =>
    obtain ⟨M, hx, hv, -, rfl⟩ := differenceJac_current rfl rfl h
    exact additive_jac s x hv
  | _ => exact hc.elim

example (sm : Sm) (j : SmJac) : differenceJac sm j (make ((Class.vector 2).cls sm) (unvec ![1, 2])) ⟨2, 1, unvec ![5, 7]⟩ =
    .ok (vec (unvec ![1, 2]) - vec (unvec ![5, 7]), (1 : Matrix (Fin 2) (Fin 2) ℝ)) :=
  differenceJac_fits (c := Class.vector 2) rfl rfl _ (unvec ![5, 7])

theorem quaternion_jac {sm : Sm} {S : Type} {ev : Q4 ℝ → S} {uc : UpdCheck} {mp ca : Bool}
    (s : St (quaternion sm S ev uc mp ca .current)) (M : Mat 4 1) (A : Matrix (Fin 3) (Fin 3) ℝ)
    (shift : ∀ q r δ, sm.qplus (sm.updateQuat q δ) r = sm.updateQuat (sm.qplus q r) δ) (zero : ∀ q, sm.updateQuat q 0 = q)
    (hA : ∀ δ : Fin 3 → ℝ, VDeriv (fun t => sm.qlog (sm.updateQuat (sm.qplus (vec (n := 4) s.val) (sm.quatInv (vec M))) (t • δ))) (A *ᵥ δ) 0) :
    IsDiffJac debug s ⟨4, 1, M⟩ (sm.qlog (sm.qplus (vec (n := 4) s.val) (sm.quatInv (vec M)))) A := by
  refine ⟨difference_current (k := quaternion sm S ev uc mp ca .current) s rfl M, fun (δ : Fin 3 → ℝ) => ⟨_, fun t => ⟨_, update_fits s _ (List.length_ofFn (f := t • δ)), ?_⟩, ?_, hA δ⟩⟩
  · refine (difference_current (k := quaternion sm S ev uc mp ca .current) _ rfl M).trans (congrArg Res.ok ?_)
    change sm.qlog (sm.qplus (vec (unvec (sm.updateQuat (vec (n := 4) s.val) fun i : Fin 3 => (List.ofFn (t • δ)).getD i.val 0)))
      (sm.quatInv (vec M))) = _
    rw [getD_ofFn, vec_unvec, shift]
  · change sm.qlog (sm.updateQuat _ ((0 : ℝ) • δ)) = _
    rw [zero_smul]
    exact congrArg sm.qlog (zero _)

/-- Rotations and homogeneous points that are not mapped: the same, when the relative rotation is by less than half a turn, under
the laws of the external functions (which hold for `smQuat` and `smJac`). -/
theorem C91_rotation_partial (sm : Sm) (j : SmJac) (hj : j.Lawful sm) (c : Class) (hc : c = .rotationQuaternion ∨ c = .homogeneousPoint)
    (s : St (c.cls sm)) (q p : Q4 ℝ) (hs : get s = ⟨4, 1, unvec q⟩) (v A)
    (hu : dot4 (sm.qplus q (sm.quatInv p)) (sm.qplus q (sm.quatInv p)) = 1) (hp : 0 < sm.qplus q (sm.quatInv p) 3)
    (h : differenceJac sm j s ⟨4, 1, unvec p⟩ = .ok (v, A)) : IsDiffJac debug s ⟨4, 1, unvec p⟩ v A := by
  rcases hc with rfl | rfl
  · have hq : q = vec (n := 4) s.val := by
      have := congrArg vec (param_inj (A := (s.val : Mat 4 1)) (B := unvec q) hs)
      exact this.symm
    obtain ⟨M, hx, hv, rfl, rfl⟩ := differenceJac_current (f := _) (J := _) rfl rfl h
    have hM : unvec p = M := param_inj (r := 4) (c := 1) hx
    subst hM
    subst hq
    exact quaternion_jac s (unvec p) _ hj.shift hj.zero (hj.log2 _ hu hp)
  · have hq : q = vec (n := 4) s.val := by
      have := congrArg vec (param_inj (A := (s.val : Mat 4 1)) (B := unvec q) hs)
      exact this.symm
    obtain ⟨M, hx, hv, rfl, rfl⟩ := differenceJac_current (f := _) (J := _) rfl rfl h
    have hM : unvec p = M := param_inj (r := 4) (c := 1) hx
    subst hM
    subst hq
    exact quaternion_jac s (unvec p) _ hj.shift hj.zero (hj.log _ hu hp)

example : SmJac.Lawful smQuat smJac ∧ ∃ s : St (Class.rotationQuaternion.cls smQuat), get s = ⟨4, 1, unvec ![0, 0, 3 / 5, 4 / 5]⟩ ∧
    (let e := smQuat.qplus ![0, 0, 3 / 5, 4 / 5] (smQuat.quatInv ![0, 0, 0, 1]); dot4 e e = 1 ∧ 0 < e 3) ∧
      ∃ v A, differenceJac smQuat smJac s ⟨4, 1, unvec ![0, 0, 0, 1]⟩ = .ok (v, A) := by
  have e : smQuat.qplus ![0, 0, 3 / 5, 4 / 5] (smQuat.quatInv ![0, 0, 0, 1]) = ![0, 0, 3 / 5, 4 / 5] := by
    have : smQuat.quatInv ![0, 0, 0, 1] = Verif.Quat.identity ⟨false, true⟩ := by
      funext k
      fin_cases k <;> simp [smQuat, Verif.Quat.conjugate, Verif.Quat.identity, Verif.Quat.Mode.ii]
    rw [this]
    exact (Verif.Quat.C64_identity (m := ⟨false, true⟩) ![0, 0, 3 / 5, 4 / 5]).2
  have d1 : dot4 (![0, 0, 3 / 5, 4 / 5] : Q4 ℝ) ![0, 0, 3 / 5, 4 / 5] = 1 := by
    change (0 : ℝ) * 0 + 0 * 0 + 3 / 5 * (3 / 5) + 4 / 5 * (4 / 5) = 1
    norm_num
  have d2 : (0 : ℝ) < (![0, 0, 3 / 5, 4 / 5] : Q4 ℝ) 3 := by
    change (0 : ℝ) < 4 / 5
    norm_num
  refine ⟨smJac_lawful, make _ (unvec ![0, 0, 3 / 5, 4 / 5]), rfl, ?_, _, _,
    differenceJac_fits (sm := smQuat) (j := smJac) (c := Class.rotationQuaternion) rfl rfl _ (unvec ![0, 0, 0, 1])⟩
  rw [e]
  exact ⟨d1, d2⟩

/-- The mapped variables: the identity is returned although the difference does not move with the steps at all, because it reads
the value before the last update.  After the first call of `update` the difference is even another one. -/
theorem C91_mapped_counterexample (sm : Sm) (j : SmJac) (n : Nat) (hn : 0 < n) (s : St ((Class.mappedVector n).cls sm)) (P x : Mat n 1)
    (hp : s.prev = some P) :
    differenceJac sm j s ⟨n, 1, x⟩ = .ok (vec P - vec x, (1 : Matrix (Fin n) (Fin n) ℝ)) ∧
    ¬ IsDiffJac debug s ⟨n, 1, x⟩ (vec P - vec x) (1 : Matrix (Fin n) (Fin n) ℝ) ∧
    ∀ δ : Fin n → ℝ, ∃ s', update debug s (List.ofFn δ) = .ok s' ∧ difference s' ⟨n, 1, x⟩ = .ok (vec (n := n) s.val - vec x) := by
  have hup : ∀ δ : Fin n → ℝ, ∃ s', update debug s (List.ofFn δ) = .ok s' ∧ difference s' ⟨n, 1, x⟩ = .ok (vec (n := n) s.val - vec x) :=
    fun δ => ⟨_, update_fits s _ (List.length_ofFn (f := δ)), difference_previous (k := (Class.mappedVector n).cls sm) _ rfl x s.val rfl⟩
  refine ⟨differenceJac_before (c := Class.mappedVector n) rfl rfl s x P hp, ?_, hup⟩
  rintro ⟨-, h⟩
  obtain ⟨g, hg, -, hd⟩ := h (fun _ => 1)
  have hconst : g = fun _ => vec (n := n) s.val - vec x := by
    funext t
    obtain ⟨s₁, h1, h2⟩ := hg t
    obtain ⟨s₂, h3, h4⟩ := hup (t • fun _ => 1)
    rw [show List.ofFn (t • fun _ : Fin n => (1 : ℝ)) = List.ofFn (t • fun _ : Fin ((Class.mappedVector n).cls sm).d => (1 : ℝ)) from rfl, h1] at h3
    cases h3
    rw [h2] at h4
    exact Res.ok.inj h4
  have h0 := hd ⟨0, hn⟩
  rw [hconst] at h0
  have h1 := h0.unique (hasDerivAt_const (0 : ℝ) _)
  have h2 : ((1 : Matrix (Fin n) (Fin n) ℝ) *ᵥ fun _ => (1 : ℝ)) ⟨0, hn⟩ = 0 := h1
  rw [one_mulVec] at h2
  exact one_ne_zero h2

example (sm : Sm) : (make ((Class.mappedVector 2).cls sm) (unvec ![1, 2])).prev = some (unvec ![1, 2]) := rfl

/-- The expression of the difference: of the dimension of the design variable, its value is the difference and the matrix added
for the design variable is the derivative of that value; with another dimension, or over an adapted variable, whose difference
is left empty, evaluating it is undefined behaviour. -/
theorem C91_expression_partial (sm : Sm) (j : SmJac) (c : Class) (hc : c.Vector) (s : St (c.cls sm)) (x : Param) (J)
    (h : nodeJacobian sm j s x = .ok J) :
    ∃ v, difference s x = .ok v ∧ nodeEvaluate (c.cls sm).d (List.ofFn v) = .ok (List.ofFn v) ∧ IsDiffJac debug s x v J ∧
      ∀ D, D ≠ (c.cls sm).d → nodeEvaluate D (List.ofFn v) = .ub := by
  unfold nodeJacobian at h
  cases hd : differenceJac sm j s x with
  | exc => rw [hd] at h; cases h
  | ub => rw [hd] at h; cases h
  | ok p =>
    rw [hd, Res.bind_ok] at h
    cases h
    have hj := C91_jacobian_partial (debug := debug) sm j c hc s x p.1 p.2 hd
    refine ⟨p.1, hj.1, if_pos (List.length_ofFn), hj, fun D hD => if_neg fun e => hD ?_⟩
    rw [← e, List.length_ofFn]

/-- The expression over an adapted variable is undefined behaviour for every dimension but zero. -/
theorem C91_adapter_counterexample (u : User) (s : ASt u) (x : Param) (D : Nat) (hD : 0 < D) :
    (s.difference x [] >>= nodeEvaluate D) = .ub := if_neg (Nat.ne_of_lt hD)

end Verif.DesignVar
