import Verif.DesignVar.Model
import Verif.Quat.Props

/-! Lemmas about `Verif/DesignVar/Model` and the laws of the external quaternion functions. -/
namespace Verif.DesignVar
open Verif.Quat (Q4 axisAngle2quat dot4 quatPlus Mode Geometry)
open Matrix

@[simp] theorem vec_unvec {n : Nat} (v : Fin n → ℝ) : vec (unvec v) = v := rfl
theorem unvec_vec {n : Nat} (A : Mat n 1) : unvec (vec A) = A := by
  funext i j
  rw [Subsingleton.elim j 0]
  rfl

theorem Param.to_mk {r c : Nat} (M : Mat r c) : Param.to ⟨r, c, M⟩ r c = some M := by simp [Param.to]

theorem Param.to_eq_some {p : Param} {r c : Nat} {M : Mat r c} (h : p.to r c = some M) : p = ⟨r, c, M⟩ := by
  obtain ⟨r', c', A⟩ := p
  unfold Param.to at h
  split at h
  · rename_i hh
    obtain ⟨rfl, rfl⟩ := hh
    cases h
    rfl
  · cases h

/-- The laws of the quaternion functions of sm_kinematics used below. -/
structure Sm.Lawful (sm : Sm) : Prop where
  /-- the inverse undoes an update of a unit quaternion -/
  undo : ∀ q δ, dot4 q q = 1 → sm.qplus (sm.updateQuat q δ) (sm.quatInv q) = axisAngle2quat δ
  /-- the logarithm inverts the exponential for rotations by less than half a turn -/
  log : ∀ δ : Fin 3 → ℝ, δ 0 * δ 0 + δ 1 * δ 1 + δ 2 * δ 2 < Real.pi ^ 2 → sm.qlog (axisAngle2quat δ) = δ
  /-- an update of a unit quaternion is a unit quaternion -/
  unit : ∀ q δ, dot4 q q = 1 → dot4 (sm.updateQuat q δ) (sm.updateQuat q δ) = 1
  /-- a unit quaternion times its inverse -/
  inv : ∀ q, dot4 q q = 1 → sm.qplus q (sm.quatInv q) = ![0, 0, 0, 1]

/-- An implementation of these functions: real part last. -/
noncomputable def smQuat : Sm where
  updateQuat q δ := Verif.Quat.mult ⟨false, true⟩ (axisAngle2quat δ) q
  qplus := Verif.Quat.mult ⟨false, true⟩
  quatInv := Verif.Quat.conjugate ⟨false, true⟩
  qlog a :=
    let n := Real.sqrt (a 0 * a 0 + a 1 * a 1 + a 2 * a 2)
    let s := if n = 0 then 2 else if 0 ≤ a 3 then 2 * Real.arccos (a 3) / n else -2 * Real.arccos (-a 3) / n
    ![a 0 * s, a 1 * s, a 2 * s]
  quat2r q := fun i j => Verif.Quat.rotate ⟨false, true⟩ q (Pi.single j 1) i

theorem smQuat_lawful : smQuat.Lawful := by
  have key : ∀ q : Q4 ℝ, dot4 q q = 1 → Verif.Quat.mult ⟨false, true⟩ q (Verif.Quat.conjugate ⟨false, true⟩ q) = ![0, 0, 0, 1] := by
    intro q hq
    rw [(Verif.Quat.C64_conjugate (m := ⟨false, true⟩) q).1, hq, one_smul]
    rfl
  refine ⟨fun q δ hq => ?_, fun δ hδ => ?_, fun q δ hq => ?_, fun q hq => key q hq⟩
  · change Verif.Quat.mult ⟨false, true⟩ (Verif.Quat.mult ⟨false, true⟩ (axisAngle2quat δ) q) (Verif.Quat.conjugate ⟨false, true⟩ q) = _
    rw [Verif.Quat.C64_associative, key q hq]
    exact (Verif.Quat.C64_identity (m := ⟨false, true⟩) (axisAngle2quat δ)).2
  · set θ := Real.sqrt (δ 0 * δ 0 + δ 1 * δ 1 + δ 2 * δ 2) with hθ
    have hnn : 0 ≤ δ 0 * δ 0 + δ 1 * δ 1 + δ 2 * δ 2 := by nlinarith [mul_self_nonneg (δ 0), mul_self_nonneg (δ 1), mul_self_nonneg (δ 2)]
    have hsq : θ * θ = δ 0 * δ 0 + δ 1 * δ 1 + δ 2 * δ 2 := Real.mul_self_sqrt hnn
    have h0 : 0 ≤ θ := Real.sqrt_nonneg _
    have hpi : θ < Real.pi := by
      rw [hθ, Real.sqrt_lt' Real.pi_pos]
      exact hδ
    by_cases hz : θ = 0
    · have hz' : δ 0 * δ 0 + δ 1 * δ 1 + δ 2 * δ 2 = 0 := by rw [← hsq, hz, zero_mul]
      obtain ⟨a, b, c⟩ := Verif.Quat.sq_sum_eq_zero hz'
      funext i
      fin_cases i <;> simp [smQuat, axisAngle2quat, a, b, c]
    · have hpos : 0 < θ := lt_of_le_of_ne h0 (Ne.symm hz)
      have hs : 0 < Real.sin (θ / 2) := Real.sin_pos_of_pos_of_lt_pi (by linarith) (by linarith)
      have hc : 0 < Real.cos (θ / 2) := Real.cos_pos_of_mem_Ioo ⟨by linarith, by linarith⟩
      have hq : axisAngle2quat δ = ![δ 0 * (Real.sin (θ / 2) / θ), δ 1 * (Real.sin (θ / 2) / θ), δ 2 * (Real.sin (θ / 2) / θ), Real.cos (θ / 2)] := by
        simp only [axisAngle2quat, ← hθ, if_neg hz]
      have hn : Real.sqrt (δ 0 * (Real.sin (θ / 2) / θ) * (δ 0 * (Real.sin (θ / 2) / θ)) + δ 1 * (Real.sin (θ / 2) / θ) * (δ 1 * (Real.sin (θ / 2) / θ)) +
          δ 2 * (Real.sin (θ / 2) / θ) * (δ 2 * (Real.sin (θ / 2) / θ))) = Real.sin (θ / 2) := by
        rw [show δ 0 * (Real.sin (θ / 2) / θ) * (δ 0 * (Real.sin (θ / 2) / θ)) + δ 1 * (Real.sin (θ / 2) / θ) * (δ 1 * (Real.sin (θ / 2) / θ)) +
          δ 2 * (Real.sin (θ / 2) / θ) * (δ 2 * (Real.sin (θ / 2) / θ)) = Real.sin (θ / 2) * Real.sin (θ / 2) from by
            have : (δ 0 * δ 0 + δ 1 * δ 1 + δ 2 * δ 2) * (Real.sin (θ / 2) / θ * (Real.sin (θ / 2) / θ)) = Real.sin (θ / 2) * Real.sin (θ / 2) := by
              rw [← hsq]
              field_simp
            rw [← this]
            ring]
        exact Real.sqrt_mul_self hs.le
      rw [hq]
      have hac : Real.arccos (Real.cos (θ / 2)) = θ / 2 := Real.arccos_cos (by linarith) (by linarith)
      have hfin : ∀ x : ℝ, x * (Real.sin (θ / 2) / θ) * (2 * (θ / 2) / Real.sin (θ / 2)) = x := by
        intro x
        field_simp
      funext i
      simp only [smQuat, Matrix.cons_val_zero, Matrix.cons_val_one, Matrix.cons_val, hn, if_neg hs.ne', if_pos hc.le, hac]
      fin_cases i
      · exact hfin _
      · exact hfin _
      · exact hfin _
  · change dot4 (Verif.Quat.mult ⟨false, true⟩ (axisAngle2quat δ) q) (Verif.Quat.mult ⟨false, true⟩ (axisAngle2quat δ) q) = 1
    rw [Verif.Quat.C64_norm, Verif.Quat.axisAngle_unit, hq, one_mul]

variable {k : Cls} {debug : Bool}

/-- What a successful update leaves. -/
theorem update_ok {s s' : St k} {dp : List ℝ} (h : update debug s dp = .ok s') :
    k.d ≤ dp.length ∧ s' = ⟨k.upd s.val fun i => dp.getD i.val 0, some s.val, k.eval (k.upd s.val fun i => dp.getD i.val 0)⟩ := by
  unfold update at h
  by_cases h1 : k.updCheck = .always ∧ dp.length ≠ k.d
  · simp only [if_pos h1] at h
    cases h
  by_cases h2 : k.updCheck = .dbg ∧ debug = true ∧ dp.length ≠ k.d
  · simp only [if_neg h1, if_pos h2] at h
    cases h
  by_cases h3 : k.updCheck = .eigen ∧ dp.length ≠ k.d
  · simp only [if_neg h1, if_neg h2, if_pos h3] at h
    cases h
  by_cases h4 : dp.length < k.d
  · simp only [if_neg h1, if_neg h2, if_neg h3, if_pos h4] at h
    cases h
  · simp only [if_neg h1, if_neg h2, if_neg h3, if_neg h4] at h
    cases h
    exact ⟨by omega, rfl⟩

/-- A step of the right size is accepted by every class. -/
theorem update_fits (s : St k) (dp : List ℝ) (h : dp.length = k.d) :
    update debug s dp = .ok ⟨k.upd s.val fun i => dp.getD i.val 0, some s.val, k.eval (k.upd s.val fun i => dp.getD i.val 0)⟩ := by
  simp [update, h]

theorem set_ok {s s' : St k} {p : Param} (h : set s p = .ok s') :
    ∃ M, readParam k p = .ok M ∧ s' = ⟨M, if k.saves then some s.val else s.prev, k.eval M⟩ := by
  unfold set at h
  cases hr : readParam k p with
  | ok M =>
    rw [hr, Res.bind_ok] at h
    cases h
    exact ⟨M, rfl, rfl⟩
  | exc => rw [hr] at h; cases h
  | ub => rw [hr] at h; cases h

theorem readParam_ok {p : Param} {M : Mat k.r k.c} (hf : k.setCheck ≠ .front) (h : readParam k p = .ok M) : p = ⟨k.r, k.c, M⟩ := by
  unfold readParam at h
  split at h
  · split at h
    · cases h
    · rename_i M' hM
      cases h
      exact Param.to_eq_some hM
  · split at h
    · cases h
    · split at h
      · cases h
      · rename_i M' hM
        cases h
        exact Param.to_eq_some hM
  · rename_i hh
    exact absurd hh hf

theorem readParam_get (s : St k) (hf : k.setCheck ≠ .front) : readParam k (get s) = .ok s.val := by
  unfold readParam get
  split
  · rw [Param.to_mk]
  · rw [Param.to_mk, if_neg (by simp)]
  · rename_i hh
    exact absurd hh hf

theorem getD_ofFn {n : Nat} (δ : Fin n → ℝ) : (fun i : Fin n => (List.ofFn δ).getD i.val 0) = δ := by
  funext i
  simp

end Verif.DesignVar

namespace Verif.DesignVar
variable {k : Cls} {debug : Bool}

theorem readParam_fits (M : Mat k.r k.c) (hf : k.setCheck ≠ .front) : readParam k ⟨k.r, k.c, M⟩ = .ok M :=
  readParam_get ⟨M, none, k.eval M⟩ hf

theorem set_fits (s : St k) (M : Mat k.r k.c) (hf : k.setCheck ≠ .front) :
    set s ⟨k.r, k.c, M⟩ = .ok ⟨M, if k.saves then some s.val else s.prev, k.eval M⟩ := by
  rw [set, readParam_fits M hf, Res.bind_ok]

theorem run_ok {s s' s'' : St k} {o : Op k} {os : List (Op k)} (h : step debug s o = .ok s') (h' : Res.run (step debug) s' os = .ok s'') :
    Res.run (step debug) s (o :: os) = .ok s'' := by
  rw [Res.run_cons, h, Res.bind_ok, h']

theorem readParam_front {p : Param} {M : Mat k.r k.c} (hf : k.setCheck = .front) (h : readParam k p = .ok M) :
    ∃ h : 0 < p.rows ∧ 0 < p.cols, M = fun _ _ => p.M ⟨0, h.1⟩ ⟨0, h.2⟩ := by
  unfold readParam at h
  rw [hf] at h
  simp only at h
  split at h
  · rename_i hh
    cases h
    exact ⟨hh, rfl⟩
  · cases h

theorem difference_current (s : St k) {f : Mat k.r k.c → Mat k.r k.c → Fin k.d → ℝ} (hd : k.diff = some (.current, f)) (M : Mat k.r k.c) :
    difference s ⟨k.r, k.c, M⟩ = .ok (f s.val M) := by
  simp only [difference, hd, Param.to_mk]

theorem difference_previous (s : St k) {f : Mat k.r k.c → Mat k.r k.c → Fin k.d → ℝ} (hd : k.diff = some (.previous, f)) (M P : Mat k.r k.c)
    (hp : s.prev = some P) : difference s ⟨k.r, k.c, M⟩ = .ok (f P M) := by
  simp only [difference, hd, Param.to_mk, hp]

theorem difference_inv (s : St k) {f : Mat k.r k.c → Mat k.r k.c → Fin k.d → ℝ} (hd : k.diff = some (.current, f)) {x : Param} {y : Fin k.d → ℝ}
    (h : difference s x = .ok y) : ∃ M : Mat k.r k.c, x = ⟨k.r, k.c, M⟩ ∧ y = f s.val M := by
  simp only [difference, hd] at h
  split at h
  · cases h
  · rename_i X hX
    cases h
    exact ⟨X, Param.to_eq_some hX, rfl⟩

theorem param_inj {r c : Nat} {A B : Mat r c} (h : (⟨r, c, A⟩ : Param) = ⟨r, c, B⟩) : A = B := by
  have := congrArg (fun p : Param => p.to r c) h
  simp only [Param.to_mk] at this
  exact Option.some.inj this

end Verif.DesignVar
