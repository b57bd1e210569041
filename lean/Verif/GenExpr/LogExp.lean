import Verif.GenExpr.Exp
import Mathlib.Analysis.Calculus.DSlope
import Mathlib.Analysis.SpecialFunctions.Trigonometric.InverseDeriv
import Mathlib.Analysis.SpecialFunctions.Sqrt

/-!
Functions with the properties which the theorems about quaternion expressions ask of the external library: a logarithm as in `sm_kinematics`
(arc cosine of the real part where it is small, arc sine of the norm of the imaginary part otherwise), and the derivatives of it and of the
exponential.
-/
namespace Verif.GenExpr
open Verif.Geo (VDeriv MDeriv)
open Verif.Quat (Mode Geometry Q4)
open Matrix

/-- The length of three numbers. -/
noncomputable def len3 (a b c : ℝ) : ℝ := Real.sqrt (a * a + b * b + c * c)

theorem sq_nonneg3 (a b c : ℝ) : 0 ≤ a * a + b * b + c * c :=
  add_nonneg (add_nonneg (mul_self_nonneg _) (mul_self_nonneg _)) (mul_self_nonneg _)

theorem len3_nonneg (a b c : ℝ) : 0 ≤ len3 a b c := Real.sqrt_nonneg _

theorem len3_sq (a b c : ℝ) : len3 a b c * len3 a b c = a * a + b * b + c * c := Real.mul_self_sqrt (sq_nonneg3 a b c)

theorem len3_eq_zero {a b c : ℝ} (h : len3 a b c = 0) : a = 0 ∧ b = 0 ∧ c = 0 :=
  Quat.sq_sum_eq_zero ((Real.sqrt_eq_zero (sq_nonneg3 a b c)).mp h)

theorem len3_deriv {f g h : ℝ → ℝ} {f' g' h' t : ℝ} (hf : HasDerivAt f f' t) (hg : HasDerivAt g g' t) (hh : HasDerivAt h h' t)
    (h0 : len3 (f t) (g t) (h t) ≠ 0) :
    HasDerivAt (fun s => len3 (f s) (g s) (h s)) ((f t * f' + g t * g' + h t * h') / len3 (f t) (g t) (h t)) t := by
  have hq := ((hf.mul hf).add (hg.mul hg)).add (hh.mul hh)
  have hne : f t * f t + g t * g t + h t * h t ≠ 0 := by
    intro e; apply h0; rw [len3, e, Real.sqrt_zero]
  have := hq.sqrt hne
  refine this.congr_deriv ?_
  show _ / (2 * len3 (f t) (g t) (h t)) = _
  field_simp
  ring

theorem len3_continuous {f g h : ℝ → ℝ} {t : ℝ} (hf : ContinuousAt f t) (hg : ContinuousAt g t) (hh : ContinuousAt h t) :
    ContinuousAt (fun s => len3 (f s) (g s) (h s)) t := (((hf.mul hf).add (hg.mul hg)).add (hh.mul hh)).sqrt

/-! ### The exponential -/

theorem axisAngle_double (v : Fin 3 → ℝ) : Quat.axisAngle2quat (fun k => 2 * v k) =
    ![v 0 * (Real.sin (len3 (v 0) (v 1) (v 2)) / len3 (v 0) (v 1) (v 2)), v 1 * (Real.sin (len3 (v 0) (v 1) (v 2)) / len3 (v 0) (v 1) (v 2)),
      v 2 * (Real.sin (len3 (v 0) (v 1) (v 2)) / len3 (v 0) (v 1) (v 2)), Real.cos (len3 (v 0) (v 1) (v 2))] := by
  have := Quat.axisAngle_line v 1
  simpa [len3] using this

/-- The derivative of `sin r / r`. -/
noncomputable def dsinc (r : ℝ) : ℝ := (Real.cos r * r - Real.sin r) / r ^ 2

/-- The derivative of the exponential away from the origin, real part last. -/
noncomputable def dexpLast (p : Fin 3 → ℝ) : Mat 4 3 :=
  let r := len3 (p 0) (p 1) (p 2)
  fun i j => if h : i.val < 3 then (if i.val = j.val then Real.sin r / r else 0) + p ⟨i.val, h⟩ * (dsinc r * (p j / r)) else -Real.sin r * (p j / r)

theorem dexpLast_mulVec (p v : Fin 3 → ℝ) : dexpLast p *ᵥ v =
    let r := len3 (p 0) (p 1) (p 2)
    let d := (p 0 * v 0 + p 1 * v 1 + p 2 * v 2) / r
    ![v 0 * (Real.sin r / r) + p 0 * (dsinc r * d), v 1 * (Real.sin r / r) + p 1 * (dsinc r * d), v 2 * (Real.sin r / r) + p 2 * (dsinc r * d),
      -Real.sin r * d] := by
  funext i
  fin_cases i <;> simp [dexpLast, Matrix.mulVec, dotProduct, Fin.sum_univ_three] <;> ring

theorem axisAngle_deriv {f : ℝ → Fin 3 → ℝ} {f' : Fin 3 → ℝ} {t : ℝ} (h : VDeriv f f' t) (h0 : len3 (f t 0) (f t 1) (f t 2) ≠ 0) :
    VDeriv (fun s => Quat.axisAngle2quat fun k => 2 * f s k) (dexpLast (f t) *ᵥ f') t := by
  have hN := len3_deriv (h 0) (h 1) (h 2) h0
  set d := (f t 0 * f' 0 + f t 1 * f' 1 + f t 2 * f' 2) / len3 (f t 0) (f t 1) (f t 2) with hd
  have hs : HasDerivAt (fun s => Real.sin (len3 (f s 0) (f s 1) (f s 2)) / len3 (f s 0) (f s 1) (f s 2)) (dsinc (len3 (f t 0) (f t 1) (f t 2)) * d) t := by
    refine (hN.sin.div hN h0).congr_deriv ?_
    rw [dsinc]
    ring
  rw [dexpLast_mulVec]
  intro k
  simp only [axisAngle_double]
  fin_cases k
  · exact (h 0).mul hs
  · exact (h 1).mul hs
  · exact (h 2).mul hs
  · exact hN.cos

/-- Rows in the order of a mode. -/
def rowsOf (m : Mode) {n : Nat} (J : Mat 4 n) : Mat 4 n := fun i j => Quat.mk m (J 0 j) (J 1 j) (J 2 j) (J 3 j) i

theorem rowsOf_mulVec (m : Mode) {n : Nat} (J : Mat 4 n) (v : Fin n → ℝ) :
    rowsOf m J *ᵥ v = Quat.mk m ((J *ᵥ v) 0) ((J *ᵥ v) 1) ((J *ᵥ v) 2) ((J *ᵥ v) 3) := by
  funext k
  cases hm : m.realFirst <;> fin_cases k <;> simp [rowsOf, Quat.mk, hm, Matrix.mulVec, dotProduct]

open Classical in
/-- The derivative of the exponential. -/
noncomputable def dexpAt (m : Mode) (p : Fin 3 → ℝ) : Mat 4 3 := if p = 0 then dexp0 m else rowsOf m (dexpLast p)

theorem vderiv_convert (m : Mode) {f : ℝ → Q4 ℝ} {f' : Q4 ℝ} {t : ℝ} (h : VDeriv f f' t) :
    VDeriv (fun s => Quat.convert ⟨false, true⟩ m (f s)) (Quat.mk m (f' 0) (f' 1) (f' 2) (f' 3)) t := by
  intro k
  cases hm : m.realFirst
  · have a := h k
    fin_cases k <;> simpa [Quat.convert, Quat.mk, hm] using a
  · have a0 := h 0; have a1 := h 1; have a2 := h 2; have a3 := h 3
    fin_cases k
    · simpa [Quat.convert, Quat.mk, hm, Mode.ri, Mode.ii, Mode.ji, Mode.ki] using a3
    · simpa [Quat.convert, Quat.mk, hm, Mode.ri, Mode.ii, Mode.ji, Mode.ki] using a0
    · simpa [Quat.convert, Quat.mk, hm, Mode.ri, Mode.ii, Mode.ji, Mode.ki] using a1
    · simpa [Quat.convert, Quat.mk, hm, Mode.ri, Mode.ii, Mode.ji, Mode.ki] using a2

theorem expOk (x : Ext) (m : Mode) (p : Fin 3 → ℝ) (hx : x.dexp m p = dexpAt m p) : ExpOk x m p := by
  by_cases h0 : p = 0
  · subst h0
    exact expOk_zero x m (by rw [hx, dexpAt, if_pos rfl])
  · intro f f' t hp h
    have hl : len3 (f t 0) (f t 1) (f t 2) ≠ 0 := by
      intro e
      obtain ⟨e0, e1, e2⟩ := len3_eq_zero e
      apply h0
      rw [← hp]
      funext k
      fin_cases k
      · exact e0
      · exact e1
      · exact e2
    rw [hx, dexpAt, if_neg h0, rowsOf_mulVec, ← hp]
    exact vderiv_convert m (axisAngle_deriv h hl)

/-! ### The logarithm -/

/-- `asin n / n`. -/
noncomputable def asinc (n : ℝ) : ℝ := if n = 0 then 1 else Real.arcsin n / n

theorem asinc_eq : asinc = dslope Real.arcsin 0 := by
  funext n
  by_cases h : n = 0
  · subst h
    rw [dslope_same, Real.deriv_arcsin]
    simp [asinc]
  · rw [dslope_of_ne _ h, slope_def_field]
    simp [asinc, h]

theorem asinc_continuousAt_zero : ContinuousAt asinc 0 := by
  rw [asinc_eq, continuousAt_dslope_same]
  exact (Real.hasDerivAt_arcsin (by norm_num) (by norm_num)).differentiableAt

/-- The logarithm of a unit quaternion with the real part last: the half of `quat2AxisAngle`. -/
noncomputable def logLast (q : Q4 ℝ) : Fin 3 → ℝ :=
  let n := len3 (q 0) (q 1) (q 2)
  let s := if |q 3| < n then Real.arccos (q 3) / n else if 0 < q 3 then asinc n else -asinc n
  ![q 0 * s, q 1 * s, q 2 * s]

/-- The derivative of the factor in the first branch. -/
noncomputable def dlogA (q v : Q4 ℝ) : ℝ :=
  let n := len3 (q 0) (q 1) (q 2)
  (-(1 / Real.sqrt (1 - q 3 ^ 2)) * v 3 * n - Real.arccos (q 3) * ((q 0 * v 0 + q 1 * v 1 + q 2 * v 2) / n)) / n ^ 2

/-- The derivative of the factor in the second branch. -/
noncomputable def dlogB (q v : Q4 ℝ) : ℝ :=
  let n := len3 (q 0) (q 1) (q 2)
  let d := (q 0 * v 0 + q 1 * v 1 + q 2 * v 2) / n
  (1 / Real.sqrt (1 - n ^ 2) * d * n - Real.arcsin n * d) / n ^ 2

/-- The change of the logarithm for a change of the quaternion. -/
noncomputable def dlogFun (q v : Q4 ℝ) : Fin 3 → ℝ :=
  let n := len3 (q 0) (q 1) (q 2)
  if |q 3| < n then fun k => v k.castSucc * (Real.arccos (q 3) / n) + q k.castSucc * dlogA q v
  else if 0 < q 3 then fun k => v k.castSucc * asinc n + q k.castSucc * dlogB q v
  else fun k => v k.castSucc * -asinc n + q k.castSucc * -dlogB q v

theorem dlogA_lin (q : Q4 ℝ) : (∀ v w, dlogA q (v + w) = dlogA q v + dlogA q w) ∧ ∀ (c : ℝ) v, dlogA q (c • v) = c * dlogA q v := by
  constructor
  · intro v w; simp only [dlogA, Pi.add_apply]; ring
  · intro c v; simp only [dlogA, Pi.smul_apply, smul_eq_mul]; ring

theorem dlogB_lin (q : Q4 ℝ) : (∀ v w, dlogB q (v + w) = dlogB q v + dlogB q w) ∧ ∀ (c : ℝ) v, dlogB q (c • v) = c * dlogB q v := by
  constructor
  · intro v w; simp only [dlogB, Pi.add_apply]; ring
  · intro c v; simp only [dlogB, Pi.smul_apply, smul_eq_mul]; ring

/-- As a linear map. -/
noncomputable def dlogLin (q : Q4 ℝ) : Q4 ℝ →ₗ[ℝ] (Fin 3 → ℝ) where
  toFun := dlogFun q
  map_add' v w := by
    funext k
    simp only [dlogFun]
    split_ifs <;> simp only [Pi.add_apply, (dlogA_lin q).1, (dlogB_lin q).1] <;> ring
  map_smul' c v := by
    funext k
    simp only [dlogFun, RingHom.id_apply]
    split_ifs <;> simp only [Pi.smul_apply, smul_eq_mul, (dlogA_lin q).2, (dlogB_lin q).2] <;> ring

/-- The derivative of the logarithm, real part last. -/
noncomputable def dlogLast (q : Q4 ℝ) : Mat 3 4 := LinearMap.toMatrix' (dlogLin q)

theorem dlogLast_mulVec (q v : Q4 ℝ) : dlogLast q *ᵥ v = dlogFun q v := by
  rw [dlogLast, LinearMap.toMatrix'_mulVec]
  rfl

theorem logLast_deriv {f : ℝ → Q4 ℝ} {f' : Q4 ℝ} {t : ℝ} (h : VDeriv f f' t) (h1 : Quat.dot4 (f t) (f t) = 1)
    (hne : |f t 3| ≠ len3 (f t 0) (f t 1) (f t 2)) : VDeriv (fun s => logLast (f s)) (dlogLast (f t) *ᵥ f') t := by
  have hc : ∀ k, ContinuousAt (fun s => f s k) t := fun k => (h k).continuousAt
  have hlc : ContinuousAt (fun s => len3 (f s 0) (f s 1) (f s 2)) t := len3_continuous (hc 0) (hc 1) (hc 2)
  have hsq := len3_sq (f t 0) (f t 1) (f t 2)
  have hn0 := len3_nonneg (f t 0) (f t 1) (f t 2)
  have hun : f t 3 ^ 2 + len3 (f t 0) (f t 1) (f t 2) * len3 (f t 0) (f t 1) (f t 2) = 1 := by
    rw [hsq]; simp only [Quat.dot4] at h1; nlinarith
  rw [dlogLast_mulVec]
  rcases lt_or_gt_of_ne hne with hlt | hgt
  · have hev : ∀ᶠ s in nhds t, |f s 3| < len3 (f s 0) (f s 1) (f s 2) := (hc 3).abs.eventually_lt hlc hlt
    have hpos : 0 < len3 (f t 0) (f t 1) (f t 2) := lt_of_le_of_lt (abs_nonneg _) hlt
    have hN := len3_deriv (h 0) (h 1) (h 2) hpos.ne'
    have hlt1 : f t 3 ^ 2 < 1 := by nlinarith
    have hA : HasDerivAt (fun s => Real.arccos (f s 3) / len3 (f s 0) (f s 1) (f s 2)) (dlogA (f t) f') t := by
      have ha := (Real.hasDerivAt_arccos (x := f t 3) (by nlinarith) (by nlinarith)).comp t (h 3)
      exact ha.div hN hpos.ne'
    have key : ∀ k : Fin 3, HasDerivAt (fun s => f s k.castSucc * (Real.arccos (f s 3) / len3 (f s 0) (f s 1) (f s 2)))
        (f' k.castSucc * (Real.arccos (f t 3) / len3 (f t 0) (f t 1) (f t 2)) + f t k.castSucc * dlogA (f t) f') t :=
      fun k => (h k.castSucc).mul hA
    intro k
    simp only [dlogFun, if_pos hlt]
    refine (key k).congr_of_eventuallyEq ?_
    filter_upwards [hev] with s hs
    fin_cases k <;> simp [logLast, hs]
  · have hev : ∀ᶠ s in nhds t, len3 (f s 0) (f s 1) (f s 2) < |f s 3| := hlc.eventually_lt (hc 3).abs hgt
    have hlt1 : len3 (f t 0) (f t 1) (f t 2) < 1 := by
      have : |f t 3| ^ 2 = f t 3 ^ 2 := sq_abs _
      nlinarith [abs_nonneg (f t 3)]
    have hB : ∀ k : Fin 3, HasDerivAt (fun s => f s k.castSucc * asinc (len3 (f s 0) (f s 1) (f s 2)))
        (f' k.castSucc * asinc (len3 (f t 0) (f t 1) (f t 2)) + f t k.castSucc * dlogB (f t) f') t := by
      intro k
      by_cases hz : len3 (f t 0) (f t 1) (f t 2) = 0
      · obtain ⟨e0, e1, e2⟩ := len3_eq_zero hz
        have hk : f t k.castSucc = 0 := by
          fin_cases k
          · exact e0
          · exact e1
          · exact e2
        have hca : ContinuousAt (fun s => asinc (len3 (f s 0) (f s 1) (f s 2))) t := by
          refine ContinuousAt.comp (g := asinc) ?_ hlc
          rw [hz]
          exact asinc_continuousAt_zero
        refine (hasDerivAt_mul_continuous (h k.castSucc) hk hca).congr_deriv ?_
        rw [hk, zero_mul, add_zero]
      · have hN := len3_deriv (h 0) (h 1) (h 2) hz
        have ha := (Real.hasDerivAt_arcsin (x := len3 (f t 0) (f t 1) (f t 2)) (by linarith) (by linarith)).comp t hN
        have hA : HasDerivAt (fun s => Real.arcsin (len3 (f s 0) (f s 1) (f s 2)) / len3 (f s 0) (f s 1) (f s 2)) (dlogB (f t) f') t :=
          ha.div hN hz
        have e : asinc (len3 (f t 0) (f t 1) (f t 2)) = Real.arcsin (len3 (f t 0) (f t 1) (f t 2)) / len3 (f t 0) (f t 1) (f t 2) := if_neg hz
        rw [e]
        refine ((h k.castSucc).mul hA).congr_of_eventuallyEq ?_
        filter_upwards [hlc.eventually_ne hz] with s hs
        simp [asinc, hs]
    have h30 : f t 3 ≠ 0 := by
      intro e; rw [e, abs_zero] at hgt; linarith
    intro k
    have hge : ¬ |f t 3| < len3 (f t 0) (f t 1) (f t 2) := not_lt.mpr hgt.le
    rcases lt_or_gt_of_ne h30 with hneg | hpos
    · have hev2 : ∀ᶠ s in nhds t, f s 3 < 0 := (hc 3).eventually_lt continuousAt_const hneg
      simp only [dlogFun, if_neg hge, if_neg (not_lt.mpr hneg.le)]
      have := (hB k).neg
      refine (HasDerivAt.congr_deriv this ?_).congr_of_eventuallyEq ?_
      · ring
      · filter_upwards [hev, hev2] with s hs hs2
        fin_cases k <;> simp [logLast, not_lt.mpr hs.le, not_lt.mpr hs2.le]
    · have hev2 : ∀ᶠ s in nhds t, 0 < f s 3 := continuousAt_const.eventually_lt (hc 3) hpos
      simp only [dlogFun, if_neg hge, if_pos hpos]
      refine (hB k).congr_of_eventuallyEq ?_
      filter_upwards [hev, hev2] with s hs hs2
      fin_cases k <;> simp [logLast, not_lt.mpr hs.le, hs2]

theorem len3_mul (a b c s : ℝ) : len3 (a * s) (b * s) (c * s) = len3 a b c * |s| := by
  rw [len3, len3, ← Real.sqrt_sq_eq_abs, ← Real.sqrt_mul (sq_nonneg3 a b c)]
  congr 1
  ring

/-- The exponential of the logarithm is the quaternion or its negative. -/
theorem exp_logLast (q : Q4 ℝ) (h1 : Quat.dot4 q q = 1) :
    Quat.axisAngle2quat (fun k => 2 * logLast q k) = q ∨ Quat.axisAngle2quat (fun k => 2 * logLast q k) = -q := by
  have hn0 := len3_nonneg (q 0) (q 1) (q 2)
  have hun : q 3 ^ 2 + len3 (q 0) (q 1) (q 2) ^ 2 = 1 := by
    rw [sq (len3 _ _ _), len3_sq]; simp only [Quat.dot4] at h1; nlinarith
  set n := len3 (q 0) (q 1) (q 2) with hn
  set s := (if |q 3| < n then Real.arccos (q 3) / n else if 0 < q 3 then asinc n else -asinc n) with hs
  have hlog : logLast q = ![q 0 * s, q 1 * s, q 2 * s] := rfl
  have hrw : Quat.axisAngle2quat (fun k => 2 * logLast q k) =
      ![q 0 * s * (Real.sin (n * |s|) / (n * |s|)), q 1 * s * (Real.sin (n * |s|) / (n * |s|)), q 2 * s * (Real.sin (n * |s|) / (n * |s|)),
        Real.cos (n * |s|)] := by
    rw [axisAngle_double, hlog]
    simp only [Matrix.cons_val_zero, Matrix.cons_val_one, Matrix.cons_val_two, Matrix.head_cons, Matrix.tail_cons, Matrix.cons_val]
    rw [len3_mul, ← hn]
  rw [hrw]
  by_cases hz : n = 0
  · obtain ⟨e0, e1, e2⟩ := len3_eq_zero hz
    have h3 : (q 3 - 1) * (q 3 + 1) = 0 := by rw [hz] at hun; nlinarith
    rcases mul_eq_zero.mp h3 with h | h
    · left
      funext k
      fin_cases k <;> simp [hz, e0, e1, e2]
      linarith
    · right
      funext k
      fin_cases k <;> simp [hz, e0, e1, e2]
      linarith
  have hpos : 0 < n := lt_of_le_of_ne hn0 (Ne.symm hz)
  -- the factor of the imaginary part
  have fin : ∀ σ : ℝ, s * (Real.sin (n * |s|) / (n * |s|)) = σ → Real.cos (n * |s|) = σ * q 3 →
      ![q 0 * s * (Real.sin (n * |s|) / (n * |s|)), q 1 * s * (Real.sin (n * |s|) / (n * |s|)), q 2 * s * (Real.sin (n * |s|) / (n * |s|)),
        Real.cos (n * |s|)] = σ • q := by
    intro σ h4 h5
    funext k
    fin_cases k
    · simp [mul_assoc, h4, mul_comm]
    · simp [mul_assoc, h4, mul_comm]
    · simp [mul_assoc, h4, mul_comm]
    · simp [h5]
  by_cases hA : |q 3| < n
  · left
    have hs' : s = Real.arccos (q 3) / n := if_pos hA
    have hlt : q 3 < 1 := by
      have := (abs_lt.mp hA).2
      nlinarith
    have ha : 0 < Real.arccos (q 3) := Real.arccos_pos.mpr hlt
    have hsp : 0 < s := by rw [hs']; exact div_pos ha hpos
    have hns : n * |s| = Real.arccos (q 3) := by rw [abs_of_pos hsp, hs']; field_simp
    have hsin : Real.sin (Real.arccos (q 3)) = n := by
      rw [Real.sin_arccos, show 1 - q 3 ^ 2 = n ^ 2 by linarith, Real.sqrt_sq hn0]
    have := fin 1 (by rw [hns, hsin, hs']; field_simp) (by
      rw [hns, one_mul, Real.cos_arccos (by nlinarith [neg_abs_le (q 3)]) hlt.le])
    rw [this, one_smul]
  · have hge : n ≤ |q 3| := not_lt.mp hA
    have h3 : q 3 ≠ 0 := by
      intro e; rw [e, abs_zero] at hge; linarith
    have hn1 : n ≤ 1 := by nlinarith [sq_nonneg (q 3)]
    have hasin : 0 < Real.arcsin n := Real.arcsin_pos.mpr hpos
    have hsin : Real.sin (Real.arcsin n) = n := Real.sin_arcsin (by linarith) hn1
    have hcos : Real.cos (Real.arcsin n) = |q 3| := by
      rw [Real.cos_arcsin, show 1 - n ^ 2 = q 3 ^ 2 by linarith, Real.sqrt_sq_eq_abs]
    have hasc : asinc n = Real.arcsin n / n := if_neg hz
    have hascp : 0 < asinc n := by rw [hasc]; exact div_pos hasin hpos
    rcases lt_or_gt_of_ne h3 with hneg | hp3
    · right
      have hs' : s = -asinc n := by rw [hs, if_neg hA, if_neg (not_lt.mpr hneg.le)]
      have hns : n * |s| = Real.arcsin n := by rw [hs', abs_neg, abs_of_pos hascp, hasc]; field_simp
      have := fin (-1) (by rw [hns, hsin, hs', hasc]; field_simp) (by rw [hns, hcos, abs_of_neg hneg]; ring)
      rw [this, neg_one_smul]
    · left
      have hs' : s = asinc n := by rw [hs, if_neg hA, if_pos hp3]
      have hns : n * |s| = Real.arcsin n := by rw [hs', abs_of_pos hascp, hasc]; field_simp
      have := fin 1 (by rw [hns, hsin, hs', hasc]; field_simp) (by rw [hns, hcos, abs_of_pos hp3]; ring)
      rw [this, one_smul]

/-- The logarithm of the exponential of a vector shorter than a right angle. -/
theorem logLast_exp (v : Fin 3 → ℝ) (hv : len3 (v 0) (v 1) (v 2) < Real.pi / 2) : logLast (Quat.axisAngle2quat fun k => 2 * v k) = v := by
  have hr0 := len3_nonneg (v 0) (v 1) (v 2)
  rw [axisAngle_double]
  set r := len3 (v 0) (v 1) (v 2) with hr
  by_cases hz : r = 0
  · obtain ⟨e0, e1, e2⟩ := len3_eq_zero hz
    funext k
    fin_cases k <;> simp [logLast, e0, e1, e2]
  have hpos : 0 < r := lt_of_le_of_ne hr0 (Ne.symm hz)
  have hsin : 0 < Real.sin r := Real.sin_pos_of_pos_of_lt_pi hpos (by linarith)
  have hcos : 0 < Real.cos r := Real.cos_pos_of_mem_Ioo ⟨by linarith, hv⟩
  have hn : len3 (v 0 * (Real.sin r / r)) (v 1 * (Real.sin r / r)) (v 2 * (Real.sin r / r)) = Real.sin r := by
    rw [len3_mul, ← hr, abs_of_pos (div_pos hsin hpos)]
    field_simp
  have hsv : (if |Real.cos r| < Real.sin r then Real.arccos (Real.cos r) / Real.sin r else if 0 < Real.cos r then asinc (Real.sin r) else -asinc (Real.sin r)) =
      r / Real.sin r := by
    by_cases h : |Real.cos r| < Real.sin r
    · rw [if_pos h, Real.arccos_cos hr0 (by linarith)]
    · rw [if_neg h, if_pos hcos, asinc, if_neg hsin.ne', Real.arcsin_sin (by linarith) hv.le]
  funext k
  simp only [logLast, Matrix.cons_val_zero, Matrix.cons_val_one, Matrix.cons_val_two, Matrix.head_cons, Matrix.tail_cons, Matrix.cons_val, hn, hsv]
  fin_cases k <;> simp <;> field_simp

theorem logLast_conj (q : Q4 ℝ) : logLast ![-q 0, -q 1, -q 2, q 3] = -logLast q := by
  have : len3 (-q 0) (-q 1) (-q 2) = len3 (q 0) (q 1) (q 2) := by simp [len3]
  funext k
  fin_cases k <;> simp [logLast, this] <;> split_ifs <;> simp

/-! ### For every mode -/

/-- Columns in the order of a mode. -/
def colsOf (m : Mode) {n : Nat} (J : Mat n 4) : Mat n 4 := fun i j => if m.realFirst then ![J i 3, J i 0, J i 1, J i 2] j else J i j

theorem colsOf_mulVec (m : Mode) {n : Nat} (J : Mat n 4) (v : Q4 ℝ) : colsOf m J *ᵥ v = J *ᵥ Quat.convert m ⟨false, true⟩ v := by
  funext k
  cases hm : m.realFirst <;> simp [colsOf, Quat.convert, Quat.mk, hm, Matrix.mulVec, dotProduct, Fin.sum_univ_four, Mode.ri, Mode.ii, Mode.ji, Mode.ki]
  ring

/-- Functions as the external library has them, for the calls in QuaternionExpression.hpp:106-118 and 144-152 (implementation). -/
noncomputable def smExt : Ext where
  log m q := logLast (Quat.convert m ⟨false, true⟩ q)
  dlog m q := colsOf m (dlogLast (Quat.convert m ⟨false, true⟩ q))
  dexp := dexpAt

theorem vderiv_convert' (m : Mode) {f : ℝ → Q4 ℝ} {f' : Q4 ℝ} {t : ℝ} (h : VDeriv f f' t) :
    VDeriv (fun s => Quat.convert m ⟨false, true⟩ (f s)) (Quat.convert m ⟨false, true⟩ f') t := by
  intro k
  cases hm : m.realFirst
  · have a := h k
    simpa [Quat.convert, hm] using a
  · have a0 := h 0; have a1 := h 1; have a2 := h 2; have a3 := h 3
    fin_cases k
    · simpa [Quat.convert, Quat.mk, hm, Mode.ri, Mode.ii, Mode.ji, Mode.ki] using a1
    · simpa [Quat.convert, Quat.mk, hm, Mode.ri, Mode.ii, Mode.ji, Mode.ki] using a2
    · simpa [Quat.convert, Quat.mk, hm, Mode.ri, Mode.ii, Mode.ji, Mode.ki] using a3
    · simpa [Quat.convert, Quat.mk, hm, Mode.ri, Mode.ii, Mode.ji, Mode.ki] using a0

theorem smExt_expOk (m : Mode) (p : Fin 3 → ℝ) : ExpOk smExt m p := expOk smExt m p rfl

/-- The real part of a quaternion and the length of the imaginary part. -/
theorem smExt_logOk (m : Mode) (p : Q4 ℝ) (h1 : Quat.dot4 p p = 1) (hne : |p m.ri| ≠ len3 (p m.ii) (p m.ji) (p m.ki)) : LogOk smExt m p := by
  intro f f' t hp h
  have e : smExt.dlog m p *ᵥ f' = dlogLast (Quat.convert m ⟨false, true⟩ p) *ᵥ Quat.convert m ⟨false, true⟩ f' := colsOf_mulVec m _ _
  rw [e, ← hp]
  have hc : Quat.convert m ⟨false, true⟩ p = ![p m.ii, p m.ji, p m.ki, p m.ri] := by
    funext k
    cases hm : m.realFirst <;> fin_cases k <;> simp [Quat.convert, Quat.mk, hm, Mode.ri, Mode.ii, Mode.ji, Mode.ki]
  refine logLast_deriv (vderiv_convert' m h) ?_ ?_
  · rw [hp, Quat.dot4_eq ⟨false, true⟩, Quat.toH_convert, ← Quat.dot4_eq, h1]
  · rw [hp, hc]
    exact hne

end Verif.GenExpr
