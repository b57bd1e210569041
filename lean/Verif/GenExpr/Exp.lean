import Verif.GenExpr.Spec
import Verif.Quat.Deriv
import Mathlib.Analysis.SpecialFunctions.Trigonometric.Sinc

/-!
The derivative of the quaternion exponential at the origin along every curve: the hypothesis `ExpOk` can be met.
-/
namespace Verif.GenExpr
open Verif.Geo (VDeriv MDeriv)
open Verif.Quat (Mode Geometry Q4)
open Matrix

theorem axisAngle_eq (a : Fin 3 → ℝ) : Quat.axisAngle2quat a =
    let θ := Real.sqrt (a 0 * a 0 + a 1 * a 1 + a 2 * a 2)
    ![a 0 * (Real.sinc (θ / 2) / 2), a 1 * (Real.sinc (θ / 2) / 2), a 2 * (Real.sinc (θ / 2) / 2), Real.cos (θ / 2)] := by
  simp only [Quat.axisAngle2quat]
  by_cases h : Real.sqrt (a 0 * a 0 + a 1 * a 1 + a 2 * a 2) = 0
  · simp [h]
  · have e : Real.sin (Real.sqrt (a 0 * a 0 + a 1 * a 1 + a 2 * a 2) / 2) / Real.sqrt (a 0 * a 0 + a 1 * a 1 + a 2 * a 2) =
        Real.sinc (Real.sqrt (a 0 * a 0 + a 1 * a 1 + a 2 * a 2) / 2) / 2 := by
      rw [Real.sinc_of_ne_zero (by simpa using h)]
      field_simp
    simp only [if_neg h, e]

/-- A function which vanishes at a point times a continuous one. -/
theorem hasDerivAt_mul_continuous {f g : ℝ → ℝ} {f' t : ℝ} (hf : HasDerivAt f f' t) (h0 : f t = 0) (hg : ContinuousAt g t) :
    HasDerivAt (fun s => f s * g s) (f' * g t) t := by
  rw [hasDerivAt_iff_tendsto_slope] at hf ⊢
  have : ∀ s, slope (fun s => f s * g s) t s = slope f t s * g s := by
    intro s
    simp only [slope_def_field, h0]
    ring
  simp only [funext this]
  exact hf.mul (hg.tendsto.mono_left nhdsWithin_le_nhds)

theorem axisAngle_deriv_zero {f : ℝ → Fin 3 → ℝ} {f' : Fin 3 → ℝ} {t : ℝ} (h : VDeriv f f' t) (h0 : f t = 0) :
    VDeriv (fun s => Quat.axisAngle2quat (f s)) ![f' 0 / 2, f' 1 / 2, f' 2 / 2, 0] t := by
  have hc : ∀ i, ContinuousAt (fun s => f s i) t := fun i => (h i).continuousAt
  have hθ : ContinuousAt (fun s => Real.sqrt (f s 0 * f s 0 + f s 1 * f s 1 + f s 2 * f s 2)) t :=
    ((((hc 0).mul (hc 0)).add ((hc 1).mul (hc 1))).add ((hc 2).mul (hc 2))).sqrt
  have hθ0 : Real.sqrt (f t 0 * f t 0 + f t 1 * f t 1 + f t 2 * f t 2) = 0 := by simp [h0]
  have hs : ContinuousAt (fun s => Real.sinc (Real.sqrt (f s 0 * f s 0 + f s 1 * f s 1 + f s 2 * f s 2) / 2) / 2) t :=
    (Real.continuous_sinc.continuousAt.comp (hθ.div_const 2)).div_const 2
  have comp : ∀ i, HasDerivAt (fun s => f s i * (Real.sinc (Real.sqrt (f s 0 * f s 0 + f s 1 * f s 1 + f s 2 * f s 2) / 2) / 2))
      (f' i / 2) t := by
    intro i
    have := hasDerivAt_mul_continuous (h i) (by rw [h0]; rfl) hs
    rw [hθ0] at this
    refine this.congr_deriv ?_
    simp
    ring
  have hcos : HasDerivAt (fun s => Real.cos (Real.sqrt (f s 0 * f s 0 + f s 1 * f s 1 + f s 2 * f s 2) / 2)) 0 t := by
    have hq : HasDerivAt (fun s => f s 0 * f s 0 + f s 1 * f s 1 + f s 2 * f s 2) 0 t := by
      have := (((h 0).mul (h 0)).add ((h 1).mul (h 1))).add ((h 2).mul (h 2))
      refine this.congr_deriv ?_
      simp [h0]
    have hq0 : f t 0 * f t 0 + f t 1 * f t 1 + f t 2 * f t 2 = 0 := by simp [h0]
    rw [hasDerivAt_iff_tendsto_slope] at hq ⊢
    rw [tendsto_zero_iff_abs_tendsto_zero] at hq ⊢
    refine squeeze_zero (fun _ => abs_nonneg _) (fun s => ?_) hq
    simp only [Function.comp, slope_def_field, hq0, hθ0, Real.sqrt_zero, zero_div, Real.cos_zero, sub_zero, abs_div]
    refine div_le_div_of_nonneg_right ?_ (abs_nonneg _)
    have hnn : 0 ≤ f s 0 * f s 0 + f s 1 * f s 1 + f s 2 * f s 2 :=
      add_nonneg (add_nonneg (mul_self_nonneg _) (mul_self_nonneg _)) (mul_self_nonneg _)
    rw [abs_of_nonneg hnn, abs_of_nonpos (by linarith [Real.cos_le_one (Real.sqrt (f s 0 * f s 0 + f s 1 * f s 1 + f s 2 * f s 2) / 2)])]
    have hb := Real.one_sub_sq_div_two_le_cos (x := Real.sqrt (f s 0 * f s 0 + f s 1 * f s 1 + f s 2 * f s 2) / 2)
    rw [div_pow, Real.sq_sqrt hnn] at hb
    linarith
  intro k
  simp only [axisAngle_eq]
  fin_cases k
  · exact comp 0
  · exact comp 1
  · exact comp 2
  · exact hcos

/-- The Jacobian at the origin. -/
def dexp0 (m : Mode) : Mat 4 3 := fun r c => Quat.mk m (if c = 0 then 1 else 0) (if c = 1 then 1 else 0) (if c = 2 then 1 else 0) 0 r

theorem dexp0_mulVec (m : Mode) (v : Fin 3 → ℝ) : dexp0 m *ᵥ v = Quat.mk m (v 0) (v 1) (v 2) 0 := by
  funext k
  cases hm : m.realFirst <;> fin_cases k <;> simp [dexp0, Quat.mk, hm, Matrix.mulVec, dotProduct, Fin.sum_univ_three]

theorem expOk_zero (x : Ext) (m : Mode) (hx : x.dexp m 0 = dexp0 m) : ExpOk x m 0 := by
  intro f f' t h0 h
  rw [hx, dexp0_mulVec]
  have h2 : VDeriv (fun s k => 2 * f s k) (fun k => 2 * f' k) t := fun k => (h k).const_mul 2
  have := axisAngle_deriv_zero h2 (by rw [h0]; funext k; simp)
  intro k
  simp only [Quat.exp, Quat.convert, Quat.mk]
  cases hm : m.realFirst
  · have a := this k
    fin_cases k <;> simpa using a
  · have a0 := this 0; have a1 := this 1; have a2 := this 2; have a3 := this 3
    fin_cases k
    · simpa [Mode.ri, Mode.ii, Mode.ji, Mode.ki] using a3
    · simpa [Mode.ri, Mode.ii, Mode.ji, Mode.ki] using a0
    · simpa [Mode.ri, Mode.ii, Mode.ji, Mode.ki] using a1
    · simpa [Mode.ri, Mode.ii, Mode.ji, Mode.ki] using a2

/-- Functions with the right Jacobian at the origin. -/
def ext0 : Ext := ⟨fun _ _ => 0, fun _ _ => 0, fun m _ => dexp0 m⟩

end Verif.GenExpr
