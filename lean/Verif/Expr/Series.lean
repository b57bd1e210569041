import Verif.Expr.Scalar
import Mathlib.Analysis.Complex.Trigonometric
import Mathlib.Analysis.SpecialFunctions.Trigonometric.InverseDeriv

/-! The series the squared arc cosine uses near 1. -/
namespace Verif.Expr

theorem series_key (θ r q : ℝ) (hpos : 0 < θ) (hle1 : θ ≤ 1) (hr' : |r| ≤ θ ^ 4 / 100) (hq' : |q| ≤ θ ^ 4 * (5 / 96)) :
    |θ - (θ - θ ^ 3 / 6 + r) * (1 + (1 - (1 - θ ^ 2 / 2 + q)) / 3)| ≤ θ ^ 4 / 5 := by
  have e2 : θ - (θ - θ ^ 3 / 6 + r) * (1 + (1 - (1 - θ ^ 2 / 2 + q)) / 3) =
      θ ^ 5 / 36 + (θ - θ ^ 3 / 6) * (q / 3) - r * (1 + θ ^ 2 / 6 - q / 3) := by ring
  rw [e2]
  have p4 : 0 < θ ^ 4 := pow_pos hpos 4
  have h2 : θ ^ 2 ≤ 1 := pow_le_one₀ hpos.le hle1
  have h2' : 0 < θ ^ 2 := pow_pos hpos 2
  have h3 : 0 < θ ^ 3 := pow_pos hpos 3
  have h3' : θ ^ 3 ≤ θ := by
    calc θ ^ 3 = θ * θ ^ 2 := by ring
      _ ≤ θ * 1 := mul_le_mul_of_nonneg_left h2 hpos.le
      _ = θ := mul_one θ
  have h4 : θ ^ 4 ≤ 1 := pow_le_one₀ hpos.le hle1
  have h5 : θ ^ 5 ≤ θ ^ 4 := by
    calc θ ^ 5 = θ ^ 4 * θ := by ring
      _ ≤ θ ^ 4 * 1 := mul_le_mul_of_nonneg_left hle1 p4.le
      _ = θ ^ 4 := mul_one _
  have b1 : |θ ^ 5 / 36| ≤ θ ^ 4 / 36 := by
    rw [abs_of_pos (by positivity)]
    linarith
  have b2 : |(θ - θ ^ 3 / 6) * (q / 3)| ≤ θ ^ 4 * (5 / 288) := by
    rw [abs_mul]
    have k1 : |θ - θ ^ 3 / 6| ≤ 1 := abs_le.mpr ⟨by linarith, by linarith⟩
    have k2 : |q / 3| ≤ θ ^ 4 * (5 / 288) := by rw [abs_div, abs_of_pos (by norm_num : (0:ℝ) < 3)]; linarith
    calc _ ≤ 1 * (θ ^ 4 * (5 / 288)) := mul_le_mul k1 k2 (abs_nonneg _) (by norm_num)
      _ = _ := one_mul _
  have b3 : |r * (1 + θ ^ 2 / 6 - q / 3)| ≤ θ ^ 4 / 100 * 2 := by
    rw [abs_mul]
    have k0 := abs_le.mp hq'
    have k1 : |1 + θ ^ 2 / 6 - q / 3| ≤ 2 := abs_le.mpr ⟨by linarith [k0.1, k0.2], by linarith [k0.1, k0.2]⟩
    exact mul_le_mul hr' k1 (abs_nonneg _) (by positivity)
  have k1 := abs_sub (θ ^ 5 / 36 + (θ - θ ^ 3 / 6) * (q / 3)) (r * (1 + θ ^ 2 / 6 - q / 3))
  have k2 := abs_add_le (θ ^ 5 / 36) ((θ - θ ^ 3 / 6) * (q / 3))
  linarith

theorem acosSquared_series (x : ℝ) (h : (x - 1) * (x - 1) < eps) (h1 : x < 1) :
    ∃ d d', UnOp.acosSquared.factor x = .ok d ∧ HasDerivAt (fun y => Real.arccos y * Real.arccos y) d' x ∧ |d - d'| ≤ 1 / 2 ^ 36 := by
  have hx1 : 1 - x < 1 / 2 ^ 26 := by
    by_contra hcon
    push Not at hcon
    have : (1 / 2 ^ 26 : ℝ) * (1 / 2 ^ 26) ≤ (1 - x) * (1 - x) := mul_le_mul hcon hcon (by norm_num) (by linarith)
    unfold eps at h
    nlinarith
  have hxm : -1 < x := by norm_num at hx1 ⊢; linarith
  obtain ⟨θ, hθ⟩ : ∃ θ, θ = Real.arccos x := ⟨_, rfl⟩
  have hcos : Real.cos θ = x := by rw [hθ, Real.cos_arccos hxm.le h1.le]
  have hsin : Real.sin θ = Real.sqrt (1 - x ^ 2) := by rw [hθ, Real.sin_arccos]
  have hpos : 0 < θ := by rw [hθ]; exact Real.arccos_pos.mpr h1
  have hle1 : θ ≤ 1 := by
    rw [hθ, ← Real.arccos_cos (by norm_num : (0:ℝ) ≤ 1) (by linarith [Real.two_le_pi])]
    apply Real.arccos_le_arccos
    have := Real.cos_one_le
    norm_num at hx1
    linarith
  have hb1 := Real.sin_bound (x := θ) (by rw [abs_of_pos hpos]; exact hle1)
  have hb2 := Real.cos_bound (x := θ) (by rw [abs_of_pos hpos]; exact hle1)
  rw [abs_of_pos hpos] at hb1 hb2
  have h2 : θ ^ 2 ≤ 1 := pow_le_one₀ hpos.le hle1
  have p2 : 0 < θ ^ 2 := pow_pos hpos 2
  have p4 : 0 < θ ^ 4 := pow_pos hpos 4
  have h42 : θ ^ 4 ≤ θ ^ 2 := by
    calc θ ^ 4 = θ ^ 2 * θ ^ 2 := by ring
      _ ≤ θ ^ 2 * 1 := mul_le_mul_of_nonneg_left h2 p2.le
      _ = θ ^ 2 := mul_one _
  have h54 : θ ^ 5 ≤ θ ^ 4 := by
    calc θ ^ 5 = θ ^ 4 * θ := by ring
      _ ≤ θ ^ 4 * 1 := mul_le_mul_of_nonneg_left hle1 p4.le
      _ = θ ^ 4 := mul_one _
  have h31 : θ ^ 3 ≤ θ := by
    calc θ ^ 3 = θ * θ ^ 2 := by ring
      _ ≤ θ * 1 := mul_le_mul_of_nonneg_left h2 hpos.le
      _ = θ := mul_one θ
  have h41 : θ ^ 4 ≤ θ := by
    calc θ ^ 4 = θ ^ 3 * θ := by ring
      _ ≤ θ ^ 3 * 1 := mul_le_mul_of_nonneg_left hle1 (pow_pos hpos 3).le
      _ ≤ θ := by linarith
  obtain ⟨r, hr⟩ : ∃ r, r = Real.sin θ - (θ - θ ^ 3 / 6) := ⟨_, rfl⟩
  obtain ⟨q, hq⟩ : ∃ q, q = Real.cos θ - (1 - θ ^ 2 / 2) := ⟨_, rfl⟩
  have hr' : |r| ≤ θ ^ 4 / 100 := by rw [hr]; linarith
  have hq' : |q| ≤ θ ^ 4 * (5 / 96) := by rw [hq]; exact hb2
  have hs : Real.sin θ = θ - θ ^ 3 / 6 + r := by rw [hr]; ring
  have hc : x = 1 - θ ^ 2 / 2 + q := by rw [hq, ← hcos]; ring
  have hsq : θ ^ 2 / 4 ≤ 1 - x := by
    have := abs_le.mp hq'
    rw [hc]
    linarith [this.1, this.2]
  have hθ12 : θ ≤ 1 / 2 ^ 12 := by
    have hθs : θ ^ 2 ≤ (1 / 2 ^ 12) ^ 2 := by norm_num at hx1 ⊢; linarith
    exact le_trans (le_abs_self θ) (abs_le_of_sq_le_sq hθs (by norm_num))
  have hs2 : θ / 2 ≤ Real.sin θ := by
    have := abs_le.mp hr'
    rw [hs]
    linarith [this.1]
  have hs0 : 0 < Real.sin θ := by linarith
  refine ⟨-2 + 2 / 3 * (x - 1), -2 * θ / Real.sin θ, by simp [UnOp.factor, h], ?_, ?_⟩
  · have hd := Real.hasDerivAt_arccos (x := x) (by linarith) (by linarith)
    refine (hd.mul hd).congr_deriv ?_
    rw [← hθ, ← hsin]
    field_simp
    ring
  · have e1 : -2 + 2 / 3 * (x - 1) - -2 * θ / Real.sin θ = 2 * ((θ - Real.sin θ * (1 + (1 - x) / 3)) / Real.sin θ) := by
      field_simp
      ring
    rw [e1, abs_mul, abs_two, abs_div, abs_of_pos hs0]
    have key : |θ - Real.sin θ * (1 + (1 - x) / 3)| ≤ θ ^ 4 / 5 := by
      rw [hs]
      conv_lhs => rw [hc]
      exact series_key θ r q hpos hle1 hr' hq'
    have h6 : |θ - Real.sin θ * (1 + (1 - x) / 3)| / Real.sin θ ≤ (θ ^ 4 / 5) / (θ / 2) :=
      div_le_div₀ (by positivity) key (by positivity) hs2
    have e3 : (θ ^ 4 / 5) / (θ / 2) = 2 / 5 * θ ^ 3 := by field_simp
    have e4 : θ ^ 3 ≤ (1 / 2 ^ 12) ^ 3 := pow_le_pow_left₀ hpos.le hθ12 3
    rw [e3] at h6
    have e5 : (2 : ℝ) * (2 / 5 * (1 / 2 ^ 12) ^ 3) ≤ 1 / 2 ^ 36 := by norm_num
    linarith

end Verif.Expr
