import Verif.Policy.DogLegNan

/-!
The dog-leg policy on linear problems whose residual does not vanish at the minimum. Files: `DogLegTrustRegionPolicy.cpp` (DL),
`Optimizer2.cpp` (O2), modelled in `DogLegNan.lean`. Property theorem C140.
-/
namespace Verif.Policy
open Verif.Optimizer2 Verif.Trust

variable {V W : Type} [NormedAddCommGroup V] [InnerProductSpace ℝ V] [NormedAddCommGroup W] [InnerProductSpace ℝ W]

/-- After a step with positive gain the radius is at least halved; after a good one it does not shrink. -/
theorem dlDelta_next (t : DL V) {gain : ℝ} (hL : 0 < t.L0) (hg : 0 < gain) (hd : 0 < t.delta) :
    t.delta / 2 ≤ dlDelta t false gain ∧ (3 / 4 * t.L0 < gain → t.delta ≤ dlDelta t false gain) := by
  refine ⟨?_, fun h => ?_⟩
  · unfold dlDelta
    have h0 : Dbl.div gain t.L0 = .fin (gain / t.L0) := by unfold Dbl.div; rw [if_neg hL.ne']
    have h1 : Dbl.le (.fin (gain / t.L0)) (.fin 0) = false := by
      by_contra h
      have := (Dbl.le_fin _ _).1 (by simpa using h)
      have := div_pos hg hL
      linarith
    simp only [h0, h1, Bool.false_eq_true, if_false]
    split_ifs <;> linarith
  · rw [dlDelta_good t hL h]
    split_ifs <;> linarith

/-- What a step of the policy achieves: the remaining error shrinks by the factor `k`, and the next radius is at least `b` times
the remaining distance. -/
structure StepOk (A : V →ₗ[ℝ] W) (m q : V) (b k : ℝ) (u : DL V) : Prop where
  red : ‖A (m - (q + u.dx))‖ ^ 2 ≤ k * ‖A (m - q)‖ ^ 2
  pos : 0 < dlDelta u false (‖A (m - q)‖ ^ 2 - ‖A (m - (q + u.dx))‖ ^ 2)
  next : b * ‖m - (q + u.dx)‖ ≤ dlDelta u false (‖A (m - q)‖ ^ 2 - ‖A (m - (q + u.dx))‖ ^ 2)

/-- Bounds for the steepest-descent step of a linear problem. -/
theorem sd_bounds {A : V →ₗ[ℝ] W} {m q r : V} {a mu L : ℝ} (hmu : 0 < mu) (hlo : ∀ v, mu * ‖v‖ ^ 2 ≤ ‖A v‖ ^ 2)
    (hhi : ∀ v, ‖A v‖ ^ 2 ≤ L * ‖v‖ ^ 2) (hr : ∀ v, inner ℝ r v = inner ℝ (A (m - q)) (A v)) (hAr : 0 < ‖A r‖ ^ 2)
    (ha : a = ‖r‖ ^ 2 / ‖A r‖ ^ 2) (hq : 0 < ‖m - q‖) :
    0 < L ∧ mu ≤ L ∧ 0 < a ∧ 1 ≤ a * L ∧ 0 < ‖r‖ ∧ mu * ‖m - q‖ ≤ ‖r‖ ∧ ‖a • r‖ = a * ‖r‖ ∧
      (∀ s : ℝ, ‖A ((m - q) - s • a • r)‖ ^ 2 = ‖A (m - q)‖ ^ 2 - a * s * (2 - s) * ‖r‖ ^ 2) ∧
      ‖a • r‖ ^ 2 ≤ inner ℝ (a • r) (m - q) := by
  have hr0 : 0 < ‖r‖ := by
    rw [norm_pos_iff]
    rintro rfl
    simp at hAr
  have hL : 0 < L := by
    have := hhi r
    by_contra h
    push Not at h
    nlinarith [sq_nonneg ‖r‖]
  have hmL : mu ≤ L := by
    have h1 := hlo r
    have h2 := hhi r
    have : 0 < ‖r‖ ^ 2 := by positivity
    by_contra h
    push Not at h
    nlinarith
  have hapos : 0 < a := by rw [ha]; positivity
  have haj : a * ‖A r‖ ^ 2 = ‖r‖ ^ 2 := by rw [ha, div_mul_cancel₀ _ hAr.ne']
  have hn : ‖a • r‖ = a * ‖r‖ := by rw [norm_smul, Real.norm_eq_abs, abs_of_pos hapos]
  have hline : ∀ s : ℝ, ‖A ((m - q) - s • a • r)‖ ^ 2 = ‖A (m - q)‖ ^ 2 - a * s * (2 - s) * ‖r‖ ^ 2 := by
    intro s
    have e1 : A ((m - q) - s • a • r) = A (m - q) - (s * a) • A r := by
      rw [map_sub, smul_smul, map_smul]
    rw [e1, norm_sub_sq_real, inner_smul_right, ← hr, real_inner_self_eq_norm_sq, norm_smul, mul_pow, Real.norm_eq_abs, sq_abs]
    have : (s * a) ^ 2 * ‖A r‖ ^ 2 = s ^ 2 * a * ‖r‖ ^ 2 := by rw [← haj]; ring
    rw [this]; ring
  refine ⟨hL, hmL, hapos, ?_, hr0, ?_, hn, hline, ?_⟩
  · have h1 := hhi r
    rw [ha, div_mul_eq_mul_div, le_div_iff₀ hAr]
    linarith
  · have h1 := hlo (m - q)
    have h2 := real_inner_le_norm r (m - q)
    rw [hr, real_inner_self_eq_norm_sq] at h2
    by_contra h
    push Not at h
    nlinarith
  · rw [hn, inner_smul_left, hr, real_inner_self_eq_norm_sq]
    simp only [conj_trivial]
    have h0 : 0 ≤ ‖A ((m - q) - (1 : ℝ) • a • r)‖ ^ 2 := by positivity
    rw [hline 1] at h0
    nlinarith

/-- The quantities of a call: `g` is the Gauss-Newton step, `sd` the steepest-descent step `a • r`. -/
structure Geo (A : V →ₗ[ℝ] W) (mu L a : ℝ) (g r sd : V) : Prop where
  hL : 0 < L
  hk : 0 < mu / L
  hk1 : mu / L ≤ 1
  ha : 0 < a
  hr0 : 0 < ‖r‖
  hrg : mu * ‖g‖ ≤ ‖r‖
  hmu : 0 < mu
  hn : ‖sd‖ = a * ‖r‖
  hAg : 0 < ‖A g‖ ^ 2
  hhi : ‖A g‖ ^ 2 ≤ L * ‖g‖ ^ 2
  hline : ∀ s : ℝ, ‖A (g - s • sd)‖ ^ 2 = ‖A g‖ ^ 2 - a * s * (2 - s) * ‖r‖ ^ 2
  hproj : ‖sd‖ ^ 2 ≤ inner ℝ sd g
  hsdg : mu / L * ‖g‖ ≤ ‖sd‖
  hfull : ‖A (g - sd)‖ ^ 2 ≤ (1 - (mu / L) ^ 2) * ‖A g‖ ^ 2
  hgsd : ‖g - sd‖ ≤ ‖g‖

theorem geo {A : V →ₗ[ℝ] W} {m q r : V} {a mu L : ℝ} (hmu : 0 < mu) (hlo : ∀ v, mu * ‖v‖ ^ 2 ≤ ‖A v‖ ^ 2)
    (hhi : ∀ v, ‖A v‖ ^ 2 ≤ L * ‖v‖ ^ 2) (hr : ∀ v, inner ℝ r v = inner ℝ (A (m - q)) (A v)) (hAr : 0 < ‖A r‖ ^ 2)
    (ha : a = ‖r‖ ^ 2 / ‖A r‖ ^ 2) (hq : 0 < ‖m - q‖) : Geo A mu L a (m - q) r (a • r) := by
  obtain ⟨hL, hmL, ha, haL, hr0, hrg, hn, hline, hproj⟩ := sd_bounds hmu hlo hhi hr hAr ha hq
  have hhg := hhi (m - q)
  have hlg := hlo (m - q)
  generalize hg : m - q = g at *
  generalize hsd : a • r = sd at *
  clear hlo hhi hg hsd hr
  have hk1 : 0 < mu / L := by positivity
  have hk2 : mu / L ≤ 1 := (div_le_one hL).2 hmL
  refine ⟨hL, hk1, hk2, ha, hr0, hrg, hmu, hn, lt_of_lt_of_le (by positivity) hlg, hhg, hline, hproj, ?_, ?_, ?_⟩
  · rw [hn, div_mul_eq_mul_div, div_le_iff₀ hL]
    nlinarith
  · have e := hline 1
    rw [one_smul] at e
    rw [e]
    have e2 : (mu / L) ^ 2 * ‖A g‖ ^ 2 ≤ a * ‖r‖ ^ 2 := by
      have h6 : (mu * ‖g‖) ^ 2 ≤ ‖r‖ ^ 2 := pow_le_pow_left₀ (by positivity) hrg 2
      have h7 : (mu / L) ^ 2 * ‖A g‖ ^ 2 ≤ (mu / L) ^ 2 * (L * ‖g‖ ^ 2) := mul_le_mul_of_nonneg_left hhg (by positivity)
      have h8 : (mu / L) ^ 2 * (L * ‖g‖ ^ 2) = (mu * ‖g‖) ^ 2 / L := by field_simp
      have h9 : (mu * ‖g‖) ^ 2 / L ≤ ‖r‖ ^ 2 / L := by gcongr
      have h10 : ‖r‖ ^ 2 / L ≤ a * ‖r‖ ^ 2 := by
        rw [div_le_iff₀ hL]
        nlinarith [sq_nonneg ‖r‖]
      linarith
    linarith
  · apply (sq_le_sq₀ (norm_nonneg _) (norm_nonneg _)).1
    rw [norm_sub_sq_real, real_inner_comm]
    linarith [sq_nonneg ‖sd‖]

/-- The Gauss-Newton step. -/
theorem gn_ok {A : V →ₗ[ℝ] W} {m q : V} {mu L a J : ℝ} {r sd : V} (G : Geo A mu L a (m - q) r sd) (hJ : 0 < J) (u : DL V)
    (e1 : u.dx = m - q) (e2 : u.L0 = J) (e3 : 0 < u.delta) : StepOk A m q (mu / (2 * L)) (1 - (mu / L) ^ 2 / 2) u := by
  have e4 : m - (q + u.dx) = 0 := by rw [e1]; abel
  have e5 : ‖A (m - (q + u.dx))‖ ^ 2 = 0 := by rw [e4, map_zero, norm_zero]; norm_num
  have hk : 0 ≤ 1 - (mu / L) ^ 2 / 2 := by nlinarith [G.hk, G.hk1]
  have hp : 0 < dlDelta u false (‖A (m - q)‖ ^ 2 - ‖A (m - (q + u.dx))‖ ^ 2) := by
    have := (dlDelta_next u (gain := ‖A (m - q)‖ ^ 2 - ‖A (m - (q + u.dx))‖ ^ 2) (by rw [e2]; exact hJ)
      (by rw [e5, sub_zero]; exact G.hAg) e3).1
    linarith
  refine ⟨?_, hp, ?_⟩
  · rw [e5]
    exact mul_nonneg hk G.hAg.le
  · have : ‖m - (q + u.dx)‖ = 0 := by rw [e4, norm_zero]
    rw [this, mul_zero]
    exact hp.le

/-- The interpolated step. -/
theorem dl_ok {A : V →ₗ[ℝ] W} {m q : V} {mu L a J : ℝ} {r sd : V} (G : Geo A mu L a (m - q) r sd) (hJ : 0 < J) (u : DL V) (s : ℝ)
    (e1 : u.dx = sd + s • ((m - q) - sd)) (s0 : 0 < s) (s1 : s ≤ 1) (e2 : u.L0 = s * (2 - s) * J) (e3 : ‖sd‖ ≤ u.delta) :
    StepOk A m q (mu / (2 * L)) (1 - (mu / L) ^ 2 / 2) u := by
  have hsd0 : 0 < ‖sd‖ := by rw [G.hn]; exact mul_pos G.ha G.hr0
  have hc : mu / (2 * L) = mu / L / 2 := by rw [div_div, mul_comm]
  have e4 : m - (q + u.dx) = (1 - s) • ((m - q) - sd) := by rw [e1]; module
  have e5 : ‖A (m - (q + u.dx))‖ ^ 2 = (1 - s) ^ 2 * ‖A ((m - q) - sd)‖ ^ 2 := by
    rw [e4, map_smul, norm_smul, mul_pow, Real.norm_eq_abs, sq_abs]
  have e6 : ‖A (m - (q + u.dx))‖ ^ 2 ≤ (1 - (mu / L) ^ 2) * ‖A (m - q)‖ ^ 2 := by
    rw [e5]
    have h1 : (1 - s) ^ 2 ≤ 1 := by nlinarith
    have := mul_le_mul_of_nonneg_right h1 (sq_nonneg ‖A ((m - q) - sd)‖)
    linarith [G.hfull]
  have hpos : 0 < (mu / L) ^ 2 * ‖A (m - q)‖ ^ 2 := mul_pos (pow_pos G.hk 2) G.hAg
  have hgain : 0 < ‖A (m - q)‖ ^ 2 - ‖A (m - (q + u.dx))‖ ^ 2 := by linarith
  have hL0 : 0 < u.L0 := by
    rw [e2]
    have : 0 < 2 - s := by linarith
    positivity
  have e7 := (dlDelta_next u hL0 hgain (by linarith)).1
  refine ⟨by linarith, by linarith, ?_⟩
  have e8 : ‖m - (q + u.dx)‖ ≤ ‖m - q‖ := by
    rw [e4, norm_smul, Real.norm_eq_abs, abs_of_nonneg (by linarith)]
    have h1 := norm_nonneg ((m - q) - sd)
    have h2 := G.hgsd
    nlinarith
  have h3 : mu / (2 * L) * ‖m - (q + u.dx)‖ ≤ mu / (2 * L) * ‖m - q‖ :=
    mul_le_mul_of_nonneg_left e8 (by rw [hc]; linarith [G.hk])
  have h4 : mu / (2 * L) * ‖m - q‖ = mu / L * ‖m - q‖ / 2 := by rw [hc]; ring
  linarith [G.hsdg]

/-- The shortened steepest-descent step: the predicted gain is half the real one, so the radius is not reduced. -/
theorem sd_ok {A : V →ₗ[ℝ] W} {m q : V} {mu L a d : ℝ} {r sd : V} (G : Geo A mu L a (m - q) r sd) (hd0 : 0 < d) (hle : d ≤ ‖sd‖)
    (hdg : mu / (2 * L) * ‖m - q‖ ≤ d) (u : DL V) (e1 : u.dx = (d / ‖sd‖) • sd) (e2 : u.L0 = d * (2 * ‖sd‖ - d) / (2 * a))
    (e3 : u.delta = d) : StepOk A m q (mu / (2 * L)) (1 - (mu / L) ^ 2 / 2) u := by
  have hsd0 : 0 < ‖sd‖ := by rw [G.hn]; exact mul_pos G.ha G.hr0
  have ha := G.ha
  have hr0 := G.hr0
  have hL := G.hL
  have hmu := G.hmu
  obtain ⟨s, hs⟩ : ∃ s, s = d / ‖sd‖ := ⟨_, rfl⟩
  have hs0 : 0 < s := by rw [hs]; positivity
  have hs1 : s ≤ 1 := by rw [hs]; exact (div_le_one hsd0).2 hle
  have hds : d = s * ‖sd‖ := by rw [hs, div_mul_cancel₀ _ hsd0.ne']
  rw [← hs] at e1
  have e4 : m - (q + u.dx) = (m - q) - s • sd := by rw [e1]; abel
  have e5 : ‖A (m - (q + u.dx))‖ ^ 2 = ‖A (m - q)‖ ^ 2 - a * s * (2 - s) * ‖r‖ ^ 2 := by rw [e4]; exact G.hline s
  have e6 : u.L0 = a * s * (2 - s) * ‖r‖ ^ 2 / 2 := by
    rw [e2, hds, G.hn]; field_simp
  have hgpos : 0 < a * s * (2 - s) * ‖r‖ ^ 2 := by
    have : 0 < 2 - s := by linarith
    positivity
  have hgain : ‖A (m - q)‖ ^ 2 - ‖A (m - (q + u.dx))‖ ^ 2 = a * s * (2 - s) * ‖r‖ ^ 2 := by rw [e5]; ring
  have e7 := (dlDelta_next u (gain := ‖A (m - q)‖ ^ 2 - ‖A (m - (q + u.dx))‖ ^ 2) (by rw [e6]; linarith) (by rw [hgain]; exact hgpos)
    (by rw [e3]; exact hd0)).2 (by rw [e6, hgain]; linarith)
  rw [e3] at e7
  refine ⟨?_, lt_of_lt_of_le hd0 e7, le_trans ?_ e7⟩
  · rw [e5]
    have e8 : d * ‖r‖ ≤ a * s * (2 - s) * ‖r‖ ^ 2 := by
      rw [hds, G.hn]
      have h1 : 0 ≤ a * s * ‖r‖ ^ 2 := by positivity
      nlinarith
    have e9 : mu / (2 * L) * ‖m - q‖ * (mu * ‖m - q‖) ≤ d * ‖r‖ := mul_le_mul hdg G.hrg (by positivity) hd0.le
    have h7 : (mu / L) ^ 2 / 2 * ‖A (m - q)‖ ^ 2 ≤ (mu / L) ^ 2 / 2 * (L * ‖m - q‖ ^ 2) :=
      mul_le_mul_of_nonneg_left G.hhi (by positivity)
    have h8 : (mu / L) ^ 2 / 2 * (L * ‖m - q‖ ^ 2) = mu / (2 * L) * ‖m - q‖ * (mu * ‖m - q‖) := by field_simp
    linarith
  · have e8 : ‖m - (q + u.dx)‖ ≤ ‖m - q‖ := by
      rw [e4]
      apply (sq_le_sq₀ (norm_nonneg _) (norm_nonneg _)).1
      rw [norm_sub_sq_real, inner_smul_right, norm_smul, mul_pow, Real.norm_eq_abs, sq_abs, real_inner_comm]
      have h1 : 0 ≤ ‖sd‖ ^ 2 := by positivity
      have h2 := G.hproj
      have h3 := mul_nonneg hs0.le (sub_nonneg.2 h2)
      have h4 := mul_nonneg (mul_nonneg hs0.le (sub_nonneg.2 hs1)) h1
      have h5 := mul_nonneg hs0.le h1
      linarith
    exact le_trans (mul_le_mul_of_nonneg_left e8 (by positivity)) hdg

/-- One call away from the minimum: the step is as `StepOk` says. -/
theorem call_ok {A : V →ₗ[ℝ] W} {m q : V} {mu L : ℝ} (hmu : 0 < mu) (hlo : ∀ v, mu * ‖v‖ ^ 2 ≤ ‖A v‖ ^ 2)
    (hhi : ∀ v, ‖A v‖ ^ 2 ≤ L * ‖v‖ ^ 2) {lin : V → Lin V} (hlin : SolvesLin A (A m) lin) (hA : Function.Injective A) (hq : q ≠ m)
    (t : DL V) (nan first : Bool) (gain J : ℝ) (hJ : 0 < J)
    (hd : dlDelta t first gain = 0 ∨ 0 < dlDelta t first gain ∧ mu / (2 * L) * ‖m - q‖ ≤ dlDelta t first gain) :
    ∃ u, dlxCall t nan first false gain J (lin q) = (u, false, true, some u.dx) ∧
      StepOk A m q (mu / (2 * L)) (1 - (mu / L) ^ 2 / 2) u := by
  obtain ⟨a, h1, h2, h3, -, -⟩ := lin_steps hA hlin hq
  obtain ⟨g1, g2, -⟩ := hlin q
  have hr : ∀ v, inner ℝ (lin q).rhs v = inner ℝ (A (m - q)) (A v) := by
    intro v
    rw [g1, ← inner_neg_left, neg_sub, map_sub]
  have hg0 : 0 < ‖m - q‖ := norm_pos_iff.2 (sub_ne_zero.2 hq.symm)
  have hAr : 0 < ‖A (lin q).rhs‖ ^ 2 := by
    rw [← g2]
    apply lt_of_le_of_ne _ (Ne.symm h1)
    rw [g2]; positivity
  have G : Geo A mu L a (m - q) (lin q).rhs (a • (lin q).rhs) := geo hmu hlo hhi hr hAr (h2.trans (by rw [g2])) hg0
  obtain ⟨sd, hsd⟩ : ∃ sd, sd = a • (lin q).rhs := ⟨_, rfl⟩
  obtain ⟨g, hg⟩ : ∃ g, g = m - q := ⟨_, rfl⟩
  obtain ⟨d, hdd⟩ : ∃ d, d = dlDelta t first gain := ⟨_, rfl⟩
  rw [← hdd] at hd
  rw [← hsd] at G
  have hsd0 : 0 < ‖sd‖ := by rw [G.hn]; exact mul_pos G.ha G.hr0
  have hmid : ‖sd‖ ≤ ‖sd + (1 / 2 : ℝ) • (g - sd)‖ := by
    apply (sq_le_sq₀ (norm_nonneg _) (norm_nonneg _)).1
    rw [norm_add_sq_real, inner_smul_right, inner_sub_right, real_inner_self_eq_norm_sq, hg]
    linarith [sq_nonneg ‖(1 / 2 : ℝ) • (m - q - sd)‖, G.hproj]
  by_cases hcase : ‖sd‖ ≥ d ∧ d ≠ 0
  · obtain h0 | ⟨hd0, hdg⟩ := hd
    · exact absurd h0 hcase.2
    refine ⟨{ t with delta := d, scale := a, sd := sd, sdNorm := ‖sd‖, dx := (d / ‖sd‖) • sd,
                     L0 := d * (2 * ‖sd‖ - d) / (2 * a), step := .sd }, ?_, sd_ok G hd0 hcase.1 hdg _ rfl rfl rfl⟩
    simp only [dlxCall, ← hdd, dlRebuild, h1, if_false, Bool.false_eq_true, Option.getD_some, decide_false, ← h2, ← hsd]
    rw [if_pos ⟨trivial, hcase⟩]
  · have hcall : dlxCall t nan first false gain J (lin q) =
        (dlGn { t with delta := d, scale := a, sd := sd, sdNorm := ‖sd‖, gn := g, gnNorm := ‖g‖ } J, false, true,
          some (dlGn { t with delta := d, scale := a, sd := sd, sdNorm := ‖sd‖, gn := g, gnNorm := ‖g‖ } J).dx) := by
      simp only [dlxCall, ← hdd, dlRebuild, h1, if_false, Bool.false_eq_true, Option.getD_some, decide_false, ← h2, ← hsd]
      rw [if_neg (fun h => hcase h.2), h3, hg]
      simp only [dlxGn, Bool.false_eq_true, if_false]
    refine ⟨_, hcall, ?_⟩
    clear hcall
    obtain h0 | ⟨hd0, hdg⟩ := hd
    · unfold dlGn
      simp only [h0, if_true]
      split_ifs with hle
      · exact gn_ok G hJ _ hg rfl (lt_of_lt_of_le hsd0 hmid)
      · have hne : g ≠ sd := by
          intro h
          apply hle
          rw [h]
          simp
        have hb : dlBeta sd g ‖sd‖ ‖sd + (1 / 2 : ℝ) • (g - sd)‖ = 1 / 2 := dlBeta_half sd g (hg ▸ G.hproj) hne
        refine dl_ok G hJ _ (1 / 2) ?_ (by norm_num) (by norm_num) ?_ hmid
        · dsimp only; rw [hb, hg]
        · dsimp only; rw [hb]
    · have hlt : ‖sd‖ < d := by
        by_contra h
        exact hcase ⟨not_lt.1 h, hd0.ne'⟩
      unfold dlGn
      simp only [if_neg hd0.ne']
      split_ifs with hle
      · exact gn_ok G hJ _ hg rfl hd0
      · have hgt : d < ‖g‖ := not_le.1 hle
        obtain ⟨b0, b1⟩ := dlBeta_range sd g d hlt.le hgt
        have hne : g ≠ sd := by rintro h; rw [h] at hgt; linarith
        have hb : dlBeta sd g ‖sd‖ d ≠ 0 := by
          intro h
          have := dlBeta_norm sd g d hd0.le hne (by
            have h1 : 0 ≤ d * d - ‖sd‖ * ‖sd‖ := by nlinarith
            have h2 := mul_nonneg (sq_nonneg ‖g - sd‖) h1
            linarith [mul_self_nonneg (inner ℝ sd (g - sd))])
          rw [h, zero_smul, add_zero] at this
          linarith
        refine dl_ok G hJ _ (dlBeta sd g ‖sd‖ d) ?_ (lt_of_le_of_ne b0 (Ne.symm hb)) b1 rfl hlt.le
        dsimp only; rw [hg]

/-- **C140** (any cost). Whatever the cost and the linear solver do, a run with the dog-leg policy ends either with NaN design
variables and a NaN cost, or with finite ones whose cost is the reported one and not larger than at the start. -/
theorem C140_nan_or_not_worse (cost maxAbs : V → ℝ) (lin : V → Lin V) (o : Options ℝ) (q : V) (y : Option V) (p : DLXP V)
    (dx : Option V) (r : Obj ℝ (Option V × Option V) (Option V) (DLXP V))
    (h : optimize (dlx cost maxAbs lin) o (fresh (some q, y) p dx) = .ok r) :
    r.x.1 = none ∧ r.jFinal = .nan ∨ ∃ z, r.x.1 = some z ∧ r.jFinal = .fin (cost z) ∧ cost z ≤ cost q := by
  obtain ⟨s, e, hr⟩ := run_ok (show run (dlx cost maxAbs lin) o (initObj (fresh (some q, y) p dx)) = .ok r from h)
  have hinv := (loop_inv (S := dlx cost maxAbs lin) (o := o)
    (fun s => s.x.1 = none ∧ s.pJ = .nan ∨ ∃ z, s.x.1 = some z ∧ s.pJ = .fin (cost z) ∧ cost z ≤ cost q) ?_ _
    (.inr ⟨q, rfl, rfl, le_rfl⟩) _ e).1
  · rw [hr]; exact hinv
  · intro t t' _ hi hI
    rcases iter_cases hi with ⟨_, rfl⟩ | ⟨_, _, _, rfl⟩ | ⟨h1, h2, rfl⟩
    · exact hI
    · exact hI
    · obtain ⟨d, hd⟩ : ∃ d, candidate (dlx cost maxAbs lin) t = (dlx cost maxAbs lin).update t.x d := ⟨_, rfl⟩
      show (candidate (dlx cost maxAbs lin) t).1 = none ∧ (dlx cost maxAbs lin).cost (candidate (dlx cost maxAbs lin) t) = .nan ∨
        ∃ z, (candidate (dlx cost maxAbs lin) t).1 = some z ∧
          (dlx cost maxAbs lin).cost (candidate (dlx cost maxAbs lin) t) = .fin (cost z) ∧ cost z ≤ cost q
      rw [hd] at h2 ⊢
      have hc : ∀ x : Option V × Option V, (dlx cost maxAbs lin).cost x = match x.1 with | some q => .fin (cost q) | none => .nan :=
        fun _ => rfl
      rcases hI with ⟨i1, i2⟩ | ⟨z, i1, i2, i3⟩
      · left
        have : ((dlx cost maxAbs lin).update t.x d).1 = none := by
          show (match t.x.1, d with | some q, some d => some (q + d) | _, _ => none) = none
          rw [i1]
        exact ⟨this, by rw [hc, this]⟩
      · cases d with
        | none =>
          left
          have : ((dlx cost maxAbs lin).update t.x none).1 = none := by
            show (match t.x.1, (none : Option V) with | some q, some d => some (q + d) | _, _ => none) = none
            rw [i1]
          exact ⟨this, by rw [hc, this]⟩
        | some d =>
          right
          have hu : ((dlx cost maxAbs lin).update t.x (some d)).1 = some (z + d) := by
            show (match t.x.1, some d with | some q, some d => some (q + d) | _, _ => none) = some (z + d)
            rw [i1]
          refine ⟨z + d, hu, by rw [hc, hu], ?_⟩
          rw [hc, hu, i2] at h2
          have h3 : ¬ (Dbl.lt (.fin (cost z - cost (z + d))) (.fin 0) = true) := by
            simpa [dlx, Dbl.sub] using h2
          rw [Dbl.lt_fin] at h3
          linarith

/-- A call at the minimum with a positive radius: the steepest-descent step is NaN, the zero Gauss-Newton step is taken. -/
theorem min_call' {l : Lin V} (hj : l.rJJr = 0) (hsol : l.sol = some 0) (t : DL V) (nan : Bool) {gain J : ℝ}
    (hd : 0 < dlDelta t false gain) : ∃ u, dlxCall t nan false false gain J l = (u, true, true, some 0) := by
  refine ⟨{ t with gn := 0, gnNorm := ‖(0 : V)‖, delta := dlDelta t false gain, dx := 0, L0 := J, step := .gn }, ?_⟩
  simp only [dlxCall, dlRebuild, hj, if_true, Bool.false_eq_true, if_false, Option.getD_none, hsol, dlxGn, decide_true]
  rw [if_neg (by simp), if_pos ⟨hd.ne', by rw [norm_zero]; exact hd.le⟩]

/-- **C140** (linear problems). If the residual is linear in the design variables with full column rank (the squared singular
values lie between `mu > 0` and `L`), an optimizer with the dog-leg policy started anywhere but at the minimum `m` never fails an
iteration and never holds a NaN, whether or not the residual vanishes at the minimum. The distance of the cost from its minimum
shrinks at least by the factor `1 - (mu / L)^2 / 2` with every iteration. The number of iterations after the first is at most
that distance at the start divided by the threshold for the change of the cost, and unless the budget is used up the optimizer
reports convergence. -/
theorem C140_linear (A : V →ₗ[ℝ] W) (c : W) (mu L : ℝ) (hmu : 0 < mu) (hlo : ∀ v, mu * ‖v‖ ^ 2 ≤ ‖A v‖ ^ 2)
    (hhi : ∀ v, ‖A v‖ ^ 2 ≤ L * ‖v‖ ^ 2) (lin : V → Lin V) (hlin : SolvesLin A c lin) (m : V)
    (hm : ∀ z, linCost A c m ≤ linCost A c z) (maxAbs : V → ℝ) (h0 : maxAbs 0 = 0) (o : Options ℝ)
    (hx : 0 ≤ o.convergenceDeltaX) (hN : 1 ≤ o.maxIterations) (q : V) (hq : q ≠ m)
    (y : Option V) (p : DLXP V) (dx : Option V) :
    ∃ r z, optimize (dlx (linCost A c) maxAbs lin) o (fresh (some q, y) p dx) = .ok r ∧ r.x.1 = some z ∧
      r.jFinal = .fin (linCost A c z) ∧ r.failed = 0 ∧ 1 ≤ r.iterations ∧
      linCost A c z - linCost A c m ≤ (1 - (mu / L) ^ 2 / 2) ^ r.iterations.toNat * (linCost A c q - linCost A c m) ∧
      ((r.iterations : ℝ) - 1) * o.convergenceDeltaError ≤ linCost A c q - linCost A c m ∧
      (r.iterations < o.maxIterations → r.conv = .dx ∨ r.conv = .dObjective) := by
  have hA : Function.Injective A := by
    intro v w hvw
    have h1 := hlo (v - w)
    rw [map_sub, hvw, sub_self, norm_zero] at h1
    by_contra hne
    have : 0 < ‖v - w‖ := norm_pos_iff.2 (sub_ne_zero.2 hne)
    have : 0 < mu * ‖v - w‖ ^ 2 := by positivity
    norm_num at h1
    linarith
  -- the minimum satisfies the normal equations
  have hort : ∀ v, inner ℝ (A m - c) (A v) = 0 := by
    obtain ⟨g1, -, g, -, g4⟩ := hlin m
    have hz : A g = 0 := by
      have h1 := hm (m + g)
      unfold linCost at h1
      have e : A (m + g) - c = (A m - c) + A g := by rw [map_add]; abel
      rw [e, norm_add_sq_real] at h1
      have h2 := g4 g
      rw [g1, real_inner_self_eq_norm_sq] at h2
      have h3 : ‖A g‖ ^ 2 = 0 := le_antisymm (by linarith) (by positivity)
      simpa using h3
    intro v
    have := g4 v
    rw [hz, inner_zero_left, g1] at this
    linarith
  have hlin' : SolvesLin A (A m) lin := by
    intro z
    obtain ⟨g1, g2, g3⟩ := hlin z
    refine ⟨fun v => ?_, g2, g3⟩
    have e : A z - c = (A z - A m) + (A m - c) := by abel
    rw [g1, e, inner_add_left, hort, add_zero]
  have hcost : ∀ z, linCost A c z = linCost A c m + ‖A (m - z)‖ ^ 2 := by
    intro z
    unfold linCost
    have e : A z - c = (A m - c) - A (m - z) := by rw [map_sub]; abel
    rw [e, norm_sub_sq_real, hort]
    ring
  have hc0 : 0 ≤ linCost A c m := by unfold linCost; positivity
  have hmin : (lin m).rJJr = 0 ∧ (lin m).sol = some 0 := by
    obtain ⟨h1, h2, g, h3, h4⟩ := hlin' m
    have hr : (lin m).rhs = 0 := by
      rw [← inner_self_eq_zero (𝕜 := ℝ), h1, sub_self, inner_zero_left, neg_zero]
    refine ⟨by rw [h2, hr, map_zero, norm_zero]; norm_num, ?_⟩
    have : A g = 0 := by rw [← inner_self_eq_zero (𝕜 := ℝ), h4, hr, inner_zero_left]
    rw [h3, hA (this.trans (map_zero A).symm)]
  have hAq : 0 < ‖A (m - q)‖ ^ 2 := by
    have h1 : 0 < ‖m - q‖ := norm_pos_iff.2 (sub_ne_zero.2 hq.symm)
    exact lt_of_lt_of_le (by positivity) (hlo _)
  have hmL : mu ≤ L := by
    have h1 := hlo (m - q)
    have h2 := hhi (m - q)
    have h3 : 0 < ‖m - q‖ := norm_pos_iff.2 (sub_ne_zero.2 hq.symm)
    have : 0 < ‖m - q‖ ^ 2 := by positivity
    by_contra h
    push Not at h
    nlinarith
  have hL : 0 < L := lt_of_lt_of_le hmu hmL
  have hk : 0 ≤ 1 - (mu / L) ^ 2 / 2 ∧ 1 - (mu / L) ^ 2 / 2 ≤ 1 := by
    have h1 : 0 ≤ mu / L := by positivity
    have h2 : mu / L ≤ 1 := (div_le_one hL).2 hmL
    constructor <;> nlinarith
  set k := 1 - (mu / L) ^ 2 / 2 with hkk
  set S := dlx (linCost A c) maxAbs lin with hS
  obtain ⟨r, hr⟩ := (C23_terminates_within_budget S o (some q, y) p dx).1 (fun _ _ _ _ _ => rfl)
  obtain ⟨s, e, hrs⟩ := run_ok (show run S o (initObj (fresh (some q, y) p dx)) = .ok r from hr)
  have hinv := loop_inv (S := S) (o := o)
    (fun s => s.prevFailed = false ∧ s.lsf = false ∧ s.failed = 0 ∧ 0 ≤ s.iterations ∧ ∃ z, s.x.1 = some z ∧
      s.error = .fin (linCost A c z) ∧ s.pJ = .fin (linCost A c z) ∧
      ‖A (m - z)‖ ^ 2 ≤ k ^ s.iterations.toNat * ‖A (m - q)‖ ^ 2 ∧
      ((s.iterations = 0 ∧ z = q ∧ s.p.base.first = true ∧ s.p.base.J = .fin (linCost A c z) ∧ s.p.dl = s.p.dl.start ∧
          running o s = true) ∨
        (∃ dX dJ, s.deltaX = .fin dX ∧ s.deltaJ = .fin dJ ∧ 0 ≤ dJ ∧ 1 ≤ s.iterations ∧
          ((s.iterations : ℝ) - 1) * o.convergenceDeltaError + dJ ≤ linCost A c q - linCost A c z ∧
        ((∃ j, s.p.base.first = false ∧ s.p.base.J = .fin j ∧ 0 < dlDelta s.p.dl false (j - linCost A c z) ∧
            mu / (2 * L) * ‖m - z‖ ≤ dlDelta s.p.dl false (j - linCost A c z)) ∨
          (z = m ∧ dX = 0))))) ?_ _ ?_ _ e
  · obtain ⟨⟨i1, i2, i3, i3', z, i4, i5, i6, i6', i7⟩, hrun⟩ := hinv
    rcases i7 with ⟨-, -, -, -, -, i7⟩ | ⟨dX, dJ, i8, i9, i10, i11, i12, -⟩
    · rw [i7] at hrun; cases hrun
    have hri : r.iterations = s.iterations := by rw [hrs]; rfl
    refine ⟨r, z, hr, by rw [hrs]; exact i4, by rw [hrs]; exact i6, by rw [hrs]; exact i3, by rw [hri]; exact i11, ?_, ?_, ?_⟩
    · rw [hri, hcost z, hcost q]
      linarith
    · rw [hri]
      have := hm z
      linarith
    · intro hlt
      rw [hri] at hlt
      rw [hrs]
      show classify o _ s = .dx ∨ classify o _ s = .dObjective
      unfold classify
      rw [if_neg (by omega), i2, i3]
      have : decide (o.maxIterations ≤ (0 : Int)) = false := by rw [decide_eq_false_iff_not]; omega
      rw [this]
      simp only [Bool.or_self, Bool.false_eq_true, if_false]
      unfold running at hrun
      have k1 : decide (s.iterations < o.maxIterations) = true := by rw [decide_eq_true_eq]; omega
      have k2 : decide (s.failed < o.maxIterations) = true := by rw [decide_eq_true_eq]; omega
      rw [k1, k2, i2] at hrun
      simp only [Bool.and_self, Bool.true_and, Bool.or_false, Bool.and_eq_false_iff] at hrun
      by_cases hd : Dbl.le s.deltaX (.fin o.convergenceDeltaX) = true
      · rw [if_pos hd]; exact .inl rfl
      · rw [if_neg hd]
        right
        rw [i8] at hd hrun
        rw [i9] at hrun ⊢
        rw [if_pos]
        rcases hrun with hrun | hrun
        · exfalso
          apply hd
          apply (Dbl.le_fin _ _).2
          by_contra hc
          rw [(Dbl.lt_fin _ _).2 (not_le.1 hc)] at hrun
          cases hrun
        · apply (Dbl.le_fin _ _).2
          by_contra hc
          have : Dbl.lt (.fin o.convergenceDeltaError) (Dbl.abs (.fin dJ)) = true := (Dbl.lt_fin _ _).2 (not_le.1 hc)
          rw [this] at hrun
          cases hrun
  · rintro t t' hrun hi ⟨j1, j2, j3, j3', z, j4, j5, j6, j6', j7⟩
    have hxt : t.x = (some z, t.x.2) := by rw [← j4]
    -- a pass with a finite step that does not raise the cost
    have hpass : ∀ (u : DL V) (nan : Bool) (d : V) (pj : ℝ), t.p.base.J = .fin pj →
        dlxCall t.p.dl t.p.nan t.p.base.first false (pj - linCost A c z) (linCost A c z) (lin z) = (u, nan, true, some d) →
        linCost A c (z + d) ≤ linCost A c z →
        t'.x.1 = some (z + d) ∧ t'.p = ⟨⟨.fin (linCost A c z), .fin pj, false⟩, u, nan⟩ ∧
          t'.error = .fin (linCost A c (z + d)) ∧ t'.pJ = .fin (linCost A c (z + d)) ∧
          t'.deltaX = .fin (maxAbs d) ∧ t'.deltaJ = .fin (linCost A c z - linCost A c (z + d)) ∧
          t'.prevFailed = false ∧ t'.lsf = false ∧ t'.iterations = t.iterations + 1 ∧ t'.failed = 0 := by
      intro u nan d pj hpj hcall hle
      have hsolve : S.solve t.p t.x t.dx t.error t.prevFailed =
          (⟨⟨.fin (linCost A c z), .fin pj, false⟩, u, nan⟩, true, some d) := by
        rw [hxt, j5, j1, hS, dlx_solve _ _ _ _ _ _ _ _ _ hpj, hcall]
        rfl
      have hup : S.update t.x (some d) = (some (z + d), some z) := by rw [hxt]; rfl
      obtain ⟨k1, k2, k3, k4, k5, k6, k7, k8, k9, k10, k11⟩ := dlx_accept hi hsolve (by
        rw [← hS, hup, j6]
        show decide (linCost A c z - linCost A c (z + d) < 0) = false
        rw [decide_eq_false_iff_not]
        linarith)
      rw [← hS, hup] at k1
      rw [k1] at k4 k5 k7
      exact ⟨by rw [k1], k2, k4, k5, k6, by rw [k7, j6]; rfl, k8, by rw [k9]; exact j2, k10, by rw [k11]; exact j3⟩
    have htn : (t.iterations + 1).toNat = t.iterations.toNat + 1 := by omega
    -- the bookkeeping of the number of iterations
    have hcount : ∀ dJ', 0 ≤ dJ' → ∀ z', dJ' = linCost A c z - linCost A c z' →
        (((t.iterations + 1 : Int) : ℝ) - 1) * o.convergenceDeltaError + dJ' ≤ linCost A c q - linCost A c z' := by
      intro dJ' hd' z' hz'
      push_cast
      rcases j7 with ⟨j7, j8, -⟩ | ⟨dX, dJ, -, j9, j10, j11, j12, -⟩
      · rw [j7, ← j8, hz']; simp
      · have : o.convergenceDeltaError < dJ := by
          unfold running at hrun
          rw [j9, j2] at hrun
          simp only [Bool.or_false, Bool.and_eq_true] at hrun
          have := (Dbl.lt_fin _ _).1 hrun.2.2
          rwa [abs_of_nonneg j10] at this
        have e1 : ((t.iterations : ℝ) + 1 - 1) * o.convergenceDeltaError = ((t.iterations : ℝ) - 1) * o.convergenceDeltaError + o.convergenceDeltaError := by
          ring
        rw [e1]
        linarith
    -- a pass away from the minimum
    have hmove : ∀ pj, t.p.base.J = .fin pj → z ≠ m → (dlDelta t.p.dl t.p.base.first (pj - linCost A c z) = 0 ∨
        0 < dlDelta t.p.dl t.p.base.first (pj - linCost A c z) ∧
          mu / (2 * L) * ‖m - z‖ ≤ dlDelta t.p.dl t.p.base.first (pj - linCost A c z)) →
        t'.prevFailed = false ∧ t'.lsf = false ∧ t'.failed = 0 ∧ 0 ≤ t'.iterations ∧ ∃ z, t'.x.1 = some z ∧
        t'.error = .fin (linCost A c z) ∧ t'.pJ = .fin (linCost A c z) ∧
        ‖A (m - z)‖ ^ 2 ≤ k ^ t'.iterations.toNat * ‖A (m - q)‖ ^ 2 ∧
        ((t'.iterations = 0 ∧ z = q ∧ t'.p.base.first = true ∧ t'.p.base.J = .fin (linCost A c z) ∧ t'.p.dl = t'.p.dl.start ∧
            running o t' = true) ∨
          (∃ dX dJ, t'.deltaX = .fin dX ∧ t'.deltaJ = .fin dJ ∧ 0 ≤ dJ ∧ 1 ≤ t'.iterations ∧
            ((t'.iterations : ℝ) - 1) * o.convergenceDeltaError + dJ ≤ linCost A c q - linCost A c z ∧
          ((∃ j, t'.p.base.first = false ∧ t'.p.base.J = .fin j ∧ 0 < dlDelta t'.p.dl false (j - linCost A c z) ∧
              mu / (2 * L) * ‖m - z‖ ≤ dlDelta t'.p.dl false (j - linCost A c z)) ∨
            (z = m ∧ dX = 0)))) := by
      intro pj hpj hzm hd
      have hAz : 0 < ‖A (m - z)‖ ^ 2 := by
        have h1 : 0 < ‖m - z‖ := norm_pos_iff.2 (sub_ne_zero.2 hzm.symm)
        exact lt_of_lt_of_le (by positivity) (hlo _)
      obtain ⟨u, hu, huok⟩ := call_ok hmu hlo hhi hlin' hA hzm t.p.dl t.p.nan t.p.base.first (pj - linCost A c z) (linCost A c z)
        (by rw [hcost]; linarith) hd
      have hle : ‖A (m - (z + u.dx))‖ ^ 2 ≤ ‖A (m - z)‖ ^ 2 := by
        have := huok.red
        have h2 := mul_le_mul_of_nonneg_right hk.2 hAz.le
        rw [hkk] at h2
        linarith
      have hle' : linCost A c (z + u.dx) ≤ linCost A c z := by rw [hcost (z + u.dx), hcost z]; linarith
      have hgain : linCost A c z - linCost A c (z + u.dx) = ‖A (m - z)‖ ^ 2 - ‖A (m - (z + u.dx))‖ ^ 2 := by
        rw [hcost (z + u.dx), hcost z]; ring
      obtain ⟨k1, k2, k3, k4, k5, k6, k7, k8, k9, k10⟩ := hpass u false u.dx pj hpj hu hle'
      refine ⟨k7, k8, k10, by omega, z + u.dx, k1, k3, k4, ?_,
        .inr ⟨_, _, k5, k6, by linarith, by omega, ?_, .inl ⟨linCost A c z, ?_, ?_, ?_, ?_⟩⟩⟩
      · have e3 : k ^ (t.iterations.toNat + 1) * ‖A (m - q)‖ ^ 2 = k * (k ^ t.iterations.toNat * ‖A (m - q)‖ ^ 2) := by
          rw [pow_succ]; ring
        rw [k9, htn, e3]
        have h1 := huok.red
        have h2 := mul_le_mul_of_nonneg_left j6' hk.1
        rw [← hkk] at h1
        linarith
      · rw [k9]
        exact hcount _ (by linarith) _ rfl
      · rw [k2]
      · rw [k2]
      · rw [k2, hgain]; exact huok.pos
      · rw [k2, hgain]; exact huok.next
    rcases j7 with ⟨j7, j8, j9, j10, j11, -⟩ | ⟨dX, dJ, j8, j9, j10, j11, j12, ⟨j, j13, j14, j15, j16⟩ | ⟨j13, j14⟩⟩
    · refine hmove _ j10 (by rw [j8]; exact hq) (.inl ?_)
      rw [j9, j11]
      rfl
    · by_cases hzm : z = m
      · subst hzm
        obtain ⟨u, hu⟩ := min_call' (J := linCost A c z) hmin.1 hmin.2 t.p.dl t.p.nan j15
        obtain ⟨k1, k2, k3, k4, k5, k6, k7, k8, k9, k10⟩ := hpass u true 0 _ j14 (by rw [j13]; exact hu) (by rw [add_zero])
        rw [add_zero] at k1 k3 k4 k6
        refine ⟨k7, k8, k10, by omega, z, k1, k3, k4, ?_, .inr ⟨_, _, k5, k6, by linarith, by omega, ?_, .inr ⟨rfl, h0⟩⟩⟩
        · rw [sub_self, map_zero, norm_zero]
          have := mul_nonneg (pow_nonneg hk.1 t'.iterations.toNat) hAq.le
          simpa using this
        · rw [k9]
          exact hcount _ (by linarith) _ rfl
      · refine hmove _ j14 hzm (.inr ?_)
        rw [j13]
        exact ⟨j15, j16⟩
    · exfalso
      unfold running at hrun
      rw [j8, j14, j2] at hrun
      simp only [Bool.or_false, Bool.and_eq_true] at hrun
      have := (Dbl.lt_fin _ _).1 hrun.2.1
      linarith
  · refine ⟨rfl, rfl, rfl, le_refl _, q, rfl, rfl, rfl, ?_, .inl ⟨rfl, rfl, rfl, rfl, rfl, dlx_running o hN _ _ _ _⟩⟩
    show _ ≤ k ^ (0 : Int).toNat * _
    simp

/-! ### The hypotheses are met -/

/-- A residual with a third component that no step can change. -/
noncomputable def stretch3 : EuclideanSpace ℝ (Fin 2) →ₗ[ℝ] EuclideanSpace ℝ (Fin 3) where
  toFun v := !₂[v 0, 2 * v 1, 0]
  map_add' v w := by ext i; fin_cases i <;> simp <;> ring
  map_smul' a v := by ext i; fin_cases i <;> simp <;> ring

/-- A solver for the measurement `(1, 2, 3)`. -/
noncomputable def stretch3Lin (q : EuclideanSpace ℝ (Fin 2)) : Lin (EuclideanSpace ℝ (Fin 2)) :=
  ⟨!₂[1 - q 0, 4 * (1 - q 1)], ‖stretch3 !₂[1 - q 0, 4 * (1 - q 1)]‖ ^ 2, some (!₂[1, 1] - q)⟩

/-- The cost at the minimum is 9, and from every other start the run reduces its distance from 9 by a factor of at least 31/32
per iteration without a failed one. -/
example (q : EuclideanSpace ℝ (Fin 2)) (hq : q ≠ !₂[1, 1]) (p : DLXP (EuclideanSpace ℝ (Fin 2))) :
    ∃ r z, optimize (dlx (linCost stretch3 !₂[1, 2, 3]) (fun d => ‖d‖) stretch3Lin) ⟨0, 0, 100⟩
        (fresh (some q, none) p none) = .ok r ∧ r.x.1 = some z ∧ r.failed = 0 ∧
      linCost stretch3 !₂[1, 2, 3] z - 9 ≤ (31 / 32) ^ r.iterations.toNat * (linCost stretch3 !₂[1, 2, 3] q - 9) := by
  have hc : ∀ z, linCost stretch3 !₂[1, 2, 3] z = (z 0 - 1) ^ 2 + (2 * z 1 - 2) ^ 2 + 9 := by
    intro z
    simp [linCost, stretch3, EuclideanSpace.norm_sq_eq, Fin.sum_univ_three]
    norm_num
  have hn : ∀ v, ‖stretch3 v‖ ^ 2 = v 0 ^ 2 + (2 * v 1) ^ 2 := by
    intro v
    simp [stretch3, EuclideanSpace.norm_sq_eq, Fin.sum_univ_three]
  have hv : ∀ v : EuclideanSpace ℝ (Fin 2), ‖v‖ ^ 2 = v 0 ^ 2 + v 1 ^ 2 := by
    intro v
    simp [EuclideanSpace.norm_sq_eq, Fin.sum_univ_two]
  have hm : linCost stretch3 !₂[1, 2, 3] !₂[1, 1] = 9 := by rw [hc]; simp
  obtain ⟨r, z, h1, h2, -, h3, -, h4, -⟩ := C140_linear stretch3 !₂[1, 2, 3] 1 4 one_pos
    (fun v => by rw [hn, hv]; nlinarith [sq_nonneg (v 1)]) (fun v => by rw [hn, hv]; nlinarith [sq_nonneg (v 0)]) stretch3Lin
    (fun q => ⟨fun v => by
        simp [stretch3Lin, stretch3, PiLp.inner_apply, Fin.sum_univ_two, Fin.sum_univ_three]; ring, rfl, _, rfl, fun v => by
        simp [stretch3Lin, stretch3, PiLp.inner_apply, Fin.sum_univ_two, Fin.sum_univ_three]; ring⟩)
    !₂[1, 1] (fun z => by rw [hm, hc]; nlinarith [sq_nonneg (z 0 - 1), sq_nonneg (2 * z 1 - 2)]) (fun d => ‖d‖) norm_zero
    ⟨0, 0, 100⟩ le_rfl (by norm_num) q hq none p none
  refine ⟨r, z, h1, h2, h3, ?_⟩
  rw [hm] at h4
  norm_num at h4
  linarith

end Verif.Policy
