import Verif.Policy.Linear
import Mathlib.Tactic.FieldSimp

/-! Property C138: the speed of Levenberg-Marquardt on linear problems. -/
namespace Verif.Policy
open Verif.Optimizer2 Verif.Trust

variable {V W : Type} [NormedAddCommGroup V] [InnerProductSpace ℝ V] [NormedAddCommGroup W] [InnerProductSpace ℝ W]

/-- The problem with the linear residual `A q - c`; the predicted decrease is `dx^T (lambda dx + rhs)` as in
LevenbergMarquardtTrustRegionPolicy.cpp:105-111. -/
def linEnv (A : V →ₗ[ℝ] W) (c : W) (maxAbs : V → ℝ) (sol : V → Option ℝ → Option V) : Env ℝ (V × V) V V :=
  additive (linCost A c) maxAbs sol fun q l d => inner ℝ d (l • d) - inner ℝ (A q - c) (A d)

/-- The gain ratio of a damped step on a linear problem. -/
noncomputable def linRho (A : V →ₗ[ℝ] W) (l : ℝ) (d : V) : ℝ :=
  (‖A d‖ ^ 2 + 2 * (l * l) * ‖d‖ ^ 2) / (‖A d‖ ^ 2 + l * l * ‖d‖ ^ 2 + l * ‖d‖ ^ 2)

/-- The factor the damping is multiplied with after an accepted step with gain ratio `r`, LM:74-79. -/
noncomputable def shrink (i : LM ℝ) (r : ℝ) : ℝ := max (1 / i.gamma) (1 - (i.beta - 1) * (2 * r - 1) ^ i.p)

/-- A property of dampings that the updates of the damping keep on this linear problem. -/
structure Kept (A : V →ₗ[ℝ] W) (i : LM ℝ) (P : ℝ → Prop) : Prop where
  start : P i.lambda
  step : ∀ l d, 0 < l → d ≠ 0 → P l → P (l * shrink i (linRho A l d))
  tiny : ∀ l, P l → l ≤ 1 / 10 ^ 16 → P (1 / 10 ^ 15)

/-- What holds before every pass on a linear problem. -/
def RateInv (A : V →ₗ[ℝ] W) (c : W) (maxAbs : V → ℝ) (sol : V → Option ℝ → Option V) (i : LM ℝ) (P : ℝ → Prop)
    (s : St ℝ (V × V) V (LMP ℝ V)) : Prop :=
  s.lsf = false ∧ s.prevFailed = false ∧ s.pJ = .fin (linCost A c s.x.1) ∧ s.error = .fin (linCost A c s.x.1) ∧
  ∃ l, s.p.lm = some l ∧ LMOk l ∧ l.gamma = i.gamma ∧ l.beta = i.beta ∧ l.p = i.p ∧ P l.lambda ∧
    (s.p.base.first = false → s.p.base.J = .fin (linCost A c s.p.built) ∧ s.x.1 = s.p.built + s.dx ∧
      sol s.p.built (some l.lambda) = some s.dx ∧ s.deltaX = .fin (maxAbs s.dx))

theorem lin_gain {A : V →ₗ[ℝ] W} {c : W} {q d : V} {l : ℝ}
    (h : ∀ v, inner ℝ (A d) (A v) + l * l * inner ℝ d v = -inner ℝ (A q - c) (A v)) :
    linCost A c q - linCost A c (q + d) = ‖A d‖ ^ 2 + 2 * (l * l) * ‖d‖ ^ 2 ∧
      inner ℝ d (l • d) - inner ℝ (A q - c) (A d) = ‖A d‖ ^ 2 + l * l * ‖d‖ ^ 2 + l * ‖d‖ ^ 2 := by
  have h1 := h d
  rw [real_inner_self_eq_norm_sq, real_inner_self_eq_norm_sq] at h1
  constructor
  · unfold linCost
    have e : A (q + d) - c = (A q - c) + A d := by rw [map_add]; abel
    rw [e, norm_add_sq_real]
    linarith
  · rw [inner_smul_right, real_inner_self_eq_norm_sq]
    linarith

theorem linRho_pos (A : V →ₗ[ℝ] W) {l : ℝ} (hl : 0 < l) {d : V} (hd : d ≠ 0) : 0 < linRho A l d := by
  have := norm_pos_iff.2 hd
  unfold linRho
  positivity

/-- One pass on a linear problem. -/
theorem rate_pass {A : V →ₗ[ℝ] W} {c : W} {maxAbs : V → ℝ} (h0 : maxAbs 0 = 0) {sol : V → Option ℝ → Option V}
    (hsol : SolvesNormal A c sol) {i : LM ℝ} (hok : LMOk i) {P : ℝ → Prop} (hP : Kept A i P) {o : Options ℝ}
    (hx : 0 ≤ o.convergenceDeltaX) {s s' : St ℝ (V × V) V (LMP ℝ V)} (hI : RateInv A c maxAbs sol i P s)
    (hrun : running o s = true) (hi : iter (lm (linEnv A c maxAbs sol) i) s = .ok s') :
    RateInv A c maxAbs sol i P s' ∧ s'.iterations = s.iterations + 1 ∧ s'.failed = s.failed ∧
      ∃ l d, 0 < l ∧ P l ∧ s'.x.1 = s.x.1 + d ∧ s'.deltaX = .fin (maxAbs d) ∧
        (∃ e, s'.deltaJ = .fin e) ∧
        ∀ v, inner ℝ (A d) (A v) + l * l * inner ℝ d v = -inner ℝ (A s.x.1 - c) (A v) := by
  obtain ⟨i1, i2, i3, i4, m, i5, i6, i7, i8, i9, i10, i11⟩ := hI
  -- the new damping
  have hnew : ∃ m', lmUpdate m (s.p.base.call s.error s.prevFailed).first s.prevFailed
      (gainRatio (s.p.base.call s.error s.prevFailed) ((linEnv A c maxAbs sol).d2 s.p.built m.lambda s.dx)) = some (m', true) ∧
      LMOk m' ∧ m'.gamma = i.gamma ∧ m'.beta = i.beta ∧ m'.p = i.p ∧ P m'.lambda := by
    rw [i2]
    have hf : (s.p.base.call s.error false).first = s.p.base.first := rfl
    rw [hf]
    cases hfi : s.p.base.first with
    | true => exact ⟨m, rfl, i6, i7, i8, i9, i10⟩
    | false =>
      obtain ⟨j1, j2, j3, j4⟩ := i11 hfi
      have hd0 : s.dx ≠ 0 := by
        intro h
        unfold running at hrun
        rw [i1, j4, h, h0] at hrun
        simp only [Bool.or_false, Bool.and_eq_true] at hrun
        have := (Dbl.lt_fin _ _).1 hrun.2.1
        linarith
      obtain ⟨d, k1, k2⟩ := hsol s.p.built m.lambda i6.lambda.le
      rw [j3] at k1
      obtain rfl := Option.some.inj k1
      obtain ⟨g1, g2⟩ := lin_gain k2
      have hn := norm_pos_iff.2 hd0
      have hl := i6.lambda
      have hden : ‖A s.dx‖ ^ 2 + m.lambda * m.lambda * ‖s.dx‖ ^ 2 + m.lambda * ‖s.dx‖ ^ 2 ≠ 0 := by positivity
      have hrho : gainRatio (s.p.base.call s.error false) ((linEnv A c maxAbs sol).d2 s.p.built m.lambda s.dx) =
          .fin (linRho A m.lambda s.dx) := by
        unfold gainRatio
        have e1 : (s.p.base.call s.error false).gain = .fin (linCost A c s.p.built - linCost A c (s.p.built + s.dx)) := by
          unfold Base.gain Base.call
          rw [i4, j2]
          simp only [Bool.false_eq_true, if_false]
          rw [j1]; rfl
        have e2 : (linEnv A c maxAbs sol).d2 s.p.built m.lambda s.dx =
            ‖A s.dx‖ ^ 2 + m.lambda * m.lambda * ‖s.dx‖ ^ 2 + m.lambda * ‖s.dx‖ ^ 2 := g2
        rw [e1, e2, g1]
        simp only [lmRho, Dbl.div, hden, if_false]
        rfl
      have hpos := linRho_pos A hl hd0
      rw [hrho]
      have hsh : (if 1 / m.gamma > 1 - (m.beta - 1) * (2 * linRho A m.lambda s.dx - 1) ^ m.p then 1 / m.gamma
            else 1 - (m.beta - 1) * (2 * linRho A m.lambda s.dx - 1) ^ m.p) = shrink i (linRho A m.lambda s.dx) := by
        unfold shrink
        rw [← i7, ← i8, ← i9]
        by_cases hc : 1 / m.gamma > 1 - (m.beta - 1) * (2 * linRho A m.lambda s.dx - 1) ^ m.p
        · rw [if_pos hc]; exact (max_eq_left hc.le).symm
        · rw [if_neg hc]; exact (max_eq_right (not_lt.1 hc)).symm
      unfold lmUpdate
      have hle : Dbl.le (.fin (linRho A m.lambda s.dx)) (.fin 0) = false := by
        by_contra hc
        rw [Bool.not_eq_false] at hc
        have := (Dbl.le_fin _ _).1 hc
        linarith
      simp only [Bool.false_eq_true, if_false, hle]
      rw [hsh]
      split_ifs with ht
      · have hpos' : 0 < shrink i (linRho A m.lambda s.dx) :=
          lt_of_lt_of_le (one_div_pos.2 hok.gamma) (le_max_left _ _)
        exact ⟨_, rfl, ⟨mul_pos hl hpos', i6.gamma, i6.beta, i6.beta, i6.p⟩, i7, i8, i9, hP.step _ _ hl hd0 i10⟩
      · exact ⟨_, rfl, ⟨by positivity, i6.gamma, i6.beta, i6.mu, i6.p⟩, i7, i8, i9, hP.tiny _ i10 (not_lt.1 ht)⟩
  obtain ⟨m', u1, u2, u3, u4, u5, u6⟩ := hnew
  obtain ⟨d, k1, k2⟩ := hsol s.x.1 m'.lambda u2.lambda.le
  have hcall : lmCall (linEnv A c maxAbs sol) s.p s.x s.dx s.error s.prevFailed =
      (⟨(s.p.base.call s.error s.prevFailed).done, some m', s.x.1, s.p.rest⟩, true, d) := by
    unfold lmCall
    simp only [i5]
    rw [u1]
    have : (linEnv A c maxAbs sol).sol ((linEnv A c maxAbs sol).val s.x) (some m'.lambda) = some d := k1
    simp only [if_true]
    rw [this]
    rfl
  have hsv : (lm (linEnv A c maxAbs sol) i).solve s.p s.x s.dx s.error s.prevFailed =
      (⟨(s.p.base.call s.error s.prevFailed).done, some m', s.x.1, s.p.rest⟩, true, d) := hcall
  have hcand : candidate (lm (linEnv A c maxAbs sol) i) s = (s.x.1 + d, s.x.1) := by
    unfold candidate
    rw [hsv]; rfl
  have hcost : (lm (linEnv A c maxAbs sol) i).cost (candidate (lm (linEnv A c maxAbs sol) i) s) = .fin (linCost A c (s.x.1 + d)) := by
    rw [hcand]; rfl
  have hgain := (lin_gain k2).1
  have hsub : Dbl.sub s.pJ (.fin (linCost A c (s.x.1 + d))) = .fin (linCost A c s.x.1 - linCost A c (s.x.1 + d)) := by
    rw [i3]; rfl
  have hs' : s' = afterAccept (lm (linEnv A c maxAbs sol) i) s := by
    rcases iter_cases hi with ⟨h1, _⟩ | ⟨_, _, h1, _⟩ | ⟨_, _, h1⟩
    · rw [hsv] at h1; cases h1
    · rw [hcost, hsub] at h1
      have := (Dbl.lt_fin _ _).1 h1
      rw [hgain] at this
      have : 0 ≤ ‖A d‖ ^ 2 + 2 * (m'.lambda * m'.lambda) * ‖d‖ ^ 2 := by
        have := u2.lambda
        positivity
      linarith
    · exact h1
  have x' : s'.x = (s.x.1 + d, s.x.1) := by rw [hs']; exact hcand
  have p' : s'.p = ⟨(s.p.base.call s.error s.prevFailed).done, some m', s.x.1, s.p.rest⟩ := by
    rw [hs']; show ((lm (linEnv A c maxAbs sol) i).solve s.p s.x s.dx s.error s.prevFailed).1 = _; rw [hsv]
  have d' : s'.dx = d := by
    rw [hs']; show ((lm (linEnv A c maxAbs sol) i).solve s.p s.x s.dx s.error s.prevFailed).2.2 = _; rw [hsv]
  have dX' : s'.deltaX = .fin (maxAbs d) := by
    rw [hs']
    show (lm (linEnv A c maxAbs sol) i).maxAbs ((lm (linEnv A c maxAbs sol) i).solve s.p s.x s.dx s.error s.prevFailed).2.2 = _
    rw [hsv]; rfl
  have hx1 : s'.x.1 = s.x.1 + d := by rw [x']
  refine ⟨⟨?_, ?_, ?_, ?_, m', ?_, u2, u3, u4, u5, u6, fun _ => ⟨?_, ?_, ?_, ?_⟩⟩, ?_, ?_, m'.lambda, d, u2.lambda, u6, hx1, dX',
    ⟨linCost A c s.x.1 - linCost A c (s.x.1 + d), by rw [← hsub, ← hcost, hs']; rfl⟩, k2⟩
  · rw [hs']; exact i1
  · rw [hs']; rfl
  · rw [hx1, ← hcost, hs']; rfl
  · rw [hx1, ← hcost, hs']; rfl
  · rw [p']
  · rw [p']; exact i4
  · rw [hx1, p', d']
  · rw [p', d']; exact k1
  · rw [dX', d']
  · rw [hs']; rfl
  · rw [hs']; rfl

theorem rate_start (A : V →ₗ[ℝ] W) (c : W) (maxAbs : V → ℝ) (sol : V → Option ℝ → Option V) {i : LM ℝ} (hok : LMOk i) {P : ℝ → Prop}
    (hP : Kept A i P) (o : Options ℝ) (b : Obj ℝ (V × V) V (LMP ℝ V)) :
    RateInv A c maxAbs sol i P (enter (lm (linEnv A c maxAbs sol) i) o b) :=
  ⟨rfl, rfl, rfl, rfl, i, rfl, hok, rfl, rfl, rfl, hP.start, fun h => by cases h⟩

/-- The errors before and after a damped step. -/
theorem step_error {A : V →ₗ[ℝ] W} {c : W} {q d m : V} {l : ℝ} (hm : Stationary A c m)
    (h : ∀ v, inner ℝ (A d) (A v) + l * l * inner ℝ d v = -inner ℝ (A q - c) (A v)) (v : V) :
    inner ℝ (A (q + d - m)) (A v) + l * l * inner ℝ (q + d - m) v = l * l * inner ℝ (q - m) v := by
  have h1 := h v
  have h2 := hm v
  have e : q + d - m = (q - m) + d := by abel
  rw [e, map_add, inner_add_left, inner_add_left]
  have e2 : A q - c = A (q - m) + (A m - c) := by rw [map_sub]; abel
  rw [e2, inner_add_left, h2] at h1
  linarith

/-- A damped step shortens the distance by a factor. -/
theorem step_contracts {A : V →ₗ[ℝ] W} {c : W} {q d m : V} {l L σ : ℝ} (hl : 0 < l) (hL : l ≤ L) (hσ : 0 < σ)
    (hA : ∀ v, σ * ‖v‖ ^ 2 ≤ ‖A v‖ ^ 2) (hm : Stationary A c m)
    (h : ∀ v, inner ℝ (A d) (A v) + l * l * inner ℝ d v = -inner ℝ (A q - c) (A v)) :
    ‖q + d - m‖ ≤ L ^ 2 / (σ + L ^ 2) * ‖q - m‖ := by
  have h1 := step_error hm h (q + d - m)
  rw [real_inner_self_eq_norm_sq, real_inner_self_eq_norm_sq] at h1
  have h2 := hA (q + d - m)
  have h3 := real_inner_le_norm (q - m) (q + d - m)
  have hll : 0 < l * l := by positivity
  by_cases hz : ‖q + d - m‖ = 0
  · rw [hz]; positivity
  have hb : 0 < ‖q + d - m‖ := lt_of_le_of_ne (norm_nonneg _) (Ne.symm hz)
  have h4 : (σ + l * l) * ‖q + d - m‖ ≤ l * l * ‖q - m‖ := by
    have : ((σ + l * l) * ‖q + d - m‖) * ‖q + d - m‖ ≤ (l * l * ‖q - m‖) * ‖q + d - m‖ := by
      have := mul_le_mul_of_nonneg_left h3 hll.le
      nlinarith
    exact le_of_mul_le_mul_right this hb
  have hden : 0 < σ + L ^ 2 := by positivity
  rw [div_mul_eq_mul_div, le_div_iff₀ hden]
  -- multiply by `σ + l l`
  have hlL : l * l ≤ L ^ 2 := by nlinarith
  have h5 : 0 < σ + l * l := by positivity
  have h6 : ‖q + d - m‖ * (σ + L ^ 2) * (σ + l * l) ≤ L ^ 2 * ‖q - m‖ * (σ + l * l) := by
    calc ‖q + d - m‖ * (σ + L ^ 2) * (σ + l * l) = (σ + l * l) * ‖q + d - m‖ * (σ + L ^ 2) := by ring
      _ ≤ l * l * ‖q - m‖ * (σ + L ^ 2) := mul_le_mul_of_nonneg_right h4 hden.le
      _ ≤ L ^ 2 * ‖q - m‖ * (σ + l * l) := by
        have := mul_le_mul_of_nonneg_right hlL (mul_nonneg hσ.le (norm_nonneg (q - m)))
        nlinarith
  exact le_of_mul_le_mul_right h6 h5

/-- A damped step does not shorten the distance by more than a factor. -/
theorem step_slow {A : V →ₗ[ℝ] W} {c : W} {q d m : V} {l lo τ : ℝ} (hlo : 0 < lo) (hL : lo ≤ l) (hτ : 0 ≤ τ)
    (hA : ∀ v, ‖A v‖ ^ 2 ≤ τ * ‖v‖ ^ 2) (hm : Stationary A c m)
    (h : ∀ v, inner ℝ (A d) (A v) + l * l * inner ℝ d v = -inner ℝ (A q - c) (A v)) :
    lo ^ 2 / (τ + lo ^ 2) * ‖q - m‖ ≤ ‖q + d - m‖ := by
  have h1 := step_error hm h (q - m)
  rw [real_inner_self_eq_norm_sq] at h1
  have h2 : inner ℝ (A (q + d - m)) (A (q - m)) ≤ τ * (‖q + d - m‖ * ‖q - m‖) := by
    refine (real_inner_le_norm _ _).trans ?_
    have a1 := hA (q + d - m)
    have a2 := hA (q - m)
    refine le_of_sq_le_sq ?_ (by positivity)
    have := mul_le_mul a1 a2 (by positivity) (by positivity)
    nlinarith
  have h3 := real_inner_le_norm (q + d - m) (q - m)
  have hl : 0 < l := lt_of_lt_of_le hlo hL
  have hll : 0 < l * l := by positivity
  have hden : 0 < τ + lo ^ 2 := by positivity
  by_cases hz : ‖q - m‖ = 0
  · rw [hz, mul_zero]; exact norm_nonneg _
  have hb : 0 < ‖q - m‖ := lt_of_le_of_ne (norm_nonneg _) (Ne.symm hz)
  have h4 : l * l * ‖q - m‖ ≤ (τ + l * l) * ‖q + d - m‖ := by
    have : (l * l * ‖q - m‖) * ‖q - m‖ ≤ ((τ + l * l) * ‖q + d - m‖) * ‖q - m‖ := by
      have := mul_le_mul_of_nonneg_left h3 hll.le
      nlinarith
    exact le_of_mul_le_mul_right this hb
  rw [div_mul_eq_mul_div, div_le_iff₀ hden]
  have hlL : lo ^ 2 ≤ l * l := by nlinarith
  have h6 : lo ^ 2 * ‖q - m‖ * (l * l) ≤ ‖q + d - m‖ * (τ + lo ^ 2) * (l * l) := by
    have a := mul_le_mul_of_nonneg_left h4 (sq_nonneg lo)
    have b := mul_le_mul_of_nonneg_right hlL (mul_nonneg hτ (norm_nonneg (q + d - m)))
    nlinarith
  exact le_of_mul_le_mul_right h6 hll

/-- Points of least cost satisfy the normal equations. -/
theorem UniqueMin.stationary {A : V →ₗ[ℝ] W} {c : W} {sol : V → Option ℝ → Option V} (hsol : SolvesNormal A c sol) {m : V}
    (hm : UniqueMin (linCost A c) m) : Stationary A c m := by
  obtain ⟨g, _, hg⟩ := hsol m 0 le_rfl
  have hst : Stationary A c (m + g) := by
    intro v
    have := hg v
    rw [map_add]
    have e : A m + A g - c = (A m - c) + A g := by abel
    rw [e, inner_add_left]
    linarith
  by_cases hz : g = 0
  · rw [hz, add_zero] at hst; exact hst
  · exfalso
    have h1 := hm (m + g) (by simpa using hz)
    have h2 := hst.cost m
    have : 0 ≤ ‖A (m - (m + g))‖ ^ 2 := by positivity
    linarith

/-- The damping never exceeds its initial value and a third of `beta`. -/
theorem kept_le (A : V →ₗ[ℝ] W) {i : LM ℝ} (hok : LMOk i) (hγ : 1 ≤ i.gamma) : Kept A i fun l => l ≤ max i.lambda (i.beta / 3) := by
  have hb := hok.beta
  have hγ' : 1 / i.gamma ≤ 1 := by rw [div_le_one hok.gamma]; exact hγ
  refine ⟨le_max_left _ _, fun l d hl hd hle => ?_, fun l _ _ => ?_⟩
  · have hr := linRho_pos A hl hd
    have hpb := pow_bound hr hok.p
    rcases le_or_gt (1 / 3) l with h3 | h3
    · refine le_trans ?_ hle
      have hhalf : 0 ≤ 2 * linRho A l d - 1 := by
        have hn := norm_pos_iff.2 hd
        have : 1 / 2 ≤ linRho A l d := by
          unfold linRho
          rw [div_le_div_iff₀ (by norm_num) (by positivity)]
          have h1 : 0 ≤ ‖A d‖ ^ 2 := by positivity
          have h2 : 0 ≤ (3 * l - 1) * (l * ‖d‖ ^ 2) := mul_nonneg (by linarith) (by positivity)
          nlinarith
        linarith
      have : shrink i (linRho A l d) ≤ 1 := by
        unfold shrink
        apply max_le hγ'
        have := zpow_nonneg hhalf i.p
        nlinarith [mul_nonneg (by linarith : 0 ≤ i.beta - 1) this]
      nlinarith
    · refine le_trans ?_ (le_max_right _ _)
      have : shrink i (linRho A l d) ≤ i.beta := by
        unfold shrink
        apply max_le (hγ'.trans hb)
        nlinarith [mul_nonneg (by linarith : 0 ≤ i.beta - 1) (by linarith : 0 ≤ (2 * linRho A l d - 1) ^ i.p + 1)]
      nlinarith
  · refine le_trans ?_ (le_max_right _ _)
    have : (1 : ℝ) / 10 ^ 15 ≤ 1 / 3 := by norm_num
    linarith

/-- **C138** (rate). Let the residual be linear with a Jacobian that stretches every vector by at least `√σ`. Before every pass of every run
with the Levenberg-Marquardt policy the distance to the point of least cost is at most the distance at the start times
`(L² / (σ + L²))ᵏ`, where `k` is the number of iterations done and `L` the larger of the initial damping and a third of `beta`. -/
theorem C138_rate (A : V →ₗ[ℝ] W) (σ : ℝ) (hσ : 0 < σ) (hA : ∀ v, σ * ‖v‖ ^ 2 ≤ ‖A v‖ ^ 2) (c : W) (maxAbs : V → ℝ)
    (h0 : maxAbs 0 = 0) (sol : V → Option ℝ → Option V) (hsol : SolvesNormal A c sol) (i : LM ℝ) (hok : LMOk i) (hγ : 1 ≤ i.gamma)
    (o : Options ℝ) (hx : 0 ≤ o.convergenceDeltaX) (b : Obj ℝ (V × V) V (LMP ℝ V)) (s : St ℝ (V × V) V (LMP ℝ V))
    (hs : Reach (lm (linEnv A c maxAbs sol) i) o b s) (m : V) (hm : UniqueMin (linCost A c) m) :
    ∃ k : Nat, s.iterations = b.iterations + k ∧ s.failed = b.failed ∧
      ‖s.x.1 - m‖ ≤ (max i.lambda (i.beta / 3) ^ 2 / (σ + max i.lambda (i.beta / 3) ^ 2)) ^ k * ‖b.x.1 - m‖ := by
  have hst := hm.stationary hsol
  have hP := kept_le A hok hγ
  have hI := reach_inv (S := lm (linEnv A c maxAbs sol) i) (o := o) (b := b)
    (fun s => RateInv A c maxAbs sol i (fun l => l ≤ max i.lambda (i.beta / 3)) s ∧ ∃ k : Nat, s.iterations = b.iterations + k ∧
      s.failed = b.failed ∧
      ‖s.x.1 - m‖ ≤ (max i.lambda (i.beta / 3) ^ 2 / (σ + max i.lambda (i.beta / 3) ^ 2)) ^ k * ‖b.x.1 - m‖) ?_ ?_ s hs
  · exact hI.2
  · refine ⟨rate_start A c maxAbs sol hok hP o b, 0, ?_, rfl, ?_⟩
    · show b.iterations = _; simp
    · show ‖b.x.1 - m‖ ≤ _; simp
  · rintro t t' hrun hi ⟨hI, k, h1, h2, h3⟩
    obtain ⟨g1, g2, g3, l, d, g4, g5, g6, _, _, g9⟩ := rate_pass h0 hsol hok hP hx hI hrun hi
    refine ⟨g1, k + 1, by rw [g2, h1]; push_cast; ring, by rw [g3, h2], ?_⟩
    rw [g6]
    refine (step_contracts g4 g5 hσ hA hst g9).trans ?_
    rw [pow_succ' _ k, mul_assoc]
    exact mul_le_mul_of_nonneg_left h3 (by positivity)

/-- **C138** (iterations). With a positive threshold for the step, the first `optimize()` on such a problem needs at most `N + 1` iterations,
all of them successful, as soon as `2 (L² / (σ + L²))ᴺ` times the distance at the start is at most the threshold; with a budget of
more than `N + 1` iterations it reports convergence. -/
theorem C138_iterations (A : V →ₗ[ℝ] W) (σ : ℝ) (hσ : 0 < σ) (hA : ∀ v, σ * ‖v‖ ^ 2 ≤ ‖A v‖ ^ 2) (c : W) (maxAbs : V → ℝ)
    (h0 : maxAbs 0 = 0) (hmax : ∀ d, maxAbs d ≤ ‖d‖) (sol : V → Option ℝ → Option V) (hsol : SolvesNormal A c sol) (i : LM ℝ)
    (hok : LMOk i) (hγ : 1 ≤ i.gamma) (o : Options ℝ) (hx : 0 ≤ o.convergenceDeltaX) (x : V × V) (p : LMP ℝ V) (dx : V) (m : V)
    (hm : UniqueMin (linCost A c) m) (N : Nat)
    (hN : 2 * ((max i.lambda (i.beta / 3) ^ 2 / (σ + max i.lambda (i.beta / 3) ^ 2)) ^ N * ‖x.1 - m‖) ≤ o.convergenceDeltaX) :
    ∃ r, optimize (lm (linEnv A c maxAbs sol) i) o (fresh x p dx) = .ok r ∧ 0 ≤ r.iterations ∧ r.iterations ≤ N + 1 ∧ r.failed = 0 ∧
      ‖r.x.1 - m‖ ≤ (max i.lambda (i.beta / 3) ^ 2 / (σ + max i.lambda (i.beta / 3) ^ 2)) ^ r.iterations.toNat * ‖x.1 - m‖ ∧
      (N + 1 < o.maxIterations → r.conv = .dx ∨ r.conv = .dObjective) := by
  set κ := max i.lambda (i.beta / 3) ^ 2 / (σ + max i.lambda (i.beta / 3) ^ 2) with hκ
  have hκ0 : 0 ≤ κ := by positivity
  have hκ1 : κ ≤ 1 := by rw [hκ, div_le_one (by positivity)]; linarith
  have hst := hm.stationary hsol
  have hP := kept_le A hok hγ
  set S := lm (linEnv A c maxAbs sol) i with hS
  obtain ⟨r, hr⟩ := (C23_terminates_within_budget S o x p dx).1 (fun _ _ _ _ _ => rfl)
  refine ⟨r, hr, ?_⟩
  have hstat := C25_status_partial S o (fresh x p dx) r rfl hr
  obtain ⟨s, e, hr'⟩ := run_ok (show run S o (initObj (fresh x p dx)) = .ok r from hr)
  have hinv := loop_inv (S := S) (o := o)
    (fun s => RateInv A c maxAbs sol i (fun l => l ≤ max i.lambda (i.beta / 3)) s ∧ s.failed = 0 ∧ s.deltaX ≠ .nan ∧ s.deltaJ ≠ .nan ∧
      ∃ k : Nat, s.iterations = k ∧ k ≤ N + 1 ∧ ‖s.x.1 - m‖ ≤ κ ^ k * ‖x.1 - m‖ ∧
        (0 < k → ∃ d, s.deltaX = .fin (maxAbs d) ∧ ‖d‖ ≤ 2 * (κ ^ (k - 1) * ‖x.1 - m‖))) ?_ _ ?_ _ e
  · obtain ⟨⟨j1, j2, j3, j4, k, j5, j6, j7, _⟩, _⟩ := hinv
    subst hr'
    have f1 : (leave S o (initObj (fresh x p dx)) s).iterations = k := j5
    have f2 : (leave S o (initObj (fresh x p dx)) s).failed = 0 := j2
    refine ⟨by rw [f1]; omega, by rw [f1]; omega, f2, ?_, fun hb => ?_⟩
    · rw [f1]
      show ‖s.x.1 - m‖ ≤ κ ^ (k : Int).toNat * _
      rw [Int.toNat_natCast]; exact j7
    · obtain ⟨a1, a2, _, _, a5, a6⟩ := hstat
      have a6' := a6 j3 j4
      have f3 : (leave S o (initObj (fresh x p dx)) s).linearSolverFailure = false := j1.1
      rw [f1] at a1
      rw [f2, f3] at a2
      cases hc : (leave S o (initObj (fresh x p dx)) s).conv with
      | dx => exact .inl rfl
      | dObjective => exact .inr rfl
      | inProgress => exact absurd hc a6'
      | gradientNorm => exact absurd hc a5
      | failure =>
        rcases a2 hc with h | h
        · cases h
        · omega
      | maxIterations =>
        have := a1.1 hc
        omega
  · rintro t t' hrun hi ⟨hI, k1, k2, k3, k, k4, k5, k6, k7⟩
    have hlsf := hI.1
    obtain ⟨g1, g2, g3, l, d, g4, g5, g6, g7, ⟨ee, g8⟩, g9⟩ := rate_pass h0 hsol hok hP hx hI hrun hi
    have hkN : k ≤ N := by
      by_contra hc
      obtain ⟨d', h1, h2⟩ := k7 (by omega)
      have hk' : k - 1 = N := by omega
      rw [hk'] at h2
      unfold running at hrun
      rw [hlsf, h1] at hrun
      simp only [Bool.or_false, Bool.and_eq_true] at hrun
      have := (Dbl.lt_fin _ _).1 hrun.2.1
      have := hmax d'
      linarith
    refine ⟨g1, by rw [g3, k1], by rw [g7]; simp, by rw [g8]; simp, k + 1, by rw [g2, k4]; push_cast; ring, by omega, ?_, fun _ => ?_⟩
    · rw [g6]
      refine (step_contracts g4 g5 hσ hA hst g9).trans ?_
      rw [pow_succ' _ k, mul_assoc]
      exact mul_le_mul_of_nonneg_left k6 hκ0
    · refine ⟨d, g7, ?_⟩
      have hb := step_contracts g4 g5 hσ hA hst g9
      have e1 : d = (t.x.1 + d - m) - (t.x.1 - m) := by abel
      have e2 : ‖d‖ ≤ ‖t.x.1 + d - m‖ + ‖t.x.1 - m‖ := by
        conv_lhs => rw [e1]
        exact norm_sub_le _ _
      have e3 : κ * ‖t.x.1 - m‖ ≤ 1 * ‖t.x.1 - m‖ := mul_le_mul_of_nonneg_right hκ1 (norm_nonneg _)
      have e4 : k + 1 - 1 = k := rfl
      rw [e4]
      linarith
  · refine ⟨rate_start A c maxAbs sol hok hP o _, rfl, by simp [enter], by simp [enter], 0, rfl, by omega, ?_, fun h => absurd h (lt_irrefl _)⟩
    show ‖x.1 - m‖ ≤ _
    simp

/-- The damping stays above a bound if the Jacobian is small. -/
theorem kept_ge (A : V →ₗ[ℝ] W) {i : LM ℝ} (hβ : i.beta = 2) (hp : i.p = 3) (hγ : i.gamma = 3) (lo : ℝ) (hlo : 1 / 10 ^ 16 < lo)
    (hi : lo ≤ i.lambda) (h12 : lo ≤ 1 / 12) (hA : ∀ v, ‖A v‖ ^ 2 ≤ lo / 8 * ‖v‖ ^ 2) : Kept A i fun l => lo ≤ l := by
  have hlo0 : 0 < lo := lt_trans (by positivity) hlo
  refine ⟨hi, fun l d hl hd hle => ?_, fun l h1 h2 => absurd (lt_of_lt_of_le hlo (h1.trans h2)) (lt_irrefl _)⟩
  rcases le_or_gt l (1 / 4) with h4 | h4
  · have hn := norm_pos_iff.2 hd
    have hhalf : linRho A l d ≤ 1 / 2 := by
      unfold linRho
      rw [div_le_div_iff₀ (by positivity) (by norm_num)]
      have h1 := hA d
      have h2 : 0 ≤ (1 - 3 * l) * l * ‖d‖ ^ 2 - lo / 8 * ‖d‖ ^ 2 := by
        have : lo / 8 ≤ (1 - 3 * l) * l := by nlinarith
        nlinarith [mul_nonneg (sub_nonneg.2 this) (sq_nonneg ‖d‖)]
      nlinarith
    have : 1 ≤ shrink i (linRho A l d) := by
      unfold shrink
      refine le_trans ?_ (le_max_right _ _)
      rw [hβ, hp]
      have e : (2 * linRho A l d - 1) ^ (3 : Int) = (2 * linRho A l d - 1) ^ 3 := by norm_cast
      rw [e]
      have : (2 * linRho A l d - 1) ^ 3 ≤ 0 := by
        have : 0 ≤ (1 - 2 * linRho A l d) ^ 3 := pow_nonneg (by linarith) 3
        nlinarith
      linarith
    nlinarith
  · have : 1 / 3 ≤ shrink i (linRho A l d) := by
      unfold shrink
      refine le_trans ?_ (le_max_left _ _)
      rw [hγ]
    nlinarith

/-- **C138** (limit). The damping does not fade out: the gain ratio compares the decrease of the cost with a prediction for the damping `λ`, while
the system is damped with `λ²`. With the default parameters `gamma = 3`, `beta = 2`, `p = 3`, on every linear problem whose Jacobian stretches no vector
by more than `√(lo / 8)`, no run ever lowers the damping below `lo`, and each iteration keeps at least the part `lo² / (τ + lo²)` of the
distance to the point of least cost, however many iterations are done. -/
theorem C138_damping_stays_counterexample (A : V →ₗ[ℝ] W) (c : W) (maxAbs : V → ℝ) (h0 : maxAbs 0 = 0)
    (sol : V → Option ℝ → Option V) (hsol : SolvesNormal A c sol) (i : LM ℝ) (hok : LMOk i) (hβ : i.beta = 2) (hp : i.p = 3)
    (hγ : i.gamma = 3) (lo τ : ℝ) (hlo : 1 / 10 ^ 16 < lo) (hi : lo ≤ i.lambda) (h12 : lo ≤ 1 / 12) (hτ : 0 ≤ τ) (hτ8 : τ ≤ lo / 8)
    (hA : ∀ v, ‖A v‖ ^ 2 ≤ τ * ‖v‖ ^ 2) (o : Options ℝ) (hx : 0 ≤ o.convergenceDeltaX) (b : Obj ℝ (V × V) V (LMP ℝ V))
    (s : St ℝ (V × V) V (LMP ℝ V)) (hs : Reach (lm (linEnv A c maxAbs sol) i) o b s) (m : V) (hm : UniqueMin (linCost A c) m) :
    (∃ l, s.p.lm = some l ∧ lo ≤ l.lambda) ∧
      ∃ k : Nat, s.iterations = b.iterations + k ∧ (lo ^ 2 / (τ + lo ^ 2)) ^ k * ‖b.x.1 - m‖ ≤ ‖s.x.1 - m‖ := by
  have hlo0 : 0 < lo := lt_trans (by positivity) hlo
  have hst := hm.stationary hsol
  have hP := kept_ge A hβ hp hγ lo hlo hi h12 (fun v => (hA v).trans (mul_le_mul_of_nonneg_right hτ8 (sq_nonneg _)))
  have hI := reach_inv (S := lm (linEnv A c maxAbs sol) i) (o := o) (b := b)
    (fun s => RateInv A c maxAbs sol i (fun l => lo ≤ l) s ∧ ∃ k : Nat, s.iterations = b.iterations + k ∧
      (lo ^ 2 / (τ + lo ^ 2)) ^ k * ‖b.x.1 - m‖ ≤ ‖s.x.1 - m‖) ?_ ?_ s hs
  · obtain ⟨⟨_, _, _, _, l, h1, _, _, _, _, h2, _⟩, h3⟩ := hI
    exact ⟨⟨l, h1, h2⟩, h3⟩
  · refine ⟨rate_start A c maxAbs sol hok hP o b, 0, ?_, ?_⟩
    · show b.iterations = _; simp
    · show _ ≤ ‖b.x.1 - m‖; simp
  · rintro t t' hrun hi ⟨hI, k, h1, h3⟩
    obtain ⟨g1, g2, g3, l, d, g4, g5, g6, _, _, g9⟩ := rate_pass h0 hsol hok hP hx hI hrun hi
    refine ⟨g1, k + 1, by rw [g2, h1]; push_cast; ring, ?_⟩
    rw [g6]
    refine le_trans ?_ (step_slow hlo0 g5 hτ hA hst g9)
    rw [pow_succ' _ k, mul_assoc]
    exact mul_le_mul_of_nonneg_left h3 (by positivity)

/-- The residual `q / 100` with the exact solver and the default `gamma`, `beta` and `p`. -/
noncomputable def percent : ℝ →ₗ[ℝ] ℝ := (1 / 100 : ℝ) • LinearMap.id

/-- Its solver. -/
noncomputable def percentSol (q : ℝ) (m : Option ℝ) : Option ℝ := m.map fun l => -(1 / 10000 * q) / (1 / 10000 + l * l)

theorem percent_solves : SolvesNormal percent 0 percentSol := by
  intro q l hl
  refine ⟨_, rfl, fun v => ?_⟩
  have : 0 < 1 / 10000 + l * l := by positivity
  simp [percent]
  field_simp
  ring

theorem percent_norm (v : ℝ) : ‖percent v‖ ^ 2 = 1 / 10000 * ‖v‖ ^ 2 := by
  simp [percent, mul_pow]
  norm_num

theorem percent_min : UniqueMin (linCost percent 0) 0 := by
  intro y hy
  unfold linCost
  have : 0 < y ^ 2 := by positivity
  simp [percent, mul_pow]
  positivity

/-- All three theorems apply; after any number `k` of iterations the distance is between `0.98ᵏ` and `0.9998ᵏ` times the one at the start. -/
example (o : Options ℝ) (hx : 0 ≤ o.convergenceDeltaX) (b : Obj ℝ (ℝ × ℝ) ℝ (LMP ℝ ℝ)) (s : St ℝ (ℝ × ℝ) ℝ (LMP ℝ ℝ))
    (hs : Reach (lm (linEnv percent 0 (fun d => |d|) percentSol) ⟨1 / 12, 3, 2, 3, 2⟩) o b s) :
    ∃ k : Nat, s.iterations = b.iterations + k ∧ ‖s.x.1‖ ≤ (9998 / 10000) ^ k * ‖b.x.1‖ ∧ (98 / 100) ^ k * ‖b.x.1‖ ≤ ‖s.x.1‖ := by
  have hok : LMOk (⟨1 / 12, 3, 2, 3, 2⟩ : LM ℝ) := ⟨by norm_num, by norm_num, by norm_num, by norm_num, by norm_num⟩
  obtain ⟨k, h1, _, h2⟩ := C138_rate percent (1 / 10000) (by norm_num) (fun v => (percent_norm v).ge) 0 _ abs_zero _ percent_solves _ hok
    (by norm_num) o hx b s hs 0 percent_min
  obtain ⟨_, k', h3, h4⟩ := C138_damping_stays_counterexample percent 0 _ abs_zero _ percent_solves _ hok rfl rfl rfl (1 / 12) (1 / 10000)
    (by norm_num) (by norm_num) le_rfl (by norm_num) (by norm_num) (fun v => (percent_norm v).le) o hx b s hs 0 percent_min
  obtain rfl : k' = k := by omega
  rw [sub_zero, sub_zero] at h2 h4
  refine ⟨k', h1, h2.trans ?_, le_trans ?_ h4⟩
  · refine mul_le_mul_of_nonneg_right (pow_le_pow_left₀ (by positivity) ?_ _) (norm_nonneg _)
    rw [max_eq_right (by norm_num)]
    norm_num
  · refine mul_le_mul_of_nonneg_right (pow_le_pow_left₀ (by positivity) ?_ _) (norm_nonneg _)
    norm_num

/-- A threshold of 2 and a start at 1: no more than one iteration. -/
example (x : ℝ) (p : LMP ℝ ℝ) (dx : ℝ) : ∃ r, optimize (lm (linEnv percent 0 (fun d => |d|) percentSol) ⟨1 / 12, 3, 2, 3, 2⟩) ⟨2, 0, 10⟩
    (fresh (1, x) p dx) = .ok r ∧ r.iterations ≤ 1 ∧ (r.conv = .dx ∨ r.conv = .dObjective) := by
  obtain ⟨r, h1, _, h2, _, _, h3⟩ := C138_iterations percent (1 / 10000) (by norm_num) (fun v => (percent_norm v).ge) 0 (fun d => |d|)
    abs_zero (fun d => le_rfl) _ percent_solves ⟨1 / 12, 3, 2, 3, 2⟩ ⟨by norm_num, by norm_num, by norm_num, by norm_num, by norm_num⟩
    (by norm_num) ⟨2, 0, 10⟩ (by norm_num) (1, x) p dx 0 percent_min 0 (by norm_num)
  exact ⟨r, h1, by simpa using h2, h3 (by norm_num)⟩

end Verif.Policy
