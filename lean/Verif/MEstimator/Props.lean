import Verif.MEstimator.Model
import Mathlib.Tactic.Linarith
import Mathlib.Tactic.NormNum
import Mathlib.Tactic.FieldSimp
import Mathlib.Tactic.Positivity
import Mathlib.Tactic.Ring

/-! Property theorems C42, C43, C44, C69 for M-estimator weights. -/
namespace Verif.MEstimator

/-- **C42** (none). -/
theorem C42_none (e : ℝ) : noWeight e = 1 := rfl

/-- **C42** (Geman-McClure). Positive, non-increasing, and maximal, `1/σ²`, at zero error. -/
theorem C42_gemanMcClure (s : ℝ) (hs : 0 < s) :
    (∀ e, 0 ≤ e → 0 < gemanMcClure s e ∧ gemanMcClure s e ≤ 1 / s) ∧
    (∀ e e', 0 ≤ e → e ≤ e' → gemanMcClure s e' ≤ gemanMcClure s e) ∧
    gemanMcClure s 0 = 1 / s := by
  have h0 : gemanMcClure s 0 = 1 / s := by unfold gemanMcClure; field_simp; ring
  have hm : ∀ e e', 0 ≤ e → e ≤ e' → gemanMcClure s e' ≤ gemanMcClure s e := by
    intro e e' he hee
    unfold gemanMcClure
    apply div_le_div_of_nonneg_left hs.le (by positivity)
    apply mul_self_le_mul_self (by positivity); linarith
  refine ⟨fun e he => ⟨?_, ?_⟩, hm, h0⟩
  · unfold gemanMcClure; positivity
  · rw [← h0]; exact hm 0 e le_rfl he

/-- **C42** (Geman-McClure). The weight is not normalised: for a scale below one the weight at zero
error exceeds one. -/
theorem C42_gemanMcClure_not_normalised_counterexample : gemanMcClure (1 / 4) 0 = 4 := by
  unfold gemanMcClure; norm_num

/-- **C42** (Cauchy). In `(0,1]`, non-increasing, one at zero error. -/
theorem C42_cauchy (s : ℝ) (hs : 0 < s) :
    (∀ e, 0 ≤ e → 0 < cauchy s e ∧ cauchy s e ≤ 1) ∧
    (∀ e e', 0 ≤ e → e ≤ e' → cauchy s e' ≤ cauchy s e) ∧ cauchy s 0 = 1 := by
  have h0 : cauchy s 0 = 1 := by simp [cauchy]
  have hm : ∀ e e', 0 ≤ e → e ≤ e' → cauchy s e' ≤ cauchy s e := by
    intro e e' he hee
    unfold cauchy
    apply one_div_le_one_div_of_le (by positivity)
    have : e / s ≤ e' / s := div_le_div_of_nonneg_right hee hs.le
    linarith
  refine ⟨fun e he => ⟨?_, ?_⟩, hm, h0⟩
  · unfold cauchy; positivity
  · rw [← h0]; exact hm 0 e le_rfl he

theorem huber_ge {k e : ℝ} (hk : 0 < k) (h : k * k ≤ e) : 0 < huber k e ∧ huber k e ≤ 1 := by
  have hpos : 0 < e := lt_of_lt_of_le (by positivity) h
  have hks : k ≤ Real.sqrt e := Real.le_sqrt_of_sq_le (by rw [pow_two]; exact h)
  unfold huber
  rw [if_neg (not_lt.2 h)]
  exact ⟨div_pos hk (Real.sqrt_pos.2 hpos), (div_le_one (Real.sqrt_pos.2 hpos)).2 hks⟩

/-- **C42** (Huber). In `(0,1]`, non-increasing (also across the threshold), one up to and including
the squared threshold. -/
theorem C42_huber (k : ℝ) (hk : 0 < k) :
    (∀ e, 0 ≤ e → 0 < huber k e ∧ huber k e ≤ 1) ∧
    (∀ e e', 0 ≤ e → e ≤ e' → huber k e' ≤ huber k e) ∧ (∀ e, e ≤ k * k → huber k e = 1) := by
  refine ⟨?_, ?_, ?_⟩
  · intro e _
    by_cases h : e < k * k
    · simp [huber, h]
    · exact huber_ge hk (not_lt.1 h)
  · intro e e' he hee
    by_cases h : e < k * k
    · have h1 : huber k e = 1 := by simp [huber, h]
      rw [h1]
      by_cases h' : e' < k * k
      · simp [huber, h']
      · exact (huber_ge hk (not_lt.1 h')).2
    · have hpos : 0 < e := lt_of_lt_of_le (by positivity) (not_lt.1 h)
      unfold huber
      rw [if_neg h, if_neg (by linarith [not_lt.1 h])]
      exact div_le_div_of_nonneg_left hk.le (Real.sqrt_pos.2 hpos) (Real.sqrt_le_sqrt hee)
  · intro e he
    rcases lt_or_eq_of_le he with h | h
    · simp [huber, h]
    · unfold huber
      rw [if_neg (by linarith), h, Real.sqrt_mul_self hk.le, div_self hk.ne']

/-- **C42** (Blake-Zisserman). In `(0,1)`, strictly decreasing; at zero error the weight is
`1/(1+ε)`, below one for every positive `ε`. -/
theorem C42_blakeZisserman (eps : ℝ) (he : 0 < eps) :
    (∀ m, 0 < blakeZisserman eps m ∧ blakeZisserman eps m < 1) ∧
    (∀ m m', m < m' → blakeZisserman eps m' < blakeZisserman eps m) ∧
    blakeZisserman eps 0 = 1 / (1 + eps) := by
  refine ⟨fun m => ⟨?_, ?_⟩, ?_, by simp [blakeZisserman]⟩
  · unfold blakeZisserman; have := Real.exp_pos (-m); positivity
  · unfold blakeZisserman
    have := Real.exp_pos (-m)
    rw [div_lt_one (by positivity)]; linarith
  · intro m m' h
    unfold blakeZisserman
    have h1 := Real.exp_pos (-m)
    have h2 := Real.exp_pos (-m')
    have h3 : Real.exp (-m') < Real.exp (-m) := Real.exp_lt_exp.2 (by linarith)
    rw [div_lt_div_iff₀ (by positivity) (by positivity)]
    nlinarith

/-- **C43.** With `ε` computed for a cut weight `w ∈ (0,1]`, the weight at the requested quantile is
`w`, above it before the quantile and below it after it. -/
theorem C43_cut_weight (q w : ℝ) (hw : 0 < w) :
    blakeZisserman (computeEpsilon q w) q = w ∧
    (w < 1 → ∀ m, (m < q → w < blakeZisserman (computeEpsilon q w) m) ∧
      (q < m → blakeZisserman (computeEpsilon q w) m < w)) := by
  have h : blakeZisserman (computeEpsilon q w) q = w := by
    unfold blakeZisserman computeEpsilon
    have := Real.exp_pos (-q)
    field_simp
    ring
  refine ⟨h, fun hw1 m => ?_⟩
  have heps : 0 < computeEpsilon q w := by
    unfold computeEpsilon
    have := Real.exp_pos (-q)
    have : 0 < 1 - w := by linarith
    positivity
  have hm := (C42_blakeZisserman _ heps).2.1
  exact ⟨fun hmq => by have := hm m q hmq; rwa [h] at this,
    fun hmq => by have := hm q m hmq; rwa [h] at this⟩

example : (0 : ℝ) < 1 / 10 ∧ (1 / 10 : ℝ) < 1 := by norm_num

/-! ### C69: larger residuals never cost less -/

/-- **C69** (Huber). The weighted squared error, the quantity the optimizer adds up, is non-decreasing
in the raw squared error. -/
theorem C69_huber_monotone_partial (k : ℝ) (hk : 0 < k) (e e' : ℝ) (he : 0 ≤ e) (hee : e ≤ e') :
    weighted (huber k) e ≤ weighted (huber k) e' := by
  unfold weighted
  have key : ∀ x, k * k ≤ x → huber k x * x = k * Real.sqrt x := by
    intro x hx
    have hpos : 0 < x := lt_of_lt_of_le (by positivity) hx
    unfold huber
    rw [if_neg (not_lt.2 hx)]
    have hs := Real.sqrt_pos.2 hpos
    have hss := Real.mul_self_sqrt hpos.le
    field_simp
    nlinarith
  by_cases h : e < k * k
  · have h1 : huber k e = 1 := by simp [huber, h]
    rw [h1, one_mul]
    by_cases h' : e' < k * k
    · have : huber k e' = 1 := by simp [huber, h']
      rw [this, one_mul]; exact hee
    · have hx := not_lt.1 h'
      rw [key e' hx]
      have : k ≤ Real.sqrt e' := Real.le_sqrt_of_sq_le (by rw [pow_two]; exact hx)
      nlinarith
  · rw [key e (not_lt.1 h), key e' (by linarith [not_lt.1 h])]
    exact mul_le_mul_of_nonneg_left (Real.sqrt_le_sqrt hee) hk.le

/-- **C69** (Cauchy). -/
theorem C69_cauchy_monotone_partial (s : ℝ) (hs : 0 < s) (e e' : ℝ) (he : 0 ≤ e) (hee : e ≤ e') :
    weighted (cauchy s) e ≤ weighted (cauchy s) e' := by
  have key : ∀ x, 0 ≤ x → cauchy s x * x = s * (1 - 1 / (1 + x / s)) := by
    intro x hx
    unfold cauchy
    have : 0 < 1 + x / s := by positivity
    field_simp
    ring
  unfold weighted
  rw [key e he, key e' (by linarith)]
  have h1 : 1 / (1 + e' / s) ≤ 1 / (1 + e / s) := by
    apply one_div_le_one_div_of_le (by positivity)
    have : e / s ≤ e' / s := div_le_div_of_nonneg_right hee hs.le
    linarith
  nlinarith

/-- **C69** (Geman-McClure and Blake-Zisserman: false). The optimizer adds up weight × squared error,
and for these policies that quantity *decreases* as the residual grows: with `σ² = 1` a raw squared
error of 1 costs 1/4 but one of 9 costs less than 1/10; with `ε = 1` the Blake-Zisserman cost of a raw
squared error of 1 exceeds the cost of 9. A step that makes such a residual worse is reported as an
improvement. -/
theorem C69_cost_not_monotone_counterexample :
    weighted (gemanMcClure 1) 9 < weighted (gemanMcClure 1) 1 ∧
    weighted (blakeZisserman 1) 9 < weighted (blakeZisserman 1) 1 := by
  constructor
  · unfold weighted gemanMcClure; norm_num
  · unfold weighted blakeZisserman
    have h9 : Real.exp 9 = Real.exp 1 ^ 9 := by rw [← Real.exp_nat_mul]; norm_num
    have h1 : (2 : ℝ) ≤ Real.exp 1 := by have := Real.add_one_le_exp (1 : ℝ); linarith
    rw [Real.exp_neg, Real.exp_neg, h9]
    have hp : 0 < Real.exp 1 := Real.exp_pos 1
    have hpow : 256 * Real.exp 1 ≤ Real.exp 1 ^ 9 := by
      have : (2 : ℝ) ^ 8 ≤ Real.exp 1 ^ 8 := pow_le_pow_left₀ (by norm_num) h1 8
      rw [pow_succ]; nlinarith
    have e1 : (Real.exp 1)⁻¹ / ((Real.exp 1)⁻¹ + 1) = 1 / (1 + Real.exp 1) := by field_simp
    have e2 : (Real.exp 1 ^ 9)⁻¹ / ((Real.exp 1 ^ 9)⁻¹ + 1) = 1 / (1 + Real.exp 1 ^ 9) := by field_simp
    rw [e1, e2, mul_one]
    rw [div_mul_eq_mul_div, div_lt_div_iff₀ (by positivity) (by positivity)]
    linarith

/-! ### C44: probabilistic data association -/

theorem sum_exp_pos (ws : List ℝ) (h : ws ≠ []) (c : ℝ) : 0 < (ws.map fun w => Real.exp (w - c)).sum := by
  cases ws with
  | nil => exact absurd rfl h
  | cons w ws =>
    rw [List.map_cons, List.sum_cons]
    have : 0 ≤ (ws.map fun w => Real.exp (w - c)).sum := by
      apply List.sum_nonneg
      intro x hx
      obtain ⟨y, _, rfl⟩ := List.mem_map.1 hx
      exact (Real.exp_pos _).le
    have := Real.exp_pos (w - c)
    linarith

theorem logNorm_eq (ws : List ℝ) (h : ws ≠ []) :
    logNorm ws = Real.log ((ws.map Real.exp).sum) := by
  unfold logNorm
  generalize maxLog none ws = c
  have hs := sum_exp_pos ws h c
  have : (ws.map Real.exp).sum = (ws.map fun w => Real.exp (w - c)).sum * Real.exp c := by
    rw [← List.sum_map_mul_right]
    congr 1
    apply List.map_congr_left
    intro w _
    rw [← Real.exp_add]; congr 1; ring
  rw [this, Real.log_mul hs.ne' (Real.exp_pos c).ne', Real.log_exp]

/-- **C44, partial.** For every group structure, every `lambda` and all errors, the number set on the
`i`-th term of a group is the *logarithm* of its normalised likelihood: the exponentials of the numbers
of a non-empty group are `exp(-λ/2·eᵢ)/Σⱼ exp(-λ/2·eⱼ)` and sum to one; a common offset of all errors
changes nothing. Missing for C44: the numbers themselves should be the normalised likelihoods; see
`C44_weight_not_positive_counterexample`. -/
theorem C44_log_likelihood_partial (lambda : ℝ) (groups : List (List ℝ)) :
    ∀ (g : Nat) (errs : List ℝ), groups[g]? = some errs →
      ∃ ws, (pdaCallback lambda groups)[g]? = some ws ∧ ws.length = errs.length ∧
        (∀ (i : Nat) (e : ℝ), errs[i]? = some e → ∃ w, ws[i]? = some w ∧
          Real.exp w = Real.exp (-lambda / 2 * e) / (errs.map fun x => Real.exp (-lambda / 2 * x)).sum) ∧
        (errs ≠ [] → (ws.map Real.exp).sum = 1) ∧
        (∀ c, pdaGroup lambda (errs.map (· + c)) = ws) := by
  intro g errs hg
  refine ⟨pdaGroup lambda errs, by simp [pdaCallback, hg], by simp [pdaGroup], ?_, ?_, ?_⟩
  · intro i e hi
    refine ⟨logWeight lambda e - logNorm (errs.map (logWeight lambda)), by simp [pdaGroup, hi], ?_⟩
    have hne : errs ≠ [] := by rintro rfl; simp at hi
    have hpos := sum_exp_pos (errs.map (logWeight lambda)) (by simpa using hne) 0
    rw [Real.exp_sub, logNorm_eq _ (by simpa using hne), Real.exp_log]
    · rw [List.map_map]; rfl
    · simpa using hpos
  · intro hne
    have hpos := sum_exp_pos (errs.map (logWeight lambda)) (by simpa using hne) 0
    simp only [sub_zero] at hpos
    simp only [pdaGroup, List.map_map]
    have : (Real.exp ∘ (fun w => w - logNorm (errs.map (logWeight lambda))) ∘ logWeight lambda) =
        fun e => Real.exp (logWeight lambda e) * (Real.exp (logNorm (errs.map (logWeight lambda))))⁻¹ := by
      funext e
      simp only [Function.comp]
      rw [Real.exp_sub]; rfl
    rw [this, List.sum_map_mul_right, logNorm_eq _ (by simpa using hne), Real.exp_log (by exact hpos),
      List.map_map]
    rw [List.map_map] at hpos
    exact mul_inv_cancel₀ hpos.ne'
  · intro c
    by_cases hne : errs = []
    · subst hne; rfl
    · simp only [pdaGroup, List.map_map]
      rw [logNorm_eq _ (by simpa using hne), logNorm_eq _ (by simpa using hne)]
      have hpos := sum_exp_pos (errs.map (logWeight lambda)) (by simpa using hne) 0
      simp only [sub_zero, List.map_map] at hpos
      have hfac : (((errs.map (logWeight lambda ∘ fun x => x + c)).map Real.exp).sum) =
          ((errs.map (logWeight lambda)).map Real.exp).sum * Real.exp (logWeight lambda c) := by
        rw [List.map_map, List.map_map, ← List.sum_map_mul_right]
        congr 1
        apply List.map_congr_left
        intro e _
        simp only [Function.comp]
        rw [← Real.exp_add]; congr 1; unfold logWeight; ring
      rw [hfac, Real.log_mul (by rw [List.map_map]; exact hpos.ne') (Real.exp_pos _).ne', Real.log_exp]
      apply List.map_congr_left
      intro e _
      simp only [Function.comp]
      unfold logWeight; ring

/-- **C44 (false as stated).** For every non-empty group every number the callback hands to `setWeight`
is non-positive, and negative as soon as the group has two terms: the code sets the log-likelihood, not
the likelihood, although the header describes the weight as `exp(-λ/2·e²)`. Downstream the square root
of the weight is taken. -/
theorem C44_weight_not_positive_counterexample (lambda : ℝ) (errs : List ℝ) :
    (∀ w ∈ pdaGroup lambda errs, w ≤ 0) ∧ (2 ≤ errs.length → ∀ w ∈ pdaGroup lambda errs, w < 0) := by
  have key : ∀ w ∈ pdaGroup lambda errs, ∃ e, e ∈ errs ∧
      w = logWeight lambda e - Real.log ((errs.map fun x => Real.exp (logWeight lambda x)).sum) := by
    intro w hw
    have hne : errs ≠ [] := by rintro rfl; simp [pdaGroup] at hw
    simp only [pdaGroup, List.map_map, List.mem_map, Function.comp] at hw
    obtain ⟨e, he, rfl⟩ := hw
    refine ⟨e, he, ?_⟩
    rw [logNorm_eq _ (by simpa using hne), List.map_map]; rfl
  have hle : ∀ (l : List ℝ) e, e ∈ l → Real.exp (logWeight lambda e) ≤
      (l.map fun x => Real.exp (logWeight lambda x)).sum ∧
      (2 ≤ l.length → Real.exp (logWeight lambda e) < (l.map fun x => Real.exp (logWeight lambda x)).sum) := by
    intro l e he
    have hn : ∀ l : List ℝ, 0 ≤ (l.map fun x => Real.exp (logWeight lambda x)).sum := by
      intro l
      apply List.sum_nonneg
      intro x hx
      obtain ⟨y, _, rfl⟩ := List.mem_map.1 hx
      exact (Real.exp_pos _).le
    have hp : ∀ l : List ℝ, l ≠ [] → 0 < (l.map fun x => Real.exp (logWeight lambda x)).sum := by
      intro l hl
      have := sum_exp_pos (l.map (logWeight lambda)) (by simpa using hl) 0
      simpa [Function.comp_def] using this
    obtain ⟨s, t, rfl⟩ := List.append_of_mem he
    simp only [List.map_append, List.map_cons, List.sum_append, List.sum_cons, List.length_append,
      List.length_cons]
    refine ⟨by have := hn s; have := hn t; linarith, ?_⟩
    intro h2
    by_cases hs : s = []
    · have ht : t ≠ [] := by rintro rfl; simp [hs] at h2
      have := hn s; have := hp t ht; linarith
    · have := hp s hs; have := hn t; linarith
  constructor
  · intro w hw
    obtain ⟨e, he, rfl⟩ := key w hw
    have := (hle errs e he).1
    have := Real.log_le_log (Real.exp_pos _) this
    rw [Real.log_exp] at this
    linarith
  · intro h2 w hw
    obtain ⟨e, he, rfl⟩ := key w hw
    have := (hle errs e he).2 h2
    have := Real.log_lt_log (Real.exp_pos _) this
    rw [Real.log_exp] at this
    linarith

theorem maxLog_some (m : ℝ) (ws : List ℝ) : m ≤ maxLog (some m) ws ∧ (∀ w ∈ ws, w ≤ maxLog (some m) ws) ∧
    (maxLog (some m) ws = m ∨ maxLog (some m) ws ∈ ws) := by
  induction ws generalizing m with
  | nil => simp [maxLog]
  | cons x xs ih =>
    simp only [maxLog]
    obtain ⟨h1, h2, h3⟩ := ih (if m < x then x else m)
    split_ifs at h1 h2 h3 ⊢ with h
    · refine ⟨h.le.trans h1, ?_, ?_⟩
      · intro w hw
        rcases List.mem_cons.1 hw with rfl | hw
        · exact h1
        · exact h2 w hw
      · rcases h3 with h3 | h3
        · exact Or.inr (by rw [h3]; exact List.mem_cons_self)
        · exact Or.inr (List.mem_cons_of_mem _ h3)
    · refine ⟨h1, ?_, ?_⟩
      · intro w hw
        rcases List.mem_cons.1 hw with rfl | hw
        · exact (not_lt.1 h).trans h1
        · exact h2 w hw
      · exact h3.imp_right (List.mem_cons_of_mem _)

/-- **C44** (no overflow). For every non-empty group the numbers the callback exponentiates, the log weights less their running maximum, are at most zero and one of
them is zero: each exponential is at most one and their sum, of which the logarithm is taken, lies between one and the number of terms, whatever the errors. -/
theorem C44_no_overflow (lambda : ℝ) (errs : List ℝ) (h : errs ≠ []) :
    (∀ e ∈ errs, -lambda / 2 * e - maxLog none (errs.map (logWeight lambda)) ≤ 0) ∧
    (∃ e ∈ errs, -lambda / 2 * e - maxLog none (errs.map (logWeight lambda)) = 0) ∧
    1 ≤ (errs.map fun e => Real.exp (-lambda / 2 * e - maxLog none (errs.map (logWeight lambda)))).sum ∧
    (errs.map fun e => Real.exp (-lambda / 2 * e - maxLog none (errs.map (logWeight lambda)))).sum ≤ errs.length := by
  have key : (∀ e ∈ errs, logWeight lambda e ≤ maxLog none (errs.map (logWeight lambda))) ∧
      ∃ e ∈ errs, logWeight lambda e = maxLog none (errs.map (logWeight lambda)) := by
    cases errs with
    | nil => exact absurd rfl h
    | cons x xs =>
      obtain ⟨h1, h2, h3⟩ := maxLog_some (logWeight lambda x) (xs.map (logWeight lambda))
      have e0 : maxLog none ((x :: xs).map (logWeight lambda)) = maxLog (some (logWeight lambda x)) (xs.map (logWeight lambda)) := rfl
      rw [e0]
      refine ⟨fun e he => ?_, ?_⟩
      · rcases List.mem_cons.1 he with rfl | he
        · exact h1
        · exact h2 _ (List.mem_map_of_mem he)
      · rcases h3 with h3 | h3
        · exact ⟨x, List.mem_cons_self, h3.symm⟩
        · obtain ⟨e, he, h4⟩ := List.mem_map.1 h3
          exact ⟨e, List.mem_cons_of_mem _ he, h4⟩
  have k1 : ∀ e ∈ errs, -lambda / 2 * e - maxLog none (errs.map (logWeight lambda)) ≤ 0 :=
    fun e he => sub_nonpos.2 (key.1 e he)
  have k2 : ∃ e ∈ errs, -lambda / 2 * e - maxLog none (errs.map (logWeight lambda)) = 0 := by
    obtain ⟨e, he, h4⟩ := key.2
    exact ⟨e, he, sub_eq_zero.2 h4⟩
  refine ⟨k1, k2, ?_, ?_⟩
  · obtain ⟨e, he, h0⟩ := k2
    have := List.single_le_sum (l := errs.map fun e => Real.exp (-lambda / 2 * e - maxLog none (errs.map (logWeight lambda))))
      (by intro x hx; obtain ⟨y, -, rfl⟩ := List.mem_map.1 hx; exact (Real.exp_pos _).le) _ (List.mem_map_of_mem he)
    simpa [h0] using this
  · have := List.sum_le_card_nsmul (errs.map fun e => Real.exp (-lambda / 2 * e - maxLog none (errs.map (logWeight lambda)))) 1
      (by intro x hx; obtain ⟨y, hy, rfl⟩ := List.mem_map.1 hx; exact Real.exp_le_one_iff.2 (k1 y hy))
    simpa using this

/-- Two errors so large that their likelihoods underflow meet the hypothesis. -/
example : ([100000, 100001] : List ℝ) ≠ [] := by simp

/-- A group of three terms with different errors meets the hypotheses. -/
example : ∃ errs : List ℝ, [[(1 : ℝ), 2], [3]][(0 : Nat)]? = some errs ∧ errs ≠ [] ∧ 2 ≤ errs.length :=
  ⟨[1, 2], by simp⟩

end Verif.MEstimator
