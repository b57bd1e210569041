import Verif.MEstimator.Props
import Mathlib.Analysis.Calculus.MeanValue
import Mathlib.Analysis.SpecialFunctions.Log.Deriv
import Mathlib.Analysis.SpecialFunctions.ExpDeriv
import Mathlib.Analysis.SpecialFunctions.Sqrt

/-!
C104: the robust costs behind the M-estimator weights.
-/
namespace Verif.MEstimator

/-- `ρ` is the robust cost that belongs to the weights `w`: zero without error, with the weight as derivative, and the weights do not grow with the error. -/
structure IsLoss (w ρ : ℝ → ℝ) : Prop where
  zero : ρ 0 = 0
  deriv : ∀ s, 0 ≤ s → HasDerivAt ρ (w s) s
  nonneg : ∀ s, 0 ≤ s → 0 ≤ w s
  anti : ∀ s s', 0 ≤ s → s ≤ s' → w s' ≤ w s

/-- Specification: the robust cost of Geman-McClure (weights ME:33-36; the code has no such function). -/
noncomputable def gemanMcClureLoss (sigma2 s : ℝ) : ℝ := s / (sigma2 + s)

/-- Specification: the robust cost of Cauchy (weights ME:49-52). -/
noncomputable def cauchyLoss (sigma2 s : ℝ) : ℝ := sigma2 * Real.log (1 + s / sigma2)

/-- Specification: the robust cost of Huber (weights ME:67-69): the squared error below the threshold, linear in the error above. -/
noncomputable def huberLoss (k s : ℝ) : ℝ := if s ≤ k * k then s else 2 * k * Real.sqrt s - k * k

/-- Specification: the robust cost of Blake-Zisserman (weights ME:105-107). -/
noncomputable def blakeZissermanLoss (epsilon s : ℝ) : ℝ := Real.log (1 + epsilon) - Real.log (Real.exp (-s) + epsilon)

/-- **C104, none and fixed weights.** -/
theorem C104_fixed (c : ℝ) (hc : 0 ≤ c) : IsLoss (fixedWeight c) (fun s => c * s) ∧ IsLoss noWeight fun s => s := by
  refine ⟨⟨by simp, fun s _ => ?_, fun _ _ => hc, fun _ _ _ _ => le_refl _⟩, ⟨rfl, fun s _ => hasDerivAt_id' s, fun _ _ => zero_le_one, fun _ _ _ _ => le_refl _⟩⟩
  exact ((hasDerivAt_id' s).const_mul c).congr_deriv (by simp [fixedWeight])

/-- **C104, Geman-McClure.** -/
theorem C104_gemanMcClure (σ : ℝ) (hσ : 0 < σ) : IsLoss (gemanMcClure σ) (gemanMcClureLoss σ) := by
  obtain ⟨h1, h2, -⟩ := C42_gemanMcClure σ hσ
  refine ⟨by simp [gemanMcClureLoss], fun s hs => ?_, fun s hs => (h1 s hs).1.le, h2⟩
  have hp : σ + s ≠ 0 := by positivity
  refine ((hasDerivAt_id' s).fun_div ((hasDerivAt_id' s).const_add σ) hp).congr_deriv ?_
  unfold gemanMcClure
  field_simp
  ring

/-- **C104, Cauchy.** -/
theorem C104_cauchy (σ : ℝ) (hσ : 0 < σ) : IsLoss (cauchy σ) (cauchyLoss σ) := by
  obtain ⟨h1, h2, -⟩ := C42_cauchy σ hσ
  refine ⟨by simp [cauchyLoss], fun s hs => ?_, fun s hs => (h1 s hs).1.le, h2⟩
  have hp : 1 + s / σ ≠ 0 := by positivity
  refine ((((hasDerivAt_id' s).div_const σ).const_add 1).log hp |>.const_mul σ).congr_deriv ?_
  unfold cauchy
  field_simp

/-- **C104, Huber.** -/
theorem C104_huber (k : ℝ) (hk : 0 < k) : IsLoss (huber k) (huberLoss k) := by
  obtain ⟨h1, h2, h3⟩ := C42_huber k hk
  have hkk : 0 < k * k := by positivity
  have lin : ∀ s, 0 < s → HasDerivAt (fun s => 2 * k * Real.sqrt s - k * k) (k / Real.sqrt s) s := by
    intro s hs
    refine (((Real.hasDerivAt_sqrt hs.ne').const_mul (2 * k)).sub_const (k * k)).congr_deriv ?_
    have : Real.sqrt s ≠ 0 := (Real.sqrt_pos.2 hs).ne'
    field_simp
  refine ⟨by simp [huberLoss, hkk.le], fun s hs => ?_, fun s hs => (h1 s hs).1.le, h2⟩
  rcases lt_trichotomy s (k * k) with h | h | h
  · rw [h3 s h.le]
    refine (hasDerivAt_id' s).congr_of_eventuallyEq ?_
    filter_upwards [Iio_mem_nhds h] with x hx
    exact if_pos (le_of_lt hx)
  · rw [h3 s h.le]
    have hl : HasDerivWithinAt (huberLoss k) 1 (Set.Iic s) s := by
      refine (hasDerivAt_id' s).hasDerivWithinAt.congr (fun x hx => ?_) (if_pos h.le)
      exact if_pos (le_trans hx h.le)
    have hr : HasDerivWithinAt (huberLoss k) 1 (Set.Ici s) s := by
      have hsq : Real.sqrt s = k := by rw [h]; exact Real.sqrt_mul_self hk.le
      have h0 : HasDerivWithinAt (fun s => 2 * k * Real.sqrt s - k * k) 1 (Set.Ici s) s := by
        have := (lin s (h ▸ hkk)).hasDerivWithinAt (s := Set.Ici s)
        rwa [hsq, div_self hk.ne'] at this
      have heq : ∀ x ∈ Set.Ici s, huberLoss k x = 2 * k * Real.sqrt x - k * k := by
        intro x hx
        unfold huberLoss
        split_ifs with hc
        · have : x = k * k := le_antisymm hc (h ▸ hx)
          rw [this, Real.sqrt_mul_self hk.le]; ring
        · rfl
      exact h0.congr heq (heq s Set.self_mem_Ici)
    have := hl.union hr
    rwa [Set.Iic_union_Ici, hasDerivWithinAt_univ] at this
  · have hw : huber k s = k / Real.sqrt s := by unfold huber; rw [if_neg (not_lt.2 h.le)]
    rw [hw]
    refine (lin s (hkk.trans h)).congr_of_eventuallyEq ?_
    filter_upwards [Ioi_mem_nhds h] with x hx
    exact if_neg (not_le.2 hx)

/-- **C104, Blake-Zisserman.** -/
theorem C104_blakeZisserman (ε : ℝ) (hε : 0 < ε) : IsLoss (blakeZisserman ε) (blakeZissermanLoss ε) := by
  obtain ⟨h1, h2, -⟩ := C42_blakeZisserman ε hε
  refine ⟨by simp [blakeZissermanLoss], fun s hs => ?_, fun s _ => (h1 s).1.le, fun s s' _ hss => ?_⟩
  · have hp : Real.exp (-s) + ε ≠ 0 := by have := Real.exp_pos (-s); positivity
    refine ((((hasDerivAt_id' s).neg.exp).add_const ε).log hp |>.const_sub (Real.log (1 + ε))).congr_deriv ?_
    unfold blakeZisserman
    simp only [Pi.neg_apply]
    field_simp
  · rcases hss.eq_or_lt with rfl | h
    · exact le_refl _
    · exact (h2 s s' h).le

/-- The robust cost lies below its tangents. -/
theorem IsLoss.tangent {w ρ : ℝ → ℝ} (h : IsLoss w ρ) {s s' : ℝ} (hs : 0 ≤ s) (hs' : 0 ≤ s') : ρ s' ≤ ρ s + w s * (s' - s) := by
  have cont : ∀ a b, 0 ≤ a → ContinuousOn ρ (Set.Icc a b) := fun a b ha x hx => (h.deriv x (ha.trans hx.1)).continuousAt.continuousWithinAt
  rcases lt_trichotomy s s' with hlt | rfl | hlt
  · obtain ⟨c, hc, he⟩ := exists_hasDerivAt_eq_slope ρ w hlt (cont s s' hs) fun x hx => h.deriv x (hs.trans hx.1.le)
    have h1 : w c ≤ w s := h.anti s c hs hc.1.le
    rw [he, div_le_iff₀ (by linarith)] at h1
    linarith
  · simp
  · obtain ⟨c, hc, he⟩ := exists_hasDerivAt_eq_slope ρ w hlt (cont s' s hs') fun x hx => h.deriv x (hs'.trans hx.1.le)
    have h1 : w s ≤ w c := h.anti c s (hs'.trans hc.1.le) hc.2.le
    rw [he, le_div_iff₀ (by linarith)] at h1
    linarith

/-- A robust cost does not decrease with the error. -/
theorem IsLoss.mono {w ρ : ℝ → ℝ} (h : IsLoss w ρ) {s s' : ℝ} (hs : 0 ≤ s) (hss : s ≤ s') : ρ s ≤ ρ s' := by
  have h1 := h.tangent (hs.trans hss) hs
  have h2 : 0 ≤ w s' * (s' - s) := mul_nonneg (h.nonneg s' (hs.trans hss)) (by linarith)
  linarith

/-- One squared error with its estimator: weights, robust cost, the error before and after a step. -/
structure Reading where
  w : ℝ → ℝ
  ρ : ℝ → ℝ
  before : ℝ
  after : ℝ

/-- **C104, re-weighting.** For any terms with any mixture of M-estimators: the robust cost falls at least as much as the cost with the weights held fixed. In
particular a step that lowers the latter lowers the robust cost. -/
theorem C104_reweighting (l : List Reading) (h : ∀ r ∈ l, IsLoss r.w r.ρ ∧ 0 ≤ r.before ∧ 0 ≤ r.after) :
    (l.map fun r => r.ρ r.after).sum - (l.map fun r => r.ρ r.before).sum ≤ (l.map fun r => r.w r.before * r.after).sum - (l.map fun r => r.w r.before * r.before).sum := by
  induction l with
  | nil => simp
  | cons r l ih =>
    have h1 := ih fun r hr => h r (List.mem_cons_of_mem _ hr)
    obtain ⟨hl, hb, ha⟩ := h r (List.mem_cons_self ..)
    have h2 := hl.tangent hb ha
    simp only [List.map_cons, List.sum_cons]
    linarith

example := C104_fixed 3 (by norm_num)
example := C104_gemanMcClure 4 (by norm_num)
example := C104_blakeZisserman (1 / 10) (by norm_num)

/-- Huber and Cauchy terms together. -/
example := C104_reweighting [⟨huber 1, huberLoss 1, 9, 4⟩, ⟨cauchy 2, cauchyLoss 2, 1, 3⟩] (by
  simp only [List.mem_cons, List.not_mem_nil, or_false, forall_eq_or_imp, forall_eq]
  exact ⟨⟨C104_huber 1 one_pos, by norm_num, by norm_num⟩, ⟨C104_cauchy 2 two_pos, by norm_num, by norm_num⟩⟩)

end Verif.MEstimator
