import Verif.Expr.Scalar
import Mathlib.Analysis.SpecialFunctions.Trigonometric.ArctanDeriv
import Mathlib.Analysis.SpecialFunctions.Trigonometric.InverseDeriv
import Mathlib.Analysis.SpecialFunctions.Trigonometric.DerivHyp
import Mathlib.Analysis.SpecialFunctions.Complex.LogDeriv
import Mathlib.Analysis.SpecialFunctions.ExpDeriv
import Mathlib.Analysis.Calculus.Deriv.ZPow

/-!
The factors of one-operand scalar nodes are derivatives.
-/
namespace Verif.Expr
open Filter Topology

/-- Points at which a function is differentiable and its factor meant to be exact: `acos` inside its domain, `acosSquared` inside its domain
outside of the interval on which the code uses a series, powers where they are defined. -/
def UnOp.Smooth : UnOp → ℝ → Prop
  | .acos, x => -1 < x ∧ x < 1
  | .acosSquared, x => -1 < x ∧ x < 1 ∧ eps ≤ (x - 1) * (x - 1)
  | .power k, x => x ≠ 0 ∨ 1 ≤ k
  | _, _ => True

theorem hasDerivAt_tanh (x : ℝ) : HasDerivAt Real.tanh (1 - Real.tanh x * Real.tanh x) x := by
  have hc : Real.cosh x ≠ 0 := (Real.cosh_pos x).ne'
  have h := (Real.hasDerivAt_sinh x).div (Real.hasDerivAt_cosh x) hc
  have e : Real.tanh = Real.sinh / Real.cosh := funext fun y => by rw [Real.tanh_eq_sinh_div_cosh]; rfl
  rw [e]
  refine h.congr_deriv ?_
  simp only [Pi.div_apply]
  field_simp

theorem cosh_tanh (x : ℝ) : 1 - Real.tanh x * Real.tanh x = (1 / Real.cosh x) * (1 / Real.cosh x) := by
  have hc : Real.cosh x ≠ 0 := (Real.cosh_pos x).ne'
  have := Real.cosh_sq x
  rw [Real.tanh_eq_sinh_div_cosh]
  field_simp
  linarith

/-- Where a one-operand node has a value and is smooth, it has values nearby and its factor is the derivative. -/
theorem UnOp.correct (f : UnOp) (x y : ℝ) (hv : f.ap x = .ok y) (hs : f.Smooth x) :
    ∃ g d, (∀ᶠ z in 𝓝 x, f.ap z = .ok (g z)) ∧ f.factor x = .ok d ∧ HasDerivAt g d x := by
  cases f with
  | neg => exact ⟨_, _, Eventually.of_forall fun _ => rfl, rfl, (hasDerivAt_id x).neg⟩
  | exp => exact ⟨_, _, Eventually.of_forall fun _ => rfl, rfl, Real.hasDerivAt_exp x⟩
  | sin => exact ⟨_, _, Eventually.of_forall fun _ => rfl, rfl, Real.hasDerivAt_sin x⟩
  | cos => exact ⟨_, _, Eventually.of_forall fun _ => rfl, rfl, Real.hasDerivAt_cos x⟩
  | tanh => exact ⟨_, _, Eventually.of_forall fun _ => rfl, rfl, hasDerivAt_tanh x⟩
  | atan =>
    refine ⟨_, _, Eventually.of_forall fun _ => rfl, rfl, ?_⟩
    have := Real.hasDerivAt_arctan x
    rwa [pow_two] at this
  | sqrt =>
    have hx : 0 < x := by
      by_contra h
      simp [UnOp.ap, h] at hv
    refine ⟨Real.sqrt, _, ?_, by simp [UnOp.factor, hx]; rfl, ?_⟩
    · filter_upwards [lt_mem_nhds hx] with z hz
      simp [UnOp.ap, hz]
    · have := Real.hasDerivAt_sqrt hx.ne'
      refine this.congr_deriv ?_
      rw [one_div, mul_inv_rev]
  | log =>
    have hx : 0 < x := by
      by_contra h
      simp [UnOp.ap, h] at hv
    refine ⟨Real.log, _, ?_, by simp [UnOp.factor, hx.ne'], Real.hasDerivAt_log hx.ne'⟩
    filter_upwards [lt_mem_nhds hx] with z hz
    simp [UnOp.ap, hz]
  | acos =>
    obtain ⟨h1, h2⟩ := hs
    refine ⟨Real.arccos, -1 / Real.sqrt (1 - x * x), ?_, ?_, ?_⟩
    · filter_upwards [lt_mem_nhds h1, gt_mem_nhds h2] with z hz hz'
      simp [UnOp.ap, hz.le, hz'.le]
    · simp [UnOp.factor, not_lt.mpr h2.le, h1, h2]
    · refine (Real.hasDerivAt_arccos h1.ne' h2.ne).congr_deriv ?_
      rw [pow_two]; ring
  | acosSquared =>
    obtain ⟨h1, h2, h3⟩ := hs
    refine ⟨fun z => Real.arccos z * Real.arccos z, -2 * Real.arccos x / Real.sqrt (1 - x * x), ?_, ?_, ?_⟩
    · filter_upwards [lt_mem_nhds h1, gt_mem_nhds h2] with z hz hz'
      simp [UnOp.ap, hz.le, hz'.le]
    · simp [UnOp.factor, not_lt.mpr h3, h1, h2]
    · have h := Real.hasDerivAt_arccos h1.ne' h2.ne
      refine (h.mul h).congr_deriv ?_
      rw [pow_two]; ring
  | inverseSigmoid h s c =>
    refine ⟨_, _, Eventually.of_forall fun _ => rfl, rfl, ?_⟩
    have h1 : HasDerivAt (fun z => -s * (z - c) * 0.5) (-s * 0.5) x := by
      have := (((hasDerivAt_id x).sub_const c).const_mul (-s)).mul_const (0.5 : ℝ)
      simpa using this
    have h2 := ((hasDerivAt_tanh (-s * (x - c) * 0.5)).comp x h1).const_add 1 |>.const_mul (h * 0.5)
    refine h2.congr_deriv ?_
    rw [cosh_tanh]
    have e : Real.cosh (-s * (x - c) * 0.5) = Real.cosh (0.5 * s * (c - x)) := by congr 1; ring
    rw [e]
    ring
  | power k =>
    have hx : ¬ (x = 0 ∧ k < 1) := by
      rintro ⟨hx, hk⟩
      rcases hs with h | h
      · exact h hx
      · omega
    refine ⟨fun z => z ^ k, _, ?_, by simp only [UnOp.factor, if_neg hx]; rfl, ?_⟩
    · by_cases h0 : x = 0
      · refine Eventually.of_forall fun z => ?_
        have : ¬ (z = 0 ∧ k < 0) := fun h => hx ⟨h0, by omega⟩
        simp only [UnOp.ap, if_neg this]
      · filter_upwards [isOpen_ne.mem_nhds h0] with z hz
        have : ¬ (z = 0 ∧ k < 0) := fun h => hz h.1
        simp only [UnOp.ap, if_neg this]
    · refine hasDerivAt_zpow k x ?_
      rcases hs with h | h
      · exact .inl h
      · exact .inr (by omega)

/-- `atan2` away from the half line of non-positive abscissae. -/
theorem hasDerivAt_atan2 {f g : ℝ → ℝ} {f' g' t : ℝ} (hf : HasDerivAt f f' t) (hg : HasDerivAt g g' t)
    (h : ¬ (f t = 0 ∧ g t ≤ 0)) :
    HasDerivAt (fun s => atan2 (f s) (g s)) (g t * (1 / (f t * f t + g t * g t)) * f' + -f t * (1 / (f t * f t + g t * g t)) * g') t := by
  have hz : HasDerivAt (fun s => (⟨g s, f s⟩ : ℂ)) ⟨g', f'⟩ t := by
    have h1 := (hg.ofReal_comp).add ((hf.ofReal_comp).mul_const Complex.I)
    refine HasDerivAt.congr_deriv (h1.congr_of_eventuallyEq (Eventually.of_forall fun s => ?_)) ?_
    · apply Complex.ext <;> simp
    · apply Complex.ext <;> simp
  have hs : (⟨g t, f t⟩ : ℂ) ∈ Complex.slitPlane := by
    rw [Complex.mem_slitPlane_iff]
    by_cases h0 : f t = 0
    · left
      by_contra hc
      exact h ⟨h0, not_lt.mp hc⟩
    · right; exact h0
  have hl := hz.clog_real hs
  have him := (Complex.imCLM.hasFDerivAt.comp_hasDerivAt t hl)
  have e : (fun s => atan2 (f s) (g s)) = Complex.imCLM ∘ fun s => Complex.log ⟨g s, f s⟩ := by
    funext s
    simp [atan2, Complex.log_im]
  rw [e]
  refine him.congr_deriv ?_
  have hn : f t * f t + g t * g t ≠ 0 := by
    intro h0
    have hft : f t = 0 := by nlinarith [mul_self_nonneg (f t), mul_self_nonneg (g t)]
    have hgt : g t = 0 := by nlinarith [mul_self_nonneg (f t), mul_self_nonneg (g t)]
    exact h ⟨hft, hgt.le⟩
  simp [Complex.div_im, Complex.normSq_apply]
  have hn' : g t * g t + f t * f t ≠ 0 := by rwa [add_comm]
  field_simp
  ring

end Verif.Expr
