import Verif.LineSearch.Props
import Mathlib.Analysis.SpecialFunctions.Sqrt
import Mathlib.Tactic.FieldSimp
import Mathlib.Tactic.LinearCombination
import Mathlib.Tactic.Positivity

/-!
C77: the interpolation steps of the line search are the minimizers they claim to be.
-/
namespace Verif.LineSearch
open FloatLike

variable {K : Type} [LinearOrder K] [Field K] [IsStrictOrderedRing K] [Sq K]

theorem lit_cast (q : ℚ) : (lit q : K) = (q : K) := (Rat.cast_def q).symm

theorem quadMin_exact (a fa fpa b fb : K) :
    quadMin a fa fpa b fb = a - 1/2 * fpa / ((fb - fa - fpa * (b - a)) / ((b - a) * (b - a))) := by
  have h : (lit (1/2) : K) = 1/2 := by
    rw [lit_cast]; norm_num
  show a - (lit (1/2) : K) * fpa / ((fb - fa - fpa * (b - a)) / ((b - a) * (b - a))) = _
  rw [h]

/-- **C77, quadratic.** `quadMin` returns the minimizer of every upward-open quadratic with the given value and derivative at `a` and value at `b`. -/
theorem C77_quadratic (a b c0 c1 c2 : K) (hab : a ≠ b) (hc : 0 < c2) (x : K) :
    let p := fun t : K => c0 + c1 * (t - a) + c2 * (t - a) ^ 2
    p (quadMin a (p a) c1 b (p b)) ≤ p x := by
  intro p
  have hba : b - a ≠ 0 := sub_ne_zero.mpr hab.symm
  have hB : (p b - p a - c1 * (b - a)) / ((b - a) * (b - a)) = c2 := by
    simp only [p]
    field_simp
    ring
  rw [quadMin_exact, hB]
  have hx : p x - p (a - 1/2 * c1 / c2) = c2 * (x - a + c1 / (2 * c2)) ^ 2 := by
    simp only [p]
    have := hc.ne'
    field_simp
    ring
  have : 0 ≤ c2 * (x - a + c1 / (2 * c2)) ^ 2 := by positivity
  linarith

theorem cubicMin_exact (a fa fpa b fb c fc : K) :
    cubicMin a fa fpa b fb c fc =
      let db := b - a
      let dc := c - a
      let denom := (db * dc) * (db * dc) * (db - dc)
      let A := (dc * dc * (fb - fa - fpa * db) + -(db * db) * (fc - fa - fpa * dc)) / denom
      let B := (-(dc * dc) * dc * (fb - fa - fpa * db) + -(-(db * db)) * db * (fc - fa - fpa * dc)) / denom
      a + (-B + Sq.sq (B * B - 3 * A * fpa)) / (3 * A) := by
  have h : (lit 3 : K) = 3 := by
    show ((3 : ℚ).num : K) / ((3 : ℚ).den : K) = 3
    norm_num
  have := h
  show _ = a + (-((-((c - a) * (c - a)) * (c - a) * (fb - fa - fpa * (b - a)) + -(-((b - a) * (b - a))) * (b - a) * (fc - fa - fpa * (c - a))) / ((b - a) * (c - a) * ((b - a) * (c - a)) * (b - a - (c - a)))) + Sq.sq (((-((c - a) * (c - a)) * (c - a) * (fb - fa - fpa * (b - a)) + -(-((b - a) * (b - a))) * (b - a) * (fc - fa - fpa * (c - a))) / ((b - a) * (c - a) * ((b - a) * (c - a)) * (b - a - (c - a)))) * ((-((c - a) * (c - a)) * (c - a) * (fb - fa - fpa * (b - a)) + -(-((b - a) * (b - a))) * (b - a) * (fc - fa - fpa * (c - a))) / ((b - a) * (c - a) * ((b - a) * (c - a)) * (b - a - (c - a)))) - 3 * (((c - a) * (c - a) * (fb - fa - fpa * (b - a)) + -((b - a) * (b - a)) * (fc - fa - fpa * (c - a))) / ((b - a) * (c - a) * ((b - a) * (c - a)) * (b - a - (c - a)))) * fpa)) / (3 * (((c - a) * (c - a) * (fb - fa - fpa * (b - a)) + -((b - a) * (b - a)) * (fc - fa - fpa * (c - a))) / ((b - a) * (c - a) * ((b - a) * (c - a)) * (b - a - (c - a)))))
  rw [← h]
  rfl

/-- **C77, cubic.** For every cubic with a stationary point, given its value and derivative at `a` and its values at two further points, `cubicMin` returns a point where the
derivative vanishes and the second derivative is not negative: its local minimizer. -/
theorem C77_cubic (hs0 : ∀ r : K, 0 ≤ r → Sq.sq r * Sq.sq r = r) (hs1 : ∀ r : K, 0 ≤ Sq.sq r)
    (a b c A B C D : K) (hab : a ≠ b) (hac : a ≠ c) (hbc : b ≠ c) (hA : A ≠ 0) (hr : 0 ≤ B ^ 2 - 3 * A * C) :
    let p := fun t : K => A * (t - a) ^ 3 + B * (t - a) ^ 2 + C * (t - a) + D
    let m := cubicMin a (p a) C b (p b) c (p c)
    3 * A * (m - a) ^ 2 + 2 * B * (m - a) + C = 0 ∧ 0 ≤ 6 * A * (m - a) + 2 * B := by
  intro p m
  have h1 : b - a ≠ 0 := sub_ne_zero.mpr hab.symm
  have h2 : c - a ≠ 0 := sub_ne_zero.mpr hac.symm
  have h3 : b - a - (c - a) ≠ 0 := by
    rw [sub_sub_sub_cancel_right]; exact sub_ne_zero.mpr hbc
  have hden : (b - a) * (c - a) * ((b - a) * (c - a)) * (b - a - (c - a)) ≠ 0 :=
    mul_ne_zero (mul_ne_zero (mul_ne_zero h1 h2) (mul_ne_zero h1 h2)) h3
  have hm : m = a + (-B + Sq.sq (B * B - 3 * A * C)) / (3 * A) := by
    simp only [m]
    rw [cubicMin_exact]
    have eA : ((c - a) * (c - a) * (p b - p a - C * (b - a)) + -((b - a) * (b - a)) * (p c - p a - C * (c - a))) /
        ((b - a) * (c - a) * ((b - a) * (c - a)) * (b - a - (c - a))) = A := by
      rw [div_eq_iff hden]
      simp only [p]
      ring
    have eB : (-((c - a) * (c - a)) * (c - a) * (p b - p a - C * (b - a)) + -(-((b - a) * (b - a))) * (b - a) * (p c - p a - C * (c - a))) /
        ((b - a) * (c - a) * ((b - a) * (c - a)) * (b - a - (c - a))) = B := by
      rw [div_eq_iff hden]
      simp only [p]
      ring
    simp only [eA, eB]
  have hsq := hs0 (B * B - 3 * A * C) (by rw [← pow_two]; exact hr)
  have hnn := hs1 (B * B - 3 * A * C)
  generalize Sq.sq (B * B - 3 * A * C) = q at *
  have hu : m - a = (-B + q) / (3 * A) := by rw [hm]; ring
  constructor
  · rw [hu]
    field_simp
    linear_combination hsq
  · rw [hu]
    have : 6 * A * ((-B + q) / (3 * A)) + 2 * B = 2 * q := by
      field_simp
      ring
    rw [this]
    linarith

noncomputable local instance : Sq ℝ := ⟨Real.sqrt⟩

/-- The hypotheses on the square root hold for real numbers; the cubic `t³ - 3t` is meant. -/
example : (∀ r : ℝ, 0 ≤ r → Sq.sq r * Sq.sq r = r) ∧ (∀ r : ℝ, 0 ≤ Sq.sq r) ∧
    (0 : ℝ) ≤ (0 : ℝ) ^ 2 - 3 * 1 * (-3) ∧ (0 : ℝ) ≠ 1 ∧ (0 : ℝ) ≠ 2 ∧ (1 : ℝ) ≠ 2 ∧ (1 : ℝ) ≠ 0 :=
  ⟨fun r h => Real.mul_self_sqrt h, fun r => Real.sqrt_nonneg r, by norm_num, by norm_num, by norm_num, by norm_num, by norm_num⟩

/-- For the parabola `(t-1)²` with data at 0 and 3 the minimizer is 1. -/
example : quadMin (0 : ℝ) 1 (-2) 3 4 = 1 := by
  rw [quadMin_exact]; norm_num

/-- **C77, trial steps in forward brackets.** The trial step of `zoom` lies in the interval, and closes at least a tenth of it from either side. For intervals whose lower-error end is the
upper one (`hi < lo`) the safeguards `delta * dStepLength` of L:574-591 are negative and widen the interval instead; see `C77_brackets` for those. -/
theorem C77_trial_forward (first : Bool) (z : Zm K) (h : z.lo ≤ z.hi) :
    z.lo + 1/10 * (z.hi - z.lo) ≤ trial first z ∧ trial first z ≤ z.hi - 1/10 * (z.hi - z.lo) := by
  have l1 : (lit (1/10) : K) = 1/10 := by rw [lit_cast]; norm_num
  have l2 : (lit (2/10) : K) = 2/10 := by rw [lit_cast]; norm_num
  have l5 : (lit (1/2) : K) = 1/2 := by rw [lit_cast]; norm_num
  have hz : (zero : K) = 0 := zero_exact
  have hd : 0 ≤ z.hi - z.lo := sub_nonneg.mpr h
  have hn : ¬ lt (FloatLike.sub z.hi z.lo) (zero : K) = true := by
    show ¬ decide (z.hi - z.lo < zero) = true
    rw [hz]; simpa using h
  unfold trial
  dsimp only
  split_ifs with h0 h1 h2 h1 h2
  · exact absurd h0 hn
  · exact absurd h0 hn
  · exact absurd h0 hn
  · show _ ≤ z.lo + lit (1/2) * (z.hi - z.lo) ∧ z.lo + lit (1/2) * (z.hi - z.lo) ≤ _
    rw [l5]
    constructor <;> linarith
  · generalize quadMin z.lo z.elo z.dlo z.hi z.ehi = q at *
    have h2' : ¬ (false || decide (z.hi - lit (1/10) * (z.hi - z.lo) < q) || decide (q < z.lo + lit (1/10) * (z.hi - z.lo))) = true := h2
    rw [l1] at h2'
    simp only [Bool.false_or, Bool.or_eq_true, decide_eq_true_eq, not_or, not_lt] at h2'
    exact ⟨h2'.2, h2'.1⟩
  · generalize cubicMin z.lo z.elo z.dlo z.hi z.ehi z.srec z.erec = q at *
    have h1' : ¬ (first || false || decide (z.hi - lit (2/10) * (z.hi - z.lo) < q) || decide (q < z.lo + lit (2/10) * (z.hi - z.lo))) = true := h1
    rw [l2] at h1'
    simp only [Bool.or_false, Bool.or_eq_true, decide_eq_true_eq, not_or, not_lt] at h1'
    constructor <;> linarith [h1'.2, h1'.1.2]

/-- An interval of the kind meant. -/
example : let z : Zm ℝ := ⟨1, 2, 0, 1, -1, 1, 0⟩
    z.lo ≤ z.hi := by norm_num

end Verif.LineSearch
