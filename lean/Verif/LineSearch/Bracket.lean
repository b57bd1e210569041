import Verif.LineSearch.Dcstep
import Mathlib.Analysis.Calculus.LocalExtr.Basic
import Mathlib.Analysis.Calculus.Deriv.Slope
import Mathlib.Analysis.Calculus.Deriv.Mul
import Mathlib.Analysis.Calculus.Deriv.Pow
import Mathlib.Topology.Order.Compact

/-!
C99: the bracket of the first line-search method.  For every cost function, the first method keeps its trial steps inside its bracket,
and the bracket contains an acceptable step (first stage) or a stationary point that is no worse than the best step (second stage).
-/
namespace Verif.LineSearch
open FloatLike

variable {K : Type} [LinearOrder K] [Field K] [IsStrictOrderedRing K] [Sq K]

theorem sgnd_neg {v : Iv K} {dp : K} : lt (sgnd v dp) zero = true ↔ dp * v.dx < 0 := by
  unfold sgnd sign
  show decide (dp * (lit ((if decide ((zero : K) < v.dx) = true then 1 else 0) - (if decide (v.dx < (zero : K)) = true then 1 else 0)) : K) < zero) = true ↔ _
  rw [lit_cast, zero_exact]
  simp only [decide_eq_true_eq]
  rcases lt_trichotomy v.dx 0 with h | h | h
  · rw [if_neg (not_lt.mpr h.le), if_pos h]
    have e : (((0 : ℚ) - 1 : ℚ) : K) = -1 := by norm_num
    rw [e]
    constructor
    · intro h1; have : 0 < dp := by linarith
      exact mul_neg_of_pos_of_neg this h
    · intro h1
      by_contra hc
      have : dp ≤ 0 := by linarith [not_lt.mp hc]
      have := mul_nonneg_of_nonpos_of_nonpos this h.le
      linarith
  · rw [h]; simp
  · rw [if_pos h, if_neg (not_lt.mpr h.le)]
    have e : (((1 : ℚ) - 0 : ℚ) : K) = 1 := by norm_num
    rw [e]
    constructor
    · intro h1; have : dp < 0 := by linarith
      exact mul_neg_of_neg_of_pos this h
    · intro h1
      by_contra hc
      have : 0 ≤ dp := by linarith [not_lt.mp hc]
      have := mul_nonneg this h.le
      linarith

omit [IsStrictOrderedRing K] in
theorem dcstep_up {v : Iv K} {fp dp lo hi : K} (h : v.fx < fp) :
    dcstep v fp dp lo hi = { v with sty := v.stp, fy := fp, dy := dp, stp := stepf1 v fp dp, brackt := true } := by
  have h' : lt v.fx fp = true := decide_eq_true h
  simp [dcstep, stepf, h']

theorem dcstep_turn {v : Iv K} {fp dp lo hi : K} (h : fp ≤ v.fx) (hs : dp * v.dx < 0) :
    dcstep v fp dp lo hi =
      { stx := v.stp, fx := fp, dx := dp, sty := v.stx, fy := v.fx, dy := v.dx, stp := stepf2 v fp dp, brackt := true } := by
  have h' : lt v.fx fp = false := decide_eq_false (not_lt.mpr h)
  simp [dcstep, stepf, h', sgnd_neg.mpr hs]

theorem dcstep_on {v : Iv K} {fp dp lo hi : K} (h : fp ≤ v.fx) (hs : 0 < dp * v.dx) :
    dcstep v fp dp lo hi = { v with stx := v.stp, fx := fp, dx := dp, stp := if |dp| < |v.dx| then stepf3 v fp dp lo hi else stepf4 v fp dp lo hi } := by
  have h' : lt v.fx fp = false := decide_eq_false (not_lt.mpr h)
  have h2 : lt (sgnd v dp) zero = false := by
    rw [Bool.eq_false_iff]; intro h3
    have := sgnd_neg.mp h3
    linarith
  by_cases h3 : |dp| < |v.dx|
  · have h4 : lt (FloatLike.abs dp) (FloatLike.abs v.dx) = true := decide_eq_true h3
    simp [dcstep, stepf, h', h2, h3, h4]
  · have h4 : lt (FloatLike.abs dp) (FloatLike.abs v.dx) = false := decide_eq_false h3
    simp [dcstep, stepf, h', h2, h3, h4]

/-- Not code: between the two ends of an interval. -/
def Inside (a b t : K) : Prop := min a b ≤ t ∧ t ≤ max a b

omit [Sq K] in
theorem inside_of_comb {a b t : K} (h0 : 0 ≤ t) (h1 : t ≤ 1) : Inside a b (a + t * (b - a)) := by
  rcases le_total a b with h | h
  · have := mul_nonneg h0 (sub_nonneg.mpr h)
    have := mul_le_mul_of_nonneg_right h1 (sub_nonneg.mpr h)
    rw [Inside, min_eq_left h, max_eq_right h]
    constructor <;> linarith
  · have := mul_nonneg h0 (sub_nonneg.mpr h)
    have := mul_le_mul_of_nonneg_right h1 (sub_nonneg.mpr h)
    rw [Inside, min_eq_right h, max_eq_left h]
    constructor <;> linarith

omit [Sq K] [Field K] [IsStrictOrderedRing K] in
theorem inside_symm {a b t : K} (h : Inside a b t) : Inside b a t := by
  rw [Inside, min_comm, max_comm]; exact h

omit [Sq K] [Field K] [IsStrictOrderedRing K] in
theorem inside_left (a b : K) : Inside a b a := ⟨min_le_left _ _, le_max_left _ _⟩

theorem bisect_inside (c : Dc K) {v : Iv K} (h : Inside v.stx v.sty v.stp) : Inside v.stx v.sty (c.bisect v) := by
  unfold Dc.bisect
  split_ifs
  · have e : (lit (1/2) : K) = 1/2 := by rw [lit_cast]; norm_num
    show Inside v.stx v.sty (v.stx + (lit (1/2) : K) * (v.sty - v.stx))
    rw [e]
    exact inside_of_comb (by norm_num) (by norm_num)
  · exact h

theorem force_inside (c : Dc K) {v : Iv K} {s : K} (hb : v.brackt = true) (h : Inside v.stx v.sty s) : Inside v.stx v.sty (c.force v s) := by
  unfold Dc.force
  dsimp only
  split_ifs with h1
  · exact inside_left _ _
  · rw [fmin_exact, fmax_exact] at h1 ⊢
    simp only [hb, Bool.true_and, Bool.or_eq_true, not_or] at h1
    have h2 : c.minS < min (max s c.minS) c.maxS := not_le.mp fun h => h1.1.1 (decide_eq_true h)
    have h3 : min (max s c.minS) c.maxS < c.maxS := not_le.mp fun h => h1.1.2 (decide_eq_true h)
    have h4 : min (max s c.minS) c.maxS = max s c.minS := min_eq_left (by
      by_contra hc
      rw [min_eq_right (not_le.mp hc).le] at h3
      exact lt_irrefl _ h3)
    rw [h4] at h2 ⊢
    have h5 : max s c.minS = s := max_eq_left (by
      by_contra hc
      rw [max_eq_right (not_le.mp hc).le] at h2
      exact lt_irrefl _ h2)
    rw [h5]; exact h

section inv
variable (φ φ' : K → K) (c1 c2 lo hi : K)

/-- Not code: a step with sufficient decrease at which the cost still falls steeply. -/
def Good (t : K) : Prop := φ t ≤ φ 0 + t * (c1 * φ' 0) ∧ φ' t < 6 * (c1 * φ' 0)

/-- What holds of a running search. -/
structure Inv (c : Dc K) : Prop where
  finit : c.finit = φ 0
  gtest : c.gtest = c1 * φ' 0
  gneg : c.gneg = -c2 * φ' 0
  minS : c.minS = lo
  maxS : c.maxS = hi
  fx : c.fx = φ c.stx
  gx : c.gx = φ' c.stx
  phase :
    (c.brackt = false ∧ c.stage ≤ 1 ∧ Good φ φ' c1 c.stx ∧ c.stx < c.step ∧ lo ≤ c.step ∧ c.step ≤ hi ∧ c.step < c.stmax) ∨
    (c.brackt = true ∧ c.fy = φ c.sty ∧ c.gy = φ' c.sty ∧ c.stmin = min c.stx c.sty ∧ c.stmax = max c.stx c.sty ∧ Inside c.stx c.sty c.step ∧
      ((c.stage = 1 ∧ Good φ φ' c1 c.stx ∧ c.stx < c.sty ∧ (φ 0 + c.sty * (c1 * φ' 0) < φ c.sty ∨ φ c.stx < φ c.sty)) ∨
       (c.stage = 2 ∧ φ c.stx ≤ φ c.sty ∧ φ' c.stx * (c.sty - c.stx) < 0)))

/-- The invariant holds after an update that has a bracket, if the new ends and the new step fit together. -/
theorem Inv.advance {c : Dc K} (h : Inv φ φ' c1 c2 lo hi c) {st : Nat} {v : Iv K} (hb : v.brackt = true) (hfx : v.fx = φ v.stx) (hgx : v.dx = φ' v.stx)
    (hfy : v.fy = φ v.sty) (hgy : v.dy = φ' v.sty) (hs : Inside v.stx v.sty v.stp)
    (hp : (st = 1 ∧ Good φ φ' c1 v.stx ∧ v.stx < v.sty ∧ (φ 0 + v.sty * (c1 * φ' 0) < φ v.sty ∨ φ v.stx < φ v.sty)) ∨
       (st = 2 ∧ φ v.stx ≤ φ v.sty ∧ φ' v.stx * (v.sty - v.stx) < 0)) :
    Inv φ φ' c1 c2 lo hi (c.advance st v (c.bisect v)) where
  finit := h.finit
  gtest := h.gtest
  gneg := h.gneg
  minS := h.minS
  maxS := h.maxS
  fx := hfx
  gx := hgx
  phase := Or.inr ⟨hb, hfy, hgy, by simp [Dc.advance, hb, fmin_exact], by simp [Dc.advance, hb, fmax_exact],
    force_inside c hb (bisect_inside c hs), hp⟩

theorem inv_update (hr : Root K) (hd0 : φ' 0 < 0) (hc1 : 0 ≤ c1) (hc2 : 6 * c1 ≤ c2) {c : Dc K} (h : Inv φ φ' c1 c2 lo hi c)
    (hne : φ' c.step ≠ 0) (hrun' : (c.update (φ c.step) (φ' c.step)).status = .running) :
    Inv φ φ' c1 c2 lo hi (c.update (φ c.step) (φ' c.step)) := by
  have hG : c1 * φ' 0 ≤ 0 := mul_nonpos_of_nonneg_of_nonpos hc1 hd0.le
  unfold Dc.update at hrun' ⊢
  split_ifs at hrun' ⊢ with h0 h1
  · -- the first call
    have h0 : c.stage = 0 := by simpa using h0
    refine ⟨h.finit, h.gtest, h.gneg, h.minS, h.maxS, h.fx, h.gx, ?_⟩
    rcases h.phase with ⟨a, b, p⟩ | ⟨a, b1, b2, b3, b4, b5, p⟩
    · exact Or.inl ⟨a, le_rfl, p⟩
    · rcases p with ⟨p, -⟩ | ⟨p, -⟩ <;> omega
  · exact absurd hrun' h1
  have h1 : c.status' (φ c.step) (φ' c.step) = .running := not_not.mp h1
  have h0 : c.stage ≠ 0 := by simpa using h0
  -- no convergence, no warning
  have hconv : φ c.step ≤ φ 0 + c.step * (c1 * φ' 0) → -c2 * φ' 0 < |φ' c.step| := by
    intro h2
    by_contra hc
    have : c.conv (φ c.step) (φ' c.step) = true := by
      unfold Dc.conv Dc.ftest
      rw [h.finit, h.gtest, h.gneg]
      exact Bool.and_eq_true _ _ ▸ ⟨decide_eq_true h2, decide_eq_true (not_lt.mp hc)⟩
    simp [Dc.status', this] at h1
  have hwarn : c.warns (φ c.step) (φ' c.step) = false := by
    by_contra hc
    have hc : c.warns (φ c.step) (φ' c.step) = true := by simpa using hc
    unfold Dc.status' at h1
    split_ifs at h1
  have hstrict : c.brackt = true → min c.stx c.sty = c.stmin → max c.stx c.sty = c.stmax → c.stmin < c.step ∧ c.step < c.stmax := by
    intro hb _ _
    simp only [Dc.warns, hb, Bool.true_and, Bool.or_eq_false_iff] at hwarn
    exact ⟨not_le.mp (of_decide_eq_false hwarn.1.1.1.1), not_le.mp (of_decide_eq_false hwarn.1.1.1.2)⟩
  have hmax : φ c.step ≤ φ 0 + c.step * (c1 * φ' 0) → φ' c.step ≤ c1 * φ' 0 → c.step ≠ hi := by
    intro h2 h3 h4
    simp only [Dc.warns, Bool.or_eq_false_iff] at hwarn
    have := hwarn.1.2
    unfold Dc.ftest at this
    rw [h.finit, h.gtest, h.maxS] at this
    have e : (FloatLike.eq c.step hi && le (φ c.step) (φ 0 + c.step * (c1 * φ' 0)) && le (φ' c.step) (c1 * φ' 0)) = true := by
      simp only [Bool.and_eq_true]
      exact ⟨⟨decide_eq_true h4, decide_eq_true h2⟩, decide_eq_true h3⟩
    exact Bool.false_ne_true (this.symm.trans e)
  have hft : c.ftest = φ 0 + c.step * (c1 * φ' 0) := by unfold Dc.ftest; rw [h.finit, h.gtest]
  have hraw : ∀ st, ¬ (st = 1 ∧ φ c.step ≤ φ c.stx ∧ φ 0 + c.step * (c1 * φ' 0) < φ c.step) →
      c.interval st (φ c.step) (φ' c.step) =
        dcstep ⟨c.stx, c.fx, c.gx, c.sty, c.fy, c.gy, c.step, c.brackt⟩ (φ c.step) (φ' c.step) c.stmin c.stmax := by
    intro st hn
    unfold Dc.interval
    rw [if_neg]
    intro hc
    simp only [Bool.and_eq_true] at hc
    refine hn ⟨by simpa using hc.1.1, ?_, ?_⟩
    · have := of_decide_eq_true hc.1.2
      rwa [h.fx] at this
    · have := of_decide_eq_true hc.2
      rwa [hft] at this
  have hst2 : c.stage = 1 → φ c.step ≤ φ 0 + c.step * (c1 * φ' 0) → 0 ≤ φ' c.step → c.stage' (φ c.step) (φ' c.step) = 2 := by
    intro h2 h3 h4
    unfold Dc.stage'
    rw [if_pos]
    simp only [Bool.and_eq_true]
    refine ⟨⟨by simpa using h2, ?_⟩, ?_⟩
    · rw [hft]; exact decide_eq_true h3
    · rw [zero_exact]; exact decide_eq_true h4
  have hst1 : ¬ (φ c.step ≤ φ 0 + c.step * (c1 * φ' 0) ∧ 0 ≤ φ' c.step) → c.stage' (φ c.step) (φ' c.step) = c.stage := by
    intro hn
    unfold Dc.stage'
    rw [if_neg]
    intro hc
    simp only [Bool.and_eq_true] at hc
    refine hn ⟨?_, ?_⟩
    · have := of_decide_eq_true hc.1.2
      rwa [hft] at this
    · have := of_decide_eq_true hc.2
      rwa [zero_exact] at this
  have hsteep : φ c.step ≤ φ 0 + c.step * (c1 * φ' 0) → φ' c.step < 0 → φ' c.step < 6 * (c1 * φ' 0) := by
    intro h2 h3
    have h4 := hconv h2
    rw [abs_of_neg h3] at h4
    have := mul_le_mul_of_nonpos_right hc2 hd0.le
    linarith
  -- the first stage, except going on in the same direction
  have one : c.stage = 1 → Good φ φ' c1 c.stx → c.stx < c.step →
      (φ c.step ≤ φ c.stx → φ c.step ≤ φ 0 + c.step * (c1 * φ' 0) → φ' c.step < 6 * (c1 * φ' 0) →
        Inv φ φ' c1 c2 lo hi (c.advance 1
          (dcstep ⟨c.stx, c.fx, c.gx, c.sty, c.fy, c.gy, c.step, c.brackt⟩ (φ c.step) (φ' c.step) c.stmin c.stmax)
          (c.bisect (dcstep ⟨c.stx, c.fx, c.gx, c.sty, c.fy, c.gy, c.step, c.brackt⟩ (φ c.step) (φ' c.step) c.stmin c.stmax)))) →
      Inv φ φ' c1 c2 lo hi (c.advance (c.stage' (φ c.step) (φ' c.step)) (c.interval (c.stage' (φ c.step) (φ' c.step)) (φ c.step) (φ' c.step))
        (c.bisect (c.interval (c.stage' (φ c.step) (φ' c.step)) (φ c.step) (φ' c.step)))) := by
    intro hs1 hgood hlt hon
    have hgx : c.gx < 0 := by rw [h.gx]; linarith [hgood.2]
    have hdn : c.gx * (c.step - c.stx) < 0 := mul_neg_of_neg_of_pos hgx (sub_pos.mpr hlt)
    have up : ∀ st, ¬ (st = 1 ∧ φ c.step ≤ φ c.stx ∧ φ 0 + c.step * (c1 * φ' 0) < φ c.step) → φ c.stx < φ c.step → (st = 1 ∨ st = 2) →
        Inv φ φ' c1 c2 lo hi (c.advance st (c.interval st (φ c.step) (φ' c.step)) (c.bisect (c.interval st (φ c.step) (φ' c.step)))) := by
      intro st hn hx hst
      rw [hraw st hn, dcstep_up (by simpa [h.fx] using hx)]
      obtain ⟨t, t0, t1, e⟩ := stepf1_between (dp := φ' c.step) (fp := φ c.step) hr
        (v := ⟨c.stx, c.fx, c.gx, c.sty, c.fy, c.gy, c.step, c.brackt⟩) hdn (by simpa [h.fx] using hx)
      refine h.advance φ φ' c1 c2 lo hi rfl h.fx h.gx rfl rfl (by dsimp only; rw [e]; exact inside_of_comb t0.le t1.le) ?_
      rcases hst with rfl | rfl
      · exact Or.inl ⟨rfl, hgood, hlt, Or.inr hx⟩
      · exact Or.inr ⟨rfl, hx.le, by rw [← h.gx]; exact hdn⟩
    by_cases hA : φ c.step ≤ φ 0 + c.step * (c1 * φ' 0)
    · by_cases hg : 0 ≤ φ' c.step
      · have hg' : 0 < φ' c.step := lt_of_le_of_ne hg (Ne.symm hne)
        rw [hst2 hs1 hA hg]
        by_cases hx : φ c.stx < φ c.step
        · exact up 2 (by simp) hx (Or.inr rfl)
        · have hx := not_lt.mp hx
          rw [hraw 2 (by simp), dcstep_turn (by simpa [h.fx] using hx) (mul_neg_of_pos_of_neg hg' hgx)]
          obtain ⟨t, t0, t1, e⟩ := stepf2_between (dp := φ' c.step) (fp := φ c.step) hr
            (v := ⟨c.stx, c.fx, c.gx, c.sty, c.fy, c.gy, c.step, c.brackt⟩) hdn (mul_neg_of_pos_of_neg hg' hgx)
          refine h.advance φ φ' c1 c2 lo hi rfl rfl rfl h.fx h.gx (by dsimp only; rw [e]; exact inside_of_comb t0.le t1.le) ?_
          exact Or.inr ⟨rfl, hx, mul_neg_of_pos_of_neg hg' (sub_neg.mpr hlt)⟩
      · have hg := not_le.mp hg
        rw [hst1 (fun hc => absurd hc.2 (not_le.mpr hg)), hs1]
        by_cases hx : φ c.stx < φ c.step
        · exact up 1 (fun hc => absurd hA (not_le.mpr hc.2.2)) hx (Or.inl rfl)
        · rw [hraw 1 (fun hc => absurd hA (not_le.mpr hc.2.2))]
          exact hon (not_lt.mp hx) hA (hsteep hA hg)
    · rw [hst1 (fun hc => hA hc.1), hs1]
      have hA := not_le.mp hA
      by_cases hx : φ c.stx < φ c.step
      · exact up 1 (fun hc => absurd hx (not_lt.mpr hc.2.1)) hx (Or.inl rfl)
      · have hx := not_lt.mp hx
        -- the modified function
        have hcond : ((1 : Nat) == 1 && le (φ c.step) c.fx && lt c.ftest (φ c.step)) = true := by
          rw [h.fx, hft]
          simp only [Bool.and_eq_true]
          exact ⟨⟨rfl, decide_eq_true hx⟩, decide_eq_true hA⟩
        have hint : c.interval 1 (φ c.step) (φ' c.step) =
            let v := dcstep ⟨c.stx, c.fx - c.stx * c.gtest, c.gx - c.gtest, c.sty, c.fy - c.sty * c.gtest, c.gy - c.gtest,
              c.step, c.brackt⟩ (φ c.step - c.step * c.gtest) (φ' c.step - c.gtest) c.stmin c.stmax
            { v with fx := v.fx + v.stx * c.gtest, fy := v.fy + v.sty * c.gtest, dx := v.dx + c.gtest, dy := v.dy + c.gtest } := by
          unfold Dc.interval
          rw [if_pos hcond]
        have hup : (c.fx - c.stx * c.gtest) < φ c.step - c.step * c.gtest := by
          rw [h.fx, h.gtest]; linarith [hgood.1]
        have hdn' : (c.gx - c.gtest) * (c.step - c.stx) < 0 := by
          refine mul_neg_of_neg_of_pos ?_ (sub_pos.mpr hlt)
          rw [h.gx, h.gtest]; linarith [hgood.2]
        rw [hint, dcstep_up hup]
        obtain ⟨t, t0, t1, e⟩ := stepf1_between (dp := φ' c.step - c.gtest) (fp := φ c.step - c.step * c.gtest) hr
          (v := ⟨c.stx, c.fx - c.stx * c.gtest, c.gx - c.gtest, c.sty, c.fy - c.sty * c.gtest, c.gy - c.gtest, c.step, c.brackt⟩) hdn' hup
        refine h.advance φ φ' c1 c2 lo hi rfl ?_ ?_ ?_ ?_ (by dsimp only; rw [e]; exact inside_of_comb t0.le t1.le) ?_
        · dsimp only; rw [h.fx]; ring
        · dsimp only; rw [h.gx]; ring
        · dsimp only; ring
        · dsimp only; ring
        · exact Or.inl ⟨rfl, hgood, hlt, Or.inl hA⟩
  rcases h.phase with ⟨hb, hs, hgood, hlt, hlo, hhi, hmx⟩ | ⟨hb, hfy, hgy, hmn, hmx, hin, hp⟩
  · -- not bracketed yet
    refine one (by omega) hgood hlt fun hx hA hst => ?_
    have hgx : c.gx < 0 := by rw [h.gx]; linarith [hgood.2]
    have hg : φ' c.step < 0 := by linarith
    have hss : 0 < φ' c.step * c.gx := mul_pos_of_neg_of_neg hg hgx
    rw [dcstep_on (by simpa [h.fx] using hx) hss]
    have hlt' : c.step < hi := lt_of_le_of_ne hhi (hmax hA (by linarith))
    have hnew : c.step < (if |φ' c.step| < |c.gx| then
        stepf3 ⟨c.stx, c.fx, c.gx, c.sty, c.fy, c.gy, c.step, c.brackt⟩ (φ c.step) (φ' c.step) c.stmin c.stmax else
        stepf4 ⟨c.stx, c.fx, c.gx, c.sty, c.fy, c.gy, c.step, c.brackt⟩ (φ c.step) (φ' c.step) c.stmin c.stmax) := by
      split_ifs with ha
      · exact stepf3_beyond (v := ⟨c.stx, c.fx, c.gx, c.sty, c.fy, c.gy, c.step, c.brackt⟩) hb hss ha hlt hmx
      · rw [stepf4_exact]
        dsimp only
        rw [hb, if_neg (by simp), if_pos hlt]
        exact hmx
    generalize (if |φ' c.step| < |c.gx| then
        stepf3 ⟨c.stx, c.fx, c.gx, c.sty, c.fy, c.gy, c.step, c.brackt⟩ (φ c.step) (φ' c.step) c.stmin c.stmax else
        stepf4 ⟨c.stx, c.fx, c.gx, c.sty, c.fy, c.gy, c.step, c.brackt⟩ (φ c.step) (φ' c.step) c.stmin c.stmax) = s at hnew ⊢
    have e1 : c.bisect ⟨c.step, φ c.step, φ' c.step, c.sty, c.fy, c.gy, s, c.brackt⟩ = s := by
      simp [Dc.bisect, hb]
    have e2 : c.force ⟨c.step, φ c.step, φ' c.step, c.sty, c.fy, c.gy, s, c.brackt⟩ s = min s hi := by
      simp only [Dc.force, hb, Bool.false_and, Bool.or_false, fmin_exact, fmax_exact, h.minS, h.maxS]
      rw [max_eq_left (hlo.trans hnew.le)]
      simp
    have l4 : (lit 4 : K) = 4 := by rw [lit_cast]; norm_num
    refine ⟨h.finit, h.gtest, h.gneg, h.minS, h.maxS, rfl, rfl, Or.inl ⟨hb, le_rfl, ⟨hA, hst⟩, ?_, ?_, ?_, ?_⟩⟩
    · show c.step < c.force _ (c.bisect _)
      rw [e1, e2]; exact lt_min hnew hlt'
    · show lo ≤ c.force _ (c.bisect _)
      rw [e1, e2]; exact le_min (hlo.trans hnew.le) (hlo.trans hhi)
    · show c.force _ (c.bisect _) ≤ hi
      rw [e1, e2]; exact min_le_right _ _
    · show c.force _ (c.bisect _) < (if c.brackt = true then _ else c.bisect _ + (lit 4 : K) * (c.bisect _ - c.step))
      rw [e1, e2, hb, l4, if_neg (by simp)]
      exact (min_le_left _ _).trans_lt (by linarith)
  · have hstr := hstrict hb hmn.symm hmx.symm
    rcases hp with ⟨hs, hgood, hxy, halt⟩ | ⟨hs, hxy, hdy⟩
    · -- bracketed, first stage
      rw [hmn, hmx, min_eq_left hxy.le, max_eq_right hxy.le] at hstr
      refine one hs hgood hstr.1 fun hx hA hst => ?_
      have hgx : c.gx < 0 := by rw [h.gx]; linarith [hgood.2]
      have hg : φ' c.step < 0 := by linarith
      have hss : 0 < φ' c.step * c.gx := mul_pos_of_neg_of_neg hg hgx
      rw [dcstep_on (by simpa [h.fx] using hx) hss]
      have hdy : φ' c.step * (c.sty - c.step) < 0 := mul_neg_of_neg_of_pos hg (sub_pos.mpr hstr.2)
      have hnew : ∃ t, 0 < t ∧ t < 1 ∧ (if |φ' c.step| < |c.gx| then
          stepf3 ⟨c.stx, c.fx, c.gx, c.sty, c.fy, c.gy, c.step, c.brackt⟩ (φ c.step) (φ' c.step) c.stmin c.stmax else
          stepf4 ⟨c.stx, c.fx, c.gx, c.sty, c.fy, c.gy, c.step, c.brackt⟩ (φ c.step) (φ' c.step) c.stmin c.stmax) =
          c.step + t * (c.sty - c.step) := by
        split_ifs with ha
        · refine stepf3_between (v := ⟨c.stx, c.fx, c.gx, c.sty, c.fy, c.gy, c.step, c.brackt⟩) hb hss ha
            (mul_pos (sub_pos.mpr hstr.2) (sub_pos.mpr hstr.1)) (fun hc => absurd hc (not_lt.mpr hstr.1.le)) (fun _ => ?_)
          rw [hmx, max_eq_right hxy.le]; exact hstr.2
        · refine stepf4_between (v := ⟨c.stx, c.fx, c.gx, c.sty, c.fy, c.gy, c.step, c.brackt⟩) hr hb hdy ?_
          dsimp only
          rw [hfy]
          rcases halt with ha | ha
          · have e1 : φ' c.step * (c.sty - c.step) < 6 * (c1 * φ' 0) * (c.sty - c.step) := mul_lt_mul_of_pos_right hst (sub_pos.mpr hstr.2)
            linarith
          · linarith
      obtain ⟨t, t0, t1, e⟩ := hnew
      refine h.advance φ φ' c1 c2 lo hi hb rfl rfl hfy hgy (by dsimp only; rw [e]; exact inside_of_comb t0.le t1.le) ?_
      exact Or.inl ⟨rfl, ⟨hA, hst⟩, hstr.2, halt.imp_right fun ha => hx.trans_lt ha⟩
    · -- second stage
      rw [hmn, hmx] at hstr
      have e2 : c.stage' (φ c.step) (φ' c.step) = 2 := by
        unfold Dc.stage'
        rw [hs]; simp
      have hbet : 0 < (c.sty - c.step) * (c.step - c.stx) := by
        rcases le_total c.stx c.sty with hl | hl
        · rw [min_eq_left hl, max_eq_right hl] at hstr
          exact mul_pos (sub_pos.mpr hstr.2) (sub_pos.mpr hstr.1)
        · rw [min_eq_right hl, max_eq_left hl] at hstr
          exact mul_pos_of_neg_of_neg (sub_neg.mpr hstr.1) (sub_neg.mpr hstr.2)
      rw [← h.gx] at hdy
      have hdn : c.gx * (c.step - c.stx) < 0 := by
        rcases lt_or_ge c.stx c.step with hl | hl
        · have : c.gx < 0 := by
            by_contra hc
            have h5 : 0 < c.sty - c.step := by
              by_contra h6
              have := mul_nonpos_of_nonpos_of_nonneg (not_lt.mp h6) (sub_pos.mpr hl).le
              linarith
            have := mul_nonneg (not_lt.mp hc) (by linarith : 0 ≤ c.sty - c.stx)
            linarith
          exact mul_neg_of_neg_of_pos this (sub_pos.mpr hl)
        · have hl' : c.step - c.stx < 0 := by
            refine lt_of_le_of_ne (sub_nonpos.mpr hl) fun h6 => ?_
            rw [h6] at hbet; simp at hbet
          have : 0 < c.gx := by
            by_contra hc
            have h5 : c.sty - c.step < 0 := by
              by_contra h6
              have := mul_nonpos_of_nonneg_of_nonpos (not_lt.mp h6) hl'.le
              linarith
            have := mul_nonneg_of_nonpos_of_nonpos (not_lt.mp hc) (by linarith : c.sty - c.stx ≤ 0)
            linarith
          exact mul_neg_of_pos_of_neg this hl'
      rw [e2, hraw 2 (by simp)]
      by_cases hx : φ c.stx < φ c.step
      · rw [dcstep_up (by simpa [h.fx] using hx)]
        obtain ⟨t, t0, t1, e⟩ := stepf1_between (dp := φ' c.step) (fp := φ c.step) hr
          (v := ⟨c.stx, c.fx, c.gx, c.sty, c.fy, c.gy, c.step, c.brackt⟩) hdn (by simpa [h.fx] using hx)
        refine h.advance φ φ' c1 c2 lo hi rfl h.fx h.gx rfl rfl (by dsimp only; rw [e]; exact inside_of_comb t0.le t1.le) ?_
        exact Or.inr ⟨rfl, hx.le, by rw [← h.gx]; exact hdn⟩
      · have hx := not_lt.mp hx
        have hgx : c.gx ≠ 0 := by intro h6; rw [h6] at hdn; simp at hdn
        rcases lt_or_gt_of_ne (mul_ne_zero hne hgx) with hss | hss
        · rw [dcstep_turn (by simpa [h.fx] using hx) hss]
          obtain ⟨t, t0, t1, e⟩ := stepf2_between (dp := φ' c.step) (fp := φ c.step) hr
            (v := ⟨c.stx, c.fx, c.gx, c.sty, c.fy, c.gy, c.step, c.brackt⟩) hdn hss
          refine h.advance φ φ' c1 c2 lo hi rfl rfl rfl h.fx h.gx (by dsimp only; rw [e]; exact inside_of_comb t0.le t1.le) ?_
          refine Or.inr ⟨rfl, hx, ?_⟩
          show φ' c.step * (c.stx - c.step) < 0
          have e5 : (c.gx * (c.step - c.stx)) * (φ' c.step * c.gx) = -(c.gx * c.gx) * (φ' c.step * (c.stx - c.step)) := by ring
          have e6 := mul_pos_of_neg_of_neg hdn hss
          rw [e5] at e6
          by_contra hc
          have := mul_nonneg (mul_self_nonneg c.gx) (not_lt.mp hc)
          linarith
        · have hdy' : φ' c.step * (c.sty - c.step) < 0 := by
            have e5 : (c.gx * (c.step - c.stx)) * (φ' c.step * c.gx) * ((c.sty - c.step) * (c.step - c.stx)) =
              (c.gx * (c.step - c.stx)) * (c.gx * (c.step - c.stx)) * (φ' c.step * (c.sty - c.step)) := by ring
            have e6 := mul_neg_of_neg_of_pos (mul_neg_of_neg_of_pos hdn hss) hbet
            rw [e5] at e6
            by_contra hc
            have := mul_nonneg (mul_self_nonneg (c.gx * (c.step - c.stx))) (not_lt.mp hc)
            linarith
          rw [dcstep_on (by simpa [h.fx] using hx) hss]
          have hnew : ∃ t, 0 < t ∧ t < 1 ∧ (if |φ' c.step| < |c.gx| then
              stepf3 ⟨c.stx, c.fx, c.gx, c.sty, c.fy, c.gy, c.step, c.brackt⟩ (φ c.step) (φ' c.step) c.stmin c.stmax else
              stepf4 ⟨c.stx, c.fx, c.gx, c.sty, c.fy, c.gy, c.step, c.brackt⟩ (φ c.step) (φ' c.step) c.stmin c.stmax) =
              c.step + t * (c.sty - c.step) := by
            split_ifs with ha
            · refine stepf3_between (v := ⟨c.stx, c.fx, c.gx, c.sty, c.fy, c.gy, c.step, c.brackt⟩) hb hss ha hbet
                (fun _ => by rw [hmn]; exact hstr.1) (fun _ => by rw [hmx]; exact hstr.2)
            · refine stepf4_between (v := ⟨c.stx, c.fx, c.gx, c.sty, c.fy, c.gy, c.step, c.brackt⟩) hr hb hdy' ?_
              dsimp only
              rw [hfy]
              linarith
          obtain ⟨t, t0, t1, e⟩ := hnew
          refine h.advance φ φ' c1 c2 lo hi hb rfl rfl hfy hgy (by dsimp only; rw [e]; exact inside_of_comb t0.le t1.le) ?_
          exact Or.inr ⟨rfl, hx.trans hxy, hdy'⟩

end inv

/-- The states of a search (`Dcsrch`) that is always given the cost and its derivative at the step length it returned, as
L:694-700 does; the derivative is never exactly zero. -/
inductive Searches (φ φ' : K → K) (c0 : Dc K) : Dc K → Prop
  | start : Searches φ φ' c0 c0
  | update {c : Dc K} : Searches φ φ' c0 c → c.status = .running → φ' c.step ≠ 0 → Searches φ φ' c0 (c.update (φ c.step) (φ' c.step))

/-- A search of a falling cost function with a first step within the limits; sufficient decrease is asked for with a small constant, as
the default options do (0.0001 and 0.9). -/
structure Setup (φ' : K → K) (c1 c2 lo hi s0 : K) : Prop where
  falls : φ' 0 < 0
  nonneg : 0 ≤ c1
  small : 6 * c1 ≤ c2
  small' : 6 * c1 < 1
  pos : 0 < s0
  low : lo ≤ s0
  high : s0 ≤ hi

theorem inv_new {φ φ' : K → K} {c1 c2 lo hi s0 : K} (h : Setup φ' c1 c2 lo hi s0) (xtol : K) :
    Inv φ φ' c1 c2 lo hi (Dc.new s0 (φ 0) (φ' 0) lo hi c1 xtol c2) := by
  have z : (zero : K) = 0 := zero_exact
  have l4 : (lit 4 : K) = 4 := by rw [lit_cast]; norm_num
  refine ⟨rfl, rfl, rfl, rfl, rfl, ?_, ?_, Or.inl ⟨rfl, Nat.zero_le _, ?_, ?_, h.low, h.high, ?_⟩⟩
  · show φ 0 = φ zero
    rw [z]
  · show φ' 0 = φ' zero
    rw [z]
  · show Good φ φ' c1 zero
    rw [z]
    refine ⟨by simp, ?_⟩
    have := mul_lt_mul_of_neg_right h.small' h.falls
    linarith
  · show zero < s0
    rw [z]; exact h.pos
  · show s0 < s0 + (lit 4 : K) * s0
    rw [l4]; linarith [h.pos]

theorem searches_inv (hr : Root K) {φ φ' : K → K} {c1 c2 lo hi s0 xtol : K} (h : Setup φ' c1 c2 lo hi s0) {c : Dc K}
    (hc : Searches φ φ' (Dc.new s0 (φ 0) (φ' 0) lo hi c1 xtol c2) c) (hrun : c.status = .running) : Inv φ φ' c1 c2 lo hi c := by
  induction hc with
  | start => exact inv_new h xtol
  | update hs hr' hne ih => exact inv_update φ φ' c1 c2 lo hi hr h.falls h.nonneg h.small (ih hr') hne hrun

/-- **C99, trial steps.** Once the search has a bracket, every step length it returns while it goes on lies in the bracket. -/
theorem C99_trial_inside_partial (hr : Root K) {φ φ' : K → K} {c1 c2 lo hi s0 xtol : K} (h : Setup φ' c1 c2 lo hi s0) {c : Dc K}
    (hc : Searches φ φ' (Dc.new s0 (φ 0) (φ' 0) lo hi c1 xtol c2) c) (hrun : c.status = .running) (hb : c.brackt = true) :
    min c.stx c.sty ≤ c.step ∧ c.step ≤ max c.stx c.sty := by
  rcases (searches_inv hr h hc hrun).phase with ⟨hb', -⟩ | ⟨-, -, -, -, -, hin, -⟩
  · rw [hb] at hb'; cases hb'
  · exact hin

/-- Before there is a bracket, the step length grows strictly from the best one, within the limits. -/
theorem C99_extrapolation (hr : Root K) {φ φ' : K → K} {c1 c2 lo hi s0 xtol : K} (h : Setup φ' c1 c2 lo hi s0) {c : Dc K}
    (hc : Searches φ φ' (Dc.new s0 (φ 0) (φ' 0) lo hi c1 xtol c2) c) (hrun : c.status = .running) (hb : c.brackt = false) :
    c.stx < c.step ∧ lo ≤ c.step ∧ c.step ≤ hi ∧ φ c.stx ≤ φ 0 + c.stx * (c1 * φ' 0) ∧ φ' c.stx < 0 := by
  rcases (searches_inv hr h hc hrun).phase with ⟨-, -, hg, p1, p2, p3, -⟩ | ⟨hb', -⟩
  · refine ⟨p1, p2, p3, hg.1, ?_⟩
    have := mul_nonpos_of_nonneg_of_nonpos h.nonneg h.falls.le
    linarith [hg.2]
  · rw [hb] at hb'; cases hb'

omit [IsStrictOrderedRing K] in
theorem dcstep_ends (v : Iv K) (fp dp a b : K) :
    ((dcstep v fp dp a b).stx = v.stx ∨ (dcstep v fp dp a b).stx = v.stp) ∧
    ((dcstep v fp dp a b).sty = v.sty ∨ (dcstep v fp dp a b).sty = v.stp ∨ (dcstep v fp dp a b).sty = v.stx) := by
  unfold dcstep
  dsimp only
  split_ifs <;> simp

omit [IsStrictOrderedRing K] in
theorem interval_ends (c : Dc K) (st : Nat) (e g : K) :
    ((c.interval st e g).stx = c.stx ∨ (c.interval st e g).stx = c.step) ∧
    ((c.interval st e g).sty = c.sty ∨ (c.interval st e g).sty = c.step ∨ (c.interval st e g).sty = c.stx) := by
  unfold Dc.interval
  split_ifs
  · exact dcstep_ends _ _ _ _ _
  · exact dcstep_ends _ _ _ _ _

/-- **C99, nesting.** The next bracket is part of the bracket. -/
theorem C99_nested_partial (hr : Root K) {φ φ' : K → K} {c1 c2 lo hi s0 xtol : K} (h : Setup φ' c1 c2 lo hi s0) {c : Dc K}
    (hc : Searches φ φ' (Dc.new s0 (φ 0) (φ' 0) lo hi c1 xtol c2) c) (hrun : c.status = .running) (hb : c.brackt = true) :
    let c' := c.update (φ c.step) (φ' c.step)
    min c.stx c.sty ≤ min c'.stx c'.sty ∧ max c'.stx c'.sty ≤ max c.stx c.sty := by
  intro c'
  have hin := C99_trial_inside_partial hr h hc hrun hb
  have key : (c'.stx = c.stx ∨ c'.stx = c.step) ∧ (c'.sty = c.sty ∨ c'.sty = c.step ∨ c'.sty = c.stx) := by
    simp only [c', Dc.update]
    split_ifs
    · exact ⟨Or.inl rfl, Or.inl rfl⟩
    · exact ⟨Or.inl rfl, Or.inl rfl⟩
    · exact interval_ends _ _ _ _
  have hx : min c.stx c.sty ≤ c'.stx ∧ c'.stx ≤ max c.stx c.sty := by
    rcases key.1 with e | e <;> rw [e]
    · exact inside_left _ _
    · exact hin
  have hy : min c.stx c.sty ≤ c'.sty ∧ c'.sty ≤ max c.stx c.sty := by
    rcases key.2 with e | e | e <;> rw [e]
    · exact ⟨min_le_right _ _, le_max_right _ _⟩
    · exact hin
    · exact inside_left _ _
  exact ⟨le_min hx.1 hy.1, max_le hx.2 hy.2⟩

omit [IsStrictOrderedRing K] in
theorem update_first {c : Dc K} {e g : K} (h : c.stage = 0) : c.update e g = { c with stage := 1 } := by
  simp [Dc.update, h]

omit [IsStrictOrderedRing K] in
theorem update_running {c : Dc K} {e g : K} (h0 : c.stage ≠ 0) (h : c.status' e g = .running) :
    c.update e g = c.advance (c.stage' e g) (c.interval (c.stage' e g) e g) (c.bisect (c.interval (c.stage' e g) e g)) := by
  unfold Dc.update
  rw [if_neg (by simpa using h0), if_neg (by simpa using h)]

/-! ### What the bracket contains -/

theorem min_right {f f' : ℝ → ℝ} (hf : ∀ t, HasDerivAt f (f' t) t) {a b : ℝ} (hab : a < b) (hd : f' a < 0) (hv : f a ≤ f b) :
    ∃ t, a < t ∧ t < b ∧ f t ≤ f a ∧ f' t = 0 := by
  have hcont : ContinuousOn f (Set.Icc a b) := fun t _ => (hf t).continuousAt.continuousWithinAt
  obtain ⟨t, ht, hmin⟩ := isCompact_Icc.exists_isMinOn (Set.nonempty_Icc.mpr hab.le) hcont
  have hlow : f t < f a := by
    by_contra hc
    have hc := not_lt.mp hc
    have h1 : ∀ x ∈ Set.Icc a b, f a ≤ f x := fun x hx => hc.trans (hmin hx)
    have hs := (hasDerivAt_iff_tendsto_slope.mp (hf a)).mono_left
      (nhdsWithin_mono a (fun x (hx : x ∈ Set.Ioi a) => (ne_of_gt hx : x ≠ a)))
    have : 0 ≤ f' a := by
      refine ge_of_tendsto hs ?_
      filter_upwards [Ioo_mem_nhdsGT hab] with x hx
      rw [slope_def_field]
      exact div_nonneg (sub_nonneg.mpr (h1 x ⟨hx.1.le, hx.2.le⟩)) (sub_pos.mpr hx.1).le
    linarith
  have hta : a < t := lt_of_le_of_ne ht.1 (by rintro rfl; exact lt_irrefl _ hlow)
  have htb : t < b := lt_of_le_of_ne ht.2 (by rintro rfl; linarith)
  refine ⟨t, hta, htb, hlow.le, ?_⟩
  have hloc : IsLocalMin f t := hmin.isLocalMin (Icc_mem_nhds hta htb)
  exact hloc.hasDerivAt_eq_zero (hf t)

theorem min_left {f f' : ℝ → ℝ} (hf : ∀ t, HasDerivAt f (f' t) t) {a b : ℝ} (hab : b < a) (hd : 0 < f' a) (hv : f a ≤ f b) :
    ∃ t, b < t ∧ t < a ∧ f t ≤ f a ∧ f' t = 0 := by
  have hg : ∀ t, HasDerivAt (fun u => f (-u)) (-(f' (-t))) t := by
    intro t
    have := (hf (-t)).comp t (hasDerivAt_neg t)
    rw [mul_neg_one] at this
    exact this
  obtain ⟨t, t1, t2, t3, t4⟩ := min_right hg (a := -a) (b := -b) (by linarith) (by simpa using hd) (by simpa using hv)
  exact ⟨-t, by linarith, by linarith, by simpa using t3, by linarith⟩

section real
noncomputable local instance : Sq ℝ := ⟨Real.sqrt⟩

/-- **C99, contents of the bracket.** For every differentiable cost along the direction: in the first stage the bracket contains, strictly inside,
a step length that satisfies both Wolfe conditions; in the second stage one where the derivative vanishes and the cost is not larger than
at the best step length. -/
theorem C99_contents_partial {φ φ' : ℝ → ℝ} (hφ : ∀ t, HasDerivAt φ (φ' t) t) {c1 c2 lo hi s0 xtol : ℝ} (h : Setup φ' c1 c2 lo hi s0)
    {c : Dc ℝ} (hc : Searches φ φ' (Dc.new s0 (φ 0) (φ' 0) lo hi c1 xtol c2) c) (hrun : c.status = .running) (hb : c.brackt = true) :
    ∃ t, min c.stx c.sty < t ∧ t < max c.stx c.sty ∧
      ((c.stage = 1 ∧ φ t ≤ φ 0 + c1 * t * φ' 0 ∧ |φ' t| ≤ c2 * |φ' 0|) ∨ (c.stage = 2 ∧ φ' t = 0 ∧ φ t ≤ φ c.stx)) := by
  have hG : c1 * φ' 0 ≤ 0 := mul_nonpos_of_nonneg_of_nonpos h.nonneg h.falls.le
  rcases (searches_inv root_real h hc hrun).phase with ⟨hb', -⟩ | ⟨-, -, -, -, -, -, hp⟩
  · rw [hb] at hb'; cases hb'
  · rcases hp with ⟨hs, hg, hxy, halt⟩ | ⟨hs, hle, hd⟩
    · have hψ : ∀ t, HasDerivAt (fun t => φ t - t * (c1 * φ' 0)) (φ' t - c1 * φ' 0) t := by
        intro t
        have := (hφ t).sub ((hasDerivAt_id' t).mul_const (c1 * φ' 0))
        rw [one_mul] at this
        exact this
      have hv : φ c.stx - c.stx * (c1 * φ' 0) ≤ φ c.sty - c.sty * (c1 * φ' 0) := by
        rcases halt with ha | ha
        · linarith [hg.1]
        · have := mul_le_mul_of_nonpos_right hxy.le hG
          linarith
      obtain ⟨t, t1, t2, t3, t4⟩ := min_right hψ hxy (by linarith [hg.2]) hv
      refine ⟨t, by rwa [min_eq_left hxy.le], by rwa [max_eq_right hxy.le], Or.inl ⟨hs, ?_, ?_⟩⟩
      · linarith [hg.1]
      · have e : φ' t = c1 * φ' 0 := by linarith
        rw [e, abs_mul, abs_of_nonneg h.nonneg]
        exact mul_le_mul_of_nonneg_right (by linarith [h.small, h.nonneg]) (abs_nonneg _)
    · rcases lt_trichotomy c.stx c.sty with hxy | hxy | hxy
      · have : φ' c.stx < 0 := by
          by_contra hc
          have := mul_nonneg (not_lt.mp hc) (sub_pos.mpr hxy).le
          linarith
        obtain ⟨t, t1, t2, t3, t4⟩ := min_right hφ hxy this hle
        exact ⟨t, by rwa [min_eq_left hxy.le], by rwa [max_eq_right hxy.le], Or.inr ⟨hs, t4, t3⟩⟩
      · rw [hxy] at hd; simp at hd
      · have : 0 < φ' c.stx := by
          by_contra hc
          have := mul_nonneg_of_nonpos_of_nonpos (not_lt.mp hc) (sub_neg.mpr hxy).le
          linarith
        obtain ⟨t, t1, t2, t3, t4⟩ := min_left hφ hxy this hle
        exact ⟨t, by rwa [min_eq_right hxy.le], by rwa [max_eq_left hxy.le], Or.inr ⟨hs, t4, t3⟩⟩

/-- The default options of the line search, and the cost `(t - 2)²` along the direction. -/
example : Setup (fun t : ℝ => 2 * (t - 2)) (1/10000) (9/10) (1/100000000) 50 1 := by
  constructor <;> norm_num

example : ∀ t : ℝ, HasDerivAt (fun t : ℝ => (t - 2) ^ 2) (2 * (t - 2)) t := by
  intro t
  have := ((hasDerivAt_id' t).sub_const 2).fun_pow 2
  simpa using this

/-- A search with a bracket: the cost `t² - t`, first step 1. -/
example : ∃ c : Dc ℝ, Setup (fun t : ℝ => 2 * t - 1) (1/10) (9/10) (1/100) 10 1 ∧
    Searches (fun t => t ^ 2 - t) (fun t => 2 * t - 1) (Dc.new 1 ((0 : ℝ) ^ 2 - 0) (2 * 0 - 1) (1/100) 10 (1/10) (1/1000) (9/10)) c ∧
    c.status = .running ∧ c.brackt = true := by
  have h : Setup (fun t : ℝ => 2 * t - 1) (1/10) (9/10) (1/100) 10 1 := by constructor <;> norm_num
  set c0 : Dc ℝ := Dc.new 1 ((0 : ℝ) ^ 2 - 0) (2 * 0 - 1) (1/100) 10 (1/10) (1/1000) (9/10) with hc0
  have e1 : ∀ e g, c0.update e g = { c0 with stage := 1 } := fun e g => update_first rfl
  set c1 : Dc ℝ := { c0 with stage := 1 } with hc1
  have s1 : Searches (fun t => t ^ 2 - t) (fun t => 2 * t - 1) c0 c1 := by
    rw [← e1 _ _]
    exact .update .start rfl (by show (2 * (1 : ℝ) - 1) ≠ 0; norm_num)
  have s2 := s1.update rfl (by show (2 * (1 : ℝ) - 1) ≠ 0; norm_num)
  have e2 : c1.update ((1 : ℝ) ^ 2 - 1) (2 * 1 - 1) = c1.update 0 1 := by norm_num
  have hft : c1.ftest = -1/10 := by
    show ((0 : ℝ) ^ 2 - 0) + 1 * (1/10 * (2 * 0 - 1)) = -1/10
    norm_num
  have hst : c1.stage' 0 1 = 1 := by
    unfold Dc.stage'
    rw [hft]
    refine if_neg ?_
    simp only [Bool.and_eq_true]
    intro hc
    exact absurd (of_decide_eq_true hc.1.2) (by norm_num)
  have hs : c1.status' 0 1 = .running := by
    have h1 : c1.conv 0 1 = false := by
      unfold Dc.conv
      rw [hft, Bool.and_eq_false_iff]
      exact Or.inl (decide_eq_false (by norm_num))
    have h2 : c1.warns 0 1 = false := by
      unfold Dc.warns
      rw [hft]
      simp only [Bool.or_eq_false_iff, Bool.and_eq_false_iff]
      refine ⟨⟨⟨Or.inl rfl, Or.inl rfl⟩, Or.inl (Or.inl (decide_eq_false ?_))⟩, Or.inl (decide_eq_false ?_)⟩
      · show ¬ (1 : ℝ) = 10
        norm_num
      · show ¬ (1 : ℝ) = 1/100
        norm_num
    unfold Dc.status'
    rw [h1, h2]
    rfl
  have hcond : ((1 : Nat) == 1 && le (0 : ℝ) c1.fx && lt c1.ftest (0 : ℝ)) = true := by
    rw [hft]
    simp only [Bool.and_eq_true]
    refine ⟨⟨rfl, decide_eq_true ?_⟩, decide_eq_true (by norm_num)⟩
    show (0 : ℝ) ≤ (0 : ℝ) ^ 2 - 0
    norm_num
  have hu := update_running (e := 0) (g := 1) (by simp [hc1]) hs
  have z : (zero : ℝ) = 0 := zero_exact
  have hb : (c1.interval 1 0 1).brackt = true := by
    unfold Dc.interval
    rw [if_pos hcond]
    have hup : ((0 : ℝ) ^ 2 - 0) - zero * (1/10 * (2 * 0 - 1)) < 0 - 1 * (1/10 * (2 * 0 - 1)) := by
      rw [z]; norm_num
    have := dcstep_up (v := ⟨c1.stx, c1.fx - c1.stx * c1.gtest, c1.gx - c1.gtest, c1.sty, c1.fy - c1.sty * c1.gtest, c1.gy - c1.gtest,
      c1.step, c1.brackt⟩) (fp := 0 - c1.step * c1.gtest) (dp := 1 - c1.gtest) (lo := c1.stmin) (hi := c1.stmax) hup
    exact congrArg Iv.brackt this
  refine ⟨c1.update 0 1, h, ?_, ?_, ?_⟩
  · rw [← e2]; exact s2
  · rw [hu]; rfl
  · rw [hu, hst]; exact hb

/-- A cost along the direction and its derivative. -/
noncomputable def wavy (t : ℝ) : ℝ := -t + 13083/2000 * t^2 - 639331/30000 * t^3 + 46222/1875 * t^4 - 280841/30000 * t^5
/-- See `wavy`. -/
noncomputable def wavy' (t : ℝ) : ℝ := -1 + 13083/1000 * t - 639331/10000 * t^2 + 184888/1875 * t^3 - 280841/6000 * t^4

theorem gamma0_eq {th da db g : ℝ} (hda : da ≠ 0) (hg : 0 ≤ g) (h : g * g = th * th - da * db) : gamma0 th da db = g := by
  obtain ⟨h1, h2⟩ := gamma0_spec root_real hda (h ▸ mul_self_nonneg g)
  exact (mul_self_inj h1 hg).mp (h2.trans h.symm)

/-- The search with `c1 = c2 = 1/2` on this cost, after the first step length 1 has been evaluated. -/
noncomputable def wavy1 : Dc ℝ :=
  { brackt := true, status := .running, stage := 1, xtol := 1/1000, minS := 1/100, maxS := 10, step := 5/11,
    finit := 0, fx := 0, fy := -23/48, gtest := -1/2, gneg := 1/2, gx := -1, gy := -1/20,
    stx := 0, sty := 1, stmin := 0, stmax := 1, width := 1, width1 := 999/100 }

theorem wavy_one : wavy 1 = -23/48 ∧ wavy' 1 = -1/20 := by constructor <;> norm_num [wavy, wavy']
theorem wavy_two : wavy (5/11) = -617/2640 ∧ wavy' (5/11) = -1 := by constructor <;> norm_num [wavy, wavy']

/-- The search before the first step length has been evaluated. -/
noncomputable def wavy0 : Dc ℝ :=
  { brackt := false, status := .running, stage := 1, xtol := 1/1000, minS := 1/100, maxS := 10, step := 1,
    finit := 0, fx := 0, fy := 0, gtest := -1/2, gneg := 1/2, gx := -1, gy := -1,
    stx := 0, sty := 0, stmin := 0, stmax := 5, width := 999/100, width1 := 999/50 }

theorem wavy_zero (e g : ℝ) : (Dc.new 1 (wavy 0) (wavy' 0) (1/100) 10 (1/2) (1/1000) (1/2) : Dc ℝ).update e g = wavy0 := by
  have e1 : wavy 0 = 0 := by norm_num [wavy]
  have e2 : wavy' 0 = -1 := by norm_num [wavy']
  have z : (lit 0 : ℝ) = 0 := zero_exact
  have l4 : (lit 4 : ℝ) = 4 := by rw [lit_cast]; norm_num
  have l2 : (lit 2 : ℝ) = 2 := lit2
  rw [update_first rfl]
  unfold Dc.new wavy0
  rw [e1, e2]
  dsimp only
  congr 1
  · exact (mul_neg_one (1/2 : ℝ)).trans (by norm_num)
  · show -(1/2 : ℝ) * -1 = 1/2
    norm_num
  · show (1 : ℝ) + (lit 4 : ℝ) * 1 = 5
    rw [l4]; norm_num
  · show (10 : ℝ) - 1/100 = 999/100
    norm_num
  · show ((10 : ℝ) - 1/100) * (lit 2 : ℝ) = 999/50
    rw [l2]; norm_num

theorem wavy0_interval : wavy0.interval 1 (-23/48) (-1/20) = ⟨0, 0, -1, 1, -23/48, -1/20, 5/11, true⟩ := by
  have hcond : ((1 : Nat) == 1 && le (-23/48 : ℝ) wavy0.fx && lt wavy0.ftest (-23/48 : ℝ)) = true := by
    simp only [Bool.and_eq_true]
    refine ⟨⟨rfl, decide_eq_true ?_⟩, decide_eq_true ?_⟩
    · norm_num [wavy0]
    · show (0 : ℝ) + 1 * (-1/2) < -23/48
      norm_num
  unfold Dc.interval
  rw [if_pos hcond]
  have hup : ((0 : ℝ) - 0 * (-1/2)) < -23/48 - 1 * (-1/2) := by norm_num
  have := dcstep_up (v := ⟨0, 0 - 0 * (-1/2), -1 - (-1/2), 0, 0 - 0 * (-1/2), -1 - (-1/2), 1, false⟩) (fp := -23/48 - 1 * (-1/2)) (dp := -1/20 - (-1/2))
    (lo := (0 : ℝ)) (hi := 5) hup
  show (let v := dcstep ⟨0, 0 - 0 * (-1/2), -1 - (-1/2), 0, 0 - 0 * (-1/2), -1 - (-1/2), 1, false⟩ (-23/48 - 1 * (-1/2)) (-1/20 - (-1/2)) (0 : ℝ) 5
    ({ v with fx := v.fx + v.stx * (-1/2 : ℝ), fy := v.fy + v.sty * (-1/2 : ℝ), dx := v.dx + (-1/2 : ℝ), dy := v.dy + (-1/2 : ℝ) } : Iv ℝ)) = _
  rw [this]
  have hs : stepf1 (⟨0, 0 - 0 * (-1/2), -1 - (-1/2), 0, 0 - 0 * (-1/2), -1 - (-1/2), 1, false⟩ : Iv ℝ) (-23/48 - 1 * (-1/2)) (-1/20 - (-1/2)) = 5/11 := by
    rw [stepf1_exact]
    dsimp only
    rw [if_neg (show ¬ (1 : ℝ) < 0 by norm_num)]
    have hg : gamma0 (3 * ((0 : ℝ) - 0 * (-1/2) - (-23/48 - 1 * (-1/2))) / (1 - 0) + (-1 - (-1/2)) + (-1/20 - (-1/2))) (-1 - (-1/2)) (-1/20 - (-1/2)) = 39/80 :=
      gamma0_eq (by norm_num) (by norm_num) (by norm_num)
    rw [hg]
    norm_num [cubicFraction]
  rw [hs]
  dsimp only
  congr 1 <;> norm_num

theorem wavy_first : wavy0.update (-23/48) (-1/20) = wavy1 := by
  have hf : wavy0.ftest = -1/2 := by
    show (0 : ℝ) + 1 * (-1/2) = -1/2
    norm_num
  have hs : wavy0.status' (-23/48) (-1/20) = .running := by
    have h1 : wavy0.conv (-23/48) (-1/20) = false := by
      unfold Dc.conv
      rw [hf, Bool.and_eq_false_iff]
      exact Or.inl (decide_eq_false (by norm_num))
    have h2 : wavy0.warns (-23/48) (-1/20) = false := by
      unfold Dc.warns
      rw [hf]
      simp only [wavy0, Bool.false_and, Bool.or_eq_false_iff, Bool.and_eq_false_iff]
      refine ⟨⟨⟨trivial, trivial⟩, Or.inl (Or.inl (decide_eq_false (by norm_num)))⟩, Or.inl (decide_eq_false (by norm_num))⟩
    unfold Dc.status'
    rw [h1, h2]
    rfl
  have hst : wavy0.stage' (-23/48) (-1/20) = 1 := by
    unfold Dc.stage'
    rw [hf, if_neg]
    · rfl
    · simp only [Bool.and_eq_true, not_and]
      intro hc
      exact absurd (of_decide_eq_true hc.2) (by norm_num)
  rw [update_running (by simp [wavy0]) hs, hst, wavy0_interval]
  have hb : wavy0.bisect ⟨0, 0, -1, 1, -23/48, -1/20, 5/11, true⟩ = 5/11 := by
    unfold Dc.bisect
    rw [if_neg]
    simp only [Bool.true_and]
    intro hc
    have := of_decide_eq_true hc
    have e : (lit (66/100) : ℝ) * wavy0.width1 ≤ |1 - 0| := this
    rw [lit66] at e
    norm_num [wavy0] at e
  have hfo : wavy0.force ⟨0, 0, -1, 1, -23/48, -1/20, 5/11, true⟩ (5/11) = 5/11 := by
    unfold Dc.force
    dsimp only
    rw [fmin_exact, fmax_exact]
    have e : min (max (5/11 : ℝ) wavy0.minS) wavy0.maxS = 5/11 := by
      norm_num [wavy0]
    rw [e, if_neg]
    simp only [Bool.true_and, Bool.or_eq_true, not_or]
    refine ⟨⟨fun hc => ?_, fun hc => ?_⟩, fun hc => ?_⟩
    · have := of_decide_eq_true hc; norm_num [wavy0] at this
    · have := of_decide_eq_true hc; norm_num [wavy0] at this
    · have h : (10 : ℝ) - 1/100 ≤ 1/1000 * 10 := of_decide_eq_true hc
      norm_num at h
  rw [hb]
  unfold Dc.advance
  rw [hfo]
  have e1 : (fmin 0 1 : ℝ) = 0 := by rw [fmin_exact]; norm_num
  have e2 : (fmax 0 1 : ℝ) = 1 := by rw [fmax_exact]; norm_num
  have e3 : (FloatLike.abs ((1 : ℝ) - 0)) = 1 := by show |(1 : ℝ) - 0| = 1; norm_num
  simp only [if_true]
  unfold wavy1
  simp only [wavy0, e1, e2]
  congr 1

theorem wavy1_interval : wavy1.interval 1 (-617/2640) (-1) = ⟨5/11, -617/2640, -1, 1, -23/48, -1/20, 35/33, true⟩ := by
  have hcond : ¬ ((1 : Nat) == 1 && le (-617/2640 : ℝ) wavy1.fx && lt wavy1.ftest (-617/2640 : ℝ)) = true := by
    simp only [Bool.and_eq_true, not_and]
    intro _ hc
    have h : (0 : ℝ) + 5/11 * (-1/2) < -617/2640 := of_decide_eq_true hc
    norm_num at h
  unfold Dc.interval
  rw [if_neg hcond]
  show dcstep ⟨0, 0, -1, 1, -23/48, -1/20, 5/11, true⟩ (-617/2640) (-1) (0 : ℝ) 1 = _
  rw [dcstep_on (by norm_num) (by norm_num)]
  have hs : stepf4 (⟨0, 0, -1, 1, -23/48, -1/20, 5/11, true⟩ : Iv ℝ) (-617/2640) (-1) 0 1 = 35/33 := by
    rw [stepf4_exact]
    dsimp only
    rw [if_pos rfl, if_neg (show ¬ (1 : ℝ) < 5/11 by norm_num)]
    have hg : gamma0 (3 * ((-617/2640 : ℝ) - -23/48) / (1 - 5/11) + -1/20 + -1) (-1/20) (-1) = 1/5 :=
      gamma0_eq (by norm_num) (by norm_num) (by norm_num)
    rw [hg]
    norm_num [cubicFraction]
  rw [if_neg (by norm_num), hs]

theorem wavy_second : wavy1.update (-617/2640) (-1) =
    wavy1.advance 1 ⟨5/11, -617/2640, -1, 1, -23/48, -1/20, 35/33, true⟩ (35/33) := by
  have hf : wavy1.ftest = -5/22 := by
    show (0 : ℝ) + 5/11 * (-1/2) = -5/22
    norm_num
  have hs : wavy1.status' (-617/2640) (-1) = .running := by
    have h1 : wavy1.conv (-617/2640) (-1) = false := by
      unfold Dc.conv
      rw [hf, Bool.and_eq_false_iff]
      refine Or.inr (decide_eq_false ?_)
      show ¬ |(-1 : ℝ)| ≤ 1/2
      rw [abs_neg, abs_one]
      norm_num
    have h2 : wavy1.warns (-617/2640) (-1) = false := by
      unfold Dc.warns
      rw [hf]
      simp only [wavy1, Bool.true_and, Bool.or_eq_false_iff, Bool.and_eq_false_iff]
      refine ⟨⟨⟨⟨decide_eq_false (by norm_num), decide_eq_false (by norm_num)⟩, decide_eq_false ?_⟩,
        Or.inl (Or.inl (decide_eq_false (by norm_num)))⟩, Or.inl (decide_eq_false (by norm_num))⟩
      show ¬ (1 : ℝ) - 0 ≤ 1/1000 * 1
      norm_num
    unfold Dc.status'
    rw [h1, h2]
    rfl
  have hst : wavy1.stage' (-617/2640) (-1) = 1 := by
    unfold Dc.stage'
    rw [if_neg]
    · rfl
    · simp only [Bool.and_eq_true, not_and]
      intro _ hc
      have := of_decide_eq_true hc
      rw [zero_exact] at this
      norm_num at this
  rw [update_running (by simp [wavy1]) hs, hst, wavy1_interval]
  have hb : wavy1.bisect ⟨5/11, -617/2640, -1, 1, -23/48, -1/20, 35/33, true⟩ = 35/33 := by
    unfold Dc.bisect
    rw [if_neg]
    simp only [Bool.true_and]
    intro hc
    have e : (lit (66/100) : ℝ) * wavy1.width1 ≤ |1 - 5/11| := of_decide_eq_true hc
    rw [lit66] at e
    norm_num [wavy1] at e
  rw [hb]

theorem wavy_force : wavy1.force ⟨5/11, -617/2640, -1, 1, -23/48, -1/20, 35/33, true⟩ (35/33) = 35/33 := by
  unfold Dc.force
  dsimp only
  rw [fmin_exact, fmax_exact]
  have e : min (max (35/33 : ℝ) wavy1.minS) wavy1.maxS = 35/33 := by
    norm_num [wavy1]
  rw [e, if_neg]
  simp only [Bool.true_and, Bool.or_eq_true, not_or]
  refine ⟨⟨fun hc => ?_, fun hc => ?_⟩, fun hc => ?_⟩
  · have := of_decide_eq_true hc; norm_num [wavy1] at this
  · have := of_decide_eq_true hc; norm_num [wavy1] at this
  · have h : (10 : ℝ) - 1/100 ≤ 1/1000 * 10 := of_decide_eq_true hc
    norm_num at h

omit [IsStrictOrderedRing K] in
theorem update_warns {c : Dc K} {e g : K} (h0 : c.stage ≠ 0) (h : c.warns e g = true) : (c.update e g).status ≠ .running := by
  have hs : c.status' e g ≠ .running := by
    unfold Dc.status'
    rw [h]
    split_ifs <;> simp_all
  unfold Dc.update
  rw [if_neg (by simpa using h0), if_pos hs]
  exact hs

/-- **C99: false for other options.** The limits of the bracket are not enforced (L:376-379 compare with the limits of the options instead): with
`c1 = c2 = 1/2`, which the options accept, there is a smooth cost along the direction for which the search brackets an acceptable step between
5/11 and 1 and then tries 35/33.  The next call ends the
search. -/
theorem C99_outside_counterexample :
    (∀ t, HasDerivAt wavy (wavy' t) t) ∧
    (⟨1/2, 1/2, 10, 1/100, 1/1000, 1, 30, 10, 10⟩ : Opt ℝ).check = true ∧
    ∃ c, Searches wavy wavy' (Dc.new 1 (wavy 0) (wavy' 0) (1/100) 10 (1/2) (1/1000) (1/2)) c ∧ c.status = .running ∧ c.brackt = true ∧
      c.stx = 5/11 ∧ c.sty = 1 ∧ c.step = 35/33 ∧ ∀ e g, (c.update e g).status ≠ .running := by
  refine ⟨fun t => ?_, ?_, ?_⟩
  · have h1 := (hasDerivAt_id' t).fun_neg
    have h2 := (hasDerivAt_pow 2 t).const_mul (13083/2000 : ℝ)
    have h3 := (hasDerivAt_pow 3 t).const_mul (639331/30000 : ℝ)
    have h4 := (hasDerivAt_pow 4 t).const_mul (46222/1875 : ℝ)
    have h5 := (hasDerivAt_pow 5 t).const_mul (280841/30000 : ℝ)
    refine ((((h1.add h2).sub h3).add h4).sub h5).congr_deriv ?_
    simp only [wavy']
    norm_num
    ring
  · simp only [Opt.check, zero_exact, FloatLike.le, FloatLike.lt, Bool.and_eq_true, decide_eq_true_eq]
    norm_num
  · refine ⟨wavy1.advance 1 ⟨5/11, -617/2640, -1, 1, -23/48, -1/20, 35/33, true⟩ (35/33), ?_, rfl, rfl, rfl, rfl, ?_, ?_⟩
    · have s1 : Searches wavy wavy' (Dc.new 1 (wavy 0) (wavy' 0) (1/100) 10 (1/2) (1/1000) (1/2)) wavy0 := by
        rw [← wavy_zero (wavy 1) (wavy' 1)]
        exact .update .start rfl (by show wavy' 1 ≠ 0; rw [wavy_one.2]; norm_num)
      have s2 : Searches wavy wavy' (Dc.new 1 (wavy 0) (wavy' 0) (1/100) 10 (1/2) (1/1000) (1/2)) wavy1 := by
        have := s1.update rfl (by show wavy' 1 ≠ 0; rw [wavy_one.2]; norm_num)
        have e : wavy0.update (wavy wavy0.step) (wavy' wavy0.step) = wavy1 := by
          show wavy0.update (wavy 1) (wavy' 1) = wavy1
          rw [wavy_one.1, wavy_one.2, wavy_first]
        rwa [e] at this
      have := s2.update rfl (by show wavy' (5/11) ≠ 0; rw [wavy_two.2]; norm_num)
      have e : wavy1.update (wavy wavy1.step) (wavy' wavy1.step) =
          wavy1.advance 1 ⟨5/11, -617/2640, -1, 1, -23/48, -1/20, 35/33, true⟩ (35/33) := by
        show wavy1.update (wavy (5/11)) (wavy' (5/11)) = _
        rw [wavy_two.1, wavy_two.2, wavy_second]
      rwa [e] at this
    · exact wavy_force
    · intro e g
      have hw : (wavy1.advance 1 ⟨5/11, -617/2640, -1, 1, -23/48, -1/20, 35/33, true⟩ (35/33)).warns e g = true := by
        unfold Dc.warns
        simp only [Bool.or_eq_true]
        refine Or.inl (Or.inl (Or.inl ?_))
        rw [Bool.and_eq_true]
        refine ⟨rfl, ?_⟩
        rw [Bool.or_eq_true]
        refine Or.inr (decide_eq_true ?_)
        show fmax (5/11 : ℝ) 1 ≤ wavy1.force ⟨5/11, -617/2640, -1, 1, -23/48, -1/20, 35/33, true⟩ (35/33)
        rw [wavy_force, fmax_exact]
        norm_num
      exact update_warns (by simp [Dc.advance]) hw

end real
end Verif.LineSearch
