import Verif.LineSearch.Interp
import Mathlib.Tactic.Linarith
import Mathlib.Tactic.NormNum

/-!
C77: every trial step of `zoom` lies between the two ends of its bracket, although the safeguards of a reversed bracket do not
guarantee it, and therefore no search ends at a negative step length.
-/
namespace Verif.LineSearch
open FloatLike

variable {K : Type} [LinearOrder K] [Field K] [IsStrictOrderedRing K] [Sq K] {X V : Type}

/-- What is needed of the square root. -/
structure Root (K : Type) [LinearOrder K] [Field K] [Sq K] : Prop where
  sq : ∀ r : K, 0 ≤ r → Sq.sq r * Sq.sq r = r
  nonneg : ∀ r : K, 0 ≤ Sq.sq r

theorem root_le {r t : K} (hr : Root K) (h0 : 0 ≤ r) (ht : 0 ≤ t) (h : r ≤ t * t) : Sq.sq r ≤ t := by
  have h1 := hr.sq r h0
  have h2 := hr.nonneg r
  by_contra hc
  have hc := not_le.mp hc
  nlinarith

theorem le_root {r t : K} (hr : Root K) (h0 : 0 ≤ r) (h : t ≤ 0 ∨ t * t ≤ r) : t ≤ Sq.sq r := by
  have h1 := hr.sq r h0
  have h2 := hr.nonneg r
  rcases h with h | h
  · exact h.trans h2
  · by_contra hc
    have hc := not_le.mp hc
    nlinarith

/-- The local minimizer of a cubic that falls from 0 to the left and has risen again at `h`. -/
theorem cubic_between (hr : Root K) {A B C h : K} (hA : A ≠ 0) (hh : h < 0) (hC : 0 < C) (hp : C + B * h + A * h ^ 2 ≤ 0) :
    h ≤ (-B + Sq.sq (B * B - 3 * A * C)) / (3 * A) ∧ (-B + Sq.sq (B * B - 3 * A * C)) / (3 * A) ≤ 0 := by
  have hBA : 0 < B + A * h := by
    by_contra hc
    have hc := not_lt.mp hc
    nlinarith
  rcases lt_or_gt_of_ne hA with hneg | hpos
  · -- A < 0
    have hAh : 0 < A * h := mul_pos_of_neg_of_neg hneg hh
    have h0 : 0 ≤ B * B - 3 * A * C := by nlinarith [mul_self_nonneg B]
    have h1 : Sq.sq (B * B - 3 * A * C) ≤ B + 3 * (A * h) := by
      refine root_le hr h0 (by linarith) ?_
      have e1 : -3 * A * (C + B * h + A * h ^ 2) ≤ 0 := mul_nonpos_of_nonneg_of_nonpos (by linarith) hp
      have e2 : 0 ≤ A * h * (B + 2 * (A * h)) := mul_nonneg hAh.le (by linarith)
      nlinarith
    have h2 : B ≤ Sq.sq (B * B - 3 * A * C) := le_root hr h0 (Or.inr (by nlinarith))
    have h3 : 3 * A < 0 := by linarith
    constructor
    · rw [le_div_iff_of_neg h3]; nlinarith
    · exact div_nonpos_of_nonneg_of_nonpos (by linarith) h3.le
  · have hAh : A * h < 0 := mul_neg_of_pos_of_neg hpos hh
    have hB : 0 < B := by linarith
    have e0 : A * (C + B * h + A * h ^ 2) ≤ 0 := mul_nonpos_of_nonneg_of_nonpos hpos.le hp
    have h0 : 0 ≤ B * B - 3 * A * C := by
      nlinarith [mul_self_nonneg (B + 2 * (A * h)), mul_pos hpos hC]
    have h1 : B + 3 * (A * h) ≤ Sq.sq (B * B - 3 * A * C) := by
      refine le_root hr h0 ?_
      rcases le_or_gt (B + 3 * (A * h)) 0 with hc | hc
      · exact Or.inl hc
      · refine Or.inr ?_
        have e2 : A * h * (B + 2 * (A * h)) ≤ 0 := mul_nonpos_of_nonpos_of_nonneg hAh.le (by linarith)
        nlinarith
    have h2 : Sq.sq (B * B - 3 * A * C) ≤ B := root_le hr h0 hB.le (by nlinarith [mul_pos hpos hC])
    have h3 : 0 < 3 * A := by linarith
    constructor
    · rw [le_div_iff₀ h3]; nlinarith
    · exact div_nonpos_of_nonpos_of_nonneg (by linarith) h3.le

theorem cubic_inside (hr : Root K) {a fa fpa b fb c fc : K} (hba : b < a) (hC : 0 < fpa) (hf : fa ≤ fb) :
    b ≤ cubicMin a fa fpa b fb c fc ∧ cubicMin a fa fpa b fb c fc ≤ a := by
  rw [cubicMin_exact]
  dsimp only
  by_cases hden : (b - a) * (c - a) * ((b - a) * (c - a)) * (b - a - (c - a)) = 0
  · rw [hden]
    simp only [div_zero, mul_zero, add_zero, le_refl, and_true]
    exact hba.le
  · generalize hA : ((c - a) * (c - a) * (fb - fa - fpa * (b - a)) + -((b - a) * (b - a)) * (fc - fa - fpa * (c - a))) /
        ((b - a) * (c - a) * ((b - a) * (c - a)) * (b - a - (c - a))) = A
    generalize hB : (-((c - a) * (c - a)) * (c - a) * (fb - fa - fpa * (b - a)) + -(-((b - a) * (b - a))) * (b - a) * (fc - fa - fpa * (c - a))) /
        ((b - a) * (c - a) * ((b - a) * (c - a)) * (b - a - (c - a))) = B
    by_cases hA0 : A = 0
    · rw [hA0]
      simp only [mul_zero, div_zero, add_zero, le_refl, and_true]
      exact hba.le
    have hh : b - a < 0 := sub_neg.mpr hba
    have key : fb - fa - fpa * (b - a) = (b - a) ^ 2 * (A * (b - a) + B) := by
      have hA' := (div_eq_iff hden).mp hA
      have hB' := (div_eq_iff hden).mp hB
      have hd : (b - a) * (c - a) * ((b - a) * (c - a)) * (b - a - (c - a)) = (c - a) ^ 2 * ((b - a) ^ 2 * ((b - a) - (c - a))) := by ring
      have hne : (c - a) ^ 2 * ((b - a) - (c - a)) ≠ 0 := by
        intro h0
        apply hden
        rw [hd]
        linear_combination (b - a) ^ 2 * h0
      apply mul_left_cancel₀ hne
      linear_combination (b - a) * hA' + hB'
    have hp : fpa + B * (b - a) + A * (b - a) ^ 2 ≤ 0 := by
      have h1 : 0 ≤ (b - a) * (fpa + B * (b - a) + A * (b - a) ^ 2) := by
        have : (b - a) * (fpa + B * (b - a) + A * (b - a) ^ 2) = fb - fa := by linear_combination -key
        rw [this]; exact sub_nonneg.mpr hf
      by_contra hc
      have hc := not_le.mp hc
      have := mul_neg_of_neg_of_pos hh hc
      linarith
    obtain ⟨h1, h2⟩ := cubic_between hr hA0 hh hC hp
    constructor <;> linarith

theorem quad_inside {a fa fpa b fb : K} (hba : b < a) (hC : 0 < fpa) (hf : fa ≤ fb) :
    b ≤ quadMin a fa fpa b fb ∧ quadMin a fa fpa b fb ≤ a := by
  rw [quadMin_exact]
  have hh : 0 < a - b := sub_pos.mpr hba
  have hN : fpa * (a - b) ≤ fb - fa - fpa * (b - a) := by linarith
  have hN0 : 0 < fb - fa - fpa * (b - a) := lt_of_lt_of_le (mul_pos hC hh) hN
  have hq : 1/2 * fpa / ((fb - fa - fpa * (b - a)) / ((b - a) * (b - a))) = fpa * (a - b) * (a - b) / (2 * (fb - fa - fpa * (b - a))) := by
    have h1 : b - a ≠ 0 := by
      intro h0; rw [sub_eq_zero] at h0; exact hba.ne h0
    field_simp
    ring
  rw [hq]
  constructor
  · have : fpa * (a - b) * (a - b) / (2 * (fb - fa - fpa * (b - a))) ≤ a - b := by
      rw [div_le_iff₀ (by linarith)]
      nlinarith
    linarith
  · have : 0 ≤ fpa * (a - b) * (a - b) / (2 * (fb - fa - fpa * (b - a))) := by positivity
    linarith

/-- The trial step of a bracket whose lower-error end is the upper one. -/
theorem trial_reversed (hr : Root K) (first : Bool) (z : Zm K) (h : z.hi < z.lo) (hd : 0 < z.dlo) (he : z.elo ≤ z.ehi) :
    z.hi ≤ trial first z ∧ trial first z ≤ z.lo := by
  have l5 : (lit (1/2) : K) = 1/2 := by rw [lit_cast]; norm_num
  obtain ⟨c1, c2⟩ := cubic_inside (c := z.srec) (fc := z.erec) hr h hd he
  obtain ⟨q1, q2⟩ := quad_inside h hd he
  have hm : z.hi ≤ z.lo + 1/2 * (z.hi - z.lo) ∧ z.lo + 1/2 * (z.hi - z.lo) ≤ z.lo := by
    constructor <;> linarith
  have hm' : z.hi ≤ FloatLike.add z.lo (FloatLike.mul (lit (1/2)) (FloatLike.sub z.hi z.lo)) ∧
      FloatLike.add z.lo (FloatLike.mul (lit (1/2)) (FloatLike.sub z.hi z.lo)) ≤ z.lo := by
    show z.hi ≤ z.lo + lit (1/2) * (z.hi - z.lo) ∧ z.lo + lit (1/2) * (z.hi - z.lo) ≤ z.lo
    rw [l5]; exact hm
  unfold trial
  dsimp only
  split_ifs <;> first | exact ⟨c1, c2⟩ | exact ⟨q1, q2⟩ | exact hm'

/-- A bracket: forward, or reversed with a rising derivative at its lower-error end. -/
def Bracket (e0 : K) (z : Zm K) : Prop :=
  0 ≤ z.lo ∧ 0 ≤ z.hi ∧ z.elo ≤ e0 ∧ (z.lo ≤ z.hi ∨ (z.hi < z.lo ∧ 0 < z.dlo ∧ z.elo ≤ z.ehi))

theorem Bracket.trial (hr : Root K) {e0 : K} {z : Zm K} (h : Bracket e0 z) (first : Bool) :
    min z.lo z.hi ≤ trial first z ∧ trial first z ≤ max z.lo z.hi := by
  rcases h.2.2.2 with h1 | ⟨h1, h2, h3⟩
  · obtain ⟨a, b⟩ := C77_trial_forward first z h1
    rw [min_eq_left h1, max_eq_right h1]
    constructor <;> linarith
  · rw [min_eq_right h1.le, max_eq_left h1.le]
    exact trial_reversed hr first z h1 h2 h3

theorem Bracket.shrink (hr : Root K) {o : Opt K} {e0 : K} {z : Zm K} (hc1 : 0 ≤ o.c1) (h : Bracket e0 z) (first : Bool) {e : K}
    (ht : z.tooHigh o e0 (LineSearch.trial first z) e = true) : Bracket e0 (z.shrink (LineSearch.trial first z) e) := by
  obtain ⟨t1, t2⟩ := h.trial hr first
  obtain ⟨h1, h2, h3, h4⟩ := h
  have t0 : 0 ≤ LineSearch.trial first z := (le_min h1 h2).trans t1
  refine ⟨h1, t0, h3, ?_⟩
  show z.lo ≤ LineSearch.trial first z ∨ (LineSearch.trial first z < z.lo ∧ 0 < z.dlo ∧ z.elo ≤ e)
  rcases h4 with h4 | ⟨h4, h5, h6⟩
  · left
    rw [min_eq_left h4] at t1
    exact t1
  · rcases le_or_gt z.lo (LineSearch.trial first z) with g | g
    · exact Or.inl g
    · refine Or.inr ⟨g, h5, ?_⟩
      have ht' : (decide (e0 + o.c1 * LineSearch.trial first z * z.dlo < e) || decide (z.elo ≤ e)) = true := ht
      simp only [Bool.or_eq_true, decide_eq_true_eq] at ht'
      rcases ht' with g1 | g1
      · have : 0 ≤ o.c1 * LineSearch.trial first z * z.dlo := mul_nonneg (mul_nonneg hc1 t0) h5.le
        linarith
      · exact g1

theorem Bracket.advance (hr : Root K) {o : Opt K} {e0 d0 : K} {z : Zm K} (hc2 : 0 ≤ -o.c2 * d0) (h : Bracket e0 z) (first : Bool) {e g : K}
    (ht : ¬ z.tooHigh o e0 (LineSearch.trial first z) e = true) (hg : ¬ |g| ≤ -o.c2 * d0) :
    Bracket e0 (z.advance (LineSearch.trial first z) e g) := by
  obtain ⟨t1, t2⟩ := h.trial hr first
  obtain ⟨h1, h2, h3, h4⟩ := h
  have t0 : 0 ≤ LineSearch.trial first z := (le_min h1 h2).trans t1
  have he := (tooHigh_exact ht).2
  have hg0 : g ≠ 0 := by
    rintro rfl
    rw [abs_zero] at hg
    exact hg hc2
  unfold Zm.advance
  split_ifs with hs
  · have hs' : decide ((zero : K) ≤ g * (z.hi - z.lo)) = true := hs
    rw [zero_exact] at hs'
    have hs' := of_decide_eq_true hs'
    refine ⟨t0, h1, (he.le).trans h3, ?_⟩
    show LineSearch.trial first z ≤ z.lo ∨ (z.lo < LineSearch.trial first z ∧ 0 < g ∧ e ≤ z.elo)
    rcases le_or_gt (LineSearch.trial first z) z.lo with q | q
    · exact Or.inl q
    · refine Or.inr ⟨q, ?_, he.le⟩
      have hhi : 0 < z.hi - z.lo := by
        rcases h4 with h4 | ⟨h4, -, -⟩
        · rw [max_eq_right h4] at t2; linarith
        · rw [max_eq_left h4.le] at t2; linarith
      rcases lt_or_gt_of_ne hg0 with q2 | q2
      · have := mul_neg_of_neg_of_pos q2 hhi
        linarith
      · exact q2
  · have hs' : ¬ decide ((zero : K) ≤ g * (z.hi - z.lo)) = true := hs
    rw [zero_exact] at hs'
    simp only [decide_eq_true_eq, not_le] at hs'
    refine ⟨t0, h2, (he.le).trans h3, ?_⟩
    show LineSearch.trial first z ≤ z.hi ∨ (z.hi < LineSearch.trial first z ∧ 0 < g ∧ e ≤ z.ehi)
    rcases h4 with h4 | ⟨h4, h5, h6⟩
    · rw [max_eq_right h4] at t2
      exact Or.inl t2
    · rcases le_or_gt (LineSearch.trial first z) z.hi with q | q
      · exact Or.inl q
      · refine Or.inr ⟨q, ?_, he.le.trans h6⟩
        by_contra hc
        have := mul_nonneg_of_nonpos_of_nonpos (not_lt.mp hc) (sub_nonpos.mpr h4.le)
        linarith

/-- The brackets that occur while `zoom` runs, L:557-641, for any error and derivative values met on the way. -/
inductive Visits (o : Opt K) (e0 d0 : K) (z0 : Zm K) : Zm K → Prop where
  | start : Visits o e0 d0 z0 z0
  | shrink {z : Zm K} (first : Bool) (e : K) : Visits o e0 d0 z0 z → z.tooHigh o e0 (trial first z) e = true →
      Visits o e0 d0 z0 (z.shrink (trial first z) e)
  | advance {z : Zm K} (first : Bool) (e g : K) : Visits o e0 d0 z0 z → ¬ z.tooHigh o e0 (trial first z) e = true →
      ¬ |g| ≤ -o.c2 * d0 → Visits o e0 d0 z0 (z.advance (trial first z) e g)

/-- **C77, brackets.** In every bracket that `zoom` meets, whatever the objective, the trial step lies between the two ends, although the safeguards of a reversed bracket alone
would also let through steps outside it. (Exact arithmetic and a true square root; where an interpolation divides by zero the model's step is the lower-error end, the code's
step comes from the next interpolation.) -/
theorem C77_brackets (hr : Root K) (o : Opt K) (ho : o.check = true) (e0 d0 : K) (hd : d0 ≤ 0) (z0 z : Zm K) (h0 : Bracket e0 z0)
    (h : Visits o e0 d0 z0 z) (first : Bool) : min z.lo z.hi ≤ trial first z ∧ trial first z ≤ max z.lo z.hi := by
  obtain ⟨c1, c2, -⟩ := check_exact ho
  have hc2 : 0 ≤ -o.c2 * d0 := by nlinarith
  suffices Bracket e0 z from this.trial hr first
  induction h with
  | start => exact h0
  | shrink fi e _ h1 ih => exact ih.shrink hr c1 fi h1
  | advance fi e g _ h1 h2 ih => exact ih.advance hr hc2 fi h1 h2

noncomputable local instance : Sq ℝ := ⟨Real.sqrt⟩

/-- Real numbers have such a square root. -/
theorem root_real : Root ℝ := ⟨fun _ h => Real.mul_self_sqrt h, fun r => Real.sqrt_nonneg r⟩

/-- A reversed bracket. -/
example : Bracket (3 : ℝ) ⟨2, 0, 1, 3, 1/2, 3, 0⟩ := by
  refine ⟨?_, ?_, ?_, Or.inr ⟨?_, ?_, ?_⟩⟩ <;> norm_num

/-- Default options, and a bracket of a search whose second visited bracket is a proper part of the first. -/
example : (⟨1/10000, 9/10, 50, 1/100000000, 1/100000000000000, 1, 30, 10, 10⟩ : Opt ℝ).check = true ∧
    Visits (⟨1/10000, 9/10, 50, 1/100000000, 1/100000000000000, 1, 30, 10, 10⟩ : Opt ℝ) 3 (-1) ⟨0, 2, 3, 4, -1, 3, 0⟩
      (Zm.shrink ⟨0, 2, 3, 4, -1, 3, 0⟩ (trial true (⟨0, 2, 3, 4, -1, 3, 0⟩ : Zm ℝ)) 5) := by
  refine ⟨?_, .shrink true 5 .start ?_⟩
  · simp only [Opt.check, zero_exact, FloatLike.le, FloatLike.lt, Bool.and_eq_true, decide_eq_true_eq]
    norm_num
  · simp only [Zm.tooHigh, FloatLike.le, Bool.or_eq_true, decide_eq_true_eq]
    right
    norm_num

/-! ### No negative step lengths -/

theorem zoom_step (hr : Root K) (E : Env K X V) (o : Opt K) (d : V) (e0 d0 : K) (hc1 : 0 ≤ o.c1) (hc2 : 0 ≤ -o.c2 * d0) :
    ∀ (n : Nat) (fi : Bool) (s : LS K X V) (z : Zm K), Bracket e0 z → 0 ≤ s.step → 0 ≤ (zoom E o d e0 d0 n fi s z).1.step := by
  intro n
  induction n with
  | zero => intro fi s z _ hs; exact hs
  | succ n ih =>
    intro fi s z hz hs
    have ht : 0 ≤ trial fi z := (le_min hz.1 hz.2.1).trans (hz.trial hr fi).1
    have h1 : (LineSearch.updateError E (moveTo E d s (trial fi z))).step = trial fi z := by
      rw [step_updateError, step_moveTo]
    simp only [zoom]
    split_ifs with h2 h3
    · exact ih _ _ _ (hz.shrink hr hc1 fi h2) (by rw [h1]; exact ht)
    · rw [step_derivAt, h1]; exact ht
    · refine ih _ _ _ (hz.advance hr hc2 fi h2 ?_) ?_
      · intro h4
        apply h3
        show decide (|_| ≤ -o.c2 * d0) = true
        exact decide_eq_true h4
      · rw [step_derivAt, h1]; exact ht

theorem loop2_step (hr : Root K) (E : Env K X V) (o : Opt K) (d : V) (e0 d0 : K) (hc1 : 0 ≤ o.c1) (hc2 : 0 ≤ -o.c2 * d0) (hd0 : d0 ≤ 0) :
    ∀ (n : Nat) (fi : Bool) (s : LS K X V) (w : W2 K), s.step = w.hi → 0 ≤ w.lo → w.lo ≤ w.hi → w.elo ≤ e0 → (fi = true → w.elo = e0) →
    0 ≤ (loop2 E o d e0 d0 n fi s w).1.step := by
  intro n
  induction n with
  | zero => intro fi s w hs h1 h2 _ _; simp only [loop2]; rw [hs]; exact h1.trans h2
  | succ n ih =>
    intro fi s w hs h1 h2 h3 h4
    have hhi := h1.trans h2
    simp only [loop2]
    split_ifs with g1 g2 g3 g4
    · rw [hs]; exact hhi
    · exact zoom_step hr E o d e0 d0 hc1 hc2 _ _ _ _ ⟨h1, hhi, h3, Or.inl h2⟩ (by rw [hs]; exact hhi)
    · rw [step_derivAt, hs]; exact hhi
    · simp only [Bool.or_eq_true, not_or] at g2
      have g2a : ¬ decide (e0 + o.c1 * w.hi * d0 < w.ehi) = true := g2.1
      simp only [decide_eq_true_eq, not_lt] at g2a
      have hle : w.ehi ≤ e0 := by
        have := mul_nonneg (mul_nonneg hc1 hhi) (neg_nonneg.mpr hd0)
        linarith
      refine zoom_step hr E o d e0 d0 hc1 hc2 _ _ _ _ ⟨hhi, h1, hle, ?_⟩ (by rw [step_derivAt, hs]; exact hhi)
      rcases eq_or_lt_of_le h2 with q | q
      · exact Or.inl q.ge
      · refine Or.inr ⟨q, ?_, ?_⟩
        · have g4' : decide ((zero : K) ≤ (derivAt E d s).derr) = true := g4
          rw [zero_exact] at g4'
          have g4' := of_decide_eq_true g4'
          refine lt_of_le_of_ne g4' ?_
          intro h0
          apply g3
          show decide (|(derivAt E d s).derr| ≤ -o.c2 * d0) = true
          have h0' : (derivAt E d s).derr = 0 := h0.symm
          rw [h0', abs_zero]
          exact decide_eq_true hc2
        · show w.ehi ≤ w.elo
          cases fi with
          | true => rw [h4 rfl]; exact hle
          | false =>
            have g2b : ¬ (decide (w.elo ≤ w.ehi) && true) = true := g2.2
            simp only [Bool.and_true, decide_eq_true_eq, not_le] at g2b
            exact g2b.le
    · have l2 : FloatLike.mul (lit 2) w.hi = 2 * w.hi := by
        show lit 2 * w.hi = _
        rw [lit2_exact]
      have hle : w.ehi ≤ e0 := by
        simp only [Bool.or_eq_true, not_or] at g2
        have g2a : ¬ decide (e0 + o.c1 * w.hi * d0 < w.ehi) = true := g2.1
        simp only [decide_eq_true_eq, not_lt] at g2a
        have := mul_nonneg (mul_nonneg hc1 hhi) (neg_nonneg.mpr hd0)
        linarith
      refine ih _ _ _ ?_ hhi ?_ hle (by simp)
      · rw [step_updateError, step_moveTo]
      · show w.hi ≤ FloatLike.mul (lit 2) w.hi
        rw [l2]; linarith

theorem wolfe2_step (hr : Root K) (E : Env K X V) (o : Opt K) (ho : o.check = true) (s : LS K X V) (hst : s.step = 0) (hd : s.derr ≤ 0) :
    0 ≤ (wolfe2 E o s).1.step := by
  obtain ⟨c1, c2, c3⟩ := check_exact ho
  cases hdir : s.dir with
  | none =>
    unfold wolfe2
    split
    · exact hst.ge
    · exact hst.ge
    · rename_i h2; rw [hdir] at h2; cases h2
  | some d =>
    rcases wolfe2_cases (E := E) (o := o) hdir with h1 | ⟨-, -, h1⟩
    · rw [h1]; exact hst.ge
    · rw [h1]
      unfold body2
      split_ifs with h2 h3
      · exact hst.ge
      · exact hst.ge
      · have := (firstStep_pos c3 h3).le
        refine loop2_step hr E o d s.err s.derr c1 (by nlinarith) hd _ _ _ _ ?_ ?_ ?_ le_rfl (fun _ => rfl)
        · rw [step_updateError, step_moveTo]
        · rw [zero_exact]
        · show zero ≤ _
          rw [zero_exact]; exact this

/-- **C77, step lengths.** A search from step length zero along a direction that is not an ascent direction, by any of the methods and whether or not it succeeds, leaves a step length that
is not negative. -/
theorem C77_step_nonneg (hr : Root K) (E : Env K X V) (o : Opt K) (ho : o.check = true) (d : V) (s : LS K X V) (hdir : s.dir = some d)
    (hst : s.step = 0) (hd : s.derr ≤ 0) :
    0 ≤ (wolfe1 E o s).1.step ∧ 0 ≤ (wolfe2 E o s).1.step ∧ 0 ≤ (wolfe12 E o s).1.step := by
  have h1 : 0 ≤ (wolfe1 E o s).1.step := by
    rcases C76_trial_steps E o d s hdir hst with g | g
    · exact g.ge
    · exact (check_min ho).trans g.1
  refine ⟨h1, wolfe2_step hr E o ho s hst hd, ?_⟩
  unfold wolfe12
  split
  · exact wolfe2_step hr E o ho _ (by show zero = _; exact zero_exact) hd
  · exact h1

end Verif.LineSearch
