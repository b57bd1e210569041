import Verif.Legacy.Model
import Mathlib.Tactic.Linarith
import Mathlib.Tactic.NormNum
import Mathlib.Algebra.Order.Ring.Rat
import Mathlib.Data.Rat.Lemmas
import Mathlib.Algebra.Order.Archimedean.Basic

/-! Properties C31 and C74. -/
namespace Verif.Legacy

variable {K X D P : Type} [LinearOrder K] [Field K]

/-! ### C31 -/

/-- Undoing the last update restores the cost (C21, C63). -/
def RevertsCost (S : Setup K X D P) : Prop := ∀ x d, S.cost (S.revert (S.update x d).1) = S.cost x

theorem loop_inv {S : Setup K X D P} {o : Options K} (I : St K X P → Prop) (h : ∀ s, running o s = true → I s → I (iter S o s)) :
    ∀ n s, I s → I (loop S o n s) := by
  intro n
  induction n with
  | zero => intro s hs; exact hs
  | succ n ih =>
    intro s hs
    unfold loop
    split
    · rename_i hr; exact ih _ (h s hr hs)
    · exact hs

theorem accepted_le [IsStrictOrderedRing K] {a b : Dbl K} {d : K} (hd : 0 ≤ d) (hb : b ≠ .nan) (ha : a ≠ .nan) (h : Dbl.le (divD (Dbl.sub a b) d) (.fin 0) = false) : Dbl.le b a = true := by
  cases a with
  | nan => exact absurd rfl ha
  | ninf => cases b <;> simp_all [divD, Dbl.sub, Dbl.le, Dbl.lt, not_lt.2 hd]
  | pinf => cases b <;> simp_all [divD, Dbl.sub, Dbl.le, Dbl.lt]
  | fin a =>
    cases b with
    | nan => exact absurd rfl hb
    | ninf => rfl
    | pinf => simp_all [divD, Dbl.sub, Dbl.le, Dbl.lt, not_lt.2 hd]
    | fin b =>
      rw [Dbl.le_fin]
      by_contra hc
      push Not at hc
      simp only [Dbl.sub, divD, Dbl.div] at h
      split_ifs at h with h1 h2 h3
      · linarith
      · linarith
      · simp [Dbl.le, Dbl.lt] at h
      · rw [Bool.eq_false_iff, ne_eq, Dbl.le_fin] at h
        exact h (div_nonpos_of_nonpos_of_nonneg (by linarith) hd)

theorem rejected_not_lt [IsStrictOrderedRing K] {a b : Dbl K} {d : K} (hd : 0 ≤ d) (h : Dbl.le (divD (Dbl.sub a b) d) (.fin 0) = true) : Dbl.lt b a = false := by
  cases a with
  | nan => cases b <;> rfl
  | ninf => cases b <;> rfl
  | pinf => cases b <;> simp_all [divD, Dbl.sub, Dbl.le, Dbl.lt, not_lt.2 hd]
  | fin a =>
    cases b with
    | nan => rfl
    | ninf => simp_all [divD, Dbl.sub, Dbl.le, Dbl.lt, not_lt.2 hd]
    | pinf => rfl
    | fin b =>
      rw [Bool.eq_false_iff, ne_eq, Dbl.lt_fin]
      intro hc
      simp only [Dbl.sub, divD, Dbl.div] at h
      split_ifs at h with h1 h2 h3
      · simp [Dbl.le] at h
      · simp [Dbl.le, Dbl.lt] at h
      · linarith
      · rw [Dbl.le_fin] at h
        have := div_pos (sub_pos.2 hc) (lt_of_le_of_ne hd (Ne.symm h1))
        linarith

omit [Field K] in
theorem eq_of_le_not_lt {a b : Dbl K} (h : Dbl.le b a = true) (h' : Dbl.lt b a = false) : b = a := by
  cases a <;> cases b <;> simp_all [Dbl.le, Dbl.lt]
  exact le_antisymm h h'

/-- **C31** (Levenberg-Marquardt, part). If no linear solve fails, no cost is NaN and the predicted reduction of the steps the solver returns is
not negative, then on return the design variables are at a state whose cost is at most the starting cost; and the
reported final cost is the cost of that state unless the last step was rejected. (Missing: a rejected last step,
failing linear solves and NaN; all are false, see the counterexamples.) -/
theorem C31_levenberg_marquardt_partial [IsStrictOrderedRing K] (S : Setup K X D P) (hrev : RevertsCost S)
    (hnan : ∀ x, S.cost x ≠ .nan) (hden : ∀ p x b d, (S.prepare p x b).2 = some d → 0 ≤ S.den (S.prepare p x b).1 d) (hsol : ∀ p x b, (S.prepare p x b).2 ≠ none)
    (o : Options K) (hlm : o.doLevenbergMarquardt = true) (x : X) (p : P) :
    let r := optimize S o x p
    r.JStart = S.cost x ∧ Dbl.le (S.cost r.x) r.JStart = true ∧
      ((loop S o o.maxIterations.toNat (enter S o x p)).regr = false → r.JFinal = S.cost r.x) := by
  have key := loop_inv (S := S) (o := o) (fun s => S.cost s.x = s.pJ ∧ Dbl.le s.pJ (S.cost x) = true ∧
      (s.regr = false → s.J = S.cost s.x)) ?_ o.maxIterations.toNat (enter S o x p) ?_
  · intro r
    refine ⟨rfl, ?_, key.2.2⟩
    have h := key.2.1
    rw [← key.1] at h
    exact h
  · intro s _ ⟨h1, h2, h3⟩
    unfold iter
    have hp := hsol s.p s.x s.regr
    have hd0 := hden s.p s.x s.regr
    split
    · rename_i p' e; rw [e] at hp; exact absurd rfl hp
    · rename_i p' d e
      rw [e] at hd0
      have hd : 0 ≤ S.den p' d := hd0 d rfl
      simp only [hlm, if_true]
      have hpJ : s.pJ ≠ .nan := by rw [← h1]; exact hnan _
      cases hr : Dbl.le (divD (Dbl.sub s.pJ (S.cost (S.update s.x d).1)) (S.den p' d)) (.fin 0) with
      | true =>
        simp only [hr, if_true, finish]
        simp only [rejected_not_lt hd hr, Bool.false_eq_true, if_false]
        exact ⟨by rw [hrev, h1], h2, by simp⟩
      | false =>
        simp only [hr, Bool.false_eq_true, if_false, finish]
        have hle := accepted_le hd (hnan _) hpJ hr
        have heq : (if Dbl.lt (S.cost (S.update s.x d).1) s.pJ then S.cost (S.update s.x d).1 else s.pJ) = S.cost (S.update s.x d).1 := by
          cases hlt : Dbl.lt (S.cost (S.update s.x d).1) s.pJ with
          | true => rfl
          | false => exact (eq_of_le_not_lt hle hlt).symm
        rw [heq]
        exact ⟨rfl, Dbl.le_trans hle h2, fun _ => trivial⟩
  · exact ⟨rfl, Dbl.le_refl (hnan _), fun _ => rfl⟩

/-- Integers as state (value, previous value); steps come from a list, `none` is a failing linear solve. -/
def demo (cost : Rat → Dbl Rat) : Setup Rat (Rat × Rat) Rat (List (Option Rat)) where
  cost x := cost x.1
  update x d := ((x.1 + d, x.1), .fin |d|)
  revert x := (x.2, x.2)
  prepare p _ _ := match p with
    | [] => ([], some 0)
    | a :: l => (l, a)
  den _ _ := 1
  failed p := p
  good p _ := p

/-- The last step is rejected: the design variables are reverted to 5 (cost 25) but the reported final cost is the
cost 49 of the rejected state, larger than the starting cost 25. -/
theorem C31_rejected_last_step_counterexample :
    let r := optimize (demo (fun x => .fin (x * x))) ⟨0, 0, 1, true⟩ (5, 5) [some 2]
    r.x.1 = 5 ∧ r.JStart = .fin 25 ∧ r.JFinal = .fin 49 := by
  refine ⟨?_, ?_, ?_⟩ <;> decide +kernel

/-- A failing linear solve after an accepted step undoes the accepted step: the design variables are back at 10
(cost 100), the reported final cost is 25. -/
theorem C31_solver_failure_counterexample :
    let r := optimize (demo (fun x => .fin (x * x))) ⟨0, 0, 2, true⟩ (10, 10) [some (-5), none]
    r.x.1 = 10 ∧ r.JFinal = .fin 25 ∧ r.failedIt = 1 := by
  refine ⟨?_, ?_, ?_⟩ <;> decide +kernel

example : let r := optimize (demo (fun x => .fin (x * x))) ⟨0, 0, 4, true⟩ (10, 10) [some (-5), some 3, some (-2), some (-1)]
    r.x.1 = 2 ∧ r.JFinal = .fin 4 ∧ r.failedIt = 1 := by
  refine ⟨?_, ?_, ?_⟩ <;> decide +kernel

/-- A cost that is NaN is accepted: the step from 1 leads to NaN, `rho <= 0` is false for NaN, and the optimizer returns there. -/
theorem C31_nan_counterexample :
    let r := optimize (demo (fun x => if x < 0 then .nan else .fin (x * x))) ⟨0, 0, 3, true⟩ (1, 1) [some (-2), some 1, some 1]
    r.x.1 = -1 ∧ r.JFinal = .nan ∧ r.failedIt = 0 := by
  refine ⟨?_, ?_, ?_⟩ <;> decide +kernel

/-- The set-up without failing solves meets the hypotheses of the theorem. -/
example : let S : Setup Rat (Rat × Rat) Rat (List Rat) := ⟨fun x => .fin (x.1 * x.1), fun x d => ((x.1 + d, x.1), .fin |d|), fun x => (x.2, x.2),
      fun p _ _ => (p.tail, some (p.headD 0)), fun _ _ => 1, fun p => p, fun p _ => p⟩
    RevertsCost S ∧ (∀ x, S.cost x ≠ .nan) ∧ (∀ p x b d, (S.prepare p x b).2 = some d → 0 ≤ S.den (S.prepare p x b).1 d) ∧ (∀ p x b, (S.prepare p x b).2 ≠ none) ∧
    (optimize S ⟨0, 0, 3, true⟩ (10, 10) [-5, 3, -2]).x.1 = 3 := by
  refine ⟨fun _ _ => rfl, fun x h => (by cases h), fun _ _ _ _ _ => by norm_num, fun _ _ _ => by simp, by decide +kernel⟩

/-- The same for the dog-leg set-up. -/
def DRevertsCost (S : DogLeg K X D P) : Prop := ∀ x d, S.cost (S.revert (S.update x d).1) = S.cost x

theorem lt_of_noNan_pos [IsStrictOrderedRing K] {a b : Dbl K} {d : K} (hd : 0 ≤ d) (h3 : a ≠ .nan)
    (h : Dbl.lt (.fin 0) (noNan (divD (Dbl.sub a b) d)) = true) : Dbl.lt b a = true := by
  have e1 : Dbl.lt (.fin (0 : K)) (.fin (-1)) = false := by
    rw [Bool.eq_false_iff, ne_eq, Dbl.lt_fin]; norm_num
  have e2 : ∀ x : Dbl K, Dbl.lt x .ninf = false := by intro x; cases x <;> rfl
  cases a <;> cases b <;> simp only [Dbl.sub, divD, if_neg (not_lt.2 hd), e2] at h ⊢ <;>
    first | simp only [noNan, e1, e2] at h | skip
  all_goals
    first | rfl | exact absurd rfl h3 | exact Bool.noConfusion h | skip
  rename_i a b
  rw [Dbl.lt_fin]
  unfold Dbl.div at h
  by_cases hz : d = 0
  · rw [if_pos hz] at h
    by_cases hab : a - b = 0
    · rw [if_pos hab] at h
      simp only [noNan, e1] at h
      cases h
    · rw [if_neg hab] at h
      by_cases hp : 0 < a - b
      · linarith
      · rw [if_neg hp] at h
        simp only [noNan, e2] at h
        cases h
  · rw [if_neg hz] at h
    simp only [noNan] at h
    rw [Dbl.lt_fin, div_pos_iff_of_pos_right (lt_of_le_of_ne hd (Ne.symm hz))] at h
    linarith

theorem dIter_spec [IsStrictOrderedRing K] (S : DogLeg K X D P) (hrev : DRevertsCost S) (hL0 : ∀ p δ, 0 ≤ (S.step p δ).2.2.2)
    (s s' : DSt K X P) (rho : Dbl K) (h : dIter S s = (s', rho)) (h1 : S.cost s.x = s.pJ) (h2 : s.J = s.pJ) (h3 : s.pJ ≠ .nan) :
    S.cost s'.x = s'.pJ ∧ s'.J = s'.pJ ∧ s'.pJ ≠ .nan ∧ Dbl.le s'.pJ s.pJ = true := by
  unfold dIter at h
  simp only at h
  cases h
  simp only
  generalize hq : noNan (divD (Dbl.sub s.pJ (S.cost (S.update s.x (S.step s.p s.delta).2.2.1).1)) (S.step s.p s.delta).2.2.2) = rho
  cases hacc : Dbl.lt (.fin 0) rho with
  | false =>
    simp only [Bool.false_eq_true, if_false]
    rw [hrev, h1]
    have : Dbl.lt s.pJ s.pJ = false := by cases s.pJ <;> simp [Dbl.lt]
    simp only [this, Bool.false_eq_true, if_false]
    exact ⟨trivial, trivial, h3, Dbl.le_refl h3⟩
  | true =>
    simp only [if_true]
    have hlt : Dbl.lt (S.cost (S.update s.x (S.step s.p s.delta).2.2.1).1) s.pJ = true := by
      have hd := hL0 s.p s.delta
      rw [← hq] at hacc
      exact lt_of_noNan_pos hd h3 hacc
    simp only [hlt, if_true]
    have hn : S.cost (S.update s.x (S.step s.p s.delta).2.2.1).1 ≠ .nan := by
      intro h; rw [h, Dbl.lt_nan_left] at hlt; cases hlt
    refine ⟨trivial, trivial, hn, ?_⟩
    rw [Dbl.le_iff_not_lt hn h3]
    generalize S.cost (S.update s.x (S.step s.p s.delta).2.2.1).1 = b at hlt
    generalize s.pJ = a at hlt
    cases a <;> cases b <;> simp_all [Dbl.lt]
    exact hlt.le

theorem outer_spec [IsStrictOrderedRing K] (S : DogLeg K X D P) (hrev : DRevertsCost S) (hL0 : ∀ p δ, 0 ≤ (S.step p δ).2.2.2)
    (o : Options K) : ∀ (it : Int) (s t : DSt K X P), Outer S o it s t → S.cost s.x = s.pJ → s.J = s.pJ → s.pJ ≠ .nan →
      S.cost t.x = t.pJ ∧ t.J = t.pJ ∧ t.pJ ≠ .nan ∧ Dbl.le t.pJ s.pJ = true := by
  have hin : ∀ (s t : DSt K X P), Inner S o.convergenceDeltaX s t → S.cost s.x = s.pJ → s.J = s.pJ → s.pJ ≠ .nan →
      S.cost t.x = t.pJ ∧ t.J = t.pJ ∧ t.pJ ≠ .nan ∧ Dbl.le t.pJ s.pJ = true := by
    intro s t hi
    induction hi with
    | stop h _ => exact fun a b c => dIter_spec S hrev hL0 _ _ _ h a b c
    | again h _ _ ih =>
      intro a b c
      obtain ⟨a', b', c', d'⟩ := dIter_spec S hrev hL0 _ _ _ h a b c
      obtain ⟨a2, b2, c2, d2⟩ := ih a' b' c'
      exact ⟨a2, b2, c2, Dbl.le_trans d2 d'⟩
  intro it s t hi
  induction hi with
  | stop _ => exact fun a b c => ⟨a, b, c, Dbl.le_refl c⟩
  | again _ hi _ ih =>
    intro a b c
    obtain ⟨a', b', c', d'⟩ := hin _ _ hi a b c
    obtain ⟨a2, b2, c2, d2⟩ := ih a' b' c'
    exact ⟨a2, b2, c2, Dbl.le_trans d2 d'⟩

/-- **C31** (dog-leg). For every run of the dog-leg method that ends, for all steps, solver results and radii, with
any candidate costs including NaN and infinity: on return the design variables are at a state whose cost is the
reported final cost, and it is not larger than the starting cost. Only the starting cost must not be NaN and the
predicted reduction not negative. -/
theorem C31_dogleg [IsStrictOrderedRing K] (S : DogLeg K X D P) (hrev : DRevertsCost S) (hL0 : ∀ p δ, 0 ≤ (S.step p δ).2.2.2)
    (o : Options K) (x : X) (hx : S.cost x ≠ .nan) (p : P) (t : DSt K X P) (h : OptimizeDogLeg S o x p t) :
    t.J = S.cost t.x ∧ Dbl.le t.J (S.cost x) = true := by
  obtain ⟨a, b, _, d⟩ := outer_spec S hrev hL0 o 0 _ t h rfl rfl hx
  refine ⟨by rw [b, a], ?_⟩
  rw [b]; exact d

/-- **C31** (dog-leg, first step). A run with at least one iteration tries a step, whatever the thresholds: if the first step of the solver lowers the cost, the final cost is at
most the cost after that step. -/
theorem C31_dogleg_first [IsStrictOrderedRing K] (S : DogLeg K X D P) (hrev : DRevertsCost S) (hL0 : ∀ p δ, 0 ≤ (S.step p δ).2.2.2)
    (o : Options K) (ho : 0 < o.maxIterations) (x : X) (p : P) {a b : K} (ha : S.cost x = .fin a) (hb : S.cost (S.update x (S.step (S.rebuild p x) 0).2.2.1).1 = .fin b)
    (hlt : b < a) (hpos : 0 < (S.step (S.rebuild p x) 0).2.2.2) (t : DSt K X P) (h : OptimizeDogLeg S o x p t) : Dbl.le t.J (.fin b) = true := by
  have hrun : dRunning o 0 (dEnter S o x p) = true := by
    have h1 : o.convergenceDeltaX < o.convergenceDeltaX + 1 := lt_add_one _
    have h2 : o.convergenceDeltaJ < |o.convergenceDeltaJ + 1| := (lt_add_one _).trans_le (le_abs_self _)
    simp [dRunning, dEnter, ho, Dbl.lt, Dbl.abs, h1, h2]
  have hq : noNan (divD (Dbl.sub (.fin a) (.fin b)) (S.step (S.rebuild p x) 0).2.2.2) = .fin ((a - b) / (S.step (S.rebuild p x) 0).2.2.2) := by
    simp [Dbl.sub, divD, Dbl.div, hpos.ne', noNan]
  have hr0 : 0 < (a - b) / (S.step (S.rebuild p x) 0).2.2.2 := div_pos (sub_pos.2 hlt) hpos
  have hpJ : (dIter S (dEnter S o x p)).1.pJ = .fin b := by
    simp only [dIter, dEnter, ha, hb, hq]
    simp [Dbl.lt, hr0, hlt]
  unfold OptimizeDogLeg at h
  cases h with
  | stop h => rw [hrun] at h; cases h
  | again _ hi ht =>
    cases hi with
    | stop hd _ =>
      have hspec := dIter_spec S hrev hL0 (dEnter S o x p) _ _ hd rfl rfl (by simp [dEnter, ha])
      rw [hd] at hpJ
      obtain ⟨q1, q2, q3, q4⟩ := outer_spec S hrev hL0 o _ _ _ ht hspec.1 hspec.2.1 hspec.2.2.1
      rw [q2, ← hpJ]
      exact q4
    | again hd hs _ =>
      have e := congrArg Prod.snd hd
      simp only [dIter, dEnter, ha, hb, hq] at e
      rw [← e] at hs
      simp [Dbl.lt, hr0.le, not_lt.2 hr0.le] at hs

/-- **C31** (dog-leg ends). If a step that fails leaves at most half the radius (which the radius update does, C29) and
the threshold for the step length is positive, the dog-leg method ends. -/
theorem C31_dogleg_terminates [IsStrictOrderedRing K] [Archimedean K] (S : DogLeg K X D P) (o : Options K) (ho : 0 < o.convergenceDeltaX)
    (hhalf : ∀ s s' rho, dIter S s = (s', rho) → Dbl.lt rho (.fin 0) = true → s.delta ≠ 0 → s'.delta ≤ s.delta / 2)
    (x : X) (p : P) : ∃ t, OptimizeDogLeg S o x p t := by
  have hinner : ∀ n (s : DSt K X P), s.delta ≤ o.convergenceDeltaX * 2 ^ n → s.delta ≠ 0 → ∃ t, Inner S o.convergenceDeltaX s t := by
    intro n
    induction n with
    | zero =>
      intro s hs h0
      cases hb : (Dbl.lt (dIter S s).2 (.fin 0) && decide (o.convergenceDeltaX < (dIter S s).1.delta)) with
      | false => exact ⟨_, .stop rfl hb⟩
      | true =>
        exfalso
        simp only [Bool.and_eq_true, decide_eq_true_eq] at hb
        have := hhalf s (dIter S s).1 (dIter S s).2 rfl hb.1 h0
        simp only [pow_zero, mul_one] at hs
        linarith
    | succ n ih =>
      intro s hs h0
      cases hb : (Dbl.lt (dIter S s).2 (.fin 0) && decide (o.convergenceDeltaX < (dIter S s).1.delta)) with
      | false => exact ⟨_, .stop rfl hb⟩
      | true =>
        have hb' := hb
        simp only [Bool.and_eq_true, decide_eq_true_eq] at hb
        have h1 := hhalf s (dIter S s).1 (dIter S s).2 rfl hb.1 h0
        rw [pow_succ] at hs
        obtain ⟨t, ht⟩ := ih (dIter S s).1 (by linarith) (by linarith)
        exact ⟨t, .again rfl hb' ht⟩
  have hex : ∀ d : K, ∃ n : Nat, d ≤ o.convergenceDeltaX * 2 ^ n := by
    intro d
    obtain ⟨n, hn⟩ := pow_unbounded_of_one_lt (d / o.convergenceDeltaX) (by norm_num : (1 : K) < 2)
    refine ⟨n, ?_⟩
    rw [div_lt_iff₀ ho] at hn
    linarith
  have hinner2 : ∀ s : DSt K X P, ∃ t, Inner S o.convergenceDeltaX s t := by
    intro s
    by_cases h0 : s.delta = 0
    · cases hb : (Dbl.lt (dIter S s).2 (.fin 0) && decide (o.convergenceDeltaX < (dIter S s).1.delta)) with
      | false => exact ⟨_, .stop rfl hb⟩
      | true =>
        have hb' := hb
        simp only [Bool.and_eq_true, decide_eq_true_eq] at hb
        obtain ⟨n, hn⟩ := hex (dIter S s).1.delta
        obtain ⟨t, ht⟩ := hinner n (dIter S s).1 hn (by linarith)
        exact ⟨t, .again rfl hb' ht⟩
    · obtain ⟨n, hn⟩ := hex s.delta
      exact hinner n s hn h0
  have houter : ∀ (n : Nat) (it : Int) (s : DSt K X P), o.maxIterations - it ≤ n → ∃ t, Outer S o it s t := by
    intro n
    induction n with
    | zero =>
      intro it s h
      refine ⟨s, .stop ?_⟩
      unfold dRunning
      rw [decide_eq_false (by omega)]
      rfl
    | succ n ih =>
      intro it s h
      cases hr : dRunning o it s with
      | false => exact ⟨s, .stop hr⟩
      | true =>
        obtain ⟨s', hs'⟩ := hinner2 s
        obtain ⟨t, ht⟩ := ih (it + 1) s' (by omega)
        exact ⟨t, .again hr hs' ht⟩
  exact houter (o.maxIterations).toNat 0 _ (by omega)

/-- A set-up on rationals: the step is the radius towards zero (initially 4), rejected steps halve the radius. -/
def dDemo : DogLeg Rat (Rat × Rat) Rat Unit where
  cost x := .fin (x.1 * x.1)
  update x d := ((x.1 + d, x.1), .fin |d|)
  revert x := (x.2, x.2)
  rebuild p _ := p
  step p δ := (p, if δ = 0 then 4 else δ, if δ = 0 then -4 else -δ, 1)
  resize _ δ _ rho := if Dbl.lt (.fin 0) rho then δ else δ / 2

example : DRevertsCost dDemo ∧ (∀ p δ, 0 ≤ (dDemo.step p δ).2.2.2) ∧ dDemo.cost (1, 1) ≠ .nan ∧
    (∀ s s' rho, dIter dDemo s = (s', rho) → Dbl.lt rho (.fin 0) = true → s.delta ≠ 0 → s'.delta ≤ s.delta / 2) := by
  refine ⟨fun _ _ => rfl, fun _ _ => by norm_num [dDemo], by simp [dDemo], ?_⟩
  intro s s' rho h hr h0
  unfold dIter at h
  simp only [dDemo, if_neg h0] at h
  cases h
  have aux : ∀ q : Dbl Rat, Dbl.lt q (.fin 0) = true → Dbl.lt (.fin 0) q = false := by
    intro q hq
    cases q <;> simp_all [Dbl.lt]
    exact hq.le
  simp only [aux _ hr, Bool.false_eq_true, if_false]
  exact le_refl _

/-- The first step from 3 leads to -1. -/
example : dDemo.cost (3, 3) = .fin 9 ∧ dDemo.cost (dDemo.update (3, 3) (dDemo.step (dDemo.rebuild () (3, 3)) 0).2.2.1).1 = .fin 1 ∧ 0 < (dDemo.step (dDemo.rebuild () (3, 3)) 0).2.2.2 := by
  decide +kernel

/-! ### C74: the initial lambda -/

/-- The magnitude of the diagonal entry `j` of a block. -/
def diagAbs (H : List (List K)) (j : Nat) : K := |(H.getD j []).getD j 0|

/-- The entry the code reads in place of the diagonal entry exists and has the same magnitude. -/
def ReadsDiagonal (i : Nat) (H : List (List K)) : Prop :=
  ∀ j < H.length, ∃ a, (H[i]?).bind (·[j]?) = some a ∧ |a| = diagAbs H j

/-- `m` is the largest magnitude on the diagonals of the allocated blocks (zero if there is none). -/
def IsLargestDiagonal (bs : List (Option (List (List K)))) (m : K) : Prop :=
  (∀ (i : Nat) (H : List (List K)), bs[i]? = some (some H) → ∀ j < H.length, diagAbs H j ≤ m) ∧
    (m = 0 ∨ ∃ (i : Nat) (H : List (List K)), bs[i]? = some (some H) ∧ ∃ j < H.length, diagAbs H j = m)

theorem blockMax_spec (i : Nat) (H : List (List K)) (h : ReadsDiagonal i H) (m : K) :
    ∃ m', blockMax i H m = .ok m' ∧ m ≤ m' ∧ (∀ j < H.length, diagAbs H j ≤ m') ∧
      (m' = m ∨ ∃ j < H.length, diagAbs H j = m') := by
  have key : ∀ n ≤ H.length, ∃ m', (List.range n).foldl (fun r j => Res.bind r fun m =>
      if m < |(H.getD j []).getD j 0| then
        match (H[i]?).bind (·[j]?) with
        | some a => Res.ok |a|
        | none => .ub
      else .ok m) (.ok m) = .ok m' ∧ m ≤ m' ∧ (∀ j < n, diagAbs H j ≤ m') ∧
      (m' = m ∨ ∃ j < H.length, diagAbs H j = m') := by
    intro n
    induction n with
    | zero => intro _; exact ⟨m, rfl, le_refl _, fun j hj => absurd hj (Nat.not_lt_zero _), Or.inl rfl⟩
    | succ n ih =>
      intro hn
      obtain ⟨m', e, h1, h2, h3⟩ := ih (by omega)
      obtain ⟨a, ha, hd⟩ := h n (by omega)
      rw [List.range_succ, List.foldl_append, e]
      simp only [List.foldl_cons, List.foldl_nil, Res.bind]
      by_cases hlt : m' < |(H.getD n []).getD n 0|
      · rw [if_pos hlt, ha]
        have hlt' : m' < diagAbs H n := hlt
        refine ⟨|a|, rfl, by rw [hd]; exact h1.trans hlt'.le, ?_, Or.inr ⟨n, by omega, hd.symm⟩⟩
        intro j hj
        rcases Nat.lt_succ_iff_lt_or_eq.1 hj with hj | rfl
        · rw [hd]; exact (h2 j hj).trans hlt'.le
        · rw [hd]
      · rw [if_neg hlt]
        refine ⟨m', rfl, h1, ?_, h3⟩
        intro j hj
        rcases Nat.lt_succ_iff_lt_or_eq.1 hj with hj | rfl
        · exact h2 j hj
        · exact not_lt.1 hlt
  exact key H.length le_rfl

theorem initialMax_spec (bs : List (Option (List (List K))))
    (h : ∀ (i : Nat) (H : List (List K)), bs[i]? = some (some H) → ReadsDiagonal i H) :
    ∃ m, initialMax bs = .ok m ∧ IsLargestDiagonal bs m := by
  have key : ∀ n ≤ bs.length, ∃ m, (List.range n).foldl (fun r i => Res.bind r fun m =>
      match bs.getD i none with
      | none => .ok m
      | some H => blockMax i H m) (.ok (0 : K)) = .ok m ∧
      (∀ i < n, ∀ (H : List (List K)), bs[i]? = some (some H) → ∀ j < H.length, diagAbs H j ≤ m) ∧
      (m = 0 ∨ ∃ (i : Nat) (H : List (List K)), bs[i]? = some (some H) ∧ ∃ j < H.length, diagAbs H j = m) := by
    intro n
    induction n with
    | zero => intro _; exact ⟨0, rfl, fun i hi => absurd hi (Nat.not_lt_zero _), Or.inl rfl⟩
    | succ n ih =>
      intro hn
      obtain ⟨m, e, h1, h2⟩ := ih (by omega)
      have hb : bs[n]? = some (bs.getD n none) := by
        rw [List.getD_eq_getElem?_getD, List.getElem?_eq_getElem (by omega)]; rfl
      rw [List.range_succ, List.foldl_append, e]
      simp only [List.foldl_cons, List.foldl_nil, Res.bind]
      cases hg : bs.getD n none with
      | none =>
        refine ⟨m, rfl, ?_, h2⟩
        intro i hi H hH
        rcases Nat.lt_succ_iff_lt_or_eq.1 hi with hi | rfl
        · exact h1 i hi H hH
        · rw [hb, hg] at hH; cases hH
      | some B =>
        rw [hg] at hb
        obtain ⟨m', e', g1, g2, g3⟩ := blockMax_spec n B (h n B hb) m
        refine ⟨m', e', ?_, ?_⟩
        · intro i hi H hH
          rcases Nat.lt_succ_iff_lt_or_eq.1 hi with hi | rfl
          · exact fun j hj => (h1 i hi H hH j hj).trans g1
          · rw [hb] at hH; cases hH; exact g2
        · rcases g3 with rfl | ⟨j, hj, hd⟩
          · exact h2
          · exact Or.inr ⟨n, B, hb, j, hj, hd⟩
  obtain ⟨m, e, h1, h2⟩ := key bs.length le_rfl
  refine ⟨m, e, fun i H hH => h1 i ?_ H hH, h2⟩
  by_contra hc
  rw [List.getElem?_eq_none (not_lt.1 hc)] at hH
  cases hH

/-- **C74** (part). A lambda that is already set is kept; a scale that is not positive gives the configured initial
value; otherwise the result is the scale times the largest magnitude on the diagonal, blocks that are not allocated
being skipped, for every Hessian in whose block number `i` the row `i` has the magnitudes of the diagonal.
(Missing: every other Hessian, see the counterexamples.) -/
theorem C74_initial_lambda_partial (lambda init scale : K) (bs : List (Option (List (List K)))) :
    (lambda ≠ 0 → setInitialLambda lambda init scale bs = .ok lambda) ∧
    (scale ≤ 0 → setInitialLambda 0 init scale bs = .ok init) ∧
    (0 < scale → (∀ (i : Nat) (H : List (List K)), bs[i]? = some (some H) → ReadsDiagonal i H) →
      ∃ m, setInitialLambda 0 init scale bs = .ok (m * scale) ∧ IsLargestDiagonal bs m) := by
  refine ⟨fun h => ?_, fun h => ?_, fun hs h => ?_⟩
  · unfold setInitialLambda; rw [if_pos h]
  · unfold setInitialLambda; rw [if_neg (by simp), if_pos h]
  · obtain ⟨m, e, hm⟩ := initialMax_spec bs h
    refine ⟨m, ?_, hm⟩
    unfold setInitialLambda
    rw [if_neg (by simp), if_neg (not_le.2 hs), e]
    rfl

example : ∀ (i : Nat) (H : List (List Rat)),
    [none, some [[3, 1], [-3, 3]], none][i]? = some (some H) → ReadsDiagonal i H := by
  intro i H h
  rcases i with _ | _ | _ | i
  · simp at h
  · simp only [List.getElem?_cons_succ, List.getElem?_cons_zero, Option.some.injEq] at h
    subst h
    intro j hj
    simp only [List.length_cons, List.length_nil] at hj
    rcases j with _ | _ | j
    · exact ⟨-3, rfl, by simp [diagAbs]⟩
    · exact ⟨3, rfl, by simp [diagAbs]⟩
    · omega
  · simp at h
  · simp at h

/-- For the Hessian block [[1,5],[5,2]] and scale 1 the estimated lambda is 5, not the largest diagonal entry 2: the code
compares entry (j,j) but takes entry (i,j). -/
theorem C74_wrong_entry_counterexample : setInitialLambda (0 : Rat) 0 1 [some [[1, 5], [5, 2]]] = .ok 5 := by decide +kernel

/-- With two 1x1 blocks it reads outside the second block. -/
theorem C74_out_of_range_counterexample : setInitialLambda (0 : Rat) 0 1 [some [[1]], some [[2]]] = .ub := by decide +kernel

/-! ### C75: the steepest-descent step -/

/-- Reduction `2 rhs^T d - d^T H d` of the linearised cost. -/
def modelReduction {n : Nat} (H : Fin n → Fin n → K) (rhs d : Fin n → K) : K :=
  2 * (∑ i, rhs i * d i) - ∑ i, d i * ∑ j, H i j * d j

/-- In the legacy dog-leg method the step divides by `‖H rhs‖^2` instead of `rhs^T H rhs`: for the Hessian 1/4 and
right-hand side 1 it is 16, which increases the linearised cost, the best multiple is 4. -/
theorem C75_legacy_step_counterexample :
    let H : Fin 1 → Fin 1 → Rat := fun _ _ => 1 / 4
    let rhs : Fin 1 → Rat := fun _ => 1
    sdStep H rhs 0 = 16 ∧ modelReduction H rhs (sdStep H rhs) < 0 ∧ modelReduction H rhs (fun _ => 4) = 4 := by
  norm_num [sdStep, modelReduction]

end Verif.Legacy
