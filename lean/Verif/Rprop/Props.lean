import Verif.Rprop.Model
import Mathlib.Tactic.Linarith
import Mathlib.Tactic.NormNum
import Mathlib.Algebra.Order.Ring.Rat
import Mathlib.Data.Rat.Lemmas

/-! Properties C34 and C35. -/
namespace Verif.Rprop

variable {K : Type} [LinearOrder K] [Field K] [IsStrictOrderedRing K] {X : Type} {n : Nat} [NeZero n]

/-! ### C34 -/

/-- Options for which the bounds are respected; `check` does not ask for the last four. -/
structure Sane (o : Opt K) : Prop where
  check : o.check = true
  down : o.etaMinus ≤ 1
  up : 1 ≤ o.etaPlus
  initLo : o.minDelta ≤ o.initialDelta
  initHi : o.initialDelta ≤ o.maxDelta

theorem Sane.pos {o : Opt K} (h : Sane o) : 0 < o.etaMinus ∧ 0 < o.minDelta ∧ o.minDelta < o.maxDelta := by
  have := h.check
  simp only [Opt.check, Bool.and_eq_true, decide_eq_true_eq] at this
  exact ⟨this.1.1.1.1, this.1.2, this.2⟩

theorem adapt_bounds {o : Opt K} (ho : Sane o) (s : Coord K) (g : K) (h1 : o.minDelta ≤ s.delta) (h2 : s.delta ≤ o.maxDelta) :
    o.minDelta ≤ adapt o s g ∧ adapt o s g ≤ o.maxDelta := by
  obtain ⟨p1, p2, p3⟩ := ho.pos
  have hd := ho.down
  have hu := ho.up
  unfold adapt
  split
  · refine ⟨le_min ?_ p3.le, min_le_right _ _⟩
    nlinarith
  · split
    · refine ⟨le_max_right _ _, max_le ?_ p3.le⟩
      nlinarith
    · exact ⟨h1, h2⟩

theorem abs_sign_mul (g d : K) (hd : 0 ≤ d) : |(-sign g * d)| = if g = 0 then 0 else d := by
  unfold sign
  rcases lt_trichotomy g 0 with h | h | h
  · rw [if_neg (not_lt.2 h.le), if_pos h, if_neg (ne_of_lt h)]
    norm_num [abs_of_nonneg hd]
  · subst h; simp
  · rw [if_pos h, if_neg (not_lt.2 h.le), if_neg (ne_of_gt h)]
    norm_num [abs_of_nonneg hd]

/-- What holds for each parameter between passes. -/
structure CInv (o : Opt K) (s : Coord K) : Prop where
  lo : o.minDelta ≤ s.delta
  hi : s.delta ≤ o.maxDelta
  dxHi : |s.dx| ≤ o.maxDelta
  dxLo : s.dx = 0 ∨ o.minDelta ≤ |s.dx|
  last : o.method = .rpropPlus → s.prevG ≠ 0 → |s.dx| = s.delta

theorem coord_inv {o : Opt K} (ho : Sane o) (b : Bool) (s : Coord K) (g : K) (h : CInv o s) : CInv o (coord o b s g) := by
  obtain ⟨p1, p2, p3⟩ := ho.pos
  obtain ⟨a1, a2⟩ := adapt_bounds ho s g h.lo h.hi
  have hmove : CInv o ⟨-sign g * adapt o s g, g, adapt o s g⟩ := by
    have e := abs_sign_mul g (adapt o s g) (by linarith)
    refine ⟨a1, a2, ?_, ?_, ?_⟩
    · simp only; rw [e]; split <;> linarith
    · simp only
      rw [e]
      split
      · left
        rename_i h0
        subst h0
        simp [sign]
      · right; exact a1
    · intro _ hg
      simp only at hg ⊢
      rw [e, if_neg hg]
  have hneg : CInv o ⟨-s.dx, 0, adapt o s g⟩ := by
    refine ⟨a1, a2, ?_, ?_, fun _ h => absurd rfl h⟩
    · simp only; rw [abs_neg]; exact h.dxHi
    · simp only; rw [abs_neg, neg_eq_zero]; exact h.dxLo
  have hzero : CInv o ⟨0, 0, adapt o s g⟩ := by
    refine ⟨a1, a2, ?_, .inl rfl, fun _ h => absurd rfl h⟩
    simp only [abs_zero]; linarith
  unfold coord
  simp only
  repeat' split
  all_goals assumption

theorem iter_c (E : Env K X n) (o : Opt K) (s : St K X n) :
    (iter E o s).1.c = s.c ∨ ∃ b, (iter E o s).1.c = fun i => coord o b (s.c i) (E.gradient s.x i) := by
  unfold iter
  simp only
  split
  · exact .inl rfl
  · right
    refine ⟨errorIncreased o s.prevError (E.cost s.x), ?_⟩
    repeat' split
    all_goals rfl

theorem reach_inv (E : Env K X n) {o : Opt K} (ho : Sane o) (x : X) (s : St K X n) (h : Reach E o x s) : ∀ i, CInv o (s.c i) := by
  obtain ⟨p1, p2, p3⟩ := ho.pos
  induction h with
  | start =>
    intro i
    refine ⟨ho.initLo, ho.initHi, ?_, .inl rfl, fun _ h => absurd rfl h⟩
    simp only [start, Coord.reset, abs_zero]; linarith
  | step h hi ih =>
    rename_i s s'
    intro i
    have := iter_c E o s
    rw [hi] at this
    rcases this with e | ⟨b, e⟩
    · rw [show s'.c = s.c from e]; exact ih i
    · rw [show s'.c = _ from e]; exact coord_inv ho b _ _ (ih i)

/-- **C34** (part). For every problem and every number of iterations: all step lengths lie between minDelta and
maxDelta, and every parameter is moved by zero or by an amount between these bounds, before and after the next
pass. (Missing: options with initialDelta outside the bounds or with `etaPlus < 1` or `etaMinus > 1`, which the check
accepts; see the counterexamples.) -/
theorem C34_step_lengths_partial (E : Env K X n) (o : Opt K) (ho : Sane o) (x : X) (s : St K X n) (h : Reach E o x s) (i : Fin n) :
    (o.minDelta ≤ (s.c i).delta ∧ (s.c i).delta ≤ o.maxDelta) ∧
    (o.minDelta ≤ ((iter E o s).1.c i).delta ∧ ((iter E o s).1.c i).delta ≤ o.maxDelta) ∧
    (((iter E o s).1.c i).dx = 0 ∨
      (o.minDelta ≤ |((iter E o s).1.c i).dx| ∧ |((iter E o s).1.c i).dx| ≤ o.maxDelta)) := by
  have hs := reach_inv E ho x s h
  have hs' : CInv o ((iter E o s).1.c i) := by
    rcases iter_c E o s with e | ⟨b, e⟩
    · rw [e]; exact hs i
    · rw [e]; exact coord_inv ho b _ _ (hs i)
  refine ⟨⟨(hs i).lo, (hs i).hi⟩, ⟨hs'.lo, hs'.hi⟩, ?_⟩
  rcases hs'.dxLo with h | h
  · exact .inl h
  · exact .inr ⟨h, hs'.dxHi⟩

/-- The default options. -/
def defaults (m : Method) : Opt Rat := ⟨1 / 2, 6 / 5, 1 / 10, 1 / 10 ^ 20, 1, m, 1 / 1000, 1 / 1000, 0, 100⟩

example : Sane (defaults .rpropPlus) := by
  refine ⟨?_, ?_, ?_, ?_, ?_⟩
  · unfold defaults Opt.check; norm_num
  all_goals (unfold defaults; norm_num)

/-- One parameter, cost `(x-3)^2`. -/
def parabola : Env Rat Rat 1 where
  gradient x _ := 2 * (x - 3)
  cost x := (x - 3) * (x - 3)
  update x d := x + d 0
  norm g := |g 0|

/-- The check accepts an initial step length above the maximum; the first step moves by 5 although maxDelta is 1. -/
theorem C34_initial_delta_counterexample :
    let o : Opt Rat := { defaults .rpropPlus with initialDelta := 5 }
    o.check = true ∧ o.maxDelta < |((iter parabola o (start o 0)).1.c 0).dx| := by
  refine ⟨?_, ?_⟩ <;> decide +kernel

/-- The check accepts `etaPlus < 1`; then equal gradient signs shrink the step length below minDelta. -/
theorem C34_eta_counterexample :
    let o : Opt Rat := { defaults .rpropPlus with etaMinus := 1 / 4, etaPlus := 1 / 2, minDelta := 1 / 10 }
    o.check = true ∧ (coord o false ⟨1 / 10, -1, 1 / 10⟩ (-1)).delta < o.minDelta := by
  refine ⟨?_, ?_⟩ <;> decide +kernel

/-! ### C35 -/

/-- **C35** (part: DX). With RPROP_PLUS and RPROP_MINUS, if a pass ends with DX then every parameter has a step
length below the threshold or a zero gradient. (Missing: the two IRPROP methods, see the counterexample.) -/
theorem C35_dx_partial (E : Env K X n) (o : Opt K) (ho : Sane o) (hm : o.method = .rpropPlus ∨ o.method = .rpropMinus) (x : X)
    (s s' : St K X n) (b : Bool) (h : Reach E o x s) (hi : iter E o s = (s', b)) (hc : s'.conv = .dx) (i : Fin n) :
    b = false ∧ ((s'.c i).delta < o.deltaX ∨ E.gradient s.x i = 0) := by
  have hinv := reach_inv E ho x s h i
  obtain ⟨p1, p2, p3⟩ := ho.pos
  obtain ⟨a1, a2⟩ := adapt_bounds ho (s.c i) (E.gradient s.x i) hinv.lo hinv.hi
  unfold iter at hi
  simp only at hi
  split at hi
  · cases hi; cases hc
  · split at hi
    · rename_i hmax
      cases hi
      refine ⟨rfl, ?_⟩
      simp only
      unfold maxAbs at hmax
      rw [Finset.sup'_lt_iff] at hmax
      have hd := hmax i (Finset.mem_univ _)
      revert hd
      have hmove : |(-sign (E.gradient s.x i) * adapt o (s.c i) (E.gradient s.x i))| < o.deltaX →
          adapt o (s.c i) (E.gradient s.x i) < o.deltaX ∨ E.gradient s.x i = 0 := by
        rw [abs_sign_mul _ _ (by linarith)]
        split
        · exact fun _ => .inr (by assumption)
        · exact fun h => .inl h
      rcases hm with hm | hm
      · unfold coord
        simp only [hm]
        by_cases hy : switchYes (s.c i) (E.gradient s.x i) = true
        · rw [if_pos hy]
          simp only
          intro hd
          left
          have hy' := hy
          unfold switchYes at hy
          rw [decide_eq_true_eq] at hy
          have hg : (s.c i).prevG ≠ 0 := by rintro h0; rw [h0] at hy; simp at hy
          have e := hinv.last hm hg
          rw [abs_neg, e] at hd
          unfold adapt
          rw [if_neg (not_lt.2 hy.le), if_pos hy']
          refine max_lt ?_ (lt_of_le_of_lt hinv.lo hd)
          have := ho.down
          have := hinv.lo
          nlinarith
        · rw [if_neg hy]
          exact hmove
      · unfold coord
        simp only [hm]
        exact hmove
    · split at hi
      · cases hi; cases hc
      · cases hi; cases hc

/-- **C35** (part: gradient and error). GRADIENT_NORM is reported only if the norm of the gradient at the final
parameters is below the threshold, and these were not moved in that pass; DX only if no parameter moved by the
threshold or more; DOBJECTIVE only if the error changed by less than the threshold in the last step; and then the
loop ends. -/
theorem C35_criteria_partial (E : Env K X n) (o : Opt K) (s s' : St K X n) (b : Bool) (hi : iter E o s = (s', b)) :
    (s'.conv = .gradientNorm → s'.x = s.x ∧ E.norm (E.gradient s'.x) < o.gradientNorm) ∧
    (s'.conv = .dx → ∀ i, |(s'.c i).dx| < o.deltaX) ∧
    (s'.conv = .dObjective → |E.cost s'.x - E.cost s.x| < o.deltaError) ∧
    (b = true ↔ s'.conv = .inProgress) ∧ s'.conv ≠ .failure ∧ s'.conv ≠ .maxIterations := by
  unfold iter at hi
  simp only at hi
  split at hi
  · cases hi
    refine ⟨fun _ => ⟨rfl, by assumption⟩, by simp, by simp, by simp, by simp, by simp⟩
  · split at hi
    · rename_i hmax
      cases hi
      refine ⟨by simp, fun _ i => ?_, by simp, by simp, by simp, by simp⟩
      unfold maxAbs at hmax
      rw [Finset.sup'_lt_iff] at hmax
      exact hmax i (Finset.mem_univ _)
    · split at hi
      · rename_i hd
        cases hi
        exact ⟨by simp, by simp, fun _ => hd.2, by simp, by simp, by simp⟩
      · cases hi
        exact ⟨by simp, by simp, by simp, by simp, by simp, by simp⟩

/-- A state reached after one pass that moved the parameter from 0 to 0.1; and a pass of RPROP_MINUS with a small step length that reports DX. -/
example : (∃ s, Reach parabola (defaults .rpropPlus) 0 s ∧ s.x = 1 / 10) ∧
    let o : Opt Rat := { defaults .rpropMinus with initialDelta := 1 / 2000 }
    Sane o ∧ (iter parabola o (start o 0)).1.conv = .dx := by
  refine ⟨⟨(iter parabola (defaults .rpropPlus) (start (defaults .rpropPlus) 0)).1, .step .start (Prod.ext rfl ?_), ?_⟩, ⟨?_, ?_, ?_, ?_, ?_⟩, ?_⟩
  · decide +kernel
  · decide +kernel
  · unfold defaults Opt.check; norm_num
  all_goals first | (unfold defaults; norm_num; done) | decide +kernel

/-- IRPROP_MINUS on `(x-3)^2` from 2.95 with the default step length 0.1: the first step overshoots to 3.05; the
gradient switches sign, so the next step is zero and DX is reported, although the step length is still 0.05, fifty
times the threshold, and the minimum is 0.05 away. -/
theorem C35_premature_dx_counterexample :
    let o := defaults .irpropMinus
    let r := optimize parabola o (start o (295 / 100))
    r.conv = .dx ∧ r.iterations = 1 ∧ r.x = 305 / 100 ∧ (r.c 0).delta = 1 / 20 ∧ o.deltaX = 1 / 1000 := by
  refine ⟨?_, ?_, ?_, ?_, ?_⟩ <;> decide +kernel

/-- When the budget is used up the status is IN_PROGRESS, not MAX_ITERATIONS. -/
theorem C35_max_iterations_counterexample :
    let o : Opt Rat := { defaults .rpropPlus with maxIterations := 3 }
    let r := optimize parabola o (start o 0)
    r.iterations = 3 ∧ r.conv = .inProgress := by
  refine ⟨?_, ?_⟩ <;> decide +kernel

/-- **C71** (Rprop). A second call of `optimize` after the budget was used up makes no iteration at all. -/
theorem C71_rprop_second_call_counterexample (E : Env K X n) (o : Opt K) (s : St K X n) (h : s.iterations = o.maxIterations.toNat) :
    optimize E o s = s := by
  unfold optimize
  rw [h, Nat.sub_self]
  rfl

/-- **C23** (Rprop). With a non-negative budget a run makes at most `maxIterations` passes that move on. -/
theorem C23_rprop_budget (E : Env K X n) (o : Opt K) (s : St K X n) (h : s.iterations ≤ o.maxIterations.toNat) :
    (optimize E o s).iterations ≤ o.maxIterations.toNat := by
  have key : ∀ k (s : St K X n), (loop E o k s).iterations ≤ s.iterations + k := by
    intro k
    induction k with
    | zero => intro s; exact Nat.le_refl _
    | succ k ih =>
      intro s
      unfold loop
      simp only
      have hit : (iter E o s).1.iterations ≤ s.iterations + 1 := by
        unfold iter
        simp only
        repeat' split
        all_goals simp
      split
      · have := ih (iter E o s).1
        omega
      · omega
  have := key (o.maxIterations.toNat - s.iterations) s
  unfold optimize
  omega

end Verif.Rprop
