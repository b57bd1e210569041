import Verif.Policy.Fresh

/-! C136: a trust-region policy (and an optimizer) that has been used before gives the same results as a new one with the same parameters. -/
namespace Verif.Policy
open Verif.Optimizer2 Verif.Trust

section Loop
variable {K X D P : Type} [LinearOrder K] [Field K]

theorem iter_ok (S : Setup K X D P) (hS : ∀ d, S.size d = S.numOpt) (s : St K X D P) : ∃ t, iter S s = .ok t := by
  unfold iter
  simp only [hS, ne_eq, not_true_eq_false, if_false]
  repeat' split
  all_goals exact ⟨_, rfl⟩

/-- Two loops that stay related end related. -/
theorem loop_rel (S : Setup K X D P) (o : Options K) (R : St K X D P → St K X D P → Prop)
    (hrun : ∀ s s', R s s' → running o s' = running o s)
    (hstep : ∀ s s', R s s' → (∃ t t', iter S s = .ok t ∧ iter S s' = .ok t' ∧ R t t') ∨ (iter S s = .exc ∧ iter S s' = .exc)) :
    ∀ s s' r, R s s' → loop S o s = .ok r → ∃ r', loop S o s' = .ok r' ∧ R r r' := by
  intro s
  induction s using loop.induct S o with
  | case1 s h t ht ih =>
    intro s' r hR hr
    unfold loop at hr ⊢
    rw [hrun s s' hR]
    rw [dif_pos h] at hr
    rw [dif_pos h]
    rcases hstep s s' hR with ⟨t1, t', e1, e2, hR'⟩ | ⟨e1, _⟩
    · rw [ht] at e1
      cases e1
      split at hr
      · rename_i u hu
        rw [ht] at hu
        cases hu
        obtain ⟨r', h1, h2⟩ := ih t' r hR' hr
        refine ⟨r', ?_, h2⟩
        split
        · rename_i v hv
          rw [e2] at hv
          cases hv
          exact h1
        · rename_i hv; rw [e2] at hv; cases hv
        · rename_i hv; rw [e2] at hv; cases hv
      · cases hr
      · cases hr
    · rw [ht] at e1; cases e1
  | case2 s h ht =>
    intro s' r hR hr
    unfold loop at hr
    rw [dif_pos h] at hr
    split at hr
    · rename_i u hu; rw [ht] at hu; cases hu
    · cases hr
    · cases hr
  | case3 s h ht =>
    intro s' r hR hr
    unfold loop at hr
    rw [dif_pos h] at hr
    split at hr
    · rename_i u hu; rw [ht] at hu; cases hu
    · cases hr
    · cases hr
  | case4 s h =>
    intro s' r hR hr
    unfold loop at hr
    rw [dif_neg h] at hr
    cases hr
    refine ⟨s', ?_, hR⟩
    unfold loop
    rw [hrun s s' hR, dif_neg h]

/-- If the loops end in states that agree but for the policy and the step vector, so do the objects left. -/
theorem run_of_loop (S : Setup K X D P) (o : Options K) (b : Obj K X D P) (p' : P) (d' : D) (r : Obj K X D P)
    (hl : ∀ s, loop S o (enter S o b) = .ok s → ∃ q d, loop S o (enter S o { b with p := p', dx := d' }) = .ok { s with p := q, dx := d })
    (h : run S o b = .ok r) : ∃ q d, run S o { b with p := p', dx := d' } = .ok { r with p := q, dx := d } := by
  cases e : loop S o (enter S o b) with
  | exc => simp [run, e] at h
  | ub => simp [run, e] at h
  | ok s =>
    obtain ⟨q, d, e'⟩ := hl s e
    simp only [run, e] at h
    have hr : leave S o b s = r := by simpa using h
    subst hr
    refine ⟨q, d, ?_⟩
    simp only [run, e']
    rfl

/-- A first solve that does not see what was left over. -/
theorem run_first (S : Setup K X D P) (o : Options K) (b : Obj K X D P) (p' : P) (d' : D) (r : Obj K X D P)
    (hs : S.solve (S.start p' (S.cost b.x)) b.x d' (S.cost b.x) false = S.solve (S.start b.p (S.cost b.x)) b.x b.dx (S.cost b.x) false)
    (h : run S o b = .ok r) : ∃ q d, run S o { b with p := p', dx := d' } = .ok { r with p := q, dx := d } := by
  apply run_of_loop S o b p' d' r ?_ h
  intro s hl
  have hi : iter S (enter S o { b with p := p', dx := d' }) = iter S (enter S o b) := by
    simp only [iter, enter, hs]
    rfl
  have hr : running o (enter S o { b with p := p', dx := d' }) = running o (enter S o b) := rfl
  by_cases hb : running o (enter S o b) = true
  · refine ⟨s.p, s.dx, ?_⟩
    show _ = Res.ok s
    rw [← hl]
    unfold loop
    rw [hr, dif_pos hb, dif_pos hb]
    split <;> rename_i h1 <;> rw [hi] at h1
    · split <;> rename_i h2 <;> rw [h1] at h2 <;> cases h2
      rfl
    · split <;> rename_i h2 <;> rw [h1] at h2 <;> cases h2
    · split <;> rename_i h2 <;> rw [h1] at h2 <;> cases h2
  · unfold loop at hl ⊢
    rw [dif_neg hb] at hl
    rw [hr, dif_neg hb]
    cases hl
    exact ⟨_, _, rfl⟩

end Loop

variable {K X D Q : Type} [LinearOrder K] [Field K]

/-- **C136** (Gauss-Newton). Whatever the policy went through before and whatever step vector an earlier run left, a run gives the same design variables and the same report, with failing solves or not. -/
theorem C136_gauss_newton (E : Env K X D Q) (o : Options K) (b : Obj K X D (Base (Dbl K))) (p' : Base (Dbl K)) (d' : D)
    (r : Obj K X D (Base (Dbl K))) (h : run (gn E) o b = .ok r) :
    ∃ q d, run (gn E) o { b with p := p', dx := d' } = .ok { r with p := q, dx := d } := by
  apply run_of_loop (gn E) o b p' d' r ?_ h
  intro s hl
  obtain ⟨s', e, d, hd⟩ := loop_rel (gn E) o (fun s s' => ∃ d, s' = { s with dx := d }) (by rintro s _ ⟨d, rfl⟩; rfl)
    (by
      rintro s _ ⟨d, rfl⟩
      left
      cases hq : E.sol (E.val s.x) (some 0) with
      | none => exact ⟨_, _, by simp only [iter, gn, Env.base, hq]; rfl, by simp only [iter, gn, Env.base, hq]; rfl, ⟨d, rfl⟩⟩
      | some g => exact ⟨_, _, by simp only [iter, gn, Env.base, hq]; rfl, by simp only [iter, gn, Env.base, hq]; rfl, ⟨_, rfl⟩⟩)
    (enter (gn E) o b) (enter (gn E) o { b with p := p', dx := d' }) s ⟨d', rfl⟩ hl
  exact ⟨s.p, d, by rw [e, hd]⟩

/-- How the states of two Levenberg-Marquardt runs on different left-overs are related: before the first call, the system last built and the step differ; later at most the step, while the last
pass failed. -/
def LMSame (s s' : St K X D (LMP K Q)) : Prop :=
  (s.p.base.first = true ∧ s.prevFailed = false ∧ s.p.lm.isSome ∧ ∃ q d, s' = { s with p := { s.p with built := q }, dx := d }) ∨
  (s.prevFailed = true ∧ ∃ d, s' = { s with dx := d }) ∨ s' = s

theorem lmSame_step (E : Env K X D Q) (init : LM K) (s s' : St K X D (LMP K Q)) (h : LMSame s s') :
    ∃ t t', iter (lm E init) s = .ok t ∧ iter (lm E init) s' = .ok t' ∧ LMSame t t' := by
  have hok : ∀ s, ∃ t, iter (lm E init) s = .ok t := by
    intro s
    exact iter_ok (lm E init) (fun _ => rfl) s
  -- what a call gives decides the rest
  have key : ∀ (s s' : St K X D (LMP K Q)), (∃ q d, s' = { s with p := q, dx := d }) →
      (lmCall E s'.p s'.x s'.dx s'.error s'.prevFailed).1 = (lmCall E s.p s.x s.dx s.error s.prevFailed).1 →
      (lmCall E s'.p s'.x s'.dx s'.error s'.prevFailed).2.1 = (lmCall E s.p s.x s.dx s.error s.prevFailed).2.1 →
      ((lmCall E s.p s.x s.dx s.error s.prevFailed).2.1 = true →
        (lmCall E s'.p s'.x s'.dx s'.error s'.prevFailed).2.2 = (lmCall E s.p s.x s.dx s.error s.prevFailed).2.2) →
      ∃ t t', iter (lm E init) s = .ok t ∧ iter (lm E init) s' = .ok t' ∧ LMSame t t' := by
    rintro s _ ⟨q, d, rfl⟩ h1 h2 h3
    simp only at h1 h2 h3
    cases hb : (lmCall E s.p s.x s.dx s.error s.prevFailed).2.1 with
    | false =>
      rw [hb] at h2
      refine ⟨_, _, by simp only [iter, lm, Env.base, hb]; rfl, by simp only [iter, lm, Env.base, h2]; rfl, ?_⟩
      right; left
      exact ⟨rfl, (lmCall E q s.x d s.error s.prevFailed).2.2, by simp only [h1]⟩
    | true =>
      rw [hb] at h2
      have h3' := h3 hb
      obtain ⟨t, ht⟩ := hok s
      have : iter (lm E init) { s with p := q, dx := d } = iter (lm E init) s := by
        have e : lmCall E q s.x d s.error s.prevFailed = lmCall E s.p s.x s.dx s.error s.prevFailed :=
          Prod.ext h1 (Prod.ext (h2.trans hb.symm) h3')
        simp only [iter, lm, Env.base, e]
        rfl
      exact ⟨t, t, ht, this.trans ht, Or.inr (Or.inr rfl)⟩
  rcases h with ⟨hf, hp, hl, q, d, rfl⟩ | ⟨hp, d, rfl⟩ | rfl
  · obtain ⟨l, hl⟩ := Option.isSome_iff_exists.1 hl
    have hfc : (s.p.base.call s.error false).first = true := hf
    refine key s _ ⟨_, _, rfl⟩ ?_ ?_ ?_
    · simp [lmCall, hl, hp, lmUpdate, hfc]
    · simp [lmCall, hl, hp, lmUpdate, hfc]
    · simp only [lmCall, hl, hp, lmUpdate, hfc, if_true]
      intro hs
      obtain ⟨g, hg⟩ := Option.isSome_iff_exists.1 hs
      simp [hg]
  · have hc : (lmCall E s.p s.x d s.error true).1 = (lmCall E s.p s.x s.dx s.error true).1 ∧
        (lmCall E s.p s.x d s.error true).2.1 = (lmCall E s.p s.x s.dx s.error true).2.1 ∧
        ((lmCall E s.p s.x s.dx s.error true).2.1 = true →
          (lmCall E s.p s.x d s.error true).2.2 = (lmCall E s.p s.x s.dx s.error true).2.2) := by
      have some_of : ∀ (o : Option D) (a b : D), o.isSome = true → o.getD a = o.getD b := by
        intro o a b ho
        obtain ⟨g, rfl⟩ := Option.isSome_iff_exists.1 ho
        rfl
      cases hl : s.p.lm with
      | none =>
        simp only [lmCall, hl, if_true]
        exact ⟨trivial, trivial, some_of _ _ _⟩
      | some l =>
        cases hf : (s.p.base.call s.error true).first with
        | true =>
          simp only [lmCall, hl, lmUpdate, hf, if_true]
          exact ⟨trivial, trivial, some_of _ _ _⟩
        | false =>
          simp only [lmCall, hl, lmUpdate, hf, if_true, Bool.false_eq_true, if_false]
          exact ⟨trivial, trivial, some_of _ _ _⟩
    refine key s _ ⟨s.p, d, rfl⟩ ?_ ?_ ?_
    · simpa [hp] using hc.1
    · simpa [hp] using hc.2.1
    · simpa [hp] using hc.2.2
  · obtain ⟨t, ht⟩ := hok s'
    exact ⟨t, t, ht, ht, Or.inr (Or.inr rfl)⟩

/-- **C136** (Levenberg-Marquardt). Whatever damping, NaN or not, and whatever system and step vector earlier runs left, a run gives the same design variables and the same report, with failing
solves or not. -/
theorem C136_levenberg_marquardt (E : Env K X D Q) (init : LM K) (o : Options K) (b : Obj K X D (LMP K Q)) (p' : LMP K Q) (d' : D)
    (r : Obj K X D (LMP K Q)) (h : run (lm E init) o b = .ok r) :
    ∃ q d, run (lm E init) o { b with p := p', dx := d' } = .ok { r with p := q, dx := d } := by
  apply run_of_loop (lm E init) o b p' d' r ?_ h
  intro s hl
  obtain ⟨s', e, hs⟩ := loop_rel (lm E init) o LMSame
    (by
      intro s s' h
      rcases h with ⟨_, _, _, q, d, rfl⟩ | ⟨_, d, rfl⟩ | rfl <;> rfl)
    (fun s s' h => Or.inl (lmSame_step E init s s' h))
    (enter (lm E init) o b) (enter (lm E init) o { b with p := p', dx := d' }) s (Or.inl ⟨rfl, rfl, rfl, p'.built, d', rfl⟩) hl
  rcases hs with ⟨_, _, _, q, d, rfl⟩ | ⟨_, d, rfl⟩ | rfl
  · exact ⟨_, _, e⟩
  · exact ⟨s.p, d, e⟩
  · exact ⟨s'.p, s'.dx, e⟩

/-- **C136** (line search, part). Whatever scale and step vector earlier runs left, a run whose first linear solve succeeds gives the same design variables and the same report. (Missing: runs whose
first solve fails, see the counterexample.) -/
theorem C136_line_search_partial [SMul K D] (E : Env K X D Q) (o : Options K) (b : Obj K X D (LSP K)) (p' : LSP K) (d' : D)
    (hstep : p'.ls.scaleStep = b.p.ls.scaleStep) (hreset : p'.ls.reset = b.p.ls.reset)
    (hsol : (E.sol (E.val b.x) (some 0)).isSome) (r : Obj K X D (LSP K)) (h : run (ls E) o b = .ok r) :
    ∃ q d, run (ls E) o { b with p := p', dx := d' } = .ok { r with p := q, dx := d } := by
  apply run_first (ls E) o b p' d' r ?_ h
  obtain ⟨g, hg⟩ := Option.isSome_iff_exists.1 hsol
  simp [ls, Env.base, Base.start, Base.call, LS.call, hg, hstep, hreset]

section DogLeg
variable {V : Type} [NormedAddCommGroup V] [InnerProductSpace ℝ V]

/-- **C136** (dog-leg, part). Whatever trust region, steps and kind of step earlier runs left, a run whose first linear solve succeeds gives the same design variables and the same report. (Missing:
runs whose first solve fails, see the counterexample.) -/
theorem C136_dog_leg_partial (cost maxAbs : V → ℝ) (lin : V → Lin V) (o : Options ℝ) (b : Obj ℝ (V × V) V (DLP V)) (p' : DLP V) (d' : V)
    (hsol : ((dl cost maxAbs lin).solve ((dl cost maxAbs lin).start b.p (.fin (cost b.x.1))) b.x b.dx (.fin (cost b.x.1)) false).2.1 = true)
    (r : Obj ℝ (V × V) V (DLP V)) (h : run (dl cost maxAbs lin) o b = .ok r) :
    ∃ q d, run (dl cost maxAbs lin) o { b with p := p', dx := d' } = .ok { r with p := q, dx := d } := by
  apply run_first (dl cost maxAbs lin) o b p' d' r ?_ h
  have hg : ∀ J : ℝ, ((Base.start (.fin J)).call (.fin J) false).gain = .fin 0 := by
    intro J; simp [Base.gain, Base.call, Base.start, Dbl.sub]
  have hf : ∀ J : ℝ, ((Base.start (Dbl.fin J)).call (Dbl.fin J) false).first = true := fun _ => rfl
  simp only [dl, hg, hf] at hsol ⊢
  by_cases hr : (lin b.x.1).rJJr = 0
  · simp [dlCall, dlDelta, dlRebuild, hr] at hsol
  · cases hl : (lin b.x.1).sol with
    | none => simp [dlCall, dlDelta, dlRebuild, DL.start, hr, hl] at hsol
    | some g => simp [dlCall, dlDelta, dlRebuild, DL.start, hr, hl, dlGn]
/-- A solver whose Gauss-Newton step leads to the minimum: the first solve succeeds. -/
example : ((dl (fun q : ℝ => q ^ 2) (fun d => |d|) fun q => ⟨-q, q ^ 2, some (-q)⟩).solve
    ((dl (fun q : ℝ => q ^ 2) (fun d => |d|) fun q => ⟨-q, q ^ 2, some (-q)⟩).start ⟨Base.start (.fin 0), ⟨7, 7, 7, 7, 7, 7, 7, 7, .gn⟩⟩ (.fin (10 ^ 2)))
    (10, 10) 5 (.fin (10 ^ 2)) false).2.1 = true := by
  simp [dl, Base.start, Base.call, Base.gain, Base.done, Dbl.sub, dlCall, dlDelta, DL.start, dlRebuild]
end DogLeg

/-! ### Where left-overs matter -/

/-- The line-search policy, when the first solve of a run fails, halves and applies the step vector of an earlier run: the first step applied leads to 6 after a run that ended with the step -8, and
leaves the value at 10 after one that ended with the step 0. -/
theorem C136_line_search_counterexample :
    (∃ s s', Reach (ls failEnv) ⟨0, 0, 5⟩ (fresh (10, 10) (⟨Base.start (.fin 0), ⟨1 / 2, true, 1⟩⟩ : LSP ℚ) (-8)) s ∧
      running ⟨0, 0, 5⟩ s = true ∧ iter (ls failEnv) s = .ok s' ∧ (s.iterations = 0 ∧ s'.iterations = 1 ∧ s'.x.1 = 6)) ∧
    (∃ s s', Reach (ls failEnv) ⟨0, 0, 5⟩ (fresh (10, 10) (⟨Base.start (.fin 0), ⟨1 / 2, true, 1⟩⟩ : LSP ℚ) 0) s ∧
      running ⟨0, 0, 5⟩ s = true ∧ iter (ls failEnv) s = .ok s' ∧ (s.iterations = 0 ∧ s'.iterations = 1 ∧ s'.x.1 = 10)) :=
  ⟨reach_check 1 _ (by decide +kernel), reach_check 1 _ (by decide +kernel)⟩

/-- A solver that builds every system and solves none. -/
noncomputable def failLin (q : ℝ) : Lin ℝ := ⟨-q, q ^ 2, none⟩

/-- The dog-leg policy, when the first solve of a run fails, applies the Gauss-Newton step `g` of an earlier run in full and reports success, whatever `g` is. -/
theorem C136_dog_leg_counterexample (g : ℝ) (d : ℝ) :
    let S := dl (fun q : ℝ => q ^ 2) (fun d => |d|) failLin
    let o : Options ℝ := ⟨0, 0, 5⟩
    ∃ s s', Reach S o (fresh (10, 10) (⟨Base.start (.fin 0), ⟨d, 0, g, 0, |g|, 0, 0, 0, .gn⟩⟩ : DLP ℝ) d) s ∧
      running o s = true ∧ iter S s = .ok s' ∧ s.iterations = 0 ∧ s'.iterations = 1 ∧ s'.dx = g := by
  intro S o
  let b : Obj ℝ (ℝ × ℝ) ℝ (DLP ℝ) := fresh (10, 10) (⟨Base.start (.fin 0), ⟨d, 0, g, 0, |g|, 0, 0, 0, .gn⟩⟩ : DLP ℝ) d
  let e := enter S o b
  have h1 : S.solve e.p e.x e.dx e.error e.prevFailed =
      (⟨⟨.fin (10 ^ 2), .fin (10 ^ 2), false⟩, ⟨d, -10, g, 10, 0, 0, 1, 0, .gn⟩⟩, false, d) := by
    simp [S, e, b, enter, fresh, dl, Base.start, Base.call, Base.gain, Base.done, Dbl.sub, dlCall, dlDelta, DL.start, dlRebuild, failLin]
  have hr : running o e = true := by simp [running, o, e, b, enter, fresh, Dbl.lt, Dbl.abs]
  obtain ⟨s, hs⟩ := iter_ok S (fun _ => rfl) e
  have hse : s = afterFailure S e := by
    rcases iter_cases hs with ⟨_, h⟩ | ⟨h, _⟩ | ⟨h, _⟩
    · exact h
    · rw [h1] at h; cases h
    · rw [h1] at h; cases h
  have hreach : Reach S o b s := .pass .enter hr hs
  have hrun : running o s = true := by
    rw [hse]; simp [running, afterFailure, o, e, b, enter, fresh]
  have h2 : (S.solve s.p s.x s.dx s.error s.prevFailed).2 = (true, g) := by
    have e1 : s.p = ⟨⟨.fin (10 ^ 2), .fin (10 ^ 2), false⟩, ⟨d, -10, g, 10, 0, 0, 1, 0, .gn⟩⟩ := by rw [hse]; simp only [afterFailure, h1]
    have e2 : s.x = (10, 10) := by rw [hse]; rfl
    have e3 : s.error = .fin (10 ^ 2) := by rw [hse]; rfl
    have e4 : s.prevFailed = true := by rw [hse]; rfl
    rw [e1, e2, e3, e4]
    have n1 : (Dbl.fin (3 / 4 : ℝ)).lt Dbl.nan = false := rfl
    have n2 : (Dbl.nan : Dbl ℝ).le (Dbl.fin 0) = false := rfl
    simp [n1, n2, S, dl, Base.call, Base.gain, Base.done, Dbl.sub, dlCall, dlDelta, Dbl.div, dlGn]
  obtain ⟨s', hs'⟩ := iter_ok S (fun _ => rfl) s
  have it : s.iterations = 0 := by rw [hse]; rfl
  refine ⟨s, s', hreach, hrun, hs', it, ?_⟩
  rcases iter_cases hs' with ⟨h, _⟩ | ⟨_, _, _, h⟩ | ⟨_, _, h⟩
  · rw [h2] at h; cases h
  · rw [h]; simp [afterReject, h2, it]
  · rw [h]; simp [afterAccept, h2, it]

/-- The hypotheses of `C136_line_search_partial` are met: a new policy, and one left with a scale and a step vector. -/
example : ∃ r q d, run (ls (demoEnv 0 5)) ⟨0, 0, 9⟩ (fresh (8, 8) (⟨Base.start (.fin 0), ⟨1 / 2, true, 1⟩⟩ : LSP ℚ) 0) = .ok r ∧
    run (ls (demoEnv 0 5)) ⟨0, 0, 9⟩ (fresh (8, 8) (⟨⟨.fin 4, .fin 9, false⟩, ⟨1 / 2, true, 1 / 8⟩⟩ : LSP ℚ) 77) = .ok { r with p := q, dx := d } := by
  obtain ⟨r, hr⟩ : ∃ r, run (ls (demoEnv 0 5)) ⟨0, 0, 9⟩ (fresh (8, 8) (⟨Base.start (.fin 0), ⟨1 / 2, true, 1⟩⟩ : LSP ℚ) 0) = .ok r := by
    obtain ⟨s, h⟩ := loop_ok (S := ls (demoEnv 0 5)) (o := ⟨0, 0, 9⟩) (fun _ _ _ _ _ => rfl) (enter (ls (demoEnv 0 5)) ⟨0, 0, 9⟩ (fresh (8, 8) (⟨Base.start (.fin 0), ⟨1 / 2, true, 1⟩⟩ : LSP ℚ) 0))
    exact ⟨_, by unfold run; rw [h]; rfl⟩
  obtain ⟨q, d, h⟩ := C136_line_search_partial (demoEnv 0 5) ⟨0, 0, 9⟩ _ ⟨⟨.fin 4, .fin 9, false⟩, ⟨1 / 2, true, 1 / 8⟩⟩ 77 rfl rfl rfl r hr
  exact ⟨r, q, d, hr, h⟩

end Verif.Policy
