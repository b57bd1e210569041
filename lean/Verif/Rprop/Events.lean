import Verif.Rprop.Again

/-!
C148: the events of a run of Rprop (`aslam_backend/src/OptimizerRprop.cpp`, R) and runs that are interrupted by a callback which throws. The functions repeat those of `Verif/Rprop/Model.lean` with the
points at which callbacks are called. Callbacks do not change design variables, options or the registry; what they return is not used (R:116, 236, 240, 265).
-/
namespace Verif.Rprop

variable {K : Type} [LinearOrder K] [Field K] {X : Type} {n : Nat} [NeZero n]

/-- The events: ITERATION_START (R:116), DESIGN_VARIABLE_UPDATE_COMPUTED (R:236), DESIGN_VARIABLES_UPDATED (R:240), ITERATION_END (R:265). -/
inductive Ev where
  | iterationStart | computed | updated | iterationEnd
  deriving DecidableEq, Repr

/-- The end of a pass or of the loop: a callback threw (R:116, 236, 240, 265), `break` or the end of the budget, or on to the next pass. The state and the events so far. -/
inductive Out (S : Type) where
  | thrown (s : S) (log : List Ev)
  | stop (s : S) (log : List Ev)
  | next (s : S) (log : List Ev)

/-- The loop body with its events, R:114-267. `hook log` tells whether a callback throws at the last event of `log`. `_status.convergence` is set after the first event (R:118), the state changes between
the second and the third (R:238), the counter after the fourth (R:114). -/
def iterE (E : Env K X n) (o : Opt K) (hook : List Ev → Bool) (s : St K X n) (log : List Ev) : Out (St K X n) :=
  if hook (log ++ [.iterationStart]) then .thrown s (log ++ [.iterationStart]) else
  let s0 := { s with conv := .inProgress }
  let g := E.gradient s.x
  if E.norm g < o.gradientNorm then .stop { s0 with conv := .gradientNorm } (log ++ [.iterationStart]) else
  let err := E.cost s.x
  let c := fun i => coord o (errorIncreased o s.prevError err) (s.c i) (g i)
  let dx := fun i => (c i).dx
  let s1 := { s0 with c := c, prevError := if o.method = .irpropPlus then some err else s.prevError }
  if hook (log ++ [.iterationStart, .computed]) then .thrown s1 (log ++ [.iterationStart, .computed]) else
  let s2 := { s1 with x := E.update s.x dx }
  if hook (log ++ [.iterationStart, .computed, .updated]) then .thrown s2 (log ++ [.iterationStart, .computed, .updated]) else
  if maxAbs dx < o.deltaX then .stop { s2 with conv := .dx } (log ++ [.iterationStart, .computed, .updated]) else
  if o.method = .irpropPlus ∧ |E.cost (E.update s.x dx) - err| < o.deltaError then .stop { s2 with conv := .dObjective } (log ++ [.iterationStart, .computed, .updated]) else
  if hook (log ++ [.iterationStart, .computed, .updated, .iterationEnd]) then .thrown s2 (log ++ [.iterationStart, .computed, .updated, .iterationEnd]) else
  .next { s2 with iterations := s2.iterations + 1 } (log ++ [.iterationStart, .computed, .updated, .iterationEnd])

/-- The loop with its events, R:114-267. -/
def loopE (E : Env K X n) (o : Opt K) (hook : List Ev → Bool) : Nat → St K X n → List Ev → Out (St K X n)
  | 0, s, log => .stop s log
  | k + 1, s, log =>
    match iterE E o hook s log with
    | .next s' log' => loopE E o hook k s' log'
    | r => r

/-- `optimizeImplementation` with its events, R:103-271, for a non-negative `maxIterations`. -/
def optimizeE (E : Env K X n) (o : Opt K) (hook : List Ev → Bool) (s : St K X n) : Out (St K X n) :=
  loopE E o hook (o.maxIterations.toNat - s.iterations) s []

/-! ### Specification -/

/-- The events of a whole pass, R:116, 236, 240, 265. -/
def pass : List Ev := [.iterationStart, .computed, .updated, .iterationEnd]

/-- The events of the last pass of a run, by the reason for which it ends: R:139-144, R:243-258. -/
def lastPass : Conv → List Ev
  | .gradientNorm => [.iterationStart]
  | .dx => [.iterationStart, .computed, .updated]
  | .dObjective => [.iterationStart, .computed, .updated]
  | _ => []

/-- `t` is the state after `k` whole passes from `s`, none of which ended the run. -/
inductive After (E : Env K X n) (o : Opt K) (s : St K X n) : Nat → St K X n → Prop
  | zero : After E o s 0 s
  | succ {k : Nat} {t u : St K X n} (h : After E o s k t) (hi : iter E o t = (u, true)) : After E o s (k + 1) u

/-- What an exception leaves, if it comes with the event number `j` of the pass that starts at `t`: nothing has happened; the step is computed but not applied; it is applied, but not counted; all of the pass is done, but not counted. -/
def Left (E : Env K X n) (o : Opt K) (t s' : St K X n) : Nat → Prop
  | 1 => s' = t
  | 2 => s'.x = t.x ∧ s'.c = (iter E o t).1.c ∧ s'.prevError = (iter E o t).1.prevError ∧ s'.iterations = t.iterations ∧ s'.conv = .inProgress
  | 3 => s'.x = (iter E o t).1.x ∧ s'.c = (iter E o t).1.c ∧ s'.prevError = (iter E o t).1.prevError ∧ s'.iterations = t.iterations ∧ s'.conv = .inProgress
  | _ => ∃ u, iter E o t = (u, true) ∧ s' = { u with iterations := t.iterations }

/-! ### One pass -/

/-- The ways in which a pass can end. -/
theorem iterE_cases (E : Env K X n) (o : Opt K) (hook : List Ev → Bool) (s : St K X n) (log : List Ev) :
    (∃ j s', 1 ≤ j ∧ j ≤ 4 ∧ iterE E o hook s log = .thrown s' (log ++ pass.take j) ∧ hook (log ++ pass.take j) = true ∧ (∀ i, 1 ≤ i → i < j → hook (log ++ pass.take i) = false) ∧ Left E o s s' j) ∨
    (∃ s', iter E o s = (s', true) ∧ iterE E o hook s log = .next s' (log ++ pass) ∧ ∀ i, 1 ≤ i → i ≤ 4 → hook (log ++ pass.take i) = false) ∨
    (∃ s', iter E o s = (s', false) ∧ iterE E o hook s log = .stop s' (log ++ lastPass s'.conv) ∧ (∀ i, 1 ≤ i → i ≤ (lastPass s'.conv).length → hook (log ++ (lastPass s'.conv).take i) = false) ∧
      (s'.conv = .gradientNorm ∨ s'.conv = .dx ∨ s'.conv = .dObjective) ∧ s'.iterations = s.iterations) := by
  unfold iterE
  by_cases h1 : hook (log ++ [.iterationStart]) = true
  · exact .inl ⟨1, s, le_refl _, by omega, by rw [if_pos h1]; rfl, h1, fun i _ _ => by omega, rfl⟩
  rw [if_neg h1]
  simp only [Bool.not_eq_true] at h1
  by_cases hg : E.norm (E.gradient s.x) < o.gradientNorm
  · refine .inr (.inr ⟨{ s with conv := .gradientNorm }, ?_, ?_, fun i hi hi' => ?_, .inl rfl, rfl⟩)
    · unfold iter; simp only; rw [if_pos hg]
    · simp only; rw [if_pos hg]; rfl
    · simp only [lastPass, List.length_singleton] at hi'
      have : i = 1 := by omega
      subst this; exact h1
  simp only
  rw [if_neg hg]
  have hit : iter E o s = (let err := E.cost s.x
      let c := fun i => coord o (errorIncreased o s.prevError err) (s.c i) (E.gradient s.x i)
      let dx := fun i => (c i).dx
      let s2 : St K X n := { s with conv := .inProgress, c := c, prevError := if o.method = .irpropPlus then some err else s.prevError, x := E.update s.x dx }
      if maxAbs dx < o.deltaX then ({ s2 with conv := .dx }, false)
      else if o.method = .irpropPlus ∧ |E.cost (E.update s.x dx) - err| < o.deltaError then ({ s2 with conv := .dObjective }, false)
      else ({ s2 with iterations := s.iterations + 1 }, true)) := by
    unfold iter; simp only; rw [if_neg hg]
  simp only at hit
  have hx : (iter E o s).1.x = E.update s.x fun i => (coord o (errorIncreased o s.prevError (E.cost s.x)) (s.c i) (E.gradient s.x i)).dx := by
    rw [hit]; split_ifs <;> rfl
  have hc : (iter E o s).1.c = fun i => coord o (errorIncreased o s.prevError (E.cost s.x)) (s.c i) (E.gradient s.x i) := by
    rw [hit]; split_ifs <;> rfl
  have hp : (iter E o s).1.prevError = if o.method = .irpropPlus then some (E.cost s.x) else s.prevError := by
    rw [hit]; split_ifs <;> rfl
  by_cases h2 : hook (log ++ [.iterationStart, .computed]) = true
  · refine .inl ⟨2, { s with conv := .inProgress, c := fun i => coord o (errorIncreased o s.prevError (E.cost s.x)) (s.c i) (E.gradient s.x i), prevError := if o.method = .irpropPlus then some (E.cost s.x) else s.prevError }, by omega, by omega, by rw [if_pos h2]; rfl, h2, fun i _ _ => ?_, rfl, hc.symm, hp.symm, rfl, rfl⟩
    have : i = 1 := by omega
    subst this; exact h1
  rw [if_neg h2]
  simp only [Bool.not_eq_true] at h2
  by_cases h3 : hook (log ++ [.iterationStart, .computed, .updated]) = true
  · refine .inl ⟨3, { s with conv := .inProgress, c := fun i => coord o (errorIncreased o s.prevError (E.cost s.x)) (s.c i) (E.gradient s.x i), prevError := if o.method = .irpropPlus then some (E.cost s.x) else s.prevError, x := E.update s.x fun i => (coord o (errorIncreased o s.prevError (E.cost s.x)) (s.c i) (E.gradient s.x i)).dx }, by omega, by omega, by rw [if_pos h3]; rfl, h3, fun i _ _ => ?_, hx.symm, hc.symm, hp.symm, rfl, rfl⟩
    have : i = 1 ∨ i = 2 := by omega
    rcases this with rfl | rfl
    · exact h1
    · exact h2
  rw [if_neg h3]
  simp only [Bool.not_eq_true] at h3
  have h123 : ∀ i, 1 ≤ i → i ≤ 3 → hook (log ++ pass.take i) = false := by
    intro i _ _
    have : i = 1 ∨ i = 2 ∨ i = 3 := by omega
    rcases this with rfl | rfl | rfl
    · exact h1
    · exact h2
    · exact h3
  have h123' : ∀ i, 1 ≤ i → i ≤ 3 → hook (log ++ [Ev.iterationStart, .computed, .updated].take i) = false := by
    intro i _ _
    have : i = 1 ∨ i = 2 ∨ i = 3 := by omega
    rcases this with rfl | rfl | rfl
    · exact h1
    · exact h2
    · exact h3
  by_cases hd : maxAbs (fun i => (coord o (errorIncreased o s.prevError (E.cost s.x)) (s.c i) (E.gradient s.x i)).dx) < o.deltaX
  · rw [if_pos hd] at hit ⊢
    exact .inr (.inr ⟨_, hit, rfl, fun i hi hi' => h123' i hi hi', .inr (.inl rfl), rfl⟩)
  rw [if_neg hd] at hit ⊢
  by_cases he : o.method = .irpropPlus ∧ |E.cost (E.update s.x fun i => (coord o (errorIncreased o s.prevError (E.cost s.x)) (s.c i) (E.gradient s.x i)).dx) - E.cost s.x| < o.deltaError
  · rw [if_pos he] at hit ⊢
    exact .inr (.inr ⟨_, hit, rfl, fun i hi hi' => h123' i hi hi', .inr (.inr rfl), rfl⟩)
  rw [if_neg he] at hit ⊢
  by_cases h4 : hook (log ++ [.iterationStart, .computed, .updated, .iterationEnd]) = true
  · exact .inl ⟨4, { s with conv := .inProgress, c := fun i => coord o (errorIncreased o s.prevError (E.cost s.x)) (s.c i) (E.gradient s.x i), prevError := if o.method = .irpropPlus then some (E.cost s.x) else s.prevError, x := E.update s.x fun i => (coord o (errorIncreased o s.prevError (E.cost s.x)) (s.c i) (E.gradient s.x i)).dx }, by omega, by omega, by rw [if_pos h4]; rfl, h4, fun i hi hi' => h123 i hi (by omega), _, hit, rfl⟩
  rw [if_neg h4]
  simp only [Bool.not_eq_true] at h4
  refine .inr (.inl ⟨_, hit, rfl, fun i hi hi' => ?_⟩)
  rcases Nat.lt_or_ge i 4 with h | h
  · exact h123 i hi (by omega)
  · have : i = 4 := by omega
    subst this; exact h4

/-! ### Whole runs -/

theorem After.head {E : Env K X n} {o : Opt K} {s s1 : St K X n} (h : iter E o s = (s1, true)) {k : Nat} {t : St K X n} (ha : After E o s1 k t) : After E o s (k + 1) t := by
  induction ha with
  | zero => exact .succ .zero h
  | succ _ hi ih => exact .succ ih hi

theorem after_loop {E : Env K X n} {o : Opt K} {s : St K X n} {k : Nat} {t : St K X n} (ha : After E o s k t) :
    t.iterations = s.iterations + k ∧ ∀ m, loop E o (k + m) s = loop E o m t := by
  induction ha with
  | zero => exact ⟨rfl, fun m => by rw [Nat.zero_add]⟩
  | succ _ hi ih =>
    refine ⟨by rw [(iter_true hi).2, ih.1]; omega, fun m => ?_⟩
    rw [show ∀ k : Nat, k + 1 + m = k + (m + 1) by intro k; omega, ih.2]
    conv_lhs => unfold loop
    simp only [hi, if_true]

/-- The events of `k` whole passes. -/
def passes (k : Nat) : List Ev := (List.replicate k pass).flatten

theorem passes_succ (k : Nat) : passes (k + 1) = pass ++ passes k := by
  simp [passes, List.replicate_succ]

theorem loopE_thrown (E : Env K X n) (o : Opt K) (hook : List Ev → Bool) : ∀ (m : Nat) (s : St K X n) (log : List Ev) (s' : St K X n) (log' : List Ev), loopE E o hook m s log = .thrown s' log' →
    ∃ k j t, k < m ∧ 1 ≤ j ∧ j ≤ 4 ∧ After E o s k t ∧ Left E o t s' j ∧ log' = log ++ passes k ++ pass.take j ∧ hook log' = true := by
  intro m
  induction m with
  | zero => intro s log s' log' h; cases h
  | succ m ih =>
    intro s log s' log' h
    unfold loopE at h
    rcases iterE_cases E o hook s log with ⟨j, u, hj, hj', he, hh, -, hl⟩ | ⟨u, hi, he, -⟩ | ⟨u, -, he, -⟩
    · rw [he] at h
      injection h with h1 h2
      subst h1; subst h2
      exact ⟨0, j, s, by omega, hj, hj', .zero, hl, by simp [passes], hh⟩
    · rw [he] at h
      obtain ⟨k, j, t, a1, a2, a3, a4, a5, a6, a7⟩ := ih u _ s' log' h
      exact ⟨k + 1, j, t, by omega, a2, a3, a4.head hi, a5, by rw [a6, passes_succ]; simp, a7⟩
    · rw [he] at h; cases h

theorem loopE_stop (E : Env K X n) (o : Opt K) (hook : List Ev → Bool) : ∀ (m : Nat) (s : St K X n) (log : List Ev) (s' : St K X n) (log' : List Ev), loopE E o hook m s log = .stop s' log' →
    s' = loop E o m s ∧ ∃ k, s'.iterations = s.iterations + k ∧ ((k = m ∧ log' = log ++ passes k) ∨
      (k < m ∧ log' = log ++ passes k ++ lastPass s'.conv ∧ (s'.conv = .gradientNorm ∨ s'.conv = .dx ∨ s'.conv = .dObjective))) := by
  intro m
  induction m with
  | zero =>
    intro s log s' log' h
    injection h with h1 h2
    subst h1; subst h2
    exact ⟨rfl, 0, rfl, .inl ⟨rfl, by simp [passes]⟩⟩
  | succ m ih =>
    intro s log s' log' h
    unfold loopE at h
    rcases iterE_cases E o hook s log with ⟨j, u, hj, hj', he, hh, -, hl⟩ | ⟨u, hi, he, -⟩ | ⟨u, hi, he, -, hc, hn⟩
    · rw [he] at h; cases h
    · rw [he] at h
      obtain ⟨a1, k, a2, a3⟩ := ih u _ s' log' h
      refine ⟨?_, k + 1, by rw [a2, (iter_true hi).2]; omega, ?_⟩
      · rw [a1]
        conv_rhs => unfold loop
        simp only [hi, if_true]
      · rcases a3 with ⟨b1, b2⟩ | ⟨b1, b2, b3⟩
        · exact .inl ⟨by omega, by rw [b2, passes_succ]; simp⟩
        · exact .inr ⟨by omega, by rw [b2, passes_succ]; simp, b3⟩
    · rw [he] at h
      injection h with h1 h2
      subst h1; subst h2
      refine ⟨?_, 0, hn, .inr ⟨by omega, by simp [passes], hc⟩⟩
      conv_rhs => unfold loop
      simp [hi]

theorem loopE_next (E : Env K X n) (o : Opt K) (hook : List Ev → Bool) : ∀ (m : Nat) (s : St K X n) (log : List Ev) (s' : St K X n) (log' : List Ev), loopE E o hook m s log ≠ .next s' log' := by
  intro m
  induction m with
  | zero => intro s log s' log' h; cases h
  | succ m ih =>
    intro s log s' log' h
    unfold loopE at h
    rcases iterE_cases E o hook s log with ⟨j, u, hj, hj', he, hh, -, hl⟩ | ⟨u, hi, he, -⟩ | ⟨u, hi, he, -, hc, hn⟩
    · rw [he] at h; cases h
    · rw [he] at h; exact ih u _ s' log' h
    · rw [he] at h; cases h

/-- How a run ended, for reading off concrete runs: whether it was interrupted, its state and its events. -/
def Out.view {S : Type} : Out S → Bool × S × List Ev
  | .thrown s l => (true, s, l)
  | .stop s l => (false, s, l)
  | .next s l => (false, s, l)

theorem Out.eq_thrown {S : Type} {r : Out S} (h : r.view.1 = true) : r = .thrown r.view.2.1 r.view.2.2 := by
  cases r <;> first | rfl | cases h

/-- **C148, undisturbed runs.** If no callback throws, the run ends, and as without callbacks. The callbacks see as many whole passes START, COMPUTED, UPDATED, END as iterations were counted, and behind
them, if the run did not end by the limit, a last pass: START alone if the gradient was small, START, COMPUTED, UPDATED if the step or the change of the cost was small. So the last pass of a run that
converges has no ITERATION_END. -/
theorem C148_events (E : Env K X n) (o : Opt K) (hook : List Ev → Bool) (hq : ∀ log, hook log = false) (s : St K X n) :
    ∃ log k, optimizeE E o hook s = .stop (optimize E o s) log ∧ (optimize E o s).iterations = s.iterations + k ∧
      ((k = o.maxIterations.toNat - s.iterations ∧ log = (List.replicate k [Ev.iterationStart, .computed, .updated, .iterationEnd]).flatten) ∨
       (k < o.maxIterations.toNat - s.iterations ∧ (optimize E o s).conv = .gradientNorm ∧ log = (List.replicate k [Ev.iterationStart, .computed, .updated, .iterationEnd]).flatten ++ [.iterationStart]) ∨
       (k < o.maxIterations.toNat - s.iterations ∧ ((optimize E o s).conv = .dx ∨ (optimize E o s).conv = .dObjective) ∧
        log = (List.replicate k [Ev.iterationStart, .computed, .updated, .iterationEnd]).flatten ++ [.iterationStart, .computed, .updated])) := by
  cases h : optimizeE E o hook s with
  | thrown s' log' =>
    obtain ⟨_, _, _, _, _, _, _, _, _, hh⟩ := loopE_thrown E o hook _ _ _ _ _ h
    rw [hq] at hh; cases hh
  | next s' log' => exact absurd h (loopE_next E o hook _ _ _ _ _)
  | stop s' log' =>
    obtain ⟨a1, k, a2, a3⟩ := loopE_stop E o hook _ _ _ _ _ h
    have a1' : s' = optimize E o s := a1
    subst a1'
    refine ⟨log', k, rfl, a2, ?_⟩
    rcases a3 with ⟨b1, b2⟩ | ⟨b1, b2, b3 | b3⟩
    · exact .inl ⟨b1, by simpa [passes, pass] using b2⟩
    · exact .inr (.inl ⟨b1, b3, by simpa [passes, pass, lastPass, b3] using b2⟩)
    · refine .inr (.inr ⟨b1, b3, ?_⟩)
      rcases b3 with b3 | b3 <;> simpa [passes, pass, lastPass, b3] using b2

/-- **C148, completed runs.** Whatever the callbacks do: if `optimize()` returns, its result is that of a run without callbacks. -/
theorem C148_completed (E : Env K X n) (o : Opt K) (hook : List Ev → Bool) (s s' : St K X n) (log : List Ev) (h : optimizeE E o hook s = .stop s' log) : s' = optimize E o s :=
  (loopE_stop E o hook _ _ _ _ _ h).1

/-- **C148, interrupted runs.** If a callback throws, `k` whole passes were made and counted, all as without callbacks, and with the state `t` behind them: an exception at ITERATION_START leaves `t`; one
at DESIGN_VARIABLE_UPDATE_COMPUTED the values of `t` but the step lengths, remembered gradients and steps of the next pass; one at DESIGN_VARIABLES_UPDATED or ITERATION_END the values and step lengths of
the next pass, which is not counted. -/
theorem C148_interrupted (E : Env K X n) (o : Opt K) (hook : List Ev → Bool) (s s' : St K X n) (log : List Ev) (h : optimizeE E o hook s = .thrown s' log) :
    ∃ k t, s.iterations + k < o.maxIterations.toNat ∧ t = loop E o k s ∧ t.iterations = s.iterations + k ∧ s'.iterations = t.iterations ∧
      (s' = t ∧ log.getLast? = some .iterationStart ∨
       s'.x = t.x ∧ s'.c = (iter E o t).1.c ∧ s'.conv = .inProgress ∧ log.getLast? = some .computed ∨
       s'.x = (iter E o t).1.x ∧ s'.c = (iter E o t).1.c ∧ s'.conv = .inProgress ∧ (log.getLast? = some .updated ∨ log.getLast? = some .iterationEnd)) := by
  obtain ⟨k, j, t, a1, a2, a3, a4, a5, a6, a7⟩ := loopE_thrown E o hook _ _ _ _ _ h
  have b := after_loop a4
  refine ⟨k, t, by omega, by have := b.2 0; exact this.symm, b.1, ?_⟩
  have : j = 1 ∨ j = 2 ∨ j = 3 ∨ j = 4 := by omega
  rcases this with rfl | rfl | rfl | rfl
  · have a5' : s' = t := a5
    exact ⟨by rw [a5'], .inl ⟨a5', by rw [a6]; simp [pass]⟩⟩
  · exact ⟨a5.2.2.2.1, .inr (.inl ⟨a5.1, a5.2.1, a5.2.2.2.2, by rw [a6]; simp [pass]⟩)⟩
  · exact ⟨a5.2.2.2.1, .inr (.inr ⟨a5.1, a5.2.1, a5.2.2.2.2, .inl (by rw [a6]; simp [pass])⟩)⟩
  · obtain ⟨u, hu, rfl⟩ := a5
    exact ⟨rfl, .inr (.inr ⟨by rw [hu], by rw [hu], (iter_true hu).1, .inr (by rw [a6]; simp [pass])⟩)⟩

/-- The result of a call without the number of iterations. -/
def St.uncounted (s : St K X n) : St K X n := { s with iterations := 0 }

/-- The counter has no influence on a pass. -/
theorem iter_iterations (E : Env K X n) (o : Opt K) (s : St K X n) (i : Nat) :
    ∃ i', iter E o { s with iterations := i } = ({ (iter E o s).1 with iterations := i' }, (iter E o s).2) := by
  unfold iter
  simp only
  split_ifs
  all_goals first | exact ⟨i, rfl⟩ | exact ⟨i + 1, rfl⟩

theorem loop_iterations (E : Env K X n) (o : Opt K) : ∀ (m : Nat) (s : St K X n) (i : Nat), (loop E o m { s with iterations := i }).uncounted = (loop E o m s).uncounted := by
  intro m
  induction m with
  | zero => intro s i; rfl
  | succ m ih =>
    intro s i
    obtain ⟨i', h⟩ := iter_iterations E o s i
    unfold loop
    simp only [h]
    cases (iter E o s).2 with
    | false => rfl
    | true => exact ih _ i'

/-- **C148, going on after an exception.** If the exception came with ITERATION_START, a further call of `optimize()` with a limit that is not smaller ends exactly as if nothing had happened. If it came
with ITERATION_END, it ends as an undisturbed run with one iteration more to go, which is not counted. (Missing: exceptions with the other events; see `C148_resume_updated` and the counterexample.) -/
theorem C148_resume_partial (E : Env K X n) (o : Opt K) (hook : List Ev → Bool) (s s' : St K X n) (log : List Ev) (h : optimizeE E o hook s = .thrown s' log) (m : Nat) (hm : o.maxIterations.toNat ≤ m) :
    (log.getLast? = some .iterationStart → optimize E (o.limit m) s' = optimize E (o.limit m) s) ∧
    (log.getLast? = some .iterationEnd → (optimize E (o.limit m) s').uncounted = (optimize E (o.limit (m + 1)) s).uncounted) := by
  obtain ⟨k, j, t, a1, a2, a3, a4, a5, a6, a7⟩ := loopE_thrown E o hook _ _ _ _ _ h
  have b := after_loop a4
  have e : ∀ (m : Nat) (t : St K X n), optimize E (o.limit m) t = loop E o (m - t.iterations) t := fun m t => loop_limit E o m _ t
  have : j = 1 ∨ j = 2 ∨ j = 3 ∨ j = 4 := by omega
  rcases this with rfl | rfl | rfl | rfl
  · have a5' : s' = t := a5
    subst a5'
    refine ⟨fun _ => ?_, fun hl => ?_⟩
    · rw [e, e, ← b.2, b.1]
      congr 1
      omega
    · rw [a6] at hl; simp [pass] at hl
  · refine ⟨fun hl => ?_, fun hl => ?_⟩ <;>
    · rw [a6] at hl; simp [pass] at hl
  · refine ⟨fun hl => ?_, fun hl => ?_⟩ <;>
    · rw [a6] at hl; simp [pass] at hl
  · refine ⟨fun hl => ?_, fun _ => ?_⟩
    · rw [a6] at hl; simp [pass] at hl
    · obtain ⟨u, hu, rfl⟩ := a5
      have c := after_loop (a4.succ hu)
      rw [e, e, loop_iterations, show m + 1 - s.iterations = (k + 1) + (m - t.iterations) by omega, c.2]

/-- **C148, going on after an exception at DESIGN_VARIABLES_UPDATED.** If the pass would not have ended the run, it is the same as after an exception at ITERATION_END: a further call ends as an undisturbed
run with one iteration more to go, which is not counted. -/
theorem C148_resume_updated (E : Env K X n) (o : Opt K) (hook : List Ev → Bool) (s s' : St K X n) (log : List Ev) (h : optimizeE E o hook s = .thrown s' log) (hl : log.getLast? = some .updated)
    (hgo : (optimize E (o.limit (s'.iterations + 1)) s).conv = .inProgress) (m : Nat) (hm : o.maxIterations.toNat ≤ m) :
    (optimize E (o.limit m) s').uncounted = (optimize E (o.limit (m + 1)) s).uncounted := by
  obtain ⟨k, j, t, a1, a2, a3, a4, a5, a6, a7⟩ := loopE_thrown E o hook _ _ _ _ _ h
  have b := after_loop a4
  have e : ∀ (m : Nat) (t : St K X n), optimize E (o.limit m) t = loop E o (m - t.iterations) t := fun m t => loop_limit E o m _ t
  have hj : j = 3 := by
    have : j = 1 ∨ j = 2 ∨ j = 3 ∨ j = 4 := by omega
    rcases this with rfl | rfl | rfl | rfl
    · rw [a6] at hl; simp [pass] at hl
    · rw [a6] at hl; simp [pass] at hl
    · rfl
    · rw [a6] at hl; simp [pass] at hl
  subst hj
  obtain ⟨c1, c2, c3, c4, c5⟩ := a5
  rw [e, c4, b.1, show s.iterations + k + 1 - s.iterations = k + 1 by omega, b.2 1] at hgo
  have hi : iter E o t = ((iter E o t).1, true) := by
    cases hb : (iter E o t).2 with
    | true => rw [← hb]
    | false =>
      have h1 : iter E o t = ((iter E o t).1, false) := by rw [← hb]
      have h2 : loop E o 1 t = (iter E o t).1 := by
        unfold loop
        simp only [hb]
        rfl
      rw [h2] at hgo
      exact absurd hgo (iter_false h1).1
  have hs : s' = { (iter E o t).1 with iterations := t.iterations } := by
    cases s'
    simp only at c1 c2 c3 c4 c5
    subst c1; subst c2; subst c3; subst c4; subst c5
    rw [← (iter_true hi).1]
  have c := after_loop (a4.succ hi)
  rw [hs, e, e, loop_iterations, show m + 1 - s.iterations = (k + 1) + (m - t.iterations) by omega, c.2]

/-- **C148 fails for an exception between the computation of a step and its application.** On `(x - 3)²` a callback throws at the first DESIGN_VARIABLE_UPDATE_COMPUTED. The values are those of the
start; but the next call takes the remembered gradient of the step that was never made for that of the previous point, lengthens the step, and a run of three iterations ends elsewhere than the
undisturbed one. -/
theorem C148_resume_counterexample :
    let o : Opt Rat := (defaults .rpropPlus).limit 3
    let s := start o (0 : Rat)
    ∃ s' log, optimizeE parabola o (fun l => l.getLast? = some .computed) s = .thrown s' log ∧ s'.x = s.x ∧ s'.iterations = s.iterations ∧
      (optimize parabola o s').iterations = (optimize parabola o s).iterations ∧ (optimize parabola o s').x ≠ (optimize parabola o s).x := by
  refine ⟨_, _, Out.eq_thrown (by decide +kernel), ?_, ?_, ?_, ?_⟩ <;> decide +kernel

/-- A run whose third ITERATION_START is met with an exception: the hypotheses of `C148_interrupted` and `C148_resume_partial`. -/
example : let o : Opt Rat := (defaults .rpropPlus).limit 5
    ∃ s' log, optimizeE parabola o (fun l => l.length = 9) (start o (0 : Rat)) = .thrown s' log ∧ log.getLast? = some .iterationStart ∧ s'.iterations = 2 ∧ s'.x ≠ 0 := by
  refine ⟨_, _, Out.eq_thrown (by decide +kernel), ?_, ?_, ?_⟩ <;> decide +kernel

/-- A run whose second ITERATION_END is met with an exception: the same theorems. -/
example : let o : Opt Rat := (defaults .rpropPlus).limit 5
    ∃ s' log, optimizeE parabola o (fun l => l.length = 8) (start o (0 : Rat)) = .thrown s' log ∧ log.getLast? = some .iterationEnd ∧ s'.iterations = 1 ∧ s'.x ≠ 0 := by
  refine ⟨_, _, Out.eq_thrown (by decide +kernel), ?_, ?_, ?_⟩ <;> decide +kernel

/-- A run whose second DESIGN_VARIABLES_UPDATED is met with an exception: the hypotheses of `C148_resume_updated`. -/
example : let o : Opt Rat := (defaults .rpropPlus).limit 5
    ∃ s' log, optimizeE parabola o (fun l => l.length = 7) (start o (0 : Rat)) = .thrown s' log ∧ log.getLast? = some .updated ∧ s'.iterations = 1 ∧
      (optimize parabola (o.limit (s'.iterations + 1)) (start o (0 : Rat))).conv = .inProgress := by
  refine ⟨_, _, Out.eq_thrown (by decide +kernel), ?_, ?_, ?_⟩ <;> decide +kernel

/-- A run that converges in a pass without ITERATION_END: `C148_events` and `C148_completed`. -/
example : let o : Opt Rat := { defaults .rpropPlus with gradientNorm := 0, deltaX := 1 / 8 }
    let r := (optimizeE parabola o (fun _ => false) (start o (0 : Rat))).view
    r.1 = false ∧ r.2.1.conv = .dx ∧ r.2.2.getLast? = some .updated := by
  refine ⟨?_, ?_, ?_⟩ <;> decide +kernel

end Verif.Rprop
