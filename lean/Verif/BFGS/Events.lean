import Verif.BFGS.Again

/-!
C149: the events of a run of BFGS (`aslam_backend/src/OptimizerBFGS.cpp`, O) and runs that are interrupted by a callback which throws. The functions repeat those of `Verif/BFGS/Model.lean` with the points
at which callbacks are called. Callbacks do not change design variables, options or the registry; what they return is not used (O:102, 131, 166). No callback is called while the line search is at work.
-/
namespace Verif.BFGS
open LineSearch Matrix

section events
variable {K : Type} [LinearOrder K] [Field K] [IsStrictOrderedRing K] [FloatLike.Sq K] {X : Type} {n : Nat}

/-- The events: ITERATION_START (O:102), DESIGN_VARIABLES_UPDATED (O:131), ITERATION_END (O:166). -/
inductive Ev where
  | iterationStart | updated | iterationEnd
  deriving DecidableEq, Repr

/-- The end of a pass or of the loop: a callback threw (O:102, 131, 166), something else failed (O:108-125, 130-137), `break` or the end of the budget, or on to the next pass. -/
inductive Out (S : Type) where
  | thrown (s : S) (log : List Ev)
  | failed (r : Res Empty)
  | stop (s : S) (log : List Ev)
  | next (s : S) (log : List Ev)

/-- The body of the loop with its events, O:102-167. `hook log` tells whether a callback throws at the last event of `log`. The second event comes behind the line search and before the status is set
(O:130-140), the third behind the update of the inverse Hessian (O:162-166) and before the counter (O:100). -/
def iterationE (E : Env K X n) (o : Opts K) (hook : List Ev → Bool) (s : State K X n) (log : List Ev) : Out (State K X n) :=
  if hook (log ++ [.iterationStart]) then .thrown s (log ++ [.iterationStart]) else
  match direction E s with
  | .exc => .failed .exc
  | .ub => .failed .ub
  | .ok r =>
    match wolfe12 E.ls o.ls r.1.ls with
    | (_, .exc) => .failed .exc
    | (_, .ub) => .failed .ub
    | (l, .ok b) =>
      if hook (log ++ [.iterationStart, .updated]) then .thrown { r.1 with ls := l } (log ++ [.iterationStart, .updated]) else
      match getError l with
      | .exc => .failed .exc
      | .ub => .failed .ub
      | .ok _ =>
        let s1 := afterSearch E o r.1.ls.x { r.1 with ls := l } b
        if s1.conv.success || s1.conv == .failure then .stop s1 (log ++ [.iterationStart, .updated]) else
        let s2 := { finish s1 r.2 with iters := s1.iters }
        if hook (log ++ [.iterationStart, .updated, .iterationEnd]) then .thrown s2 (log ++ [.iterationStart, .updated, .iterationEnd])
        else .next { s2 with iters := s2.iters + 1 } (log ++ [.iterationStart, .updated, .iterationEnd])

/-- The loop with its events, O:100-168. -/
def loopE (E : Env K X n) (o : Opts K) (hook : List Ev → Bool) : Nat → State K X n → List Ev → Out (State K X n)
  | 0, s, log => .stop s log
  | k + 1, s, log =>
    match iterationE E o hook s log with
    | .next s' log' => loopE E o hook k s' log'
    | r => r

/-- `optimizeImplementation` with its events, O:80-175. -/
def optimizeE (E : Env K X n) (o : Opts K) (hook : List Ev → Bool) (passes : Nat) (s : State K X n) : Out (State K X n) :=
  if (start E o s).conv.success then .stop (start E o s) [] else loopE E o hook passes (start E o s) []

omit [IsStrictOrderedRing K] in
/-- The ways in which a pass can end. -/
theorem iterationE_cases (E : Env K X n) (o : Opts K) (hook : List Ev → Bool) (s : State K X n) (log : List Ev) :
    (iterationE E o hook s log = .thrown s (log ++ [.iterationStart]) ∧ hook (log ++ [.iterationStart]) = true) ∨
    (∃ l r b, direction E s = .ok r ∧ wolfe12 E.ls o.ls r.1.ls = (l, .ok b) ∧ iterationE E o hook s log = .thrown { r.1 with ls := l } (log ++ [.iterationStart, .updated]) ∧
      hook (log ++ [.iterationStart, .updated]) = true) ∨
    (∃ u, iteration E o s = .ok (u, true) ∧ u.iters = s.iters + 1 ∧ iterationE E o hook s log = .thrown { u with iters := s.iters } (log ++ [.iterationStart, .updated, .iterationEnd]) ∧
      hook (log ++ [.iterationStart, .updated, .iterationEnd]) = true) ∨
    (∃ u, iteration E o s = .ok (u, true) ∧ u.iters = s.iters + 1 ∧ iterationE E o hook s log = .next u (log ++ [.iterationStart, .updated, .iterationEnd])) ∨
    (∃ u, iteration E o s = .ok (u, false) ∧ u.iters = s.iters ∧ iterationE E o hook s log = .stop u (log ++ [.iterationStart, .updated])) ∨
    (iteration E o s = .exc ∧ iterationE E o hook s log = .failed .exc) ∨
    (iteration E o s = .ub ∧ iterationE E o hook s log = .failed .ub) := by
  unfold iterationE iteration
  by_cases h1 : hook (log ++ [.iterationStart]) = true
  · rw [if_pos h1]; exact .inl ⟨rfl, h1⟩
  rw [if_neg h1]
  cases hd : direction E s with
  | exc => exact .inr (.inr (.inr (.inr (.inr (.inl ⟨rfl, rfl⟩)))))
  | ub => exact .inr (.inr (.inr (.inr (.inr (.inr ⟨rfl, rfl⟩)))))
  | ok r =>
    have hri : r.1.iters = s.iters := by
      unfold direction at hd
      simp only at hd
      split at hd
      · injection hd with hd; subst hd; rfl
      · cases hd
      · split at hd
        · injection hd with hd; subst hd; rfl
        · cases hd
        · cases hd
    simp only [Res.bind]
    cases hw : wolfe12 E.ls o.ls r.1.ls with
    | mk l q =>
      cases q with
      | exc => exact .inr (.inr (.inr (.inr (.inr (.inl ⟨rfl, rfl⟩)))))
      | ub => exact .inr (.inr (.inr (.inr (.inr (.inr ⟨rfl, rfl⟩)))))
      | ok b =>
        simp only
        by_cases h2 : hook (log ++ [.iterationStart, .updated]) = true
        · rw [if_pos h2]
          exact .inr (.inl ⟨l, r, b, rfl, hw, rfl, h2⟩)
        rw [if_neg h2]
        cases hg : getError l with
        | exc => exact .inr (.inr (.inr (.inr (.inr (.inl ⟨rfl, rfl⟩)))))
        | ub => exact .inr (.inr (.inr (.inr (.inr (.inr ⟨rfl, rfl⟩)))))
        | ok e =>
          simp only
          have hai : (afterSearch E o r.1.ls.x { r.1 with ls := l } b).iters = s.iters := hri
          generalize afterSearch E o r.1.ls.x { r.1 with ls := l } b = s1 at hai
          by_cases hs : (s1.conv.success || s1.conv == .failure) = true
          · rw [if_pos hs, if_pos hs]
            exact .inr (.inr (.inr (.inr (.inl ⟨s1, rfl, hai, rfl⟩))))
          rw [if_neg hs, if_neg hs]
          by_cases h3 : hook (log ++ [.iterationStart, .updated, .iterationEnd]) = true
          · rw [if_pos h3]
            exact .inr (.inr (.inl ⟨finish s1 r.2, rfl, congrArg (· + 1) hai, by rw [← hai], h3⟩))
          · rw [if_neg h3]
            exact .inr (.inr (.inr (.inl ⟨finish s1 r.2, rfl, congrArg (· + 1) hai, rfl⟩)))

/-! ### Whole runs -/

/-- The events of a whole pass, O:102, 131, 166. -/
def pass : List Ev := [.iterationStart, .updated, .iterationEnd]

/-- The events of `k` whole passes. -/
def passes (k : Nat) : List Ev := (List.replicate k pass).flatten

theorem passes_succ (k : Nat) : passes (k + 1) = pass ++ passes k := by
  simp [passes, List.replicate_succ]

/-- `t` is the state after `k` whole passes from `s`, none of which ended the run. -/
inductive After (E : Env K X n) (o : Opts K) (s : State K X n) : Nat → State K X n → Prop
  | zero : After E o s 0 s
  | succ {k : Nat} {t u : State K X n} (h : After E o s k t) (hi : iteration E o t = .ok (u, true)) (hn : u.iters = t.iters + 1) : After E o s (k + 1) u

omit [IsStrictOrderedRing K] in
theorem After.head {E : Env K X n} {o : Opts K} {s s1 : State K X n} (h : iteration E o s = .ok (s1, true)) (hn : s1.iters = s.iters + 1) {k : Nat} {t : State K X n} (ha : After E o s1 k t) :
    After E o s (k + 1) t := by
  induction ha with
  | zero => exact .succ .zero h hn
  | succ _ hi hn' ih => exact .succ ih hi hn'

omit [IsStrictOrderedRing K] in
theorem after_loop {E : Env K X n} {o : Opts K} {s : State K X n} {k : Nat} {t : State K X n} (ha : After E o s k t) :
    t.iters = s.iters + k ∧ ∀ m, loop E o (k + m) s = loop E o m t := by
  induction ha with
  | zero => exact ⟨rfl, fun m => by rw [Nat.zero_add]⟩
  | succ _ hi hn ih =>
    refine ⟨by rw [hn, ih.1]; omega, fun m => ?_⟩
    rw [show ∀ k : Nat, k + 1 + m = k + (m + 1) by intro k; omega, ih.2]
    conv_lhs => unfold loop
    rw [hi]
    rfl

/-- What an exception of a callback leaves in a pass that starts at `t`, by the events of the pass. -/
def Left (E : Env K X n) (o : Opts K) (t s' : State K X n) (l : List Ev) : Prop :=
  (l = [.iterationStart] ∧ s' = t) ∨
  (l = [.iterationStart, .updated] ∧ ∃ r w b, direction E t = .ok r ∧ wolfe12 E.ls o.ls r.1.ls = (w, .ok b) ∧ s' = { r.1 with ls := w }) ∨
  (l = [.iterationStart, .updated, .iterationEnd] ∧ ∃ u, iteration E o t = .ok (u, true) ∧ s' = { u with iters := t.iters })

omit [IsStrictOrderedRing K] in
theorem loopE_thrown (E : Env K X n) (o : Opts K) (hook : List Ev → Bool) : ∀ (m : Nat) (s : State K X n) (log : List Ev) (s' : State K X n) (log' : List Ev), loopE E o hook m s log = .thrown s' log' →
    ∃ k t l, k < m ∧ After E o s k t ∧ Left E o t s' l ∧ log' = log ++ passes k ++ l ∧ hook log' = true := by
  intro m
  induction m with
  | zero => intro s log s' log' h; cases h
  | succ m ih =>
    intro s log s' log' h
    unfold loopE at h
    rcases iterationE_cases E o hook s log with ⟨he, hh⟩ | ⟨l, r, b, hd, hw, he, hh⟩ | ⟨u, hi, -, he, hh⟩ | ⟨u, hi, hn, he⟩ | ⟨u, -, -, he⟩ | ⟨-, he⟩ | ⟨-, he⟩
    · rw [he] at h
      injection h with h1 h2
      subst h1; subst h2
      exact ⟨0, s, _, by omega, .zero, .inl ⟨rfl, rfl⟩, by simp [passes], hh⟩
    · rw [he] at h
      injection h with h1 h2
      subst h1; subst h2
      exact ⟨0, s, _, by omega, .zero, .inr (.inl ⟨rfl, r, l, b, hd, hw, rfl⟩), by simp [passes], hh⟩
    · rw [he] at h
      injection h with h1 h2
      subst h1; subst h2
      exact ⟨0, s, _, by omega, .zero, .inr (.inr ⟨rfl, u, hi, rfl⟩), by simp [passes], hh⟩
    · rw [he] at h
      obtain ⟨k, t, l, a1, a2, a3, a4, a5⟩ := ih u _ s' log' h
      exact ⟨k + 1, t, l, by omega, a2.head hi hn, a3, by rw [a4, passes_succ]; simp [pass], a5⟩
    · rw [he] at h; cases h
    · rw [he] at h; cases h
    · rw [he] at h; cases h

omit [IsStrictOrderedRing K] in
theorem loopE_stop (E : Env K X n) (o : Opts K) (hook : List Ev → Bool) : ∀ (m : Nat) (s : State K X n) (log : List Ev) (s' : State K X n) (log' : List Ev), loopE E o hook m s log = .stop s' log' →
    loop E o m s = .ok s' ∧ ∃ k, s'.iters = s.iters + k ∧ ((k = m ∧ log' = log ++ passes k) ∨ (k < m ∧ log' = log ++ passes k ++ [.iterationStart, .updated])) := by
  intro m
  induction m with
  | zero =>
    intro s log s' log' h
    injection h with h1 h2
    subst h1; subst h2
    exact ⟨rfl, 0, rfl, .inl ⟨rfl, by simp [passes]⟩⟩
  | succ m ih =>
    intro s log s' log' h
    unfold loopE at h
    rcases iterationE_cases E o hook s log with ⟨he, -⟩ | ⟨l, r, b, hd, hw, he, hh⟩ | ⟨u, hi, -, he, hh⟩ | ⟨u, hi, hn, he⟩ | ⟨u, hi, hn, he⟩ | ⟨-, he⟩ | ⟨-, he⟩
    · rw [he] at h; cases h
    · rw [he] at h; cases h
    · rw [he] at h; cases h
    · rw [he] at h
      obtain ⟨a1, k, a2, a3⟩ := ih u _ s' log' h
      refine ⟨?_, k + 1, by rw [a2, hn]; omega, ?_⟩
      · unfold loop
        rw [hi]
        exact a1
      · rcases a3 with ⟨b1, b2⟩ | ⟨b1, b2⟩
        · exact .inl ⟨by omega, by rw [b2, passes_succ]; simp [pass]⟩
        · exact .inr ⟨by omega, by rw [b2, passes_succ]; simp [pass]⟩
    · rw [he] at h
      injection h with h1 h2
      subst h1; subst h2
      refine ⟨?_, 0, hn, .inr ⟨by omega, by simp [passes]⟩⟩
      unfold loop
      rw [hi]
      rfl
    · rw [he] at h; cases h
    · rw [he] at h; cases h

omit [IsStrictOrderedRing K] in
theorem loopE_ok (E : Env K X n) (o : Opts K) (hook : List Ev → Bool) (hq : ∀ log, hook log = false) : ∀ (m : Nat) (s : State K X n) (log : List Ev),
    (∃ s' log', loopE E o hook m s log = .stop s' log') ∨ (loopE E o hook m s log = .failed .exc ∧ loop E o m s = .exc) ∨ (loopE E o hook m s log = .failed .ub ∧ loop E o m s = .ub) := by
  intro m
  induction m with
  | zero => intro s log; exact .inl ⟨s, log, rfl⟩
  | succ m ih =>
    intro s log
    unfold loopE loop
    rcases iterationE_cases E o hook s log with ⟨he, hh⟩ | ⟨l, r, b, hd, hw, he, hh⟩ | ⟨u, hi, -, he, hh⟩ | ⟨u, hi, hn, he⟩ | ⟨u, hi, hn, he⟩ | ⟨hi, he⟩ | ⟨hi, he⟩
    · rw [hq] at hh; cases hh
    · rw [hq] at hh; cases hh
    · rw [hq] at hh; cases hh
    · rw [he, hi]; exact ih u _
    · rw [he]; exact .inl ⟨u, _, rfl⟩
    · rw [he, hi]; exact .inr (.inl ⟨rfl, rfl⟩)
    · rw [he, hi]; exact .inr (.inr ⟨rfl, rfl⟩)

omit [IsStrictOrderedRing K] in
/-- **C149, undisturbed runs.** If no callback throws and the run without callbacks returns, it ends in the same way. The callbacks see as many whole passes ITERATION_START, DESIGN_VARIABLES_UPDATED,
ITERATION_END as iterations were counted and, if the run did not end by the limit or before the first pass, a last pass without ITERATION_END. -/
theorem C149_events (E : Env K X n) (o : Opts K) (hook : List Ev → Bool) (hq : ∀ log, hook log = false) (m : Nat) (s s' : State K X n) (h : optimize E o m s = .ok s') :
    ∃ log k, optimizeE E o hook m s = .stop s' log ∧ s'.iters = s.iters + k ∧ k ≤ m ∧
      (log = (List.replicate k [Ev.iterationStart, .updated, .iterationEnd]).flatten ∧ (k = m ∨ k = 0 ∧ s' = start E o s) ∨
       k < m ∧ log = (List.replicate k [Ev.iterationStart, .updated, .iterationEnd]).flatten ++ [.iterationStart, .updated]) := by
  unfold optimize at h
  unfold optimizeE
  split_ifs at h ⊢ with hc
  · injection h with h
    subst h
    exact ⟨[], 0, rfl, rfl, Nat.zero_le _, .inl ⟨rfl, .inr ⟨rfl, rfl⟩⟩⟩
  · rcases loopE_ok E o hook hq m (start E o s) [] with ⟨u, log, hl⟩ | ⟨-, hl⟩ | ⟨-, hl⟩
    · obtain ⟨a1, k, a2, a3⟩ := loopE_stop E o hook _ _ _ _ _ hl
      rw [h] at a1
      injection a1 with a1
      subst a1
      refine ⟨log, k, hl, a2, ?_, ?_⟩
      · rcases a3 with ⟨b, -⟩ | ⟨b, -⟩ <;> omega
      · rcases a3 with ⟨b1, b2⟩ | ⟨b1, b2⟩
        · exact .inl ⟨by simpa [passes, pass] using b2, .inl b1⟩
        · exact .inr ⟨b1, by simpa [passes, pass] using b2⟩
    · rw [h] at hl; cases hl
    · rw [h] at hl; cases hl

omit [IsStrictOrderedRing K] in
/-- **C149, completed runs.** Whatever the callbacks do: if `optimize()` returns, its result is that of a run without callbacks. -/
theorem C149_completed (E : Env K X n) (o : Opts K) (hook : List Ev → Bool) (m : Nat) (s s' : State K X n) (log : List Ev) (h : optimizeE E o hook m s = .stop s' log) : optimize E o m s = .ok s' := by
  unfold optimizeE at h
  unfold optimize
  split_ifs at h ⊢ with hc
  · injection h with h1 h2
    rw [h1]
  · exact (loopE_stop E o hook _ _ _ _ _ h).1

omit [IsStrictOrderedRing K] in
theorem direction_kept {E : Env K X n} {s : State K X n} {r : State K X n × (Fin n → K)} (h : direction E s = .ok r) :
    r.1.conv = s.conv ∧ r.1.iters = s.iters ∧ r.1.error = s.error ∧ r.1.gNorm = s.gNorm ∧ r.1.dErr = s.dErr ∧ r.1.dX = s.dX ∧ (r.1.B = s.B ∨ r.1.B = 1) := by
  unfold direction at h
  simp only at h
  split at h
  · injection h with h; subst h; exact ⟨rfl, rfl, rfl, rfl, rfl, rfl, .inl rfl⟩
  · cases h
  · split at h
    · injection h with h; subst h; exact ⟨rfl, rfl, rfl, rfl, rfl, rfl, .inr rfl⟩
    · cases h
    · cases h

omit [IsStrictOrderedRing K] in
theorem iteration_ls {E : Env K X n} {o : Opts K} {t : State K X n} {r : State K X n × (Fin n → K)} {w : LS K X (Fin n → K)} {b : Bool} (hd : direction E t = .ok r)
    (hw : wolfe12 E.ls o.ls r.1.ls = (w, .ok b)) {u : State K X n} {c : Bool} (hu : iteration E o t = .ok (u, c)) : u.ls = w := by
  unfold iteration at hu
  rw [hd] at hu
  simp only [Res.bind, hw] at hu
  cases hg : getError w with
  | exc => rw [hg] at hu; cases hu
  | ub => rw [hg] at hu; cases hu
  | ok e =>
    rw [hg] at hu
    simp only at hu
    split_ifs at hu <;>
    · simp only [Res.ok.injEq, Prod.mk.injEq] at hu
      rw [← hu.1]
      rfl

omit [IsStrictOrderedRing K] in
/-- **C149, interrupted runs.** If a callback throws, `k` whole passes were made and counted as without callbacks, and with the state `t` behind them: an exception at ITERATION_START leaves `t`; one at
DESIGN_VARIABLES_UPDATED the design variables behind the line search of the next pass, with the status of `t` and the inverse Hessian of `t` (or the identity); one at ITERATION_END all that the next pass
leaves, but not counted. -/
theorem C149_interrupted (E : Env K X n) (o : Opts K) (hook : List Ev → Bool) (m : Nat) (s s' : State K X n) (log : List Ev) (h : optimizeE E o hook m s = .thrown s' log) :
    ∃ k t, k < m ∧ loop E o k (start E o s) = .ok t ∧ t.iters = s.iters + k ∧ s'.iters = t.iters ∧
      (log.getLast? = some .iterationStart ∧ s' = t ∨
       log.getLast? = some .updated ∧ s'.conv = t.conv ∧ s'.error = t.error ∧ s'.gNorm = t.gNorm ∧ s'.dErr = t.dErr ∧ s'.dX = t.dX ∧ (s'.B = t.B ∨ s'.B = 1) ∧
         (∀ u c, iteration E o t = .ok (u, c) → s'.ls = u.ls) ∨
       log.getLast? = some .iterationEnd ∧ ∃ u, iteration E o t = .ok (u, true) ∧ s' = { u with iters := t.iters }) := by
  unfold optimizeE at h
  split_ifs at h with hc
  obtain ⟨k, t, l, a1, a2, a3, a4, -⟩ := loopE_thrown E o hook _ _ _ _ _ h
  have b := after_loop a2
  refine ⟨k, t, a1, b.2 0, b.1, ?_⟩
  rcases a3 with ⟨rfl, rfl⟩ | ⟨rfl, r, w, c, hd, hw, rfl⟩ | ⟨rfl, u, hu, rfl⟩
  · exact ⟨rfl, .inl ⟨by rw [a4]; simp, rfl⟩⟩
  · obtain ⟨c1, c2, c3, c4, c5, c6, c7⟩ := direction_kept hd
    exact ⟨c2, .inr (.inl ⟨by rw [a4]; simp, c1, c3, c4, c5, c6, c7, fun u c hu => (iteration_ls hd hw hu).symm⟩)⟩
  · exact ⟨rfl, .inr (.inr ⟨by rw [a4]; simp, u, hu, rfl⟩)⟩

/-- What a call leaves behind, without the number of iterations. -/
def State.uncounted (s : State K X n) : State K X n := { s.members with iters := 0 }

omit [IsStrictOrderedRing K] in
/-- The counter has no influence on a pass. -/
theorem iteration_iters (E : Env K X n) (o : Opts K) (s : State K X n) (i : Nat) :
    (∃ u c i', iteration E o s = .ok (u, c) ∧ iteration E o { s with iters := i } = .ok ({ u with iters := i' }, c)) ∨
    (iteration E o s = .exc ∧ iteration E o { s with iters := i } = .exc) ∨ (iteration E o s = .ub ∧ iteration E o { s with iters := i } = .ub) := by
  have hd : direction E { s with iters := i } = (direction E s).bind fun r => .ok ({ r.1 with iters := i }, r.2) := by
    unfold direction
    simp only
    split
    · rfl
    · rfl
    · split <;> rfl
  unfold iteration
  rw [hd]
  cases direction E s with
  | exc => exact .inr (.inl ⟨rfl, rfl⟩)
  | ub => exact .inr (.inr ⟨rfl, rfl⟩)
  | ok r =>
    simp only [Res.bind]
    cases wolfe12 E.ls o.ls r.1.ls with
    | mk l q =>
      cases q with
      | exc => exact .inr (.inl ⟨rfl, rfl⟩)
      | ub => exact .inr (.inr ⟨rfl, rfl⟩)
      | ok b =>
        simp only
        cases getError l with
        | exc => exact .inr (.inl ⟨rfl, rfl⟩)
        | ub => exact .inr (.inr ⟨rfl, rfl⟩)
        | ok e =>
          simp only
          have ha : afterSearch E o r.1.ls.x { r.1 with iters := i, ls := l } b = { afterSearch E o r.1.ls.x { r.1 with ls := l } b with iters := i } := by
            unfold afterSearch updateStatus
            simp only
          rw [ha]
          generalize afterSearch E o r.1.ls.x { r.1 with ls := l } b = s1
          simp only
          split_ifs
          · exact .inl ⟨s1, false, i, rfl, rfl⟩
          · exact .inl ⟨finish s1 r.2, true, i + 1, rfl, rfl⟩

omit [IsStrictOrderedRing K] in
theorem loop_iters (E : Env K X n) (o : Opts K) : ∀ (m : Nat) (s : State K X n) (i : Nat),
    (loop E o m { s with iters := i }).bind (fun t => .ok t.uncounted) = (loop E o m s).bind (fun t => .ok t.uncounted) := by
  intro m
  induction m with
  | zero => intro s i; rfl
  | succ m ih =>
    intro s i
    unfold loop
    rcases iteration_iters E o s i with ⟨u, c, i', h1, h2⟩ | ⟨h1, h2⟩ | ⟨h1, h2⟩
    · rw [h1, h2]
      simp only [Res.bind]
      cases c with
      | false => rfl
      | true => exact ih u i'
    · rw [h1, h2]
    · rw [h1, h2]

/-- **C149, going on after an exception.** If a callback threw with ITERATION_START, a further call of `optimize()` with limit `j` ends as an undisturbed call with the `k` passes made before more. If it
threw with ITERATION_END the pass it ended counts among the passes made, and all but the number of iterations is as without the exception. (Missing: exceptions with DESIGN_VARIABLES_UPDATED, after which
the inverse Hessian lacks the update of the pass.) -/
theorem C149_resume_partial (E : Env K X n) (o : Opts K) (hook : List Ev → Bool) (m : Nat) (s s' : State K X n) (log : List Ev) (h : optimizeE E o hook m s = .thrown s' log) (j : Nat) :
    ∃ k, s'.iters = s.iters + k ∧ k < m ∧
      (log.getLast? = some .iterationStart → (optimize E o j s').bind (fun t => .ok t.members) = (optimize E o (k + j) s).bind (fun t => .ok t.members)) ∧
      (log.getLast? = some .iterationEnd → (optimize E o j s').bind (fun t => .ok t.uncounted) = (optimize E o (k + 1 + j) s).bind (fun t => .ok t.uncounted)) := by
  have hc : ¬ (start E o s).conv.success = true := by
    intro hc
    unfold optimizeE at h
    rw [if_pos hc] at h
    cases h
  have hopt : ∀ a, optimize E o a s = loop E o a (start E o s) := by
    intro a
    unfold optimize
    rw [if_neg hc]
  have hin : (start E o s).conv = .inProgress := by
    have hs : (start E o s).conv = convergence o (start E o s).gNorm (start E o s).dErr (start E o s).dX := rfl
    rcases convergence_cases o (start E o s).gNorm (start E o s).dErr (start E o s).dX with h | h
    · exact hs.trans h
    · exact absurd (hs ▸ h) hc
  have h' := h
  unfold optimizeE at h'
  rw [if_neg hc] at h'
  obtain ⟨k, t, l, a1, a2, a3, a4, -⟩ := loopE_thrown E o hook _ _ _ _ _ h'
  have b := after_loop a2
  have ht : t.conv = .inProgress := by
    cases a2 with
    | zero => exact hin
    | succ _ hi _ => exact (iteration_conv hi).1.1 rfl
  rcases a3 with ⟨rfl, rfl⟩ | ⟨rfl, r, w, c, hd, hw, rfl⟩ | ⟨rfl, u, hu, rfl⟩
  · refine ⟨k, b.1, a1, fun _ => ?_, fun hl => ?_⟩
    · exact C145_split E o k j s s' ((hopt k).trans (b.2 0)) (by rw [ht]; simp)
    · rw [a4] at hl; simp at hl
  · refine ⟨k, (direction_kept hd).2.1.trans b.1, a1, fun hl => ?_, fun hl => ?_⟩
    · rw [a4] at hl; simp at hl
    · rw [a4] at hl; simp at hl
  · refine ⟨k, b.1, a1, fun hl => ?_, fun _ => ?_⟩
    · rw [a4] at hl; simp at hl
    · have hu' := (iteration_conv hu).1.1 rfl
      obtain ⟨c1, c2, c3⟩ := iteration_kept hu
      have c4 := (iteration_conv hu).2 (by rw [hu']; simp)
      have e1 : optimize E o j { u with iters := t.iters } = loop E o j { u with iters := t.iters } := by
        rw [optimize_kept j (s := { u with iters := t.iters }) c1 c2 c4, if_neg (by rw [hu']; decide)]
        congr 1
        rw [show ({ u with iters := t.iters } : State K X n).ls.grad = u.g from (c3 rfl).symm]
      rw [e1, loop_iters, hopt, show k + 1 + j = k + (j + 1) by omega, b.2]
      conv_rhs => unfold loop
      rw [hu]
      rfl

end events

section concreteEvents
/-- A square root that the searches below never call on the way to their result. -/
local instance : FloatLike.Sq ℚ := ⟨fun _ => 0⟩

/-- `x²/3`. -/
def third : Env ℚ ℚ 1 := env (fun x => x * x / 3) (fun x => 2 * x / 3)

/-- **C149 fails for an exception behind the line search.** On `x²/3` from 1 a callback throws at the first DESIGN_VARIABLES_UPDATED, with the design variable at 1/3. A further call with one pass goes
to 1/9, as the curvature seen in the interrupted pass is lost; an undisturbed call with two passes goes to the minimum 0. -/
theorem C149_resume_counterexample :
    (match optimizeE third (opts 30 10 10) (fun l => l.getLast? = some .updated) 5 (reset third 0 (fresh 1)) with
      | .thrown s1 _ => decide (s1.ls.x = 1 / 3 ∧ s1.iters = 0) && (match optimize third (opts 30 10 10) 1 s1, optimize third (opts 30 10 10) 2 (reset third 0 (fresh 1)) with
        | .ok s2, .ok s3 => decide (s2.ls.x = 1 / 9 ∧ s3.ls.x = 0)
        | _, _ => false)
      | _ => false) = true := by decide +kernel

/-- Exceptions at the second ITERATION_START and at the first ITERATION_END: the hypotheses of `C149_interrupted` and `C149_resume_partial`. -/
example : (match optimizeE third (opts 30 10 10) (fun l => l.length = 4) 5 (reset third 0 (fresh 1)) with
      | .thrown s1 l => decide (s1.ls.x = 1 / 3 ∧ s1.iters = 1 ∧ l.getLast? = some .iterationStart)
      | _ => false) = true ∧
    (match optimizeE third (opts 30 10 10) (fun l => l.length = 3) 5 (reset third 0 (fresh 1)) with
      | .thrown s1 l => decide (s1.ls.x = 1 / 3 ∧ s1.iters = 0 ∧ l.getLast? = some .iterationEnd)
      | _ => false) = true := by
  refine ⟨?_, ?_⟩ <;> decide +kernel

/-- A run that converges in its second pass: `C149_events` and `C149_completed`. -/
example : (match optimizeE third (opts 30 10 10) (fun _ => false) 5 (reset third 0 (fresh 1)) with
      | .stop s1 l => decide (s1.ls.x = 0 ∧ s1.iters = 1 ∧ s1.conv = .gradientNorm ∧ l = [.iterationStart, .updated, .iterationEnd, .iterationStart, .updated])
      | _ => false) = true := by decide +kernel

end concreteEvents
end Verif.BFGS
