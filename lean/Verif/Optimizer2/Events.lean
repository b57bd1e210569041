import Verif.Optimizer2.Props
import Verif.Optimizer2.Callbacks

/-!
C141: the events of a run of `Optimizer2` and runs that are interrupted by a callback which throws. `Optimizer2.cpp` is O2 below, `LinearSystemSolver.cpp` LS. The functions repeat those of
`Verif/Optimizer2/Model.lean` with the points at which callbacks are called. Callbacks do not change design variables, error terms or the registry.
-/
namespace Verif.Optimizer2

/-- The events that `Optimizer2` issues, with their arguments: OPTIMIZATION_INITIALIZED (O2:184), LINEAR_SYSTEM_SOLVED (O2:198), DESIGN_VARIABLES_UPDATED (O2:210), each with the member `_status.error` (O2:394-398; the second
argument is 0), RESIDUALS_UPDATED (LS:67, both arguments are 0) and COST_UPDATED with the current and the previous lowest cost (O2:309). -/
inductive Ev (K : Type) where
  | initialized (c : Dbl K)
  | solved (c : Dbl K)
  | updated (c : Dbl K)
  | residuals
  | cost (c q : Dbl K)
  deriving DecidableEq, Repr

/-- What issuing an event comes to: an instruction (OptimizerCallbackManager.cpp:48-56), or one of the callbacks throws. -/
inductive Act where
  | returns (p : Callbacks.Proceed)
  | throws
  deriving DecidableEq, Repr

/-- The end of a piece of a run: it went through, a callback threw and left `b`, or the optimizer itself threw. -/
inductive Out (α β : Type) where
  | ok (a : α)
  | thrown (b : β)
  | exc

variable {K X D P : Type} [LinearOrder K] [CommRing K]

/-- Issuing the event `e` in the state `s`, O2:394-398 and O2:309: the instruction is not used ("TODO use ProceedInstruction value"), an exception ends the run. `hook` stands for all the registered callbacks; what they do may depend on all
the events of the run so far, the last one included. `k` is the rest of the function. -/
def issueEv {α σ : Type} (hook : List (Ev K) → Act) (log : List (Ev K)) (e : Ev K) (s : σ) (k : List (Ev K) → Out α (σ × List (Ev K))) : Out α (σ × List (Ev K)) :=
  match hook (log ++ [e]) with
  | .throws => .thrown (s, log ++ [e])
  | .returns _ => k (log ++ [e])

/-- The rest of a pass after the cost of the candidate is known, O2:215-237. -/
def judge (S : Setup K X D P) (s : St K X D P) : St K X D P :=
  let dJ := Dbl.sub s.pJ s.error
  let s := { s with deltaJ := dJ, iterations := s.iterations + 1 }
  if S.reverts then
    if Dbl.lt dJ (.fin 0) then { s with x := S.revert s.x, failed := s.failed + 1, prevFailed := true }
    else { s with pJ := s.error, prevFailed := false }
  else { s with pJ := s.error }

/-- The loop body with its events, O2:193-242, O2:304-311 and LS:59-72. -/
def iterE (S : Setup K X D P) (hook : List (Ev K) → Act) (s : St K X D P) (log : List (Ev K)) : Out (St K X D P × List (Ev K)) (St K X D P × List (Ev K)) :=
  let r := S.solve s.p s.x s.dx s.error s.prevFailed
  let s1 : St K X D P := { s with p := r.1, dx := r.2.2, numJac := s.numJac + 1 }
  if S.size s1.dx ≠ S.numOpt then .exc
  else issueEv hook log (.solved s1.error) s1 fun log =>
    if !r.2.1 then .ok ({ s1 with prevFailed := true, lsf := true, failed := s1.failed + 1 }, log)
    else
      let s2 : St K X D P := { s1 with x := S.update s1.x s1.dx, deltaX := S.maxAbs s1.dx }
      issueEv hook log (.updated s2.error) s2 fun log =>
      issueEv hook log .residuals s2 fun log =>
      let s3 : St K X D P := { s2 with error := S.cost s2.x, numErr := s2.numErr + 1, events := s2.events ++ [(S.cost s2.x, s2.pJ)] }
      issueEv hook log (.cost s3.error s3.pJ) s3 fun log => .ok (judge S s3, log)

omit [LinearOrder K] [CommRing K] in
theorem issueEv_cases {α σ : Type} {hook : List (Ev K) → Act} {log : List (Ev K)} {e : Ev K} {s : σ} {k : List (Ev K) → Out α (σ × List (Ev K))} {r : Out α (σ × List (Ev K))} (h : issueEv hook log e s k = r) :
    (hook (log ++ [e]) = .throws ∧ r = .thrown (s, log ++ [e])) ∨ (hook (log ++ [e]) ≠ .throws ∧ k (log ++ [e]) = r) := by
  unfold issueEv at h
  split at h
  · rename_i he; exact .inl ⟨he, h.symm⟩
  · rename_i p he; exact .inr ⟨by rw [he]; simp, h⟩

/-- The state after the linear solve of a pass. -/
def st1 (S : Setup K X D P) (s : St K X D P) : St K X D P :=
  let r := S.solve s.p s.x s.dx s.error s.prevFailed
  { s with p := r.1, dx := r.2.2, numJac := s.numJac + 1 }

/-- The state after the candidate was applied. -/
def st2 (S : Setup K X D P) (s : St K X D P) : St K X D P := { st1 S s with x := candidate S s, deltaX := S.maxAbs (st1 S s).dx }

/-- The state after the cost of the candidate was computed. -/
def st3 (S : Setup K X D P) (s : St K X D P) : St K X D P :=
  { st2 S s with error := S.cost (candidate S s), numErr := s.numErr + 1, events := s.events ++ [(S.cost (candidate S s), s.pJ)] }

/-- The ways in which a pass can end. -/
theorem iterE_cases {S : Setup K X D P} {hook : List (Ev K) → Act} {s : St K X D P} {log : List (Ev K)} {r : Out (St K X D P × List (Ev K)) (St K X D P × List (Ev K))} (h : iterE S hook s log = r) :
    r = .exc ∧ iter S s = .exc ∨
    r = .thrown (st1 S s, log ++ [.solved s.error]) ∧ hook (log ++ [.solved s.error]) = .throws ∨
    hook (log ++ [.solved s.error]) ≠ .throws ∧
      (r = .ok (afterFailure S s, log ++ [.solved s.error]) ∧ iter S s = .ok (afterFailure S s) ∨
       r = .thrown (st2 S s, log ++ [.solved s.error] ++ [.updated s.error]) ∧ hook (log ++ [.solved s.error] ++ [.updated s.error]) = .throws ∨
       hook (log ++ [.solved s.error] ++ [.updated s.error]) ≠ .throws ∧
        (r = .thrown (st2 S s, log ++ [.solved s.error] ++ [.updated s.error] ++ [.residuals]) ∧ hook (log ++ [.solved s.error] ++ [.updated s.error] ++ [.residuals]) = .throws ∨
         hook (log ++ [.solved s.error] ++ [.updated s.error] ++ [.residuals]) ≠ .throws ∧
          (r = .thrown (st3 S s, log ++ [.solved s.error] ++ [.updated s.error] ++ [.residuals] ++ [.cost (S.cost (candidate S s)) s.pJ]) ∧
              hook (log ++ [.solved s.error] ++ [.updated s.error] ++ [.residuals] ++ [.cost (S.cost (candidate S s)) s.pJ]) = .throws ∨
           hook (log ++ [.solved s.error] ++ [.updated s.error] ++ [.residuals] ++ [.cost (S.cost (candidate S s)) s.pJ]) ≠ .throws ∧
              ∃ s', r = .ok (s', log ++ [.solved s.error] ++ [.updated s.error] ++ [.residuals] ++ [.cost (S.cost (candidate S s)) s.pJ]) ∧ iter S s = .ok s' ∧
                (s' = afterReject S s ∧ S.reverts = true ∧ Dbl.lt (Dbl.sub s.pJ (S.cost (candidate S s))) (.fin 0) = true ∨
                 s' = afterAccept S s ∧ (S.reverts = true → Dbl.lt (Dbl.sub s.pJ (S.cost (candidate S s))) (.fin 0) = false))))) := by
  unfold iterE at h
  simp only at h
  by_cases hs : S.size (S.solve s.p s.x s.dx s.error s.prevFailed).2.2 ≠ S.numOpt
  · rw [if_pos hs] at h
    exact .inl ⟨h.symm, by unfold iter; simp only; rw [if_pos hs]⟩
  · rw [if_neg hs] at h
    refine .inr ?_
    rcases issueEv_cases h with ⟨h1, h2⟩ | ⟨h1, h⟩
    · exact .inl ⟨h2, h1⟩
    · refine .inr ⟨h1, ?_⟩
      by_cases hr : (!(S.solve s.p s.x s.dx s.error s.prevFailed).2.1) = true
      · rw [if_pos hr] at h
        exact .inl ⟨h.symm, by unfold iter; simp only; rw [if_neg hs, if_pos hr]; rfl⟩
      · rw [if_neg hr] at h
        refine .inr ?_
        rcases issueEv_cases h with ⟨h1, h2⟩ | ⟨h1, h⟩
        · exact .inl ⟨h2, h1⟩
        · refine .inr ⟨h1, ?_⟩
          rcases issueEv_cases h with ⟨h1, h2⟩ | ⟨h1, h⟩
          · exact .inl ⟨h2, h1⟩
          · refine .inr ⟨h1, ?_⟩
            rcases issueEv_cases h with ⟨h1, h2⟩ | ⟨h1, h⟩
            · exact .inl ⟨h2, h1⟩
            · refine .inr ⟨h1, ?_⟩
              have hj : iter S s = .ok (judge S (st3 S s)) := by
                unfold iter
                simp only
                rw [if_neg hs, if_neg hr]
                unfold judge
                simp only
                split
                · split
                  · rename_i hv hl; rw [if_pos (by exact hl)]; rfl
                  · rename_i hv hl; rw [if_neg (by exact hl)]; rfl
                · rfl
              refine ⟨judge S (st3 S s), h.symm, hj, ?_⟩
              rcases iter_cases hj with ⟨h3, _⟩ | ⟨_, h4, h5, h6⟩ | ⟨_, h4, h5⟩
              · rw [h3] at hr; exact absurd rfl hr
              · exact .inl ⟨h6, h4, h5⟩
              · exact .inr ⟨h5, h4⟩

/-- A pass that is not interrupted is a pass of the model without events. -/
theorem iterE_ok {S : Setup K X D P} {hook : List (Ev K) → Act} {s s' : St K X D P} {log log' : List (Ev K)} (h : iterE S hook s log = .ok (s', log')) : iter S s = .ok s' := by
  rcases iterE_cases h with ⟨h, _⟩ | ⟨h, _⟩ | ⟨_, ⟨h, h'⟩ | ⟨h, _⟩ | ⟨_, ⟨h, _⟩ | ⟨_, ⟨h, _⟩ | ⟨_, s1, h, h', _⟩⟩⟩⟩
  all_goals first | (cases h; done) | (cases h; exact h')

/-- The loop with its events, O2:187-243. -/
def loopE (S : Setup K X D P) (hook : List (Ev K) → Act) (o : Options K) (s : St K X D P) (log : List (Ev K)) : Out (St K X D P × List (Ev K)) (St K X D P × List (Ev K)) :=
  if _h : running o s = true then
    match _h' : iterE S hook s log with
    | .ok (s', log') => loopE S hook o s' log'
    | .thrown t => .thrown t
    | .exc => .exc
  else .ok (s, log)
termination_by ((o.maxIterations - s.iterations).toNat + (o.maxIterations - s.failed).toNat)
decreasing_by
  have := iter_counts S s s' (iterE_ok _h')
  simp only [running, Bool.and_eq_true, decide_eq_true_eq] at _h
  omega

/-- The members of the optimizer when an exception leaves the function after the policy was started: `_status.srv` holds the counters and `JStart` (O2:159, O2:170), what is set behind the loop (O2:244-258) keeps its old values. -/
def abandon (S : Setup K X D P) (b : Obj K X D P) (s : St K X D P) : Obj K X D P :=
  { b with x := s.x, p := s.p, dx := s.dx, iterations := s.iterations, failed := s.failed, jStart := S.cost b.x, numJac := s.numJac, numErr := s.numErr, events := s.events }

/-- `optimizeImplementation` with its events, O2:152-259. `err` is `_status.error` before the call. The result of an interrupted run are the members and `_status.error`. -/
def runE (S : Setup K X D P) (hook : List (Ev K) → Act) (o : Options K) (b : Obj K X D P) (err : Dbl K) : Out (Obj K X D P × List (Ev K)) ((Obj K X D P × Dbl K) × List (Ev K)) :=
  issueEv hook [] .residuals (b, err) fun log =>
  issueEv hook log (.cost (S.cost b.x) (.fin (-1))) ({ b with numErr := b.numErr + 1, events := b.events ++ [(S.cost b.x, .fin (-1))] }, S.cost b.x) fun log =>
  let s := enter S o b
  issueEv hook log (.initialized s.error) (abandon S b s, s.error) fun log =>
  match loopE S hook o s log with
  | .ok (s, log) => .ok (leave S o b s, log)
  | .thrown (s, log) => .thrown ((abandon S b s, s.error), log)
  | .exc => .exc

/-- `optimize()` with its events, OptimizerBase.cpp:122-127. -/
def optimizeE (S : Setup K X D P) (hook : List (Ev K) → Act) (o : Options K) (b : Obj K X D P) (err : Dbl K) : Out (Obj K X D P × List (Ev K)) ((Obj K X D P × Dbl K) × List (Ev K)) :=
  runE S hook o (if b.initialized then b else initObj b) err

/-! ### Specification: the order of the events -/

/-- Where a run is, told from its last event: nothing happened, the residuals or the cost at the start are known, the loop is about to be entered, a system was solved, a candidate was applied, its residuals are known, its cost is known. -/
inductive Phase where
  | start | residuals0 | cost0 | ready | solved | updated | residuals | judged
  deriving DecidableEq, Repr

/-- The event that may follow. -/
def follow : Phase → Ev K → Option Phase
  | .start, .residuals => some .residuals0
  | .residuals0, .cost _ _ => some .cost0
  | .cost0, .initialized _ => some .ready
  | .ready, .solved _ => some .solved
  | .solved, .solved _ => some .solved
  | .judged, .solved _ => some .solved
  | .solved, .updated _ => some .updated
  | .updated, .residuals => some .residuals
  | .residuals, .cost _ _ => some .judged
  | _, _ => none

/-- The phase that a list of events leads to, if it is in order. -/
def phase (log : List (Ev K)) : Option Phase := log.foldl (fun p e => p.bind fun p => follow p e) (some .start)

/-- A candidate has been applied and it is not yet decided whether it is kept. -/
def Phase.trial : Phase → Bool
  | .updated | .residuals | .judged => true
  | _ => false

/-- An event `COST_UPDATED`. -/
def Ev.isCost : Ev K → Bool
  | .cost _ _ => true
  | _ => false

/-- An event `LINEAR_SYSTEM_SOLVED`. -/
def Ev.isSolved : Ev K → Bool
  | .solved _ => true
  | _ => false

omit [LinearOrder K] [CommRing K] in
theorem phase_snoc (log : List (Ev K)) (e : Ev K) : phase (log ++ [e]) = (phase log).bind fun p => follow p e := by
  simp [phase, List.foldl_append]

/-! ### Invariants -/

/-- No event so far made a callback throw. -/
def Calm (hook : List (Ev K) → Act) (log : List (Ev K)) : Prop := ∀ pre post, log = pre ++ post → pre ≠ [] → hook pre ≠ .throws

omit [LinearOrder K] [CommRing K] in
theorem calm_nil (hook : List (Ev K) → Act) : Calm hook [] := by
  intro pre post h hp
  have := (List.append_eq_nil_iff.1 h.symm).1
  exact absurd this hp

omit [LinearOrder K] [CommRing K] in
theorem calm_snoc {hook : List (Ev K) → Act} {log : List (Ev K)} {e : Ev K} (h : Calm hook log) (he : hook (log ++ [e]) ≠ .throws) : Calm hook (log ++ [e]) := by
  intro pre post hp hne
  rcases List.eq_nil_or_concat post with rfl | ⟨post', z, rfl⟩
  · rw [List.append_nil] at hp
    rw [← hp]; exact he
  · have hp' : log ++ [e] = (pre ++ post') ++ [z] := by simpa using hp
    exact h pre post' (List.append_inj' hp' (by simp)).1 hne

/-- The end of `log` is the first event that made a callback throw. -/
def Broken (hook : List (Ev K) → Act) (log : List (Ev K)) : Prop := ∃ pre e, log = pre ++ [e] ∧ hook log = .throws ∧ Calm hook pre

/-- What holds between the passes of a run from the costs `c0`. -/
structure Between (S : Setup K X D P) (hook : List (Ev K) → Act) (c0 : Dbl K) (b : Obj K X D P) (s : St K X D P) (log : List (Ev K)) : Prop where
  calm : Calm hook log
  ph : phase log = some .ready ∨ phase log = some .solved ∨ phase log = some .judged
  same : S.cost s.x = s.pJ
  low : S.reverts = true → (∀ x, S.cost x ≠ .nan) → Dbl.le s.pJ c0 = true ∧ ∀ c q, Ev.cost c q ∈ log → Dbl.le s.pJ c = true
  jac : s.numJac = b.numJac + log.countP Ev.isSolved
  err : s.numErr = b.numErr + log.countP Ev.isCost
  last : ∃ pre q post, log = pre ++ .cost s.error q :: post ∧ ∀ e ∈ post, e.isCost = false

/-- What holds when a callback throws in a pass. -/
structure Inside (S : Setup K X D P) (hook : List (Ev K) → Act) (c0 : Dbl K) (b : Obj K X D P) (s : St K X D P) (log : List (Ev K)) : Prop where
  broken : Broken hook log
  ph : ∃ f, phase log = some f ∧ (f = .solved ∨ f.trial = true) ∧
    ∃ xa, S.cost xa = s.pJ ∧ (f.trial = false → s.x = xa) ∧ (f.trial = true → s.x = S.update xa s.dx) ∧ (f = .judged → s.error = S.cost s.x)
  low : S.reverts = true → (∀ x, S.cost x ≠ .nan) → Dbl.le s.pJ c0 = true ∧ ∀ pre c q post, log = pre ++ .cost c q :: post → post ≠ [] → Dbl.le s.pJ c = true
  jac : s.numJac = b.numJac + log.countP Ev.isSolved
  err : s.numErr = b.numErr + log.countP Ev.isCost
  last : ∃ pre q post, log = pre ++ .cost s.error q :: post ∧ ∀ e ∈ post, e.isCost = false

theorem le_of_lt' {a b : Dbl K} (h : Dbl.lt a b = true) : Dbl.le a b = true := by
  cases a <;> cases b <;> simp_all [Dbl.lt, Dbl.le]
  exact h.le

theorem le_of_reject [IsStrictOrderedRing K] {a b : Dbl K} (h : Dbl.lt (Dbl.sub a b) (.fin 0) = true) : Dbl.le a b = true := le_of_lt' (Dbl.lt_of_sub_neg h)

omit [LinearOrder K] [CommRing K] in
theorem last_snoc {log : List (Ev K)} {e : Ev K} {err : Dbl K} (he : e.isCost = false) (h : ∃ pre q post, log = pre ++ .cost err q :: post ∧ ∀ e ∈ post, e.isCost = false) :
    ∃ pre q post, log ++ [e] = pre ++ .cost err q :: post ∧ ∀ e ∈ post, e.isCost = false := by
  obtain ⟨pre, q, post, rfl, h⟩ := h
  refine ⟨pre, q, post ++ [e], by simp, ?_⟩
  intro a ha
  rcases List.mem_append.1 ha with ha | ha
  · exact h a ha
  · rw [List.mem_singleton.1 ha]; exact he

omit [LinearOrder K] [CommRing K] in
/-- A cost event that is not the last one of a list was there before its last event. -/
theorem mem_of_split {log : List (Ev K)} {e : Ev K} {pre post : List (Ev K)} {c q : Dbl K} (h : log ++ [e] = pre ++ .cost c q :: post) (hp : post ≠ []) : Ev.cost c q ∈ log := by
  rcases List.eq_nil_or_concat post with rfl | ⟨post', z, rfl⟩
  · exact absurd rfl hp
  · have h' : log ++ [e] = (pre ++ .cost c q :: post') ++ [z] := by simpa using h
    rw [(List.append_inj' h' (by simp)).1]
    simp

omit [LinearOrder K] [CommRing K] in
theorem phase_solved {log : List (Ev K)} {c : Dbl K} (h : phase log = some .ready ∨ phase log = some .solved ∨ phase log = some .judged) : phase (log ++ [.solved c]) = some .solved := by
  rw [phase_snoc]
  rcases h with h | h | h <;> rw [h] <;> rfl

section pass
variable {S : Setup K X D P} {hook : List (Ev K) → Act} {c0 : Dbl K} {b : Obj K X D P} {s : St K X D P} {log : List (Ev K)}

theorem inside_of_thrown (hB : Between S hook c0 b s log) {t : St K X D P × List (Ev K)} (h : iterE S hook s log = .thrown t) : Inside S hook c0 b t.1 t.2 := by
  have p1 := phase_solved (c := s.error) hB.ph
  have p2 : phase (log ++ [.solved s.error] ++ [.updated s.error]) = some .updated := by rw [phase_snoc, p1]; rfl
  have p3 : phase (log ++ [.solved s.error] ++ [.updated s.error] ++ [.residuals]) = some .residuals := by rw [phase_snoc, p2]; rfl
  have p4 : phase (log ++ [.solved s.error] ++ [.updated s.error] ++ [.residuals] ++ [.cost (S.cost (candidate S s)) s.pJ]) = some .judged := by rw [phase_snoc, p3]; rfl
  have l1 := last_snoc (e := .solved s.error) rfl hB.last
  have l2 := last_snoc (e := .updated s.error) rfl l1
  have l3 := last_snoc (e := .residuals) rfl l2
  have hlow : ∀ a : List (Ev K), (∀ x ∈ a, Ev.isCost x = false) → S.reverts = true → (∀ x, S.cost x ≠ .nan) → Dbl.le s.pJ c0 = true ∧ ∀ c q, Ev.cost c q ∈ log ++ a → Dbl.le s.pJ c = true := by
    intro a ha hr hn
    refine ⟨(hB.low hr hn).1, fun c q hm => ?_⟩
    rcases List.mem_append.1 hm with hm | hm
    · exact (hB.low hr hn).2 c q hm
    · exact absurd (ha _ hm) (by simp [Ev.isCost])
  rcases iterE_cases h with ⟨h, _⟩ | ⟨h, h1⟩ | ⟨h1, ⟨h, _⟩ | ⟨h, h2⟩ | ⟨h2, ⟨h, h3⟩ | ⟨h3, ⟨h, h4⟩ | ⟨_, s1, h, _⟩⟩⟩⟩
  · cases h
  · cases h
    refine ⟨⟨_, _, rfl, h1, hB.calm⟩, ⟨_, p1, .inl rfl, s.x, hB.same, fun _ => rfl, fun h => (by cases h), fun h => (by cases h)⟩, ?_, ?_, ?_, l1⟩
    · intro hr hn
      exact ⟨(hB.low hr hn).1, fun pre c q post he hp => (hB.low hr hn).2 c q (mem_of_split he hp)⟩
    · show s.numJac + 1 = _
      rw [hB.jac, List.countP_append]; simp [Ev.isSolved]; omega
    · show s.numErr = _
      rw [hB.err, List.countP_append]; simp [Ev.isCost]
  · cases h
  · cases h
    refine ⟨⟨_, _, rfl, h2, calm_snoc hB.calm h1⟩, ⟨_, p2, .inr rfl, s.x, hB.same, fun h => (by cases h), fun _ => rfl, fun h => (by cases h)⟩, ?_, ?_, ?_, l2⟩
    · intro hr hn
      obtain ⟨e1, e2⟩ := hlow [.solved s.error] (by simp [Ev.isCost]) hr hn
      exact ⟨e1, fun pre c q post he hp => e2 c q (mem_of_split he hp)⟩
    · show s.numJac + 1 = _
      rw [hB.jac, List.countP_append, List.countP_append]; simp [Ev.isSolved]; omega
    · show s.numErr = _
      rw [hB.err, List.countP_append, List.countP_append]; simp [Ev.isCost]
  · cases h
    refine ⟨⟨_, _, rfl, h3, calm_snoc (calm_snoc hB.calm h1) h2⟩, ⟨_, p3, .inr rfl, s.x, hB.same, fun h => (by cases h), fun _ => rfl, fun h => (by cases h)⟩, ?_, ?_, ?_, l3⟩
    · intro hr hn
      obtain ⟨e1, e2⟩ := hlow [.solved s.error, .updated s.error] (by simp [Ev.isCost]) hr hn
      refine ⟨e1, fun pre c q post he hp => e2 c q ?_⟩
      have := mem_of_split he hp
      simpa using this
    · show s.numJac + 1 = _
      rw [hB.jac, List.countP_append, List.countP_append, List.countP_append]; simp [Ev.isSolved]; omega
    · show s.numErr = _
      rw [hB.err, List.countP_append, List.countP_append, List.countP_append]; simp [Ev.isCost]
  · cases h
    refine ⟨⟨_, _, rfl, h4, calm_snoc (calm_snoc (calm_snoc hB.calm h1) h2) h3⟩, ⟨_, p4, .inr rfl, s.x, hB.same, fun h => (by cases h), fun _ => rfl, fun _ => rfl⟩, ?_, ?_, ?_, ?_⟩
    · intro hr hn
      obtain ⟨e1, e2⟩ := hlow [.solved s.error, .updated s.error, .residuals] (by simp [Ev.isCost]) hr hn
      refine ⟨e1, fun pre c q post he hp => e2 c q ?_⟩
      have := mem_of_split he hp
      simpa using this
    · show s.numJac + 1 = _
      rw [hB.jac, List.countP_append, List.countP_append, List.countP_append, List.countP_append]; simp [Ev.isSolved]; omega
    · show s.numErr + 1 = _
      rw [hB.err, List.countP_append, List.countP_append, List.countP_append, List.countP_append]; simp [Ev.isCost]; omega
    · exact ⟨_, _, [], rfl, by simp⟩
  · cases h

theorem between_of_ok [IsStrictOrderedRing K] (hrev : RevertsCost S) (hB : Between S hook c0 b s log) {t : St K X D P × List (Ev K)} (h : iterE S hook s log = .ok t) : Between S hook c0 b t.1 t.2 := by
  have p1 := phase_solved (c := s.error) hB.ph
  have p2 : phase (log ++ [.solved s.error] ++ [.updated s.error]) = some .updated := by rw [phase_snoc, p1]; rfl
  have p3 : phase (log ++ [.solved s.error] ++ [.updated s.error] ++ [.residuals]) = some .residuals := by rw [phase_snoc, p2]; rfl
  have p4 : phase (log ++ [.solved s.error] ++ [.updated s.error] ++ [.residuals] ++ [.cost (S.cost (candidate S s)) s.pJ]) = some .judged := by rw [phase_snoc, p3]; rfl
  rcases iterE_cases h with ⟨h, _⟩ | ⟨h, _⟩ | ⟨h1, ⟨h, _⟩ | ⟨h, _⟩ | ⟨h2, ⟨h, _⟩ | ⟨h3, ⟨h, _⟩ | ⟨h4, s1, h, _, hs⟩⟩⟩⟩
  · cases h
  · cases h
  · cases h
    refine ⟨calm_snoc hB.calm h1, .inr (.inl p1), hB.same, ?_, ?_, ?_, last_snoc rfl hB.last⟩
    · intro hr hn
      refine ⟨(hB.low hr hn).1, fun c q hm => ?_⟩
      rcases List.mem_append.1 hm with hm | hm
      · exact (hB.low hr hn).2 c q hm
      · simp at hm
    · show s.numJac + 1 = _
      rw [hB.jac, List.countP_append]; simp [Ev.isSolved]; omega
    · show s.numErr = _
      rw [hB.err, List.countP_append]; simp [Ev.isCost]
  · cases h
  · cases h
  · cases h
  · cases h
    have hcalm := calm_snoc (calm_snoc (calm_snoc (calm_snoc hB.calm h1) h2) h3) h4
    have hmem : ∀ c q, Ev.cost c q ∈ log ++ [.solved s.error] ++ [.updated s.error] ++ [.residuals] ++ [.cost (S.cost (candidate S s)) s.pJ] → Ev.cost c q ∈ log ∨ c = S.cost (candidate S s) := by
      intro c q hm
      simp only [List.append_assoc, List.mem_append, List.mem_singleton, reduceCtorEq, Ev.cost.injEq, false_or] at hm
      rcases hm with hm | hm
      · exact .inl hm
      · exact .inr hm.1
    rcases hs with ⟨rfl, _, hl⟩ | ⟨rfl, hl⟩
    · refine ⟨hcalm, .inr (.inr p4), ?_, ?_, ?_, ?_, ⟨_, _, [], rfl, by simp⟩⟩
      · show S.cost (S.revert (candidate S s)) = s.pJ
        rw [candidate, hrev, hB.same]
      · intro hr hn
        refine ⟨(hB.low hr hn).1, fun c q hm => ?_⟩
        rcases hmem c q hm with hm | rfl
        · exact (hB.low hr hn).2 c q hm
        · exact le_of_reject hl
      · show s.numJac + 1 = _
        rw [hB.jac, List.countP_append, List.countP_append, List.countP_append, List.countP_append]; simp [Ev.isSolved]; omega
      · show s.numErr + 1 = _
        rw [hB.err, List.countP_append, List.countP_append, List.countP_append, List.countP_append]; simp [Ev.isCost]; omega
    · refine ⟨hcalm, .inr (.inr p4), rfl, ?_, ?_, ?_, ⟨_, _, [], rfl, by simp⟩⟩
      · intro hr hn
        have hp : s.pJ ≠ .nan := by rw [← hB.same]; exact hn _
        have hle := Dbl.le_of_sub_not_neg hp (hn _) (hl hr)
        refine ⟨Dbl.le_trans hle (hB.low hr hn).1, fun c q hm => ?_⟩
        rcases hmem c q hm with hm | rfl
        · exact Dbl.le_trans hle ((hB.low hr hn).2 c q hm)
        · exact Dbl.le_refl (hn _)
      · show s.numJac + 1 = _
        rw [hB.jac, List.countP_append, List.countP_append, List.countP_append, List.countP_append]; simp [Ev.isSolved]; omega
      · show s.numErr + 1 = _
        rw [hB.err, List.countP_append, List.countP_append, List.countP_append, List.countP_append]; simp [Ev.isCost]; omega

end pass

/-- The loop keeps the invariant and ends in one of three ways. -/
theorem loopE_inv [IsStrictOrderedRing K] {S : Setup K X D P} (hrev : RevertsCost S) {hook : List (Ev K) → Act} {o : Options K} {c0 : Dbl K} {b : Obj K X D P} :
    ∀ s log, Between S hook c0 b s log →
      (∀ t, loopE S hook o s log = .ok t → Between S hook c0 b t.1 t.2 ∧ loop S o s = .ok t.1) ∧ (∀ t, loopE S hook o s log = .thrown t → Inside S hook c0 b t.1 t.2) := by
  intro s log
  induction s, log using loopE.induct S hook o with
  | case1 s log h s1 log1 h' ih =>
    intro hB
    obtain ⟨i1, i2⟩ := ih (between_of_ok hrev hB h')
    have e : loopE S hook o s log = loopE S hook o s1 log1 := by
      rw [loopE, dif_pos h]
      split
      · rename_i h2; rw [h'] at h2; cases h2; rfl
      · rename_i h2; rw [h'] at h2; cases h2
      · rename_i h2; rw [h'] at h2; cases h2
    rw [e, loop_run h (iterE_ok h')]
    exact ⟨i1, i2⟩
  | case2 s log h t h' =>
    intro hB
    have e : loopE S hook o s log = .thrown t := by
      rw [loopE, dif_pos h]
      split
      · rename_i h2; rw [h'] at h2; cases h2
      · rename_i h2; rw [h'] at h2; cases h2; rfl
      · rename_i h2; rw [h'] at h2; cases h2
    rw [e]
    refine ⟨fun t h => (by cases h), fun t' ht => ?_⟩
    cases ht
    exact inside_of_thrown hB h'
  | case3 s log h h' =>
    intro hB
    have e : loopE S hook o s log = .exc := by
      rw [loopE, dif_pos h]
      split
      · rename_i h2; rw [h'] at h2; cases h2
      · rename_i h2; rw [h'] at h2; cases h2
      · rfl
    rw [e]
    exact ⟨fun t h => (by cases h), fun t h => (by cases h)⟩
  | case4 s log h =>
    intro hB
    have e : loopE S hook o s log = .ok (s, log) := by rw [loopE, dif_neg h]
    rw [e]
    refine ⟨fun t ht => ?_, fun t h => (by cases h)⟩
    cases ht
    exact ⟨hB, loop_stop (by simpa using h)⟩

theorem loopE_thrown {S : Setup K X D P} {hook : List (Ev K) → Act} {o : Options K} {s : St K X D P} {log : List (Ev K)} {t : St K X D P × List (Ev K)} (h : running o s = true) (h' : iterE S hook s log = .thrown t) :
    loopE S hook o s log = .thrown t := by
  rw [loopE, dif_pos h]
  split
  · rename_i h2; rw [h'] at h2; cases h2
  · rename_i h2; rw [h'] at h2; cases h2; rfl
  · rename_i h2; rw [h'] at h2; cases h2

theorem loopE_run {S : Setup K X D P} {hook : List (Ev K) → Act} {o : Options K} {s s' : St K X D P} {log log' : List (Ev K)} (h : running o s = true) (h' : iterE S hook s log = .ok (s', log')) :
    loopE S hook o s log = loopE S hook o s' log' := by
  rw [loopE, dif_pos h]
  split
  · rename_i h2; rw [h'] at h2; cases h2; rfl
  · rename_i h2; rw [h'] at h2; cases h2
  · rename_i h2; rw [h'] at h2; cases h2

theorem loopE_exc {S : Setup K X D P} {hook : List (Ev K) → Act} {o : Options K} {s : St K X D P} {log : List (Ev K)} (h : running o s = true) (h' : iterE S hook s log = .exc) :
    loopE S hook o s log = .exc := by
  rw [loopE, dif_pos h]
  split
  · rename_i h2; rw [h'] at h2; cases h2
  · rename_i h2; rw [h'] at h2; cases h2
  · rfl

/-! ### Runs in which nothing throws -/

/-- No callback ever throws. -/
def Quiet (hook : List (Ev K) → Act) : Prop := ∀ log, hook log ≠ .throws

omit [LinearOrder K] [CommRing K] in
theorem issueEv_quiet {α σ : Type} {hook : List (Ev K) → Act} (hq : Quiet hook) (log : List (Ev K)) (e : Ev K) (s : σ) (k : List (Ev K) → Out α (σ × List (Ev K))) : issueEv hook log e s k = k (log ++ [e]) := by
  unfold issueEv
  split
  · rename_i h; exact absurd h (hq _)
  · rfl

theorem iterE_quiet (S : Setup K X D P) (s : St K X D P) (log : List (Ev K)) :
    (∀ s', iter S s = .ok s' → ∃ log', ∀ hook, Quiet hook → iterE S hook s log = .ok (s', log')) ∧ (iter S s = .exc → ∀ hook, Quiet hook → iterE S hook s log = .exc) := by
  by_cases hs : S.size (S.solve s.p s.x s.dx s.error s.prevFailed).2.2 ≠ S.numOpt
  · have e1 : iter S s = .exc := by unfold iter; simp only; rw [if_pos hs]
    have e2 : ∀ hook, iterE S hook s log = .exc := by intro hook; unfold iterE; simp only; rw [if_pos hs]
    rw [e1]
    exact ⟨fun s' h => (by cases h), fun _ hook _ => e2 hook⟩
  · have hne : iter S s ≠ .exc := by
      unfold iter
      simp only
      rw [if_neg hs]
      repeat' split
      all_goals simp
    refine ⟨fun s' h => ?_, fun h => absurd h hne⟩
    have key : ∃ log' s1, ∀ hook, Quiet hook → iterE S hook s log = .ok (s1, log') := by
      by_cases hr : (!(S.solve s.p s.x s.dx s.error s.prevFailed).2.1) = true
      · refine ⟨log ++ [.solved s.error], afterFailure S s, fun hook hq => ?_⟩
        unfold iterE
        simp only
        rw [if_neg hs, issueEv_quiet hq, if_pos hr]
        rfl
      · refine ⟨log ++ [.solved s.error] ++ [.updated s.error] ++ [.residuals] ++ [.cost (S.cost (candidate S s)) s.pJ], judge S (st3 S s), fun hook hq => ?_⟩
        unfold iterE
        simp only
        rw [if_neg hs, issueEv_quiet hq, if_neg hr, issueEv_quiet hq, issueEv_quiet hq, issueEv_quiet hq]
        rfl
    obtain ⟨log', s1, hk⟩ := key
    have hs1 : s1 = s' := by
      have := iterE_ok (hk (fun _ => .returns .cont) (fun _ => by simp))
      rw [h] at this
      cases this; rfl
    exact ⟨log', by rw [← hs1]; exact hk⟩

theorem loopE_quiet (S : Setup K X D P) (o : Options K) : ∀ (s : St K X D P) (log : List (Ev K)),
    (∀ s', loop S o s = .ok s' → ∃ log', ∀ hook, Quiet hook → loopE S hook o s log = .ok (s', log')) ∧ (loop S o s = .exc → ∀ hook, Quiet hook → loopE S hook o s log = .exc) := by
  intro s
  induction s using loop.induct S o with
  | case1 s h s1 h' ih =>
    intro log
    obtain ⟨log1, h1⟩ := (iterE_quiet S s log).1 s1 h'
    rw [loop_run h h']
    refine ⟨fun s' e => ?_, fun e hook hq => ?_⟩
    · obtain ⟨log', h2⟩ := (ih log1).1 s' e
      exact ⟨log', fun hook hq => by rw [loopE_run h (h1 hook hq)]; exact h2 hook hq⟩
    · rw [loopE_run h (h1 hook hq)]; exact (ih log1).2 e hook hq
  | case2 s h h' =>
    intro log
    have e : loop S o s = .exc := by
      rw [loop, dif_pos h]
      split
      · rename_i h2; rw [h'] at h2; cases h2
      · rfl
      · rename_i h2; rw [h'] at h2; cases h2
    rw [e]
    exact ⟨fun s' h => (by cases h), fun _ hook hq => loopE_exc h ((iterE_quiet S s log).2 h' hook hq)⟩
  | case3 s h h' =>
    exfalso
    unfold iter at h'
    simp only at h'
    repeat' (split at h')
    all_goals cases h'
  | case4 s h =>
    intro log
    rw [loop_stop (by simpa using h)]
    refine ⟨fun s' e => ⟨log, fun hook _ => ?_⟩, fun e => (by cases e)⟩
    cases e
    rw [loopE, dif_neg h]

/-- **C141** (instructions). As long as no callback throws, the callbacks have no influence on a run of `Optimizer2`: whatever they return, CONTINUE, SUCCEED or FAIL, `optimize()` makes the same steps and issues the same events, and ends (or throws) like
a run without callbacks. -/
theorem C141_answers_ignored (S : Setup K X D P) (o : Options K) (b : Obj K X D P) (err : Dbl K) :
    (∀ r, run S o b = .ok r → ∃ log, ∀ hook, Quiet hook → runE S hook o b err = .ok (r, log)) ∧ (run S o b = .exc → ∀ hook, Quiet hook → runE S hook o b err = .exc) := by
  have hl := loopE_quiet S o (enter S o b) ([] ++ [.residuals] ++ [.cost (S.cost b.x) (.fin (-1))] ++ [.initialized (enter S o b).error])
  have hu : ∀ hook, Quiet hook → runE S hook o b err = match loopE S hook o (enter S o b) ([] ++ [.residuals] ++ [.cost (S.cost b.x) (.fin (-1))] ++ [.initialized (enter S o b).error]) with
      | .ok (s, log) => .ok (leave S o b s, log)
      | .thrown (s, log) => .thrown ((abandon S b s, s.error), log)
      | .exc => .exc := by
    intro hook hq
    unfold runE
    rw [issueEv_quiet hq, issueEv_quiet hq]
    simp only
    rw [issueEv_quiet hq]
  constructor
  · intro r hr
    obtain ⟨s, e, rfl⟩ := run_ok hr
    obtain ⟨log, h⟩ := hl.1 s e
    exact ⟨log, fun hook hq => by rw [hu hook hq, h hook hq]⟩
  · intro hr hook hq
    have e : loop S o (enter S o b) = .exc := by
      unfold run at hr
      cases e : loop S o (enter S o b) with
      | ok s => rw [e] at hr; cases hr
      | exc => rfl
      | ub => exact absurd e (loop_not_ub _)
    rw [hu hook hq, hl.2 e hook hq]

theorem between_enter (S : Setup K X D P) (hook : List (Ev K) → Act) (o : Options K) (b : Obj K X D P)
    (hc : Calm hook ([] ++ [.residuals] ++ [.cost (S.cost b.x) (.fin (-1))] ++ [.initialized (enter S o b).error])) :
    Between S hook (S.cost b.x) b (enter S o b) ([] ++ [.residuals] ++ [.cost (S.cost b.x) (.fin (-1))] ++ [.initialized (enter S o b).error]) := by
  refine ⟨hc, .inl rfl, rfl, ?_, rfl, rfl, ⟨[.residuals], .fin (-1), [.initialized (enter S o b).error], rfl, by simp [Ev.isCost]⟩⟩
  intro _ hn
  refine ⟨Dbl.le_refl (hn _), ?_⟩
  intro c q hm
  simp only [List.nil_append, List.cons_append, List.mem_cons, reduceCtorEq, Ev.cost.injEq, List.not_mem_nil, false_or, or_false] at hm
  rw [hm.1]
  exact Dbl.le_refl (hn _)

/-- **C141** (runs that end). The events of a run that is not interrupted come in the order: residuals and cost at the start, OPTIMIZATION_INITIALIZED, and in every pass LINEAR_SYSTEM_SOLVED followed, if the system could be solved, by
DESIGN_VARIABLES_UPDATED, RESIDUALS_UPDATED and COST_UPDATED. There are as many COST_UPDATED events as the status counts evaluations of the error and as many LINEAR_SYSTEM_SOLVED events as it counts evaluations of the Jacobian. No event has made a callback throw,
and the result is the one of the run without callbacks. -/
theorem C141_completed [IsStrictOrderedRing K] (S : Setup K X D P) (hrev : RevertsCost S) (hook : List (Ev K) → Act) (o : Options K) (b r : Obj K X D P) (err : Dbl K) (log : List (Ev K)) (h : runE S hook o b err = .ok (r, log)) :
    run S o b = .ok r ∧ (∀ pre post, log = pre ++ post → pre ≠ [] → hook pre ≠ .throws) ∧ (∃ f, phase log = some f ∧ (f = .ready ∨ f = .solved ∨ f = .judged)) ∧
    r.numErr = b.numErr + log.countP Ev.isCost ∧ r.numJac = b.numJac + log.countP Ev.isSolved := by
  unfold runE at h
  rcases issueEv_cases h with ⟨_, h⟩ | ⟨h1, h⟩
  · cases h
  rcases issueEv_cases h with ⟨_, h⟩ | ⟨h2, h⟩
  · cases h
  simp only at h
  rcases issueEv_cases h with ⟨_, h⟩ | ⟨h3, h⟩
  · cases h
  have hB := between_enter S hook o b (hc := calm_snoc (calm_snoc (calm_snoc (calm_nil hook) h1) h2) h3)
  obtain ⟨i1, _⟩ := loopE_inv (o := o) hrev _ _ hB
  split at h
  · rename_i s l e
    cases h
    obtain ⟨hb, hl⟩ := i1 _ e
    refine ⟨by unfold run; rw [hl]; rfl, hb.calm, ?_, hb.err, hb.jac⟩
    rcases hb.ph with h | h | h
    · exact ⟨_, h, .inl rfl⟩
    · exact ⟨_, h, .inr (.inl rfl)⟩
    · exact ⟨_, h, .inr (.inr rfl)⟩
  · cases h
  · cases h

/-- **C141** (interrupted runs). When a callback throws, at whatever event of whatever run, the events so far are in the order of C141_completed and the last one is the first at which a callback threw. There are values `xa` of the design variables, whose cost
(for a policy that reverts, without NaN) is not larger than the cost at the start of the run and than every cost reported before the last event, and:
* if the last event is not DESIGN_VARIABLES_UPDATED or the RESIDUALS_UPDATED or COST_UPDATED after it, then the design variables are at `xa`;
* otherwise they are left at `xa` updated by the last step, whatever its cost is. One call of `revertUpdate()` on each of them goes back to a state with the cost of `xa`.
The convergence status, the final cost, the final changes and the flag for failed linear solves are those of the time before the run. `J()` is the cost carried by the last COST_UPDATED event. -/
theorem C141_interrupted [IsStrictOrderedRing K] (S : Setup K X D P) (hrev : RevertsCost S) (hook : List (Ev K) → Act) (o : Options K) (b b' : Obj K X D P) (err err' : Dbl K) (log : List (Ev K))
    (h : runE S hook o b err = .thrown ((b', err'), log)) :
    (hook log = .throws ∧ ∀ pre post, log = pre ++ post → pre ≠ [] → post ≠ [] → hook pre ≠ .throws) ∧
    (∃ f xa, phase log = some f ∧ (f.trial = false → b'.x = xa) ∧ (f.trial = true → b'.x = S.update xa b'.dx ∧ S.cost (S.revert b'.x) = S.cost xa) ∧ (f = .judged → err' = S.cost b'.x) ∧
      (S.reverts = true → (∀ x, S.cost x ≠ .nan) → Dbl.le (S.cost xa) (S.cost b.x) = true ∧ ∀ pre c q post, log = pre ++ .cost c q :: post → post ≠ [] → Dbl.le (S.cost xa) c = true)) ∧
    (b'.conv = b.conv ∧ b'.jFinal = b.jFinal ∧ b'.dXFinal = b.dXFinal ∧ b'.dJFinal = b.dJFinal ∧ b'.linearSolverFailure = b.linearSolverFailure ∧ b'.initialized = b.initialized) ∧
    (b'.numErr = b.numErr + log.countP Ev.isCost ∧ b'.numJac = b.numJac + log.countP Ev.isSolved) ∧
    ((err' = err ∧ log = [.residuals]) ∨ ∃ pre q post, log = pre ++ .cost err' q :: post ∧ ∀ e ∈ post, e.isCost = false) := by
  have hbr : ∀ {l : List (Ev K)} {e : Ev K}, Calm hook l → hook (l ++ [e]) = .throws →
      (hook (l ++ [e]) = .throws ∧ ∀ pre post, l ++ [e] = pre ++ post → pre ≠ [] → post ≠ [] → hook pre ≠ .throws) := by
    intro l e hc ht
    refine ⟨ht, fun pre post hp hne hpo => ?_⟩
    rcases List.eq_nil_or_concat post with rfl | ⟨post', z, rfl⟩
    · exact absurd rfl hpo
    · have hp' : l ++ [e] = (pre ++ post') ++ [z] := by simpa using hp
      exact hc pre post' (List.append_inj' hp' (by simp)).1 hne
  unfold runE at h
  rcases issueEv_cases h with ⟨h1, h⟩ | ⟨h1, h⟩
  · cases h
    refine ⟨hbr (calm_nil hook) h1, ⟨.residuals0, b.x, rfl, fun _ => rfl, fun h => (by cases h), fun h => (by cases h), ?_⟩, ⟨rfl, rfl, rfl, rfl, rfl, rfl⟩, ⟨rfl, rfl⟩, .inl ⟨rfl, rfl⟩⟩
    intro _ hn
    refine ⟨Dbl.le_refl (hn _), fun pre c q post he hp => ?_⟩
    have := mem_of_split he hp
    cases this
  have c1 := calm_snoc (calm_nil hook) h1
  rcases issueEv_cases h with ⟨h2, h⟩ | ⟨h2, h⟩
  · cases h
    refine ⟨hbr c1 h2, ⟨.cost0, b.x, rfl, fun _ => rfl, fun h => (by cases h), fun h => (by cases h), ?_⟩, ⟨rfl, rfl, rfl, rfl, rfl, rfl⟩, ⟨rfl, rfl⟩, .inr ⟨[.residuals], _, [], rfl, by simp⟩⟩
    intro _ hn
    refine ⟨Dbl.le_refl (hn _), fun pre c q post he hp => ?_⟩
    have := mem_of_split he hp
    simp at this
  have c2 := calm_snoc c1 h2
  simp only at h
  rcases issueEv_cases h with ⟨h3, h⟩ | ⟨h3, h⟩
  · cases h
    refine ⟨hbr c2 h3, ⟨.ready, b.x, rfl, fun _ => rfl, fun h => (by cases h), fun h => (by cases h), ?_⟩, ⟨rfl, rfl, rfl, rfl, rfl, rfl⟩, ⟨rfl, rfl⟩, .inr ⟨[.residuals], .fin (-1), [.initialized (enter S o b).error], rfl, by simp [Ev.isCost]⟩⟩
    intro _ hn
    refine ⟨Dbl.le_refl (hn _), fun pre c q post he hp => ?_⟩
    have := mem_of_split he hp
    simp only [List.nil_append, List.cons_append, List.mem_cons, reduceCtorEq, Ev.cost.injEq, List.not_mem_nil, false_or, or_false] at this
    rw [this.1]
    exact Dbl.le_refl (hn _)
  have hB := between_enter S hook o b (hc := calm_snoc c2 h3)
  obtain ⟨_, i2⟩ := loopE_inv (o := o) hrev _ _ hB
  split at h
  · cases h
  · rename_i s l e
    cases h
    have hi := i2 _ e
    obtain ⟨pre, ev, rfl, ht, hc⟩ := hi.broken
    obtain ⟨f, hf, hk, xa, hx, hx1, hx2, hx3⟩ := hi.ph
    refine ⟨hbr hc ht, ⟨f, xa, hf, hx1, fun ht => ⟨hx2 ht, ?_⟩, hx3, ?_⟩, ⟨rfl, rfl, rfl, rfl, rfl, rfl⟩, ⟨hi.err, hi.jac⟩, .inr hi.last⟩
    · show S.cost (S.revert s.x) = _
      rw [show s.x = S.update xa s.dx from hx2 ht, hrev]
    · intro hr hn
      rw [hx]
      exact hi.low hr hn
  · cases h

/-! ### Concrete runs -/

theorem runE_thrown {S : Setup K X D P} {hook : List (Ev K) → Act} {o : Options K} {b : Obj K X D P} {err : Dbl K} {s : St K X D P} {log : List (Ev K)} (h1 : hook [.residuals] ≠ .throws)
    (h2 : hook [.residuals, .cost (S.cost b.x) (.fin (-1))] ≠ .throws) (h3 : hook [.residuals, .cost (S.cost b.x) (.fin (-1)), .initialized (S.cost b.x)] ≠ .throws)
    (h : loopE S hook o (enter S o b) [.residuals, .cost (S.cost b.x) (.fin (-1)), .initialized (S.cost b.x)] = .thrown (s, log)) : runE S hook o b err = .thrown ((abandon S b s, s.error), log) := by
  have hi : ∀ {α σ : Type} (log : List (Ev K)) (e : Ev K) (s : σ) (k : List (Ev K) → Out α (σ × List (Ev K))), hook (log ++ [e]) ≠ .throws → issueEv hook log e s k = k (log ++ [e]) := by
    intro α σ log e s k hn
    unfold issueEv
    split
    · rename_i h; exact absurd h hn
    · rfl
  unfold runE
  rw [hi _ _ _ _ h1, hi _ _ _ _ h2]
  simp only
  rw [hi _ _ _ _ h3]
  show (match loopE S hook o (enter S o b) [.residuals, .cost (S.cost b.x) (.fin (-1)), .initialized (S.cost b.x)] with
      | .ok (s, log) => Out.ok (leave S o b s, log)
      | .thrown (s, log) => Out.thrown ((abandon S b s, s.error), log)
      | .exc => Out.exc) = _
  rw [h]


/-- Callbacks that throw at the first COST_UPDATED event of the loop and veto everything before. -/
def exHook (log : List (Ev Int)) : Act := if log.countP Ev.isCost = 2 then .throws else .returns .fail

/-- The optimizer of the concrete runs: the cost is the square of the value, steps that increase it are reverted. -/
def exSq : Setup Int (Int × Int) Int (List (Option Int)) := demo (fun x => .fin (x * x)) true

/-- The optimizer object after the interrupted run. -/
def exLeft : Obj Int (Int × Int) Int (List (Option Int)) := abandon exSq (initObj (fresh (1, 1) [some 6] 0)) (st3 exSq (enter exSq demoOpt (initObj (fresh (1, 1) [some 6] 0))))

theorem exRun : optimizeE exSq exHook demoOpt (fresh (1, 1) [some 6] 0) (.fin 0) = .thrown ((exLeft, .fin 49),
    [.residuals, .cost (.fin 1) (.fin (-1)), .initialized (.fin 1), .solved (.fin 1), .updated (.fin 1), .residuals, .cost (.fin 49) (.fin 1)]) := by
  have h : loopE exSq exHook demoOpt (enter exSq demoOpt (initObj (fresh (1, 1) [some 6] 0))) [.residuals, .cost (.fin 1) (.fin (-1)), .initialized (.fin 1)] =
      .thrown (st3 exSq (enter exSq demoOpt (initObj (fresh (1, 1) [some 6] 0))),
        [.residuals, .cost (.fin 1) (.fin (-1)), .initialized (.fin 1), .solved (.fin 1), .updated (.fin 1), .residuals, .cost (.fin 49) (.fin 1)]) := loopE_thrown (by decide) (by rfl)
  exact runE_thrown (by decide) (by decide) (by decide) h

/-- **C141, start cost.** A run that is interrupted once the policy was started leaves the cost at the beginning of this run as its start cost; if a callback throws before, the start cost of the run before it is kept. -/
theorem C141_start_cost (S : Setup K X D P) (hook : List (Ev K) → Act) (o : Options K) (b b' : Obj K X D P) (err err' : Dbl K) (log : List (Ev K)) (h : runE S hook o b err = .thrown ((b', err'), log)) :
    b'.jStart = if hook [.residuals] = .throws ∨ hook [.residuals, .cost (S.cost b.x) (.fin (-1))] = .throws then b.jStart else S.cost b.x := by
  unfold runE at h
  rcases issueEv_cases h with ⟨h1, h⟩ | ⟨h1, h⟩
  · cases h; rw [if_pos (.inl h1)]
  rcases issueEv_cases h with ⟨h2, h⟩ | ⟨h2, h⟩
  · cases h; rw [if_pos (.inr h2)]
  have hn : ¬(hook [.residuals] = .throws ∨ hook [.residuals, .cost (S.cost b.x) (.fin (-1))] = .throws) := by
    rintro (h' | h')
    · exact h1 h'
    · exact h2 h'
  rw [if_neg hn]
  simp only at h
  rcases issueEv_cases h with ⟨_, h⟩ | ⟨_, h⟩
  · cases h; rfl
  · split at h
    · cases h
    · cases h; rfl
    · cases h

/-- **C141** (what is refuted). A run that is interrupted may leave the design variables at values with a larger cost than at its start, although the policy reverts such steps, and the next call of `optimize()` takes them as its start: here the cost is 1 at the
start, the step leads to the cost 49, a callback throws, and the next call reports success with the cost 49 at the start and at the end. -/
theorem C141_interrupted_worse_counterexample :
    ∃ S : Setup Int (Int × Int) Int (List (Option Int)), RevertsCost S ∧ S.reverts = true ∧ (∀ x, S.cost x ≠ .nan) ∧
      ∃ b' err' log, optimizeE S exHook demoOpt (fresh (1, 1) [some 6] 0) (.fin 0) = .thrown ((b', err'), log) ∧ S.cost (1, 1) = .fin 1 ∧ S.cost b'.x = .fin 49 ∧
        ∃ r, optimize S demoOpt b' = .ok r ∧ r.jStart = .fin 49 ∧ r.jFinal = .fin 49 ∧ r.conv = .dx :=
  ⟨exSq, demo_reverts _ _, rfl, fun x => by simp [exSq, demo], exLeft, _, _, exRun, rfl, rfl, run_check 10 _ (by decide)⟩

/-- The same run with callbacks that only veto: it rejects the step and goes on. -/
example : ∃ r, optimize exSq demoOpt (fresh (1, 1) [some 6] 0) = .ok r ∧ r.x.1 = 1 ∧ r.jFinal = .fin 1 ∧
    ∃ log, ∀ hook, Quiet hook → runE exSq hook demoOpt (initObj (fresh (1, 1) [some 6] 0)) (.fin 0) = .ok (r, log) := by
  obtain ⟨r, h, h1, h2⟩ := optimize_check (S := exSq) (o := demoOpt) (x := (1, 1)) (p := [some 6]) (dx := 0) 10 (fun r => r.x.1 = 1 ∧ r.jFinal = .fin 1) (by decide)
  exact ⟨r, h, h1, h2, (C141_answers_ignored _ _ _ _).1 r h⟩

example : exLeft.jStart = .fin 1 := C141_start_cost _ _ _ _ _ _ _ _ exRun

/-- The hypotheses of C141_interrupted are met by the interrupted run; one revert brings back the cost of the start. -/
example : exSq.cost (exSq.revert exLeft.x) = .fin 1 ∧ exLeft.conv = .inProgress := by
  obtain ⟨_, ⟨f, xa, hf, _, h2, _⟩, h3, _⟩ := C141_interrupted exSq (demo_reverts _ _) exHook demoOpt (initObj (fresh (1, 1) [some 6] 0)) exLeft (.fin 0) (.fin 49) _ exRun
  exact ⟨by decide, h3.1⟩

end Verif.Optimizer2
