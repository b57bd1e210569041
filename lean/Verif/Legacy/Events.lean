import Verif.Legacy.Props

/-!
C150: what the callbacks of the legacy `Optimizer` see in `optimize` (`aslam_backend/src/Optimizer.cpp`, O below), and what a run leaves that is interrupted by a callback which throws. The functions repeat
those of `Verif/Legacy/Model.lean` with the points at which callbacks are called. Callbacks do not change design variables, options or the registry; what they return is not used (O:163).
-/
namespace Verif.Legacy

variable {K X D P : Type} [LinearOrder K] [Field K]

/-- The events of `optimize`: RESIDUALS_UPDATED (O:675), COST_UPDATED (O:680), OPTIMIZATION_INITIALIZED (O:494), DESIGN_VARIABLES_UPDATED (O:543). -/
inductive EvKind where
  | residuals | cost | initialized | updated
  deriving DecidableEq, Repr

/-- An event as a callback sees it: its kind, the design variables at that time, and the cost it carries, which is `_J` at that time (`Event{_J, 0}`, O:161-165). -/
structure Event (K X : Type) where
  kind : EvKind
  x : X
  J : Dbl K

/-- How a run with callbacks goes on: a callback threw, with the design variables and `_J` it leaves, or not. O:161-165. -/
inductive OutE (K X S : Type) where
  | thrown (x : X) (J : Dbl K) (log : List (Event K X))
  | ok (s : S) (log : List (Event K X))

/-- `evaluateError` with its events, O:668-682: the first event still carries the cost evaluated before. `hook log` tells whether a callback throws at the last event of `log`. -/
def evaluateE (cost : X → Dbl K) (hook : List (Event K X) → Bool) (x : X) (J : Dbl K) (log : List (Event K X)) : OutE K X (Dbl K) :=
  let l1 := log ++ [⟨.residuals, x, J⟩]
  if hook l1 then .thrown x J l1 else
  let l2 := l1 ++ [⟨.cost, x, cost x⟩]
  if hook l2 then .thrown x (cost x) l2 else .ok (cost x) l2

/-- The loop body with its events, O:505-583. There is no event if the linear solver fails, and none if the step is taken back (O:552-560). -/
def iterE (S : Setup K X D P) (o : Options K) (hook : List (Event K X) → Bool) (s : St K X P) (log : List (Event K X)) : OutE K X (St K X P) :=
  match S.prepare s.p s.x s.regr with
  | (p, none) =>
    .ok (finish { s with p := S.failed p, regr := true, x := S.revert s.x, failedIt := s.failedIt + 1, solverFailed := true }) log
  | (p, some d) =>
    let u := S.update s.x d
    let l1 := log ++ [⟨.updated, u.1, s.J⟩]
    if hook l1 then .thrown u.1 s.J l1 else
    match evaluateE S.cost hook u.1 s.J l1 with
    | .thrown x J l => .thrown x J l
    | .ok J l2 =>
      let s := { s with x := u.1, deltaX := u.2, J := J, deltaJ := Dbl.sub s.pJ J, p := p, solverFailed := false }
      if o.doLevenbergMarquardt then
        let rho := divD (Dbl.sub s.pJ s.J) (S.den p d)
        if Dbl.le rho (.fin 0) then
          .ok (finish { s with regr := true, x := S.revert s.x, p := S.failed p, failedIt := s.failedIt + 1 }) l2
        else .ok (finish { s with regr := false, p := S.good p rho }) l2
      else .ok (finish s) l2

/-- The loop with its events, O:502-584. -/
def loopE (S : Setup K X D P) (o : Options K) (hook : List (Event K X) → Bool) : Nat → St K X P → List (Event K X) → OutE K X (St K X P)
  | 0, s, log => .ok s log
  | n + 1, s, log =>
    if running o s then
      match iterE S o hook s log with
      | .thrown x J l => .thrown x J l
      | .ok s' l => loopE S o hook n s' l
    else .ok s log

/-- `optimize` with its events, O:472-590; `J0` is what `_J` holds before (the cost left by the last run). -/
def optimizeE (S : Setup K X D P) (o : Options K) (hook : List (Event K X) → Bool) (x : X) (p : P) (J0 : Dbl K) : OutE K X (St K X P) :=
  match evaluateE S.cost hook x J0 [] with
  | .thrown x J l => .thrown x J l
  | .ok J l =>
    let l1 := l ++ [⟨.initialized, x, J⟩]
    if hook l1 then .thrown x J l1 else loopE S o hook o.maxIterations.toNat (enter S o x p) l1

/-! ### Specification -/

/-- What callbacks see of a run of a problem with the given cost that started with `J0` in `_J`; the last cost is that of the last event. Each pass in which the linear system was solved gives three
events: two with the cost of the last pass, one with that of the design variables. -/
inductive Trace (cost : X → Dbl K) (J0 : Dbl K) (x0 : X) : List (Event K X) → Dbl K → Prop
  | first : Trace cost J0 x0 [⟨.residuals, x0, J0⟩, ⟨.cost, x0, cost x0⟩, ⟨.initialized, x0, cost x0⟩] (cost x0)
  | pass {l : List (Event K X)} {J : Dbl K} (h : Trace cost J0 x0 l J) (x : X) : Trace cost J0 x0 (l ++ [⟨.updated, x, J⟩, ⟨.residuals, x, J⟩, ⟨.cost, x, cost x⟩]) (cost x)

/-- `s` is the state after some passes of the loop from `s0`. -/
inductive Passes (S : Setup K X D P) (o : Options K) (s0 : St K X P) : St K X P → Prop
  | zero : Passes S o s0 s0
  | succ {s : St K X P} (h : Passes S o s0 s) (hr : running o s = true) : Passes S o s0 (iter S o s)

/-! ### One pass -/

/-- The ways in which a pass can end. -/
theorem iterE_cases (S : Setup K X D P) (o : Options K) (hook : List (Event K X) → Bool) (s : St K X P) (log : List (Event K X)) :
    (∃ p, S.prepare s.p s.x s.regr = (p, none) ∧ iterE S o hook s log = .ok (iter S o s) log ∧ (iter S o s).J = s.J) ∨
    (∃ p d, S.prepare s.p s.x s.regr = (p, some d) ∧ ∃ m, 1 ≤ m ∧ m ≤ 3 ∧
      let x := (S.update s.x d).1
      let l := log ++ [⟨.updated, x, s.J⟩, ⟨.residuals, x, s.J⟩, ⟨.cost, x, S.cost x⟩].take m
      iterE S o hook s log = .thrown x (if m = 3 then S.cost x else s.J) l ∧ hook l = true) ∨
    (∃ p d, S.prepare s.p s.x s.regr = (p, some d) ∧
      let x := (S.update s.x d).1
      iterE S o hook s log = .ok (iter S o s) (log ++ [⟨.updated, x, s.J⟩, ⟨.residuals, x, s.J⟩, ⟨.cost, x, S.cost x⟩]) ∧ (iter S o s).J = S.cost x) := by
  unfold iterE iter
  cases hp : S.prepare s.p s.x s.regr with
  | mk p q =>
    cases q with
    | none => exact .inl ⟨p, rfl, rfl, rfl⟩
    | some d =>
      simp only [evaluateE]
      by_cases h1 : hook (log ++ [⟨.updated, (S.update s.x d).1, s.J⟩]) = true
      · exact .inr (.inl ⟨p, d, rfl, 1, le_refl _, by omega, by rw [if_pos h1]; rfl, h1⟩)
      rw [if_neg h1]
      by_cases h2 : hook (log ++ [⟨.updated, (S.update s.x d).1, s.J⟩] ++ [⟨.residuals, (S.update s.x d).1, s.J⟩]) = true
      · rw [if_pos h2]
        refine .inr (.inl ⟨p, d, rfl, 2, by omega, by omega, ?_, ?_⟩)
        · simp
        · simpa using h2
      rw [if_neg h2]
      by_cases h3 : hook (log ++ [⟨.updated, (S.update s.x d).1, s.J⟩] ++ [⟨.residuals, (S.update s.x d).1, s.J⟩] ++ [⟨.cost, (S.update s.x d).1, S.cost (S.update s.x d).1⟩]) = true
      · rw [if_pos h3]
        refine .inr (.inl ⟨p, d, rfl, 3, by omega, by omega, ?_, ?_⟩)
        · simp
        · simpa using h3
      rw [if_neg h3]
      refine .inr (.inr ⟨p, d, rfl, ?_, ?_⟩)
      · simp only [List.append_assoc, List.cons_append, List.nil_append]
        split_ifs <;> rfl
      · split_ifs <;> rfl

/-! ### Whole runs -/

theorem Passes.head {S : Setup K X D P} {o : Options K} {s t : St K X P} (hr : running o s = true) (h : Passes S o (iter S o s) t) : Passes S o s t := by
  induction h with
  | zero => exact .succ .zero hr
  | succ _ hr' ih => exact .succ ih hr'

theorem loopE_ok (S : Setup K X D P) (o : Options K) (hook : List (Event K X) → Bool) (J0 : Dbl K) (x0 : X) : ∀ (n : Nat) (s : St K X P) (log : List (Event K X)), Trace S.cost J0 x0 log s.J →
    (∃ l, loopE S o hook n s log = .ok (loop S o n s) l ∧ Trace S.cost J0 x0 l (loop S o n s).J) ∨
    (∃ t p d m a, Passes S o s t ∧ running o t = true ∧ S.prepare t.p t.x t.regr = (p, some d) ∧ 1 ≤ m ∧ m ≤ 3 ∧ Trace S.cost J0 x0 a t.J ∧
      let x := (S.update t.x d).1
      let l := a ++ [⟨.updated, x, t.J⟩, ⟨.residuals, x, t.J⟩, ⟨.cost, x, S.cost x⟩].take m
      loopE S o hook n s log = .thrown x (if m = 3 then S.cost x else t.J) l ∧ hook l = true) := by
  intro n
  induction n with
  | zero => intro s log h; exact .inl ⟨log, rfl, h⟩
  | succ n ih =>
    intro s log h
    unfold loopE loop
    by_cases hr : running o s = true
    · rw [if_pos hr, if_pos hr]
      rcases iterE_cases S o hook s log with ⟨p, hp, he, hj⟩ | ⟨p, d, hp, m, hm, hm', he, hh⟩ | ⟨p, d, hp, he, hj⟩
      · rw [he]
        rcases ih (iter S o s) log (by rw [hj]; exact h) with a | ⟨t, p, d, m, a, h1, h2⟩
        · exact .inl a
        · exact .inr ⟨t, p, d, m, a, h1.head hr, h2⟩
      · rw [he]
        exact .inr ⟨s, p, d, m, log, .zero, hr, hp, hm, hm', h, rfl, hh⟩
      · rw [he]
        rcases ih (iter S o s) _ (by rw [hj]; exact h.pass _) with a | ⟨t, p, d, m, a, h1, h2⟩
        · exact .inl a
        · exact .inr ⟨t, p, d, m, a, h1.head hr, h2⟩
    · rw [if_neg hr, if_neg hr]
      exact .inl ⟨log, rfl, h⟩

/-- The ways in which `optimize` can end. -/
theorem optimizeE_cases (S : Setup K X D P) (o : Options K) (hook : List (Event K X) → Bool) (x : X) (p : P) (J0 : Dbl K) :
    (∃ l, optimizeE S o hook x p J0 = .ok (loop S o o.maxIterations.toNat (enter S o x p)) l ∧ Trace S.cost J0 x l (loop S o o.maxIterations.toNat (enter S o x p)).J) ∨
    (∃ m, 1 ≤ m ∧ m ≤ 3 ∧
      let l := [⟨.residuals, x, J0⟩, ⟨.cost, x, S.cost x⟩, ⟨.initialized, x, S.cost x⟩].take m
      optimizeE S o hook x p J0 = .thrown x (if m = 1 then J0 else S.cost x) l ∧ hook l = true) ∨
    (∃ t q d m a, Passes S o (enter S o x p) t ∧ running o t = true ∧ S.prepare t.p t.x t.regr = (q, some d) ∧ 1 ≤ m ∧ m ≤ 3 ∧ Trace S.cost J0 x a t.J ∧
      let x' := (S.update t.x d).1
      let l := a ++ [⟨.updated, x', t.J⟩, ⟨.residuals, x', t.J⟩, ⟨.cost, x', S.cost x'⟩].take m
      optimizeE S o hook x p J0 = .thrown x' (if m = 3 then S.cost x' else t.J) l ∧ hook l = true) := by
  unfold optimizeE evaluateE
  simp only [List.nil_append]
  by_cases h1 : hook [⟨.residuals, x, J0⟩] = true
  · rw [if_pos h1]
    exact .inr (.inl ⟨1, le_refl _, by omega, rfl, h1⟩)
  rw [if_neg h1]
  by_cases h2 : hook ([⟨.residuals, x, J0⟩] ++ [⟨.cost, x, S.cost x⟩]) = true
  · rw [if_pos h2]
    exact .inr (.inl ⟨2, by omega, by omega, rfl, h2⟩)
  rw [if_neg h2]
  by_cases h3 : hook ([⟨.residuals, x, J0⟩] ++ [⟨.cost, x, S.cost x⟩] ++ [⟨.initialized, x, S.cost x⟩]) = true
  · simp only
    rw [if_pos h3]
    exact .inr (.inl ⟨3, by omega, by omega, rfl, h3⟩)
  simp only
  rw [if_neg h3]
  rcases loopE_ok S o hook J0 x o.maxIterations.toNat (enter S o x p) ([⟨.residuals, x, J0⟩] ++ [⟨.cost, x, S.cost x⟩] ++ [⟨.initialized, x, S.cost x⟩]) .first with h | h
  · exact .inl h
  · exact .inr (.inr h)

omit [LinearOrder K] [Field K] in
theorem trace_cost {cost : X → Dbl K} {J0 J : Dbl K} {x0 : X} {l : List (Event K X)} (h : Trace cost J0 x0 l J) :
    (∀ e ∈ l, e.kind = .cost ∨ e.kind = .initialized → e.J = cost e.x) ∧ (∃ e, l.getLast? = some e ∧ e.J = J) := by
  induction h with
  | first =>
    refine ⟨fun e he hk => ?_, _, rfl, rfl⟩
    simp only [List.mem_cons, List.not_mem_nil, or_false] at he
    rcases he with rfl | rfl | rfl
    · rcases hk with hk | hk <;> cases hk
    · rfl
    · rfl
  | pass h x ih =>
    refine ⟨fun e he hk => ?_, ⟨.cost, x, cost x⟩, by simp, rfl⟩
    rcases List.mem_append.1 he with he | he
    · exact ih.1 e he hk
    · simp only [List.mem_cons, List.not_mem_nil, or_false] at he
      rcases he with rfl | rfl | rfl
      · rcases hk with hk | hk <;> cases hk
      · rcases hk with hk | hk <;> cases hk
      · rfl

/-- **C150, completed runs.** Whatever the callbacks do: if `optimize()` returns, its result is that of a run without callbacks; if none throws, it returns. The callbacks saw RESIDUALS_UPDATED, COST_UPDATED,
OPTIMIZATION_INITIALIZED and then, for each pass in which the linear system was solved, DESIGN_VARIABLES_UPDATED, RESIDUALS_UPDATED, COST_UPDATED (`Trace`), and the cost carried by the last event is the
final cost reported. -/
theorem C150_completed (S : Setup K X D P) (o : Options K) (hook : List (Event K X) → Bool) (x : X) (p : P) (J0 : Dbl K) :
    ((∀ l, hook l = false) → ∃ s l, optimizeE S o hook x p J0 = .ok s l) ∧
    ∀ s l, optimizeE S o hook x p J0 = .ok s l → (⟨s.x, S.cost x, s.J, s.iterations, s.failedIt⟩ : Out K X) = optimize S o x p ∧ Trace S.cost J0 x l s.J ∧
      ∃ e, l.getLast? = some e ∧ e.J = (optimize S o x p).JFinal := by
  rcases optimizeE_cases S o hook x p J0 with ⟨l, h, ht⟩ | ⟨m, -, -, h, hh⟩ | ⟨t, q, d, m, a, -, -, -, -, -, -, h, hh⟩
  · refine ⟨fun _ => ⟨_, l, h⟩, fun s l' h' => ?_⟩
    rw [h] at h'
    injection h' with e1 e2
    subst e1; subst e2
    exact ⟨rfl, ht, (trace_cost ht).2⟩
  · refine ⟨fun hq => ?_, fun s l' h' => ?_⟩
    · rw [hq] at hh; cases hh
    · rw [h] at h'; cases h'
  · refine ⟨fun hq => ?_, fun s l' h' => ?_⟩
    · rw [hq] at hh; cases hh
    · rw [h] at h'; cases h'

/-- The events of a run, completed or not. -/
def OutE.log {Q : Type} : OutE K X Q → List (Event K X)
  | .thrown _ _ l => l
  | .ok _ l => l

/-- **C150, costs.** In every run, completed or interrupted, each COST_UPDATED and OPTIMIZATION_INITIALIZED carries the cost of the design variables at that time. -/
theorem C150_cost_current (S : Setup K X D P) (o : Options K) (hook : List (Event K X) → Bool) (x : X) (p : P) (J0 : Dbl K) (e : Event K X)
    (he : e ∈ (optimizeE S o hook x p J0).log) (hk : e.kind = .cost ∨ e.kind = .initialized) : e.J = S.cost e.x := by
  rcases optimizeE_cases S o hook x p J0 with ⟨l, h, ht⟩ | ⟨m, -, -, h, -⟩ | ⟨t, q, d, m, a, -, -, -, -, -, ht, h, -⟩
  · rw [h] at he
    exact (trace_cost ht).1 e he hk
  · rw [h] at he
    exact (trace_cost (Trace.first (cost := S.cost) (J0 := J0) (x0 := x))).1 e (List.mem_of_mem_take he) hk
  · rw [h] at he
    refine (trace_cost (ht.pass (S.update t.x d).1)).1 e ?_ hk
    rcases List.mem_append.1 he with he | he
    · exact List.mem_append_left _ he
    · exact List.mem_append_right _ (List.mem_of_mem_take he)

/-- **C150, interrupted runs.** A callback that throws leaves the design variables it saw: those of the start, or those of an undisturbed run after some passes, moved by the step of the next pass,
which has not been judged yet. -/
theorem C150_interrupted (S : Setup K X D P) (o : Options K) (hook : List (Event K X) → Bool) (x : X) (p : P) (J0 : Dbl K) (x' : X) (J' : Dbl K) (l : List (Event K X))
    (h : optimizeE S o hook x p J0 = .thrown x' J' l) :
    (∃ k, l.getLast? = some ⟨k, x', J'⟩) ∧ hook l = true ∧
    (x' = x ∨ ∃ t q d, Passes S o (enter S o x p) t ∧ running o t = true ∧ S.prepare t.p t.x t.regr = (q, some d) ∧ x' = (S.update t.x d).1) := by
  rcases optimizeE_cases S o hook x p J0 with ⟨l, h', -⟩ | ⟨m, hm, hm', h', hh⟩ | ⟨t, q, d, m, a, h1, h2, h3, hm, hm', -, h', hh⟩
  · rw [h'] at h; cases h
  · rw [h'] at h
    injection h with e1 e2 e3
    subst e1; subst e2; subst e3
    refine ⟨?_, hh, .inl rfl⟩
    have : m = 1 ∨ m = 2 ∨ m = 3 := by omega
    rcases this with rfl | rfl | rfl <;> exact ⟨_, rfl⟩
  · rw [h'] at h
    injection h with e1 e2 e3
    subst e1; subst e2; subst e3
    refine ⟨?_, hh, .inr ⟨t, q, d, h1, h2, h3, rfl⟩⟩
    have : m = 1 ∨ m = 2 ∨ m = 3 := by omega
    rcases this with rfl | rfl | rfl
    · exact ⟨.updated, by simp⟩
    · exact ⟨.residuals, by simp⟩
    · exact ⟨.cost, by simp⟩

/-! ### optimizeDogLeg -/

/-- One pass of the inner loop of `optimizeDogLeg` with its events, O:275-447: the error is evaluated at the new values (O:385) and, if the step is taken back, again (O:405). -/
def dIterE (S : DogLeg K X D P) (hook : List (Event K X) → Bool) (s : DSt K X P) (log : List (Event K X)) : OutE K X (DSt K X P × Dbl K) :=
  let r := S.step s.p s.delta
  let u := S.update s.x r.2.2.1
  match evaluateE S.cost hook u.1 s.J log with
  | .thrown x J l => .thrown x J l
  | .ok J l =>
    let rho := noNan (divD (Dbl.sub s.pJ J) r.2.2.2)
    if Dbl.lt (.fin 0) rho then
      let p := S.rebuild r.1 u.1
      let b := Dbl.lt J s.pJ
      .ok ({ x := u.1, J := if b then J else s.pJ, pJ := if b then J else s.pJ, delta := S.resize p r.2.1 r.2.2.1 rho, deltaX := u.2, deltaJ := Dbl.sub s.pJ J, p := p }, rho) l
    else
      match evaluateE S.cost hook (S.revert u.1) J l with
      | .thrown x J l => .thrown x J l
      | .ok J l =>
        let b := Dbl.lt J s.pJ
        .ok ({ x := S.revert u.1, J := if b then J else s.pJ, pJ := if b then J else s.pJ, delta := S.resize r.1 r.2.1 r.2.2.1 rho, deltaX := u.2, deltaJ := Dbl.sub s.pJ J, p := r.1 }, rho) l

/-- The inner loop with its events, O:274-449, as a relation. -/
inductive InnerE (S : DogLeg K X D P) (cdx : K) (hook : List (Event K X) → Bool) : DSt K X P → List (Event K X) → OutE K X (DSt K X P) → Prop
  | thrown {s : DSt K X P} {log l : List (Event K X)} {x : X} {J : Dbl K} (h : dIterE S hook s log = .thrown x J l) : InnerE S cdx hook s log (.thrown x J l)
  | stop {s s' : DSt K X P} {rho : Dbl K} {log l : List (Event K X)} (h : dIterE S hook s log = .ok (s', rho) l)
      (hs : (Dbl.lt rho (.fin 0) && decide (cdx < s'.delta)) = false) : InnerE S cdx hook s log (.ok s' l)
  | again {s s' : DSt K X P} {rho : Dbl K} {log l : List (Event K X)} {r : OutE K X (DSt K X P)} (h : dIterE S hook s log = .ok (s', rho) l)
      (hs : (Dbl.lt rho (.fin 0) && decide (cdx < s'.delta)) = true) (ht : InnerE S cdx hook s' l r) : InnerE S cdx hook s log r

/-- The outer loop with its events, O:250-455. -/
inductive OuterE (S : DogLeg K X D P) (o : Options K) (hook : List (Event K X) → Bool) : Int → DSt K X P → List (Event K X) → OutE K X (DSt K X P) → Prop
  | stop {it : Int} {s : DSt K X P} {log : List (Event K X)} (h : dRunning o it s = false) : OuterE S o hook it s log (.ok s log)
  | thrown {it : Int} {s : DSt K X P} {log l : List (Event K X)} {x : X} {J : Dbl K} (h : dRunning o it s = true)
      (hi : InnerE S o.convergenceDeltaX hook s log (.thrown x J l)) : OuterE S o hook it s log (.thrown x J l)
  | again {it : Int} {s s' : DSt K X P} {log l : List (Event K X)} {r : OutE K X (DSt K X P)} (h : dRunning o it s = true)
      (hi : InnerE S o.convergenceDeltaX hook s log (.ok s' l)) (ht : OuterE S o hook (it + 1) s' l r) : OuterE S o hook it s log r

/-- `optimizeDogLeg` with its events, O:198-465, as a relation; `J0` is what `_J` holds before. -/
def DogLegE (S : DogLeg K X D P) (o : Options K) (hook : List (Event K X) → Bool) (x : X) (p : P) (J0 : Dbl K) (r : OutE K X (DSt K X P)) : Prop :=
  match evaluateE S.cost hook x J0 [] with
  | .thrown x J l => r = .thrown x J l
  | .ok _ l => OuterE S o hook 0 (dEnter S o x p) l r

/-- A history of evaluations that ends with one of the values `x`: pairs RESIDUALS_UPDATED, COST_UPDATED, the second with the cost of the design variables. -/
inductive Evals (cost : X → Dbl K) : List (Event K X) → X → Prop
  | one (x : X) (J : Dbl K) : Evals cost [⟨.residuals, x, J⟩, ⟨.cost, x, cost x⟩] x
  | more {l : List (Event K X)} {y : X} (h : Evals cost l y) (x : X) (J : Dbl K) : Evals cost (l ++ [⟨.residuals, x, J⟩, ⟨.cost, x, cost x⟩]) x

/-- A history that was cut short by an exception at the values `x` with `J` in `_J`. -/
def Cut (cost : X → Dbl K) (l : List (Event K X)) (x : X) (J : Dbl K) : Prop :=
  ∃ a, (a = [] ∨ ∃ y, Evals cost a y) ∧ ((l = a ++ [⟨.residuals, x, J⟩]) ∨ (∃ J1, l = a ++ [⟨.residuals, x, J1⟩, ⟨.cost, x, J⟩] ∧ J = cost x))

omit [LinearOrder K] [Field K] in
theorem evaluateE_cases (cost : X → Dbl K) (hook : List (Event K X) → Bool) (x : X) (J : Dbl K) (log : List (Event K X)) (hl : log = [] ∨ ∃ y, Evals cost log y) :
    (∃ J' l, evaluateE cost hook x J log = .thrown x J' l ∧ Cut cost l x J') ∨ (∃ l, evaluateE cost hook x J log = .ok (cost x) l ∧ Evals cost l x) := by
  unfold evaluateE
  simp only
  by_cases h1 : hook (log ++ [⟨.residuals, x, J⟩]) = true
  · rw [if_pos h1]
    exact .inl ⟨J, _, rfl, log, hl, .inl rfl⟩
  rw [if_neg h1]
  by_cases h2 : hook (log ++ [⟨.residuals, x, J⟩] ++ [⟨.cost, x, cost x⟩]) = true
  · rw [if_pos h2]
    exact .inl ⟨cost x, _, rfl, log, hl, .inr ⟨J, by simp, rfl⟩⟩
  · rw [if_neg h2]
    refine .inr ⟨_, rfl, ?_⟩
    rcases hl with rfl | ⟨y, hy⟩
    · exact .one x J
    · have := hy.more x J
      simpa using this

theorem dIterE_cases (S : DogLeg K X D P) (hook : List (Event K X) → Bool) (s : DSt K X P) (log : List (Event K X)) {y : X} (hl : Evals S.cost log y) :
    (∃ x' J' l, dIterE S hook s log = .thrown x' J' l ∧ Cut S.cost l x' J' ∧
      (x' = (S.update s.x (S.step s.p s.delta).2.2.1).1 ∨ x' = S.revert (S.update s.x (S.step s.p s.delta).2.2.1).1)) ∨
    (∃ l, dIterE S hook s log = .ok (dIter S s) l ∧ Evals S.cost l (dIter S s).1.x) := by
  unfold dIterE dIter
  simp only
  rcases evaluateE_cases S.cost hook (S.update s.x (S.step s.p s.delta).2.2.1).1 s.J log (.inr ⟨y, hl⟩) with ⟨J', l, he, hc⟩ | ⟨l, he, hc⟩
  · rw [he]
    exact .inl ⟨_, J', l, rfl, hc, .inl rfl⟩
  · rw [he]
    simp only
    by_cases ha : Dbl.lt (.fin 0) (noNan (divD (Dbl.sub s.pJ (S.cost (S.update s.x (S.step s.p s.delta).2.2.1).1)) (S.step s.p s.delta).2.2.2)) = true
    · simp only [ha, if_true]
      exact .inr ⟨l, rfl, hc⟩
    · simp only [Bool.not_eq_true] at ha
      simp only [ha, Bool.false_eq_true, if_false]
      rcases evaluateE_cases S.cost hook (S.revert (S.update s.x (S.step s.p s.delta).2.2.1).1) (S.cost (S.update s.x (S.step s.p s.delta).2.2.1).1) l (.inr ⟨_, hc⟩) with ⟨J', l', he', hc'⟩ | ⟨l', he', hc'⟩
      · rw [he']
        exact .inl ⟨_, J', l', rfl, hc', .inr rfl⟩
      · rw [he']
        exact .inr ⟨l', rfl, hc'⟩

/-- `t` is the state after some passes of the inner loop from `s0`. -/
inductive DPasses (S : DogLeg K X D P) (s0 : DSt K X P) : DSt K X P → Prop
  | zero : DPasses S s0 s0
  | succ {t : DSt K X P} (h : DPasses S s0 t) : DPasses S s0 (dIter S t).1

/-- What a callback that throws leaves of a run from `s0`. -/
def DLeft (S : DogLeg K X D P) (s0 : DSt K X P) (x' : X) : Prop :=
  ∃ t, DPasses S s0 t ∧ (x' = (S.update t.x (S.step t.p t.delta).2.2.1).1 ∨ x' = S.revert (S.update t.x (S.step t.p t.delta).2.2.1).1)

/-- What holds at the end of a part of the run that started at `s0`. -/
def DEnd (S : DogLeg K X D P) (s0 : DSt K X P) : OutE K X (DSt K X P) → Prop
  | .thrown x J l => Cut S.cost l x J ∧ DLeft S s0 x
  | .ok t l => Evals S.cost l t.x ∧ DPasses S s0 t

theorem innerE_end {S : DogLeg K X D P} {cdx : K} {hook : List (Event K X) → Bool} {s0 s : DSt K X P} {log : List (Event K X)} {r : OutE K X (DSt K X P)} (h : InnerE S cdx hook s log r)
    (hl : Evals S.cost log s.x) (hp : DPasses S s0 s) : DEnd S s0 r ∧ ∀ t l, r = .ok t l → Inner S cdx s t := by
  induction h with
  | thrown h =>
    rcases dIterE_cases S hook _ _ hl with ⟨x', J', l, he, hc, hx⟩ | ⟨l, he, -⟩
    · rw [h] at he
      injection he with e1 e2 e3
      subst e1; subst e2; subst e3
      exact ⟨⟨hc, _, hp, hx⟩, fun t l e => by cases e⟩
    · rw [h] at he; cases he
  | stop h hs =>
    rcases dIterE_cases S hook _ _ hl with ⟨x', J', l, he, hc, hx⟩ | ⟨l, he, hc⟩
    · rw [h] at he; cases he
    · rw [h] at he
      injection he with e1 e2
      subst e2
      have e3 := e1.symm
      refine ⟨⟨?_, ?_⟩, fun t l e => ?_⟩
      · rw [e3] at hc; exact hc
      · have := hp.succ; rw [e3] at this; exact this
      · injection e with e4 e5
        subst e4
        exact .stop e3 hs
  | again h hs _ ih =>
    rcases dIterE_cases S hook _ _ hl with ⟨x', J', l, he, hc, hx⟩ | ⟨l, he, hc⟩
    · rw [h] at he; cases he
    · rw [h] at he
      injection he with e1 e2
      subst e2
      have e3 := e1.symm
      have h1 := hp.succ
      rw [e3] at hc h1
      obtain ⟨a1, a2⟩ := ih hc h1
      exact ⟨a1, fun t l e => .again e3 hs (a2 t l e)⟩

theorem outerE_end {S : DogLeg K X D P} {o : Options K} {hook : List (Event K X) → Bool} {s0 s : DSt K X P} {it : Int} {log : List (Event K X)} {r : OutE K X (DSt K X P)}
    (h : OuterE S o hook it s log r) (hl : Evals S.cost log s.x) (hp : DPasses S s0 s) : DEnd S s0 r ∧ ∀ t l, r = .ok t l → Outer S o it s t := by
  induction h with
  | stop h =>
    refine ⟨⟨hl, hp⟩, fun t l e => ?_⟩
    injection e with e1 e2
    subst e1
    exact .stop h
  | thrown h hi => exact ⟨(innerE_end hi hl hp).1, fun t l e => by cases e⟩
  | again h hi _ ih =>
    obtain ⟨⟨a1, a2⟩, a3⟩ := innerE_end hi hl hp
    obtain ⟨b1, b2⟩ := ih a1 a2
    exact ⟨b1, fun t l e => .again h (a3 _ _ rfl) (b2 t l e)⟩

omit [LinearOrder K] [Field K] in
theorem evals_mem {cost : X → Dbl K} {l : List (Event K X)} {x : X} (h : Evals cost l x) :
    (∀ e ∈ l, e.kind = .residuals ∨ e.kind = .cost ∧ e.J = cost e.x) ∧ l.getLast? = some ⟨.cost, x, cost x⟩ := by
  induction h with
  | one x J => exact ⟨fun e he => by simp at he; rcases he with rfl | rfl <;> simp, rfl⟩
  | more h x J ih =>
    refine ⟨fun e he => ?_, by simp⟩
    rcases List.mem_append.1 he with he | he
    · exact ih.1 e he
    · simp at he
      rcases he with rfl | rfl <;> simp

/-- **C150, dog-leg.** A run of `optimizeDogLeg()` that returns is one without callbacks. In any run the callbacks see RESIDUALS_UPDATED and COST_UPDATED only (neither OPTIMIZATION_INITIALIZED nor
DESIGN_VARIABLES_UPDATED), and each COST_UPDATED carries the cost of the design variables at that time. In a run that returns the last event was seen with the design variables it leaves: a step that is
taken back is followed by an evaluation. -/
theorem C150_dogleg_completed (S : DogLeg K X D P) (o : Options K) (hook : List (Event K X) → Bool) (x : X) (p : P) (J0 : Dbl K) (r : OutE K X (DSt K X P)) (h : DogLegE S o hook x p J0 r) :
    (∀ e ∈ r.log, e.kind = .residuals ∨ e.kind = .cost ∧ e.J = S.cost e.x) ∧
    ∀ t l, r = .ok t l → OptimizeDogLeg S o x p t ∧ l.getLast? = some ⟨.cost, t.x, S.cost t.x⟩ := by
  have cut : ∀ l x J, Cut S.cost l x J → ∀ e ∈ l, e.kind = .residuals ∨ e.kind = .cost ∧ e.J = S.cost e.x := by
    rintro l x J ⟨a, ha, hl⟩ e he
    have h1 : ∀ e ∈ a, e.kind = .residuals ∨ e.kind = .cost ∧ e.J = S.cost e.x := by
      rcases ha with rfl | ⟨y, hy⟩
      · intro e he; cases he
      · exact (evals_mem hy).1
    rcases hl with rfl | ⟨J1, rfl, rfl⟩
    · rcases List.mem_append.1 he with he | he
      · exact h1 e he
      · simp at he; subst he; simp
    · rcases List.mem_append.1 he with he | he
      · exact h1 e he
      · simp at he
        rcases he with rfl | rfl <;> simp
  unfold DogLegE at h
  rcases evaluateE_cases S.cost hook x J0 [] (.inl rfl) with ⟨J', l, he, hc⟩ | ⟨l, he, hc⟩
  · rw [he] at h
    simp only at h
    subst h
    exact ⟨cut l x J' hc, fun t l e => by cases e⟩
  · rw [he] at h
    obtain ⟨a, b⟩ := outerE_end h hc .zero
    cases r with
    | thrown x' J' l' => exact ⟨cut l' x' J' a.1, fun t l e => by cases e⟩
    | ok t l' =>
      refine ⟨(evals_mem a.1).1, fun t' l'' e => ?_⟩
      injection e with e1 e2
      subst e1; subst e2
      exact ⟨b _ _ rfl, (evals_mem a.1).2⟩

/-- **C150, dog-leg, interrupted runs.** A callback that throws leaves the design variables it saw: those of the start, or those of an undisturbed run after some steps, moved by the next step, which has
not been judged yet or has just been taken back. -/
theorem C150_dogleg_interrupted (S : DogLeg K X D P) (o : Options K) (hook : List (Event K X) → Bool) (x : X) (p : P) (J0 : Dbl K) (x' : X) (J' : Dbl K) (l : List (Event K X))
    (h : DogLegE S o hook x p J0 (.thrown x' J' l)) : (∃ k, l.getLast? = some ⟨k, x', J'⟩) ∧ (x' = x ∨ DLeft S (dEnter S o x p) x') := by
  have cut : ∀ l x J, Cut S.cost l x J → ∃ k, l.getLast? = some ⟨k, x, J⟩ := by
    rintro l x J ⟨a, -, rfl | ⟨J1, rfl, -⟩⟩
    · exact ⟨_, by simp; rfl⟩
    · exact ⟨.cost, by simp⟩
  unfold DogLegE at h
  rcases evaluateE_cases S.cost hook x J0 [] (.inl rfl) with ⟨J1, l1, he, hc⟩ | ⟨l1, he, hc⟩
  · rw [he] at h
    simp only [OutE.thrown.injEq] at h
    obtain ⟨rfl, rfl, rfl⟩ := h
    exact ⟨cut _ _ _ hc, .inl rfl⟩
  · rw [he] at h
    obtain ⟨a, -⟩ := outerE_end h hc .zero
    exact ⟨cut _ _ _ a.1, .inr a.2⟩

theorem dIterE_quiet (S : DogLeg K X D P) (hook : List (Event K X) → Bool) (hq : ∀ l, hook l = false) (s : DSt K X P) (log : List (Event K X)) : ∃ l, dIterE S hook s log = .ok (dIter S s) l := by
  unfold dIterE dIter evaluateE
  simp only [hq, Bool.false_eq_true, if_false]
  by_cases ha : Dbl.lt (.fin 0) (noNan (divD (Dbl.sub s.pJ (S.cost (S.update s.x (S.step s.p s.delta).2.2.1).1)) (S.step s.p s.delta).2.2.2)) = true
  · simp only [ha, if_true]
    exact ⟨_, rfl⟩
  · simp only [Bool.not_eq_true] at ha
    simp only [ha, Bool.false_eq_true, if_false]
    exact ⟨_, rfl⟩

theorem innerE_quiet {S : DogLeg K X D P} {cdx : K} (hook : List (Event K X) → Bool) (hq : ∀ l, hook l = false) {s t : DSt K X P} (h : Inner S cdx s t) :
    ∀ log, ∃ l, InnerE S cdx hook s log (.ok t l) := by
  induction h with
  | stop h hs =>
    intro log
    obtain ⟨l, e⟩ := dIterE_quiet S hook hq _ log
    exact ⟨l, .stop (e.trans (by rw [h])) hs⟩
  | again h hs _ ih =>
    intro log
    obtain ⟨l, e⟩ := dIterE_quiet S hook hq _ log
    obtain ⟨l', h'⟩ := ih l
    exact ⟨l', .again (e.trans (by rw [h])) hs h'⟩

theorem outerE_quiet {S : DogLeg K X D P} {o : Options K} (hook : List (Event K X) → Bool) (hq : ∀ l, hook l = false) {it : Int} {s t : DSt K X P} (h : Outer S o it s t) :
    ∀ log, ∃ l, OuterE S o hook it s log (.ok t l) := by
  induction h with
  | stop h => exact fun log => ⟨log, .stop h⟩
  | again h hi _ ih =>
    intro log
    obtain ⟨l, h1⟩ := innerE_quiet hook hq hi log
    obtain ⟨l', h2⟩ := ih l
    exact ⟨l', .again h h1 h2⟩

/-- **C150, dog-leg, undisturbed runs.** If no callback throws, a run that returns without callbacks also returns with them, with the same result. -/
theorem C150_dogleg_undisturbed (S : DogLeg K X D P) (o : Options K) (hook : List (Event K X) → Bool) (hq : ∀ l, hook l = false) (x : X) (p : P) (J0 : Dbl K) (t : DSt K X P)
    (h : OptimizeDogLeg S o x p t) : ∃ l, DogLegE S o hook x p J0 (.ok t l) := by
  unfold DogLegE evaluateE
  simp only [hq, Bool.false_eq_true, if_false]
  exact outerE_quiet hook hq h _

/-! ### Concrete runs, which also meet the hypotheses of the theorems above -/

/-- Minimising `x²` from 10 by the given steps; the steps are taken back exactly. -/
def steps : Setup Rat (Rat × Rat) Rat (List Rat) :=
  ⟨fun x => .fin (x.1 * x.1), fun x d => ((x.1 + d, x.1), .fin |d|), fun x => (x.2, x.2), fun p _ _ => (p.tail, some (p.headD 0)), fun _ _ => 1, fun p => p, fun p _ => p⟩

/-- **C150, costs of the other events, fails.** DESIGN_VARIABLES_UPDATED and RESIDUALS_UPDATED carry a cost that is neither that of the design variables nor that of the values before the step: after a
rejected step it is the cost of the rejected values (64 where the run is at 5 and moves to 3). -/
theorem C150_stale_cost_counterexample :
    (match optimizeE steps ⟨0, 0, 3, true⟩ (fun _ => false) (10, 10) [-5, 3, -2] (.fin 0) with
      | .ok s l => decide (s.x.1 = 3 ∧ (l.getD 9 ⟨.cost, (0, 0), .nan⟩).kind = .updated ∧ (l.getD 9 ⟨.cost, (0, 0), .nan⟩).x = (3, 5) ∧ (l.getD 9 ⟨.cost, (0, 0), .nan⟩).J = .fin 64)
      | _ => false) = true := by decide +kernel

/-- **C150, the values seen last, fails.** No event follows a step that is taken back: the callbacks last saw 8 where `optimize()` returns with 5. -/
theorem C150_revert_unseen_counterexample :
    (match optimizeE steps ⟨0, 0, 2, true⟩ (fun _ => false) (10, 10) [-5, 3] (.fin 0) with
      | .ok s l => decide (s.x.1 = 5 ∧ (l.getLast?.map fun e => e.x.1) = some 8)
      | _ => false) = true := by decide +kernel

/-- **C150, interrupted runs can end worse than they began.** The callback throws at the first DESIGN_VARIABLES_UPDATED, and the design variable stays at 15, where the cost is 225 instead of 100. An
undisturbed run takes the step back. -/
theorem C150_interrupted_worse_counterexample :
    (match optimizeE steps ⟨0, 0, 1, true⟩ (fun l => l.length = 4) (10, 10) [5] (.fin 0) with
      | .thrown x _ _ => decide (x.1 = 15 ∧ steps.cost x = .fin 225 ∧ (optimize steps ⟨0, 0, 1, true⟩ (10, 10) [5]).x.1 = 10)
      | _ => false) = true := by decide +kernel

/-- Dog-leg steps from a list, with radius zero after each. -/
def dsteps : DogLeg Rat (Rat × Rat) Rat (List Rat) :=
  ⟨fun x => .fin (x.1 * x.1), fun x d => ((x.1 + d, x.1), .fin |d|), fun x => (x.2, x.2), fun p _ => p, fun p δ => (p.tail, δ, p.headD 0, 1), fun _ _ _ _ => 0⟩

/-- A dog-leg run with an accepted and a rejected step: the hypotheses of `C150_dogleg_undisturbed`, and with it of `C150_dogleg_completed`. -/
example : ∃ t l, OptimizeDogLeg dsteps ⟨0, 0, 2, true⟩ (10, 10) [-5, 3] t ∧ DogLegE dsteps ⟨0, 0, 2, true⟩ (fun _ => false) (10, 10) [-5, 3] (.fin 0) (.ok t l) ∧ t.x.1 = 5 := by
  have h : OptimizeDogLeg dsteps ⟨0, 0, 2, true⟩ (10, 10) [-5, 3] (dIter dsteps (dIter dsteps (dEnter dsteps ⟨0, 0, 2, true⟩ (10, 10) [-5, 3])).1).1 :=
    .again (by decide +kernel) (.stop rfl (by decide +kernel)) (.again (by decide +kernel) (.stop rfl (by decide +kernel)) (.stop (by decide +kernel)))
  obtain ⟨l, hl⟩ := C150_dogleg_undisturbed dsteps ⟨0, 0, 2, true⟩ (fun _ => false) (fun _ => rfl) (10, 10) [-5, 3] (.fin 0) _ h
  exact ⟨_, l, h, hl, by decide +kernel⟩

/-- A dog-leg run that is interrupted behind its first step, at 15: `C150_dogleg_interrupted`. -/
example : ∃ x' J' l, DogLegE dsteps ⟨0, 0, 2, true⟩ (fun l => l.length == 3) (10, 10) [5] (.fin 0) (.thrown x' J' l) ∧ x'.1 = 15 :=
  ⟨_, _, _, .thrown (by decide +kernel) (.thrown rfl), by decide +kernel⟩

end Verif.Legacy
