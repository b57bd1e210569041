import Verif.Optimizer2.Model
import Mathlib.Algebra.Order.Ring.Int
import Mathlib.Tactic.Linarith

/-! Properties C23-C26, C32, C71, C72. -/
namespace Verif.Optimizer2

variable {K X D P : Type} [LinearOrder K] [CommRing K]

theorem loop_inv {S : Setup K X D P} {o : Options K} (I : St K X D P → Prop)
    (hstep : ∀ s s', running o s = true → iter S s = .ok s' → I s → I s') :
    ∀ s, I s → ∀ s', loop S o s = .ok s' → I s' ∧ running o s' = false := by
  intro s
  induction s using loop.induct S o with
  | case1 s h s1 h' ih =>
    intro hI s' e
    rw [loop, dif_pos h] at e
    split at e
    · rename_i s2 h2
      rw [h'] at h2
      cases h2
      exact ih (hstep _ _ h h' hI) _ e
    · cases e
    · cases e
  | case2 s h h' =>
    intro _ s' e
    rw [loop, dif_pos h] at e
    split at e
    · rename_i h2; rw [h'] at h2; cases h2
    · cases e
    · cases e
  | case3 s h h' =>
    intro _ s' e
    rw [loop, dif_pos h] at e
    split at e
    · rename_i h2; rw [h'] at h2; cases h2
    · cases e
    · cases e
  | case4 s h =>
    intro hI s' e
    rw [loop, dif_neg h] at e
    cases e
    exact ⟨hI, by simpa using h⟩

theorem loop_ok {S : Setup K X D P} {o : Options K}
    (hsz : ∀ p x d J f, S.size (S.solve p x d J f).2.2 = S.numOpt) : ∀ s, ∃ s', loop S o s = .ok s' := by
  intro s
  have hit : ∀ s : St K X D P, ∃ s', iter S s = .ok s' := by
    intro s
    unfold iter
    simp only
    rw [if_neg (by simp [hsz])]
    repeat' split
    all_goals exact ⟨_, rfl⟩
  induction s using loop.induct S o with
  | case1 s h s1 h' ih =>
    obtain ⟨s', e⟩ := ih
    refine ⟨s', ?_⟩
    rw [loop, dif_pos h]
    split
    · rename_i h2; rw [h'] at h2; cases h2; exact e
    · rename_i h2; rw [h'] at h2; cases h2
    · rename_i h2; rw [h'] at h2; cases h2
  | case2 s h h' => obtain ⟨s', e⟩ := hit s; rw [h'] at e; cases e
  | case3 s h h' => obtain ⟨s', e⟩ := hit s; rw [h'] at e; cases e
  | case4 s h => exact ⟨s, by rw [loop, dif_neg h]⟩

theorem loop_not_ub {S : Setup K X D P} {o : Options K} : ∀ s, loop S o s ≠ .ub := by
  intro s
  have hit : ∀ s : St K X D P, iter S s ≠ .ub := by
    intro s
    unfold iter
    simp only
    repeat' split
    all_goals simp
  induction s using loop.induct S o with
  | case1 s h s1 h' ih =>
    rw [loop, dif_pos h]
    split
    · rename_i h2; rw [h'] at h2; cases h2; exact ih
    · simp
    · rename_i h2; rw [h'] at h2; cases h2
  | case2 s h h' =>
    rw [loop, dif_pos h]
    split
    · rename_i h2; rw [h'] at h2; cases h2
    · simp
    · rename_i h2; rw [h'] at h2; cases h2
  | case3 s h h' => exact absurd h' (hit s)
  | case4 s h => rw [loop, dif_neg h]; simp

theorem run_ok {S : Setup K X D P} {o : Options K} {b r : Obj K X D P} (h : run S o b = .ok r) :
    ∃ s, loop S o (enter S o b) = .ok s ∧ r = leave S o b s := by
  unfold run at h
  cases e : loop S o (enter S o b) with
  | ok s => rw [e] at h; cases h; exact ⟨s, rfl, rfl⟩
  | exc => rw [e] at h; cases h
  | ub => rw [e] at h; cases h

/-- A pass whose linear solve failed. -/
def afterFailure (S : Setup K X D P) (s : St K X D P) : St K X D P :=
  let r := S.solve s.p s.x s.dx s.error s.prevFailed
  { s with p := r.1, dx := r.2.2, numJac := s.numJac + 1, prevFailed := true, lsf := true, failed := s.failed + 1 }

/-- The candidate state of a pass. -/
def candidate (S : Setup K X D P) (s : St K X D P) : X :=
  S.update s.x (S.solve s.p s.x s.dx s.error s.prevFailed).2.2

/-- A pass whose step was reverted. -/
def afterReject (S : Setup K X D P) (s : St K X D P) : St K X D P :=
  let r := S.solve s.p s.x s.dx s.error s.prevFailed
  { s with p := r.1, dx := r.2.2, numJac := s.numJac + 1, x := S.revert (candidate S s), deltaX := S.maxAbs r.2.2,
           error := S.cost (candidate S s), deltaJ := Dbl.sub s.pJ (S.cost (candidate S s)), numErr := s.numErr + 1,
           events := s.events ++ [(S.cost (candidate S s), s.pJ)], iterations := s.iterations + 1,
           failed := s.failed + 1, prevFailed := true }

/-- A pass whose step was kept. -/
def afterAccept (S : Setup K X D P) (s : St K X D P) : St K X D P :=
  let r := S.solve s.p s.x s.dx s.error s.prevFailed
  { s with p := r.1, dx := r.2.2, numJac := s.numJac + 1, x := candidate S s, deltaX := S.maxAbs r.2.2,
           error := S.cost (candidate S s), deltaJ := Dbl.sub s.pJ (S.cost (candidate S s)), numErr := s.numErr + 1,
           events := s.events ++ [(S.cost (candidate S s), s.pJ)], iterations := s.iterations + 1,
           pJ := S.cost (candidate S s), prevFailed := if S.reverts then false else s.prevFailed }

/-- The three outcomes of a pass. -/
theorem iter_cases {S : Setup K X D P} {s s' : St K X D P} (h : iter S s = .ok s') :
    ((S.solve s.p s.x s.dx s.error s.prevFailed).2.1 = false ∧ s' = afterFailure S s) ∨
    ((S.solve s.p s.x s.dx s.error s.prevFailed).2.1 = true ∧ S.reverts = true ∧
      Dbl.lt (Dbl.sub s.pJ (S.cost (candidate S s))) (.fin 0) = true ∧ s' = afterReject S s) ∨
    ((S.solve s.p s.x s.dx s.error s.prevFailed).2.1 = true ∧
      (S.reverts = true → Dbl.lt (Dbl.sub s.pJ (S.cost (candidate S s))) (.fin 0) = false) ∧ s' = afterAccept S s) := by
  unfold iter at h
  simp only at h
  split at h
  · cases h
  · split at h
    · rename_i hr
      cases h
      exact .inl ⟨by simpa using hr, rfl⟩
    · rename_i hr
      have hr' : (S.solve s.p s.x s.dx s.error s.prevFailed).2.1 = true := by simpa using hr
      split at h
      · rename_i hv
        split at h
        · rename_i hl
          cases h
          exact .inr (.inl ⟨hr', hv, hl, rfl⟩)
        · rename_i hl
          cases h
          refine .inr (.inr ⟨hr', fun _ => by simpa [candidate] using hl, ?_⟩)
          unfold afterAccept; rw [if_pos hv]; rfl
      · rename_i hv
        cases h
        refine .inr (.inr ⟨hr', fun h => absurd h hv, ?_⟩)
        unfold afterAccept; rw [if_neg hv]; rfl

/-- The optimizer object as constructed, before anything was run. -/
def fresh (x : X) (p : P) (dx : D) : Obj K X D P :=
  ⟨x, p, dx, false, 0, 0, false, .inProgress, .fin 0, .fin 0, .fin 0, .fin 0, 0, 0, []⟩

/-- **C23.** For every policy, linear solver and cost function (failing solves, NaN or infinite costs
included) the first `optimize()` of an optimizer returns normally, provided the policy returns steps of
the right size (otherwise it throws); it does at most `maxIterations` iterations with a solved system and
at most `maxIterations` failed ones, so at most `2·maxIterations` linear solves and `maxIterations + 1`
cost evaluations. It never has undefined behaviour. -/
theorem C23_terminates_within_budget (S : Setup K X D P) (o : Options K) (x : X) (p : P) (dx : D) :
    ((∀ p x d J f, S.size (S.solve p x d J f).2.2 = S.numOpt) → ∃ r, optimize S o (fresh x p dx) = .ok r) ∧
    optimize S o (fresh x p dx) ≠ .ub ∧
    ∀ r, optimize S o (fresh x p dx) = .ok r →
      0 ≤ r.iterations ∧ 0 ≤ r.failed ∧ r.iterations ≤ max 0 o.maxIterations ∧ r.failed ≤ max 0 o.maxIterations ∧
      (r.numJac : Int) ≤ 2 * max 0 o.maxIterations ∧ (r.numErr : Int) = r.iterations + 1 := by
  refine ⟨?_, ?_, ?_⟩
  · intro hsz
    obtain ⟨s, e⟩ := loop_ok (o := o) hsz (enter S o (initObj (fresh x p dx)))
    refine ⟨leave S o (initObj (fresh x p dx)) s, ?_⟩
    show run S o (initObj (fresh x p dx)) = _
    unfold run
    rw [e]
    rfl
  · show run S o (initObj (fresh x p dx)) ≠ _
    unfold run
    cases e : loop S o (enter S o (initObj (fresh x p dx))) with
    | ok s => simp
    | exc => simp
    | ub => exact absurd e (loop_not_ub _)
  · intro r h
    obtain ⟨s, e, hr⟩ := run_ok (show run S o (initObj (fresh x p dx)) = .ok r from h)
    have := (loop_inv (S := S) (o := o) (fun s => 0 ≤ s.iterations ∧ 0 ≤ s.failed ∧ s.iterations ≤ max 0 o.maxIterations ∧
      s.failed ≤ max 0 o.maxIterations ∧ (s.numJac : Int) ≤ s.iterations + s.failed ∧ (s.numErr : Int) = s.iterations + 1) ?_
      _ ?_ _ e).1
    · rw [hr]
      simp only [leave]
      omega
    · intro s s' hrun hi hI
      simp only [running, Bool.and_eq_true, decide_eq_true_eq] at hrun
      rcases iter_cases hi with ⟨_, rfl⟩ | ⟨_, _, _, rfl⟩ | ⟨_, _, rfl⟩ <;> simp only [afterFailure, afterReject, afterAccept] <;> omega
    · simp [enter, initObj, fresh]

/-- What the cost function and the design variables must satisfy for reverting to work (C21, C63). -/
def RevertsCost (S : Setup K X D P) : Prop := ∀ x d, S.cost (S.revert (S.update x d)) = S.cost x

/-- **C24** (first half). When `optimize` returns, the design variables are at a state whose cost is the
reported final cost, for every policy (reverting or not) and every start. -/
theorem C24_state_has_reported_cost (S : Setup K X D P) (hrev : RevertsCost S) (o : Options K) (b r : Obj K X D P)
    (h : optimize S o b = .ok r) : S.cost r.x = r.jFinal := by
  obtain ⟨s, e, hr⟩ := run_ok (show run S o _ = .ok r from h)
  have := (loop_inv (S := S) (o := o) (fun s => S.cost s.x = s.pJ) ?_ _ rfl _ e).1
  · rw [hr]; exact this
  · intro s s' _ hi hI
    rcases iter_cases hi with ⟨_, rfl⟩ | ⟨_, _, _, rfl⟩ | ⟨_, _, rfl⟩ <;> simp only [afterFailure, afterReject, afterAccept]
    · exact hI
    · rw [candidate, hrev, hI]

/-- **C24** (second half, part). With a reverting policy the final cost is not larger than the starting
cost, provided no cost is NaN. (Missing: with NaN it is false, see the counterexample.) -/
theorem C24_never_worse_partial [IsStrictOrderedRing K] (S : Setup K X D P) (hrev : S.reverts = true) (hnan : ∀ x, S.cost x ≠ .nan)
    (o : Options K) (b r : Obj K X D P) (h : optimize S o b = .ok r) :
    r.jStart = S.cost b.x ∧ Dbl.le r.jFinal r.jStart = true := by
  have hx : S.cost (if b.initialized then b else initObj b).x = S.cost b.x := by split <;> rfl
  obtain ⟨s, e, hr⟩ := run_ok (show run S o _ = .ok r from h)
  have := (loop_inv (S := S) (o := o) (fun s => s.pJ ≠ .nan ∧ Dbl.le s.pJ (S.cost b.x) = true) ?_ _ ?_ _ e).1
  · rw [hr]
    simp only [leave]
    refine ⟨hx, ?_⟩
    rw [hx]
    exact this.2
  · intro s s' _ hi hI
    rcases iter_cases hi with ⟨_, rfl⟩ | ⟨_, _, _, rfl⟩ | ⟨_, hl, rfl⟩ <;> simp only [afterFailure, afterReject, afterAccept]
    · exact hI
    · exact hI
    · exact ⟨hnan _, Dbl.le_trans (Dbl.le_of_sub_not_neg hI.1 (hnan _) (hl hrev)) hI.2⟩
  · simp only [enter]
    rw [hx]
    exact ⟨hnan _, Dbl.le_refl (hnan _)⟩

/-! ### A small concrete optimizer: the state is (value, previous value), steps are integers. -/

/-- Steps are taken from a list (the policy state); a `none` is a failed linear solve. -/
def demo (cost : Int → Dbl Int) (reverts : Bool) : Setup Int (Int × Int) Int (List (Option Int)) where
  cost x := cost x.1
  update x d := (x.1 + d, x.1)
  revert x := (x.2, x.2)
  maxAbs d := .fin |d|
  size _ := 1
  numOpt := 1
  start p _ := p
  solve p _ d _ _ := match p with
    | [] => ([], true, 0)
    | some a :: l => (l, true, a)
    | none :: l => (l, false, d)
  reverts := reverts

def demoOpt : Options Int := ⟨0, 0, 5⟩

theorem demo_reverts (c : Int → Dbl Int) (b : Bool) : RevertsCost (demo c b) := fun _ _ => rfl

theorem loop_run {S : Setup K X D P} {o : Options K} {s s' : St K X D P} (h : running o s = true) (h' : iter S s = .ok s') :
    loop S o s = loop S o s' := by
  rw [loop, dif_pos h]
  split
  · rename_i h2; rw [h'] at h2; cases h2; rfl
  · rename_i h2; rw [h'] at h2; cases h2
  · rename_i h2; rw [h'] at h2; cases h2

theorem loop_stop {S : Setup K X D P} {o : Options K} {s : St K X D P} (h : running o s = false) : loop S o s = .ok s := by
  rw [loop, dif_neg (by simp [h])]

/-- The loop with a bound on the number of passes, to evaluate concrete runs. -/
def loopN (S : Setup K X D P) (o : Options K) : Nat → St K X D P → Option (St K X D P)
  | 0, _ => none
  | n + 1, s => if running o s then (match iter S s with | .ok s' => loopN S o n s' | _ => none) else some s

theorem loop_of_loopN {S : Setup K X D P} {o : Options K} (n : Nat) (s s' : St K X D P) (h : loopN S o n s = some s') :
    loop S o s = .ok s' := by
  induction n generalizing s with
  | zero => cases h
  | succ n ih =>
    unfold loopN at h
    split at h
    · rename_i hr
      cases e : iter S s with
      | ok s1 => rw [e] at h; rw [loop_run hr e]; exact ih _ h
      | exc => rw [e] at h; cases h
      | ub => rw [e] at h; cases h
    · rename_i hr
      cases h
      exact loop_stop (by simpa using hr)

theorem run_check {S : Setup K X D P} {o : Options K} {b : Obj K X D P} (n : Nat) (Q : Obj K X D P → Prop) [DecidablePred Q]
    (h : ((loopN S o n (enter S o b)).any fun s => decide (Q (leave S o b s))) = true) : ∃ r, run S o b = .ok r ∧ Q r := by
  cases e : loopN S o n (enter S o b) with
  | none => rw [e] at h; cases h
  | some s =>
    rw [e] at h
    refine ⟨leave S o b s, ?_, by simpa using h⟩
    unfold run
    rw [loop_of_loopN n _ _ e]
    rfl

theorem optimize_check {S : Setup K X D P} {o : Options K} {x : X} {p : P} {dx : D} (n : Nat) (Q : Obj K X D P → Prop)
    [DecidablePred Q]
    (h : ((loopN S o n (enter S o (initObj (fresh x p dx)))).any fun s => decide (Q (leave S o (initObj (fresh x p dx)) s))) = true) :
    ∃ r, optimize S o (fresh x p dx) = .ok r ∧ Q r := run_check n Q h

/-- A step to a state whose cost is NaN is accepted by a reverting policy: the run ends there, far from the
better start, and the status stays IN_PROGRESS. -/
theorem C24_nan_accepted_counterexample :
    ∃ r, optimize (demo (fun x => if x = 7 then .nan else .fin (x * x)) true) demoOpt (fresh (1, 1) [some 6] 0) = .ok r ∧
      r.jStart = .fin 1 ∧ r.x.1 = 7 ∧ r.jFinal = .nan ∧ r.conv = .inProgress ∧ r.failed = 0 := 
  optimize_check 10 _ (by decide)

example : ∃ r, optimize (demo (fun x => .fin (x * x)) true) demoOpt (fresh (5, 5) [some (-2), some 4, none, some (-3)] 0) = .ok r ∧
    r.x.1 = 0 ∧ r.jFinal = .fin 0 ∧ r.iterations = 5 ∧ r.failed = 2 := 
  optimize_check 10 _ (by decide)

/-- The set-up of the runs above meets the hypotheses of the C24 theorems. -/
example : RevertsCost (demo (fun x => .fin (x * x)) true) ∧ (demo (fun x => .fin (x * x)) true).reverts = true ∧
    ∀ x, (demo (fun x => .fin (x * x)) true).cost x ≠ .nan := by
  refine ⟨fun _ _ => rfl, rfl, fun x h => ?_⟩
  cases h

/-! ### C25 -/

/-- **C25** (part). For every run: MAX_ITERATIONS is reported exactly if the iteration budget is used up;
FAILURE only if a linear solve failed or the budget of failed iterations is used up; DX only if the last
step was at most the threshold and DOBJECTIVE only if the last cost change was; and a status is always
set unless the last step size or cost change is NaN. (Missing: that the convergence threshold was met by an
accepted iterate, and the NaN case; see the counterexamples.) -/
theorem C25_status_partial (S : Setup K X D P) (o : Options K) (b r : Obj K X D P) (hb : b.initialized = false)
    (h : optimize S o b = .ok r) :
    ((r.conv = .maxIterations ↔ o.maxIterations ≤ r.iterations) ∧
      (r.conv = .failure → r.linearSolverFailure = true ∨ o.maxIterations ≤ r.failed) ∧
      (r.conv = .dx → Dbl.le r.dXFinal (.fin o.convergenceDeltaX) = true) ∧
      (r.conv = .dObjective → Dbl.le (Dbl.abs r.dJFinal) (.fin o.convergenceDeltaError) = true) ∧
      r.conv ≠ .gradientNorm ∧
      (r.dXFinal ≠ .nan → r.dJFinal ≠ .nan → r.conv ≠ .inProgress)) := by
  obtain ⟨s, e, hr⟩ := run_ok (show run S o _ = .ok r from h)
  have hstop := (loop_inv (S := S) (o := o) (fun _ => True) (fun _ _ _ _ _ => trivial) _ trivial _ e).2
  subst hr
  simp only [leave]
  · have hc0 : (if b.initialized then b else initObj b).conv = .inProgress := by rw [hb]; rfl
    rw [hc0]
    unfold classify
    refine ⟨?_, ?_, ?_, ?_, ?_, ?_⟩
    · constructor
      · intro hc
        by_contra h1
        rw [if_neg h1] at hc
        repeat' (split at hc)
        all_goals cases hc
      · intro h1; rw [if_pos h1]
    · intro hc
      split at hc
      · cases hc
      split at hc
      · rename_i h2; simpa using h2
      repeat' (split at hc)
      all_goals cases hc
    · intro hc
      split at hc
      · cases hc
      split at hc
      · cases hc
      split at hc
      · assumption
      repeat' (split at hc)
      all_goals cases hc
    · intro hc
      split at hc
      · cases hc
      split at hc
      · cases hc
      split at hc
      · cases hc
      split at hc
      · assumption
      cases hc
    · repeat' split
      all_goals simp
    · intro hX hJ hc
      split at hc
      · cases hc
      rename_i h1
      split at hc
      · cases hc
      rename_i h2
      split at hc
      · cases hc
      rename_i h3
      split at hc
      · cases hc
      rename_i h4
      simp only [Bool.or_eq_true, decide_eq_true_eq, not_or, Bool.not_eq_true] at h2
      have e3 : Dbl.lt (.fin o.convergenceDeltaX) s.deltaX = true := by
        cases hd : s.deltaX <;> simp_all [Dbl.le, Dbl.lt]
      have e4 : Dbl.lt (.fin o.convergenceDeltaError) (Dbl.abs s.deltaJ) = true := by
        cases hd : s.deltaJ <;> simp_all [Dbl.le, Dbl.lt, Dbl.abs]
      simp only [running, e3, e4, h2.1, Bool.and_true, Bool.or_false, Bool.and_eq_false_iff, decide_eq_false_iff_not] at hstop
      omega

/-- A rejected step ends the run with a convergence status: the threshold on the cost change is met by a step
that made the cost *larger* and was reverted (no step was ever accepted), far from the minimum. -/
theorem C25_rejected_step_converges_counterexample :
    ∃ r, optimize (demo (fun x => .fin (x * x)) true) ⟨0, 100, 5⟩ (fresh (5, 5) [some 1] 0) = .ok r ∧
      r.conv = .dObjective ∧ r.x.1 = 5 ∧ r.failed = 1 ∧ r.iterations = 1 ∧ r.dJFinal = .fin (-11) := 
  optimize_check 10 _ (by decide)

/-! ### C26 -/

/-- **C26** (part). The failure flag returned by a first `optimize` is set exactly if some linear solve of this
run failed, i.e. if there were more solves than iterations with a solved system; the flag of earlier runs
has no influence. (Missing: the flag is never cleared within a run, see the counterexample.) -/
theorem C26_flag_iff_some_solve_failed_partial (S : Setup K X D P) (o : Options K) (b r : Obj K X D P)
    (h : optimize S o b = .ok r) :
    (b.initialized = false → (r.linearSolverFailure = true ↔ r.iterations < r.numJac)) ∧
    ∀ f, optimize S o { b with linearSolverFailure := f } = .ok r := by
  constructor
  · intro hb
    have e0 : (if b.initialized then b else initObj b) = initObj b := by rw [hb]; rfl
    unfold optimize at h
    rw [e0] at h
    obtain ⟨s, e, hr⟩ := run_ok h
    have := (loop_inv (S := S) (o := o) (fun s => s.iterations ≤ s.numJac ∧ (s.lsf = true ↔ s.iterations < s.numJac)) ?_ _ ?_ _ e).1
    · rw [hr]; exact this.2
    · intro s s' _ hi hI
      rcases iter_cases hi with ⟨_, rfl⟩ | ⟨_, _, _, rfl⟩ | ⟨_, _, rfl⟩ <;> simp only [afterFailure, afterReject, afterAccept]
      · constructor
        · push_cast; omega
        · simp; omega
      · refine ⟨by push_cast; omega, ?_⟩
        rw [hI.2]; push_cast; omega
      · refine ⟨by push_cast; omega, ?_⟩
        rw [hI.2]; push_cast; omega
    · simp [enter, initObj]
  · intro f
    have : ∀ b' : Obj K X D P, run S o { b' with linearSolverFailure := f } = run S o b' := fun b' => rfl
    unfold optimize
    cases hb : b.initialized
    · rw [← h]
      unfold optimize
      rw [hb]
      rfl
    · rw [← h]
      unfold optimize
      rw [hb]
      rw [if_pos rfl, if_pos rfl, ← hb]
      exact this b

/-- One failed linear solve at the beginning: the run then reaches the minimum and stays there with zero
steps, but goes on until the budget is used up and reports a linear solver failure. -/
theorem C26_sticky_flag_counterexample :
    ∃ r, optimize (demo (fun x => .fin (x * x)) true) demoOpt (fresh (5, 5) [none, some (-5)] 0) = .ok r ∧
      r.x.1 = 0 ∧ r.dXFinal = .fin 0 ∧ r.dJFinal = .fin 0 ∧ r.linearSolverFailure = true ∧ r.conv = .maxIterations ∧
      r.iterations = 5 := 
  optimize_check 10 _ (by decide)

/-! ### C32 -/

/-- **C32.** Exactly one of the three predicates holds for each status, `failure()` for FAILURE only and `isInProgress()` for IN_PROGRESS only (so MAX_ITERATIONS counts as success); and the status chosen by
`updateConvergenceStatus` is the first threshold met in the order gradient norm, cost change, step size;
a NaN never meets a threshold; if none is met the status is kept. -/
theorem C32_trichotomy_and_priority (cg ce cx : K) (g dJ dX : Dbl K) (c : Conv) :
    ((c.isSuccess = true ∧ c.isFailure = false ∧ c.isInProgress = false) ∨
     (c.isSuccess = false ∧ c.isFailure = true ∧ c.isInProgress = false) ∨
     (c.isSuccess = false ∧ c.isFailure = false ∧ c.isInProgress = true)) ∧
    (c.isFailure = true ↔ c = .failure) ∧ (c.isInProgress = true ↔ c = .inProgress) ∧
    (updateConvergence cg ce cx g dJ dX .inProgress = .gradientNorm ↔ Dbl.lt g (.fin cg) = true) ∧
    (updateConvergence cg ce cx g dJ dX .inProgress = .dObjective ↔
      Dbl.lt g (.fin cg) = false ∧ Dbl.lt (Dbl.abs dJ) (.fin ce) = true) ∧
    (updateConvergence cg ce cx g dJ dX .inProgress = .dx ↔
      Dbl.lt g (.fin cg) = false ∧ Dbl.lt (Dbl.abs dJ) (.fin ce) = false ∧ Dbl.lt dX (.fin cx) = true) ∧
    (updateConvergence cg ce cx g dJ dX .inProgress).isFailure = false ∧
    updateConvergence cg ce cx .nan .nan .nan c = c ∧
    (∀ gv : K, 0 ≤ cg → Dbl.lt (.fin gv) (.fin cg) = false → Dbl.lt (Dbl.abs (.fin 0)) (.fin ce) = false →
      updateConvergence cg ce cx (.fin gv) (.fin 0) .nan c = c) := by
  refine ⟨by cases c <;> decide, by cases c <;> decide, by cases c <;> decide, ?_, ?_, ?_, ?_, rfl, ?_⟩
  · unfold updateConvergence
    cases h1 : Dbl.lt g (.fin cg) <;> simp
    split
    · simp
    · split <;> simp
  · unfold updateConvergence
    cases h1 : Dbl.lt g (.fin cg) <;> simp
    cases h2 : Dbl.lt (Dbl.abs dJ) (.fin ce) <;> simp
    split <;> simp
  · unfold updateConvergence
    cases h1 : Dbl.lt g (.fin cg) <;> simp
    cases h2 : Dbl.lt (Dbl.abs dJ) (.fin ce) <;> simp
  · unfold updateConvergence
    repeat' split
    all_goals rfl
  · intro gv _ h1 h2
    unfold updateConvergence
    rw [h1, h2, Dbl.lt_nan_left]
    rfl

example : updateConvergence (K := Int) 2 3 4 (.fin 1) (.fin 1) (.fin 1) .inProgress = .gradientNorm ∧
    updateConvergence (K := Int) 2 3 4 .nan (.fin (-2)) (.fin 1) .inProgress = .dObjective ∧
    updateConvergence (K := Int) 2 3 4 (.fin 2) .pinf (.fin 3) .inProgress = .dx := by decide

/-! ### C71: repeated calls -/

/-- **C71** (negation). A second `optimize()` on the same optimizer does not start with a new budget: after a
run that used `maxIterations`, any further call solves nothing, leaves the design variables alone and
reports MAX_ITERATIONS. -/
theorem C71_second_call_does_nothing_counterexample (S : Setup K X D P) (o : Options K) (b r r' : Obj K X D P)
    (hb : b.initialized = false) (h : optimize S o b = .ok r) (hm : r.conv = .maxIterations)
    (h' : optimize S o r = .ok r') : r'.x = r.x ∧ r'.numJac = r.numJac ∧ r'.conv = .maxIterations := by
  have hc := (C25_status_partial S o b r hb h).1.1 hm
  have hi : r.initialized = true := by
    obtain ⟨s, e, hr⟩ := run_ok (show run S o _ = .ok r from h)
    rw [hr, hb]; rfl
  unfold optimize run at h'
  rw [hi, if_pos rfl, loop_stop (by
    have : decide ((enter S o r).iterations < o.maxIterations) = false := decide_eq_false (by simp only [enter]; omega)
    unfold running; rw [this]; rfl)] at h'
  cases h'
  refine ⟨rfl, rfl, ?_⟩
  simp only [leave, classify]
  rw [if_pos]
  exact hc

/-- What does hold: the *first* call after construction (or after `setProblem`, which clears the initialised
flag) does not depend on counters, flags or status left by earlier runs. -/
theorem C71_first_call_budget_partial (S : Setup K X D P) (o : Options K) (b b' : Obj K X D P) (hb : b.initialized = false)
    (hb' : b'.initialized = false) (hx : b'.x = b.x) (hp : b'.p = b.p) (hd : b'.dx = b.dx) (he : b'.events = b.events) :
    optimize S o b' = optimize S o b := by
  have : initObj b' = initObj b := by
    cases b; cases b'
    simp_all [initObj]
  unfold optimize
  rw [hb, hb', this]
  rfl

/-- The hypotheses of `C71_second_call_does_nothing_counterexample` are met: the second call does not take the
step the policy offers. -/
example : ∃ r r', optimize (demo (fun x => .fin (x * x)) true) ⟨0, 0, 1⟩ (fresh (5, 5) [some (-2), some (-3)] 0) = .ok r ∧
    r.conv = .maxIterations ∧ optimize (demo (fun x => .fin (x * x)) true) ⟨0, 0, 1⟩ r = .ok r' ∧ r'.x.1 = 3 := by
  obtain ⟨r, h1, h2⟩ := optimize_check (S := demo (fun x => .fin (x * x)) true) (o := ⟨0, 0, 1⟩) (x := (5, 5))
    (p := [some (-2), some (-3)]) (dx := 0) 10 (fun r => r.conv = .maxIterations ∧ r.initialized = true ∧ r.iterations = 1 ∧
      r.x.1 = 3) (by decide)
  refine ⟨r, leave (demo (fun x => .fin (x * x)) true) ⟨0, 0, 1⟩ r (enter (demo (fun x => .fin (x * x)) true) ⟨0, 0, 1⟩ r), h1, h2.1, ?_, h2.2.2.2⟩
  unfold optimize run
  rw [if_pos h2.2.1, loop_stop (by simp [running, enter, h2.2.2.1])]
  rfl

/-- The option -1, documented as "unlimited" (OptimizerBase.hpp:62) and accepted by the option check, makes
`Optimizer2` stop before the first iteration, for every problem. -/
theorem C71_unlimited_does_nothing_counterexample (S : Setup K X D P) (o : Options K) (hm : o.maxIterations = -1)
    (x : X) (p : P) (dx : D) :
    Options.check (0 : K) 0 1 (-1) = decide ((0 : K) < 1) ∧
    ∃ r, optimize S o (fresh x p dx) = .ok r ∧ r.x = x ∧ r.iterations = 0 ∧ r.numJac = 0 ∧ r.conv = .maxIterations := by
  constructor
  · by_cases h : (0 : K) < 1
    · simp [Options.check, h, h.le]
    · simp [Options.check, h]
  · refine ⟨leave S o (initObj (fresh x p dx)) (enter S o (initObj (fresh x p dx))), ?_, ?_⟩
    · show run _ _ (initObj _) = _
      unfold run
      rw [loop_stop (by simp [running, enter, initObj, hm])]
      rfl
    · refine ⟨rfl, rfl, rfl, ?_⟩
      simp [leave, classify, enter, initObj, hm, fresh]

/-- Which options the check lets pass: no threshold is negative, at least one is positive, and the budget is -1 or a number of
iterations. -/
theorem C71_options_check (cg cx ce : K) (n : Int) :
    Options.check cg cx ce n = true ↔ (∀ c ∈ [cg, cx, ce], 0 ≤ c) ∧ (∃ c ∈ [cg, cx, ce], 0 < c) ∧ (n = -1 ∨ 0 ≤ n) := by
  simp only [Options.check, Bool.and_eq_true, Bool.or_eq_true, decide_eq_true_eq, List.mem_cons, List.not_mem_nil, or_false,
    forall_eq_or_imp, forall_eq, exists_eq_or_imp, exists_eq_left]
  constructor
  · rintro ⟨⟨⟨⟨h1, h2⟩, h3⟩, h4⟩, h5⟩
    exact ⟨⟨h1, h2, h3⟩, by tauto, by omega⟩
  · rintro ⟨⟨h1, h2, h3⟩, h4, h5⟩
    exact ⟨⟨⟨⟨h1, h2⟩, h3⟩, by tauto⟩, by omega⟩

example : Options.check (0 : Int) 3 0 (-1) = true ∧ Options.check (0 : Int) 3 0 (-2) = false := by decide

/-! ### C72: what the COST_UPDATED event carries -/

/-- **C72** (part). With a reverting policy and without NaN costs, every COST_UPDATED event of a run after the
first carries, as "previous lowest cost", a cost reported by an earlier event that is not larger than any
cost reported earlier. (Missing: policies that do not revert.) -/
theorem C72_event_lowest_cost_partial [IsStrictOrderedRing K] (S : Setup K X D P) (hrev : S.reverts = true) (hnan : ∀ x, S.cost x ≠ .nan)
    (o : Options K) (x : X) (p : P) (dx : D) (r : Obj K X D P) (h : optimize S o (fresh x p dx) = .ok r) :
    r.events.head? = some (S.cost x, .fin (-1)) ∧
    ∀ pre c q post, r.events = pre ++ (c, q) :: post → pre ≠ [] →
      q ∈ pre.map Prod.fst ∧ ∀ c' ∈ pre.map Prod.fst, Dbl.le q c' = true := by
  obtain ⟨s, e, hr⟩ := run_ok (show run S o (initObj (fresh x p dx)) = .ok r from h)
  have := (loop_inv (S := S) (o := o) (fun s => s.events.head? = some (S.cost x, .fin (-1)) ∧
      (s.pJ ∈ s.events.map Prod.fst ∧ ∀ c' ∈ s.events.map Prod.fst, Dbl.le s.pJ c' = true) ∧
      (∀ pre c q post, s.events = pre ++ (c, q) :: post → pre ≠ [] →
        q ∈ pre.map Prod.fst ∧ ∀ c' ∈ pre.map Prod.fst, Dbl.le q c' = true) ∧ s.pJ ≠ .nan) ?_ _ ?_ _ e).1
  · rw [hr]; exact ⟨this.1, this.2.2.1⟩
  · intro s s' _ hi ⟨h1, h2, h3, h4⟩
    have hsplit : ∀ (c0 : Dbl K) pre c q post, s.events ++ [(c0, s.pJ)] = pre ++ (c, q) :: post → pre ≠ [] →
        q ∈ pre.map Prod.fst ∧ ∀ c' ∈ pre.map Prod.fst, Dbl.le q c' = true := by
      intro c0 pre c q post hp hne
      rcases List.eq_nil_or_concat post with rfl | ⟨post', z, rfl⟩
      · have := List.append_inj' hp (by simp)
        obtain ⟨rfl, he⟩ := this
        cases he
        exact h2
      · have hp' : s.events ++ [(c0, s.pJ)] = (pre ++ (c, q) :: post') ++ [z] := by simpa using hp
        have := List.append_inj' hp' (by simp)
        exact h3 pre c q post' this.1 hne
    rcases iter_cases hi with ⟨_, rfl⟩ | ⟨_, _, hl, rfl⟩ | ⟨_, hl, rfl⟩ <;> simp only [afterFailure, afterReject, afterAccept]
    · exact ⟨h1, h2, h3, h4⟩
    · refine ⟨by rw [List.head?_append, h1]; rfl, ⟨by rw [List.map_append]; exact List.mem_append_left _ h2.1, ?_⟩, hsplit _, h4⟩
      intro c' hc'
      rw [List.map_append, List.mem_append] at hc'
      rcases hc' with hc' | hc'
      · exact h2.2 c' hc'
      · have : c' = S.cost (candidate S s) := by simpa using hc'
        rw [this]
        have hlt := Dbl.lt_of_sub_neg hl
        have : ∀ a b : Dbl K, Dbl.lt a b = true → Dbl.le a b = true := by
          intro a b hab
          cases a <;> cases b <;> simp_all [Dbl.lt, Dbl.le]
          exact hab.le
        exact this _ _ hlt
    · have hle := Dbl.le_of_sub_not_neg h4 (hnan _) (hl hrev)
      refine ⟨by rw [List.head?_append, h1]; rfl, ⟨by simp, ?_⟩, hsplit _, hnan _⟩
      intro c' hc'
      rw [List.map_append, List.mem_append] at hc'
      rcases hc' with hc' | hc'
      · exact Dbl.le_trans hle (h2.2 c' hc')
      · have : c' = S.cost (candidate S s) := by simpa using hc'
        rw [this]
        exact Dbl.le_refl (hnan _)
  · refine ⟨rfl, ⟨by simp [enter], ?_⟩, ?_, hnan _⟩
    · intro c' hc'
      have : c' = S.cost x := by simpa [enter, initObj, fresh] using hc'
      subst this
      exact Dbl.le_refl (hnan _)
    · intro pre c q post hp hne
      cases pre with
      | nil => exact absurd rfl hne
      | cons a pre => simp [enter, initObj, fresh] at hp

/-- With a policy that does not revert (Gauss-Newton) the event carries the cost of the previous iterate, which
need not be the lowest so far: the costs here are 1, 4, 9 and the third event reports 4. -/
theorem C72_nonreverting_counterexample :
    ∃ r, optimize (demo (fun x => .fin (x * x)) false) ⟨0, 0, 2⟩ (fresh (1, 1) [some 1, some 1] 0) = .ok r ∧
      r.events = [(.fin 1, .fin (-1)), (.fin 4, .fin 1), (.fin 9, .fin 4)] := 
  optimize_check 10 _ (by decide)

end Verif.Optimizer2
