import Verif.ErrorTerm.Props

/-!
Evaluation of the error of a problem with callbacks that change M-estimators at the event RESIDUALS_UPDATED.
`Optimizer::evaluateError` (`aslam_backend/src/Optimizer.cpp`, O.cpp below) and
`LinearSystemSolver::evaluateError` (`aslam_backend/src/LinearSystemSolver.cpp`, LSS below), which is used by
`Optimizer2`. Property C142.
Simplified: real numbers instead of doubles; one thread; the terms are numbered from 0 (the legacy optimizer keeps a set of
pointers, its order has no influence on a sum of reals).
-/
namespace Verif.ErrorTerm.Residuals
open Verif.ErrorTerm
open Verif.MatrixStack (DMat)

/-- What a callback of RESIDUALS_UPDATED does: it sees the terms (with their raw squared errors) and sets the
M-estimator policy of every term (`setMEstimatorPolicy`, ErrorTerm.cpp:32-36; OptimizerCallback.hpp:68
recommends this event for it). -/
abbrev Callback := (Nat → Term) → Nat → ℝ → ℝ

/-- The terms after the callback was issued, O.cpp:675, LSS:66, with `setMEstimatorPolicy`, ErrorTerm.cpp:32-36. -/
def afterCallback (cb : Callback) (ts : Nat → Term) : Nat → Term :=
  fun i => { ts i with policy := cb ts i }

/-- The first loop of `Optimizer::evaluateError`, O.cpp:672-674: the terms `0 … n-1`; `x i` is the new error vector of
term `i`. -/
def updateAll (k : Nat → Kind) (x : Nat → Nat → ℝ) : Nat → (Nat → Term) → (Nat → Term)
  | 0, ts => ts
  | n + 1, ts =>
    let ts := updateAll k x n ts
    Function.update ts n (updateRaw (k n) (ts n) (x n))

/-- The second loop of `Optimizer::evaluateError`, O.cpp:676-679. -/
def sumAll (ts : Nat → Term) : Nat → ℝ
  | 0 => 0
  | n + 1 => sumAll ts n + squaredError (ts n) true

/-- `Optimizer::evaluateError()`, O.cpp:669-682: the terms afterwards and the cost. -/
def legacyEvaluate (k : Nat → Kind) (n : Nat) (cb : Callback) (ts : Nat → Term) (x : Nat → Nat → ℝ) :
    (Nat → Term) × ℝ :=
  let ts := afterCallback cb (updateAll k x n ts)
  (ts, sumAll ts n)

/-- State of the loop of `evaluateErrors`: the terms, the local sum and the member `_e`, one segment per
term (LSS:17-28). -/
structure Solver where
  ts : Nat → Term
  acc : ℝ
  e : Nat → Nat → ℝ

/-- `LinearSystemSolver::evaluateErrors`, LSS:17-28, on the terms `0 … n-1`. -/
noncomputable def evaluateErrors (k : Nat → Kind) (useM : Bool) (x : Nat → Nat → ℝ) : Nat → Solver → Solver
  | 0, s => s
  | n + 1, s =>
    let s := evaluateErrors k useM x n s
    let r := evaluateError (k n) (s.ts n) (x n)
    { ts := Function.update s.ts n r.1
      acc := s.acc + r.2
      e := Function.update s.e n fun u => -weightedError r.1 useM u }

/-- `LinearSystemSolver::evaluateError`, LSS:59-72: the sum is cleared, the job is run, the event is issued and
the sum is returned. -/
noncomputable def solverEvaluate (k : Nat → Kind) (n : Nat) (useM : Bool) (cb : Callback) (s : Solver)
    (x : Nat → Nat → ℝ) : Solver × ℝ :=
  let s := evaluateErrors k useM x n { s with acc := 0 }
  ({ s with ts := afterCallback cb s.ts }, s.acc)

/-- The segment of term `t` of a column of the Jacobian built afterwards (`getWeightedJacobians`, ErrorTerm.hpp:181-189,
implementation/ErrorTerm.hpp:176-180), when `D v` is the derivative of the component `v` of the error. -/
noncomputable def jacobianColumn (t : Term) (useM : Bool) (D : Nat → ℝ) (u : Nat) : ℝ :=
  ∑ v ∈ Finset.range t.dim, sqrtWeight t useM * t.sqrtInvR.e v u * D v

/-- The contribution of term `i` to one component of the right hand side `Jᵀ e`,
SparseCholeskyLinearSystemSolver.cpp:48, SparseQrLinearSystemSolver.cpp:59, DenseQrLinearSystemSolver.cpp:37. -/
noncomputable def rhsPart (s : Solver) (useM : Bool) (i : Nat) (D : Nat → ℝ) : ℝ :=
  ∑ u ∈ Finset.range (s.ts i).sqrtInvR.cols, jacobianColumn (s.ts i) useM D u * s.e i u

/-! Specification. -/

/-- The squared error of a term at the error vector `x`, independent of what was evaluated before: the squared norm of
the error multiplied by the (transposed) square root information matrix. -/
def raw (k : Kind) (t : Term) (x : Nat → ℝ) : ℝ :=
  match k with
  | .chi => ∑ u ∈ Finset.range t.sqrtInvR.cols, (∑ v ∈ Finset.range t.dim, t.sqrtInvR.e v u * x v) ^ 2
  | .expression => ∑ u ∈ Finset.range t.dim, (∑ v ∈ Finset.range t.sqrtInvR.cols, t.sqrtInvR.e u v * x v) ^ 2

/-- The cost at the error vectors `x` under the weight functions `w`. -/
def cost (k : Nat → Kind) (n : Nat) (ts : Nat → Term) (w : Nat → ℝ → ℝ) (x : Nat → Nat → ℝ) : ℝ :=
  ∑ i ∈ Finset.range n, w i (raw (k i) (ts i) (x i)) * raw (k i) (ts i) (x i)

/-- The terms as a callback should see them: new error vectors and raw squared errors, policies as before. -/
def seen (k : Nat → Kind) (n : Nat) (ts : Nat → Term) (x : Nat → Nat → ℝ) : Nat → Term :=
  fun i => if i < n then { ts i with error := x i, squaredError := raw (k i) (ts i) (x i) } else ts i

theorem updateRaw_eq (k : Kind) (t : Term) (x : Nat → ℝ) :
    updateRaw k t x = { t with error := x, squaredError := raw k t x } := by
  cases k <;> simp [updateRaw, raw, chiSquared, expressionSquared, pow_two]

theorem updateAll_eq (k : Nat → Kind) (x : Nat → Nat → ℝ) (n : Nat) (ts : Nat → Term) :
    updateAll k x n ts = seen k n ts x := by
  induction n with
  | zero => funext i; simp [updateAll, seen]
  | succ n ih =>
    funext i
    simp only [updateAll, ih]
    by_cases h : i = n
    · subst h
      simp [seen, updateRaw_eq]
    · rw [Function.update_of_ne h]
      have : i < n + 1 ↔ i < n := by omega
      simp [seen, this]

theorem sumAll_eq (ts : Nat → Term) (n : Nat) :
    sumAll ts n = ∑ i ∈ Finset.range n, (ts i).policy (ts i).squaredError * (ts i).squaredError := by
  induction n with
  | zero => rfl
  | succ n ih => rw [Finset.sum_range_succ, ← ih]; rfl

theorem evaluateErrors_eq (k : Nat → Kind) (useM : Bool) (x : Nat → Nat → ℝ) (n : Nat) (s : Solver) :
    (evaluateErrors k useM x n s).ts = seen k n s.ts x ∧
    (evaluateErrors k useM x n s).acc = s.acc + cost k n s.ts (fun i => (s.ts i).policy) x ∧
    ∀ i u, (evaluateErrors k useM x n s).e i u =
      if i < n then -weightedError (seen k n s.ts x i) useM u else s.e i u := by
  induction n with
  | zero =>
    refine ⟨?_, by simp [evaluateErrors, cost], by simp [evaluateErrors]⟩
    funext i
    simp [evaluateErrors, seen]
  | succ n ih =>
    obtain ⟨h1, h2, h3⟩ := ih
    have hn : (evaluateErrors k useM x n s).ts n = s.ts n := by rw [h1]; simp [seen]
    have hts : (evaluateErrors k useM x (n + 1) s).ts = seen k (n + 1) s.ts x := by
      rw [← updateAll_eq]
      simp only [evaluateErrors, updateAll, updateAll_eq, h1, evaluateError]
    refine ⟨hts, ?_, ?_⟩
    · simp only [evaluateErrors, h2, cost, Finset.sum_range_succ, hn, evaluateError, updateRaw_eq, squaredError]
      simp only [if_true]
      ring
    · intro i u
      simp only [evaluateErrors]
      by_cases h : i = n
      · subst h
        rw [Function.update_self, if_pos (Nat.lt_succ_self _), hn]
        simp [evaluateError, updateRaw_eq, seen]
      · rw [Function.update_of_ne h, h3]
        have : i < n + 1 ↔ i < n := by omega
        simp [seen, this]

/-- **C142** (legacy optimizer). Whatever the callback of RESIDUALS_UPDATED does with the M-estimators, it sees the raw errors
of all terms at the new point, and the cost returned is the cost under the weights it has chosen; these weights remain. -/
theorem C142_legacy (k : Nat → Kind) (n : Nat) (cb : Callback) (ts : Nat → Term) (x : Nat → Nat → ℝ) :
    (legacyEvaluate k n cb ts x).2 = cost k n ts (cb (seen k n ts x)) x ∧
    ∀ i, (legacyEvaluate k n cb ts x).1 i = { seen k n ts x i with policy := cb (seen k n ts x) i } := by
  have h : (legacyEvaluate k n cb ts x).1 = fun i => { seen k n ts x i with policy := cb (seen k n ts x) i } := by
    simp only [legacyEvaluate, updateAll_eq]; rfl
  refine ⟨?_, fun i => by rw [h]⟩
  show sumAll (legacyEvaluate k n cb ts x).1 n = _
  rw [h, sumAll_eq]
  refine Finset.sum_congr rfl fun i hi => ?_
  simp [seen, Finset.mem_range.mp hi]

/-- **C142** (solvers of `Optimizer2`). The cost returned and the error vector kept by the solver are those under the weights
from before the event: the callback has no influence on either. Its weights remain for later. -/
theorem C142_solver_too_late (k : Nat → Kind) (n : Nat) (useM : Bool) (cb : Callback) (s : Solver)
    (x : Nat → Nat → ℝ) :
    (solverEvaluate k n useM cb s x).2 = cost k n s.ts (fun i => (s.ts i).policy) x ∧
    (∀ i < n, ∀ u, (solverEvaluate k n useM cb s x).1.e i u =
      -((∑ v ∈ Finset.range (s.ts i).dim, (s.ts i).sqrtInvR.e v u * x i v) *
        if useM then Real.sqrt ((s.ts i).policy (raw (k i) (s.ts i) (x i))) else 1)) ∧
    ∀ i, (solverEvaluate k n useM cb s x).1.ts i =
      { seen k n s.ts x i with policy := cb (seen k n s.ts x) i } := by
  obtain ⟨h1, h2, h3⟩ := evaluateErrors_eq k useM x n { s with acc := 0 }
  refine ⟨?_, ?_, ?_⟩
  · simpa [solverEvaluate] using h2
  · intro i hi u
    simp only [solverEvaluate, h3, if_pos hi, weightedError, sqrtWeight, seen]
  · intro i
    simp only [solverEvaluate, h1, afterCallback]

/-- A run of evaluations of the legacy optimizer, one per point: the costs returned. -/
def legacyRun (k : Nat → Kind) (n : Nat) (cb : Callback) : (Nat → Term) → List (Nat → Nat → ℝ) → List ℝ
  | _, [] => []
  | ts, x :: xs => (legacyEvaluate k n cb ts x).2 :: legacyRun k n cb (legacyEvaluate k n cb ts x).1 xs

/-- A run of evaluations of a solver, one per point: the costs returned. -/
noncomputable def solverRun (k : Nat → Kind) (n : Nat) (useM : Bool) (cb : Callback) :
    Solver → List (Nat → Nat → ℝ) → List ℝ
  | _, [] => []
  | s, x :: xs => (solverEvaluate k n useM cb s x).2 :: solverRun k n useM cb (solverEvaluate k n useM cb s x).1 xs

/-- The weights the callback chooses at the point `x`, when it decides by the raw squared errors only. -/
def chosen (k : Nat → Kind) (ts : Nat → Term) (choose : (Nat → ℝ) → Nat → ℝ → ℝ) (x : Nat → Nat → ℝ) : Nat → ℝ → ℝ :=
  choose fun i => raw (k i) (ts i) (x i)

/-- The callback that decides by the raw squared errors of the `n` terms. -/
def byResiduals (choose : (Nat → ℝ) → Nat → ℝ → ℝ) : Callback := fun ts => choose fun i => (ts i).squaredError

/-- The costs of a run whose weights at each point are given by the point before. -/
def lagged (k : Nat → Kind) (n : Nat) (ts : Nat → Term) (choose : (Nat → ℝ) → Nat → ℝ → ℝ) :
    (Nat → ℝ → ℝ) → List (Nat → Nat → ℝ) → List ℝ
  | _, [] => []
  | w, x :: xs => cost k n ts w x :: lagged k n ts choose (chosen k ts choose x) xs

/-- Terms that differ only in what evaluations and callbacks change. -/
def SameShape (ts ts' : Nat → Term) : Prop :=
  ∀ i, (ts i).dim = (ts' i).dim ∧ (ts i).sqrtInvR = (ts' i).sqrtInvR

theorem raw_congr {ts ts' : Nat → Term} (h : SameShape ts ts') (k : Kind) (i : Nat) (x : Nat → ℝ) :
    raw k (ts i) x = raw k (ts' i) x := by
  unfold raw; rw [(h i).1, (h i).2]

theorem cost_congr {ts ts' : Nat → Term} (h : SameShape ts ts') (k : Nat → Kind) (n : Nat) (w : Nat → ℝ → ℝ)
    (x : Nat → Nat → ℝ) : cost k n ts w x = cost k n ts' w x := by
  unfold cost
  exact Finset.sum_congr rfl fun i _ => by rw [raw_congr h]

theorem shape_seen (k : Nat → Kind) (n : Nat) (ts : Nat → Term) (x : Nat → Nat → ℝ) (i : Nat) :
    (seen k n ts x i).dim = (ts i).dim ∧ (seen k n ts x i).sqrtInvR = (ts i).sqrtInvR := by
  unfold seen; split <;> exact ⟨rfl, rfl⟩

/-- A rule that looks only at the terms below `n`. -/
def Local (n : Nat) (choose : (Nat → ℝ) → Nat → ℝ → ℝ) : Prop :=
  ∀ r r' : Nat → ℝ, (∀ i < n, r i = r' i) → choose r = choose r'

theorem choose_seen {n : Nat} {choose : (Nat → ℝ) → Nat → ℝ → ℝ} (hl : Local n choose) (k : Nat → Kind)
    {ts ts' : Nat → Term} (h : SameShape ts' ts) (x : Nat → Nat → ℝ) :
    byResiduals choose (seen k n ts' x) = chosen k ts choose x := by
  apply hl
  intro i hi
  simp only [seen, if_pos hi]
  exact raw_congr h _ _ _

/-- **C142** (runs). With a callback that decides by the residuals, every cost returned by the legacy optimizer is the cost under
the weights for the same point, in every run; a solver of `Optimizer2` returns at every point the cost under the
weights for the point evaluated before, and under the weights set up initially at the first. -/
theorem C142_runs (k : Nat → Kind) (n : Nat) (useM : Bool) (choose : (Nat → ℝ) → Nat → ℝ → ℝ) (hl : Local n choose)
    (ts : Nat → Term) (s : Solver) (hs : s.ts = ts) (xs : List (Nat → Nat → ℝ)) :
    legacyRun k n (byResiduals choose) ts xs = xs.map (fun x => cost k n ts (chosen k ts choose x) x) ∧
    solverRun k n useM (byResiduals choose) s xs = lagged k n ts choose (fun i => (ts i).policy) xs := by
  constructor
  · have : ∀ ts', SameShape ts' ts →
        legacyRun k n (byResiduals choose) ts' xs = xs.map (fun x => cost k n ts (chosen k ts choose x) x) := by
      induction xs with
      | nil => intros; rfl
      | cons x xs ih =>
        intro ts' h
        obtain ⟨h1, h2⟩ := C142_legacy k n (byResiduals choose) ts' x
        rw [legacyRun, List.map_cons, h1, choose_seen hl k h x, cost_congr h]
        congr 1
        apply ih
        intro i
        rw [h2 i]
        have := shape_seen k n ts' x i
        exact ⟨this.1.trans (h i).1, this.2.trans (h i).2⟩
    exact this ts fun i => ⟨rfl, rfl⟩
  · have : ∀ s' : Solver, SameShape s'.ts ts → ∀ w, (∀ i, (s'.ts i).policy = w i) →
        solverRun k n useM (byResiduals choose) s' xs = lagged k n ts choose w xs := by
      induction xs with
      | nil => intros; rfl
      | cons x xs ih =>
        intro s' h w hw
        obtain ⟨h1, _, h3⟩ := C142_solver_too_late k n useM (byResiduals choose) s' x
        rw [solverRun, lagged, h1, show (fun i => (s'.ts i).policy) = w from funext hw, cost_congr h]
        congr 1
        apply ih
        · intro i
          rw [h3 i]
          have := shape_seen k n s'.ts x i
          exact ⟨this.1.trans (h i).1, this.2.trans (h i).2⟩
        · intro i
          rw [h3 i]
          exact congrFun (choose_seen hl k h x) i
    exact this s (by rw [hs]; exact fun i => ⟨rfl, rfl⟩) _ (fun i => by rw [hs])

/-- **C142** (right hand side). After the event the Jacobian is built with the weights of the callback, the error vector has those from
before: the right hand side of the sparse and dense QR and sparse Cholesky solvers weights every term with
the geometric mean of both weights. -/
theorem C142_mixed_weights (k : Nat → Kind) (n : Nat) (cb : Callback) (s : Solver) (x : Nat → Nat → ℝ)
    (i : Nat) (hi : i < n) (D : Nat → ℝ) :
    rhsPart (solverEvaluate k n true cb s x).1 true i D =
      -(Real.sqrt (cb (seen k n s.ts x) i (raw (k i) (s.ts i) (x i))) *
        Real.sqrt ((s.ts i).policy (raw (k i) (s.ts i) (x i)))) *
      ∑ u ∈ Finset.range (s.ts i).sqrtInvR.cols,
        (∑ v ∈ Finset.range (s.ts i).dim, (s.ts i).sqrtInvR.e v u * D v) *
        ∑ v ∈ Finset.range (s.ts i).dim, (s.ts i).sqrtInvR.e v u * x i v := by
  obtain ⟨_, h2, h3⟩ := C142_solver_too_late k n true cb s x
  unfold rhsPart jacobianColumn
  rw [h3 i, Finset.mul_sum]
  simp only [seen, if_pos hi]
  refine Finset.sum_congr rfl fun u _ => ?_
  rw [h2 i hi u]
  simp only [sqrtWeight, if_true]
  have : (∑ v ∈ Finset.range (s.ts i).dim,
      Real.sqrt (cb (seen k n s.ts x) i (raw (k i) (s.ts i) (x i))) * (s.ts i).sqrtInvR.e v u * D v) =
      Real.sqrt (cb (seen k n s.ts x) i (raw (k i) (s.ts i) (x i))) *
        ∑ v ∈ Finset.range (s.ts i).dim, (s.ts i).sqrtInvR.e v u * D v := by
    rw [Finset.mul_sum]; exact Finset.sum_congr rfl fun v _ => by ring
  rw [this]
  ring

/-- One scalar term without a weight function (weight 1). -/
def one : Nat → Term := fun _ => ⟨1, fun _ => 0, ⟨1, 1, fun _ _ => 1⟩, fun _ => 1, 0⟩

/-- A solver with this term. -/
def oneSolver : Solver := ⟨one, 0, fun _ _ => 0⟩

/-- A callback that switches off the terms with a squared error above 1 and keeps the others. -/
noncomputable def switchOff (r : Nat → ℝ) (i : Nat) : ℝ → ℝ := fun _ => if i < 1 ∧ 1 < r i then 0 else 1

/-- A rule for one term depends on the residual of this term only. -/
theorem switchOff_local : Local 1 switchOff := by
  intro r r' h
  funext i _
  unfold switchOff
  by_cases hi : i < 1
  · rw [h i hi]
  · simp [hi]

/-- **C142** (refutation). It is not true that a callback of RESIDUALS_UPDATED can update the M-estimators before the cost of `Optimizer2`
is computed: for one term with the error 2 and a callback that switches off residuals above 1 the solver returns 4, the
legacy optimizer 0. -/
theorem C142_solver_counterexample :
    (solverEvaluate (fun _ => .chi) 1 true (byResiduals switchOff) oneSolver (fun _ _ => 2)).2 = 4 ∧
    cost (fun _ => .chi) 1 one (chosen (fun _ => .chi) one switchOff fun _ _ => 2) (fun _ _ => 2) = 0 ∧
    (legacyEvaluate (fun _ => .chi) 1 (byResiduals switchOff) one (fun _ _ => 2)).2 = 0 := by
  have h2 : cost (fun _ => .chi) 1 one (chosen (fun _ => .chi) one switchOff fun _ _ => 2) (fun _ _ => 2) = 0 := by
    simp [cost, chosen, switchOff, raw, one]
  refine ⟨?_, h2, ?_⟩
  · rw [(C142_solver_too_late _ _ _ _ _ _).1]
    simp [cost, raw, one, oneSolver]; norm_num
  · rw [(C142_legacy _ _ _ _ _).1, choose_seen switchOff_local _ (fun i => ⟨rfl, rfl⟩), h2]

/-- The hypotheses of `C142_runs` and `C142_mixed_weights` hold for this term, and the runs differ: errors 2, 1 and 1. -/
example : Local 1 switchOff ∧ (0 : Nat) < 1 ∧
    legacyRun (fun _ => .chi) 1 (byResiduals switchOff) one [fun _ _ => 2, fun _ _ => 1, fun _ _ => 1] = [0, 1, 1] ∧
    solverRun (fun _ => .chi) 1 true (byResiduals switchOff) oneSolver [fun _ _ => 2, fun _ _ => 1, fun _ _ => 1]
      = [4, 0, 1] := by
  refine ⟨switchOff_local, Nat.one_pos, ?_, ?_⟩
  · rw [(C142_runs _ 1 true _ switchOff_local one oneSolver rfl _).1]
    simp [cost, chosen, switchOff, raw, one]
  · rw [(C142_runs _ 1 true _ switchOff_local one oneSolver rfl _).2]
    simp only [lagged, cost, chosen, switchOff, raw, one, List.cons.injEq]
    norm_num

end Verif.ErrorTerm.Residuals
