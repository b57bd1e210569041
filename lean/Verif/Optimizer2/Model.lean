import Verif.Prelude
import Verif.Dbl

/-!
Model of `Optimizer2` (`aslam_backend/src/Optimizer2.cpp`, O2 below) together with the part of
`OptimizerBase` (`src/OptimizerBase.cpp`, OB below) that it uses. Linear solver, trust-region policy and
error terms are arbitrary (parameters of the model); so everything proved holds for all of them.
Simplified: callbacks do not change design variables or error terms; timers and printing are left out.
-/
namespace Verif.Optimizer2

/-- `ConvergenceStatus`, OptimizerBase.hpp:33-41. -/
inductive Conv where
  | inProgress | failure | gradientNorm | dx | dObjective | maxIterations
  deriving DecidableEq, Repr

/-- `OptimizerStatus::failure`, OB:69-72. -/
def Conv.isFailure (c : Conv) : Bool := c == .failure

/-- `OptimizerStatus::success`, OB:64-67. -/
def Conv.isSuccess (c : Conv) : Bool := c != .inProgress && !c.isFailure

/-- `OptimizerBase::isInProgress`, implementation/OptimizerBaseImplementation.hpp:52-55. -/
def Conv.isInProgress (c : Conv) : Bool := !c.isFailure && !c.isSuccess

/-- What the optimizer works with. `X` is the state of all design variables, `D` the type of steps, `P` the
state of the trust-region policy (including the linear solver).
`cost`: `_solver->evaluateError(…)`, O2:304-310. `update`: the loop over the design variables, O2:279-286.
`revert`: O2:297-302. `maxAbs`: `_dx.array().abs().maxCoeff()`, O2:289. `start`: `optimizationStarting`,
O2:182. `solve`: `solveSystem(J, previousIterationFailed, nThreads, _dx)`, O2:194, which also sees the
design variables (it evaluates Jacobians) and the old content of `_dx`. `reverts`: `revertOnFailure()`. -/
structure Setup (K X D P : Type) where
  cost : X → Dbl K
  update : X → D → X
  revert : X → X
  maxAbs : D → Dbl K
  size : D → Nat
  numOpt : Nat
  start : P → Dbl K → P
  solve : P → X → D → Dbl K → Bool → P × Bool × D
  reverts : Bool

/-- The options read by the algorithm, OptimizerBase.hpp:59-64. -/
structure Options (K : Type) where
  convergenceDeltaX : K
  convergenceDeltaError : K
  maxIterations : Int

/-- Local variables and members during `optimizeImplementation`: the design variables `x`, the policy `p`,
`_dx`, `_status.error`, `_p_J`, `deltaX`, `deltaJ`, `previousIterationFailed`, `linearSolverFailure`,
`srv.iterations`, `srv.failedIterations`, `numJacobianEvaluations`, `numErrorEvaluations` and the
arguments (current cost, previous lowest cost) of the COST_UPDATED events issued so far. O2:152-182, Optimizer2.hpp:169-185. -/
structure St (K X D P : Type) where
  x : X
  p : P
  dx : D
  error : Dbl K
  pJ : Dbl K
  deltaX : Dbl K
  deltaJ : Dbl K
  prevFailed : Bool
  lsf : Bool
  iterations : Int
  failed : Int
  numJac : Nat
  numErr : Nat
  events : List (Dbl K × Dbl K)

/-- What survives between calls of `optimize`: design variables, policy, `_dx`, `_status` (with `srv`) and
whether the problem manager is initialised. Optimizer2.hpp:169-185. -/
structure Obj (K X D P : Type) where
  x : X
  p : P
  dx : D
  initialized : Bool
  iterations : Int
  failed : Int
  linearSolverFailure : Bool
  conv : Conv
  jStart : Dbl K
  jFinal : Dbl K
  dXFinal : Dbl K
  dJFinal : Dbl K
  numJac : Nat
  numErr : Nat
  events : List (Dbl K × Dbl K)

variable {K X D P : Type} [LinearOrder K] [CommRing K]

/-- The loop condition, O2:187-191. -/
def running (o : Options K) (s : St K X D P) : Bool :=
  decide (s.iterations < o.maxIterations) && decide (s.failed < o.maxIterations) &&
  ((Dbl.lt (.fin o.convergenceDeltaX) s.deltaX && Dbl.lt (.fin o.convergenceDeltaError) (Dbl.abs s.deltaJ)) || s.lsf)

/-- The loop body, O2:193-242. A step of the wrong size throws (line 196). -/
def iter (S : Setup K X D P) (s : St K X D P) : Res (St K X D P) :=
  let r := S.solve s.p s.x s.dx s.error s.prevFailed
  let s := { s with p := r.1, dx := r.2.2, numJac := s.numJac + 1 }
  if S.size s.dx ≠ S.numOpt then .exc
  else if !r.2.1 then
    .ok { s with prevFailed := true, lsf := true, failed := s.failed + 1 }
  else
    let x' := S.update s.x s.dx
    let err := S.cost x'
    let dJ := Dbl.sub s.pJ err
    let s := { s with x := x', deltaX := S.maxAbs s.dx, error := err, deltaJ := dJ, numErr := s.numErr + 1,
                      events := s.events ++ [(err, s.pJ)], iterations := s.iterations + 1 }
    if S.reverts then
      if Dbl.lt dJ (.fin 0) then
        .ok { s with x := S.revert x', failed := s.failed + 1, prevFailed := true }
      else .ok { s with pJ := err, prevFailed := false }
    else .ok { s with pJ := err }

theorem iter_counts (S : Setup K X D P) (s s' : St K X D P) (h : iter S s = .ok s') :
    (s'.iterations = s.iterations ∧ s'.failed = s.failed + 1) ∨
    (s'.iterations = s.iterations + 1 ∧ (s'.failed = s.failed ∨ s'.failed = s.failed + 1)) := by
  unfold iter at h
  simp only at h
  repeat' (split at h)
  all_goals cases h
  all_goals simp

/-- The `while` loop, O2:187-243. That Lean accepts the definition shows that the loop ends: every pass
increments `iterations` or `failedIterations`. -/
def loop (S : Setup K X D P) (o : Options K) (s : St K X D P) : Res (St K X D P) :=
  if h : running o s = true then
    match h' : iter S s with
    | .ok s' => loop S o s'
    | .exc => .exc
    | .ub => .ub
  else .ok s
termination_by ((o.maxIterations - s.iterations).toNat + (o.maxIterations - s.failed).toNat)
decreasing_by
  have := iter_counts S s s' h'
  simp only [running, Bool.and_eq_true, decide_eq_true_eq] at h
  omega

/-- Setting the status at the end, O2:250-258; `c` is the status before. -/
def classify (o : Options K) (c : Conv) (s : St K X D P) : Conv :=
  if o.maxIterations ≤ s.iterations then .maxIterations
  else if s.lsf || decide (o.maxIterations ≤ s.failed) then .failure
  else if Dbl.le s.deltaX (.fin o.convergenceDeltaX) then .dx
  else if Dbl.le (Dbl.abs s.deltaJ) (.fin o.convergenceDeltaError) then .dObjective
  else c

/-- The state when the loop is entered, O2:159-182. -/
def enter (S : Setup K X D P) (o : Options K) (b : Obj K X D P) : St K X D P :=
  { x := b.x, p := S.start b.p (S.cost b.x), dx := b.dx, error := S.cost b.x, pJ := S.cost b.x,
    deltaX := .fin (o.convergenceDeltaX + 1), deltaJ := .fin (o.convergenceDeltaError + 1),
    prevFailed := false, lsf := false, iterations := b.iterations, failed := b.failed,
    numJac := b.numJac, numErr := b.numErr + 1, events := b.events ++ [(S.cost b.x, .fin (-1))] }

/-- `OptimizerBase::initialize` as far as the status is concerned, OB:129-139, OB:58-62 and O2:38-40. The
policy and solver are set up by `initializeImplementation` (O2:104-116), not modelled. -/
def initObj (b : Obj K X D P) : Obj K X D P :=
  { b with initialized := true, iterations := 0, failed := 0, linearSolverFailure := false, conv := .inProgress,
           jStart := .fin 0, jFinal := .fin 0, dXFinal := .fin 0, dJFinal := .fin 0, numJac := 0, numErr := 0 }

/-- The members after the loop, O2:244-258. -/
def leave (S : Setup K X D P) (o : Options K) (b : Obj K X D P) (s : St K X D P) : Obj K X D P :=
  { b with x := s.x, p := s.p, dx := s.dx, iterations := s.iterations, failed := s.failed,
           linearSolverFailure := s.lsf, conv := classify o b.conv s, jStart := S.cost b.x, jFinal := s.pJ,
           dXFinal := s.deltaX, dJFinal := s.deltaJ, numJac := s.numJac, numErr := s.numErr, events := s.events }

/-- `optimizeImplementation`, O2:152-259. -/
def run (S : Setup K X D P) (o : Options K) (b : Obj K X D P) : Res (Obj K X D P) :=
  loop S o (enter S o b) >>= fun s => .ok (leave S o b s)

/-- `optimize()`, OB:122-127 and O2:146-150: initialises only if necessary. -/
def optimize (S : Setup K X D P) (o : Options K) (b : Obj K X D P) : Res (Obj K X D P) :=
  run S o (if b.initialized then b else initObj b)

/-- `OptimizerBase::updateConvergenceStatus`, OB:141-158, used by the gradient-based optimizers: `g`, `dJ`,
`dX` are gradientNorm, deltaError, maxDeltaX. -/
def updateConvergence (cg ce cx : K) (g dJ dX : Dbl K) (c : Conv) : Conv :=
  if Dbl.lt g (.fin cg) then .gradientNorm
  else if Dbl.lt (Dbl.abs dJ) (.fin ce) then .dObjective
  else if Dbl.lt dX (.fin cx) then .dx
  else c

/-- `OptimizerOptionsBase::check`, OB:37-44. -/
def Options.check (cg cx ce : K) (maxIterations : Int) : Bool :=
  decide (0 ≤ cg) && decide (0 ≤ cx) && decide (0 ≤ ce) && (decide (0 < cx) || decide (0 < cg) || decide (0 < ce)) &&
  decide (-1 ≤ maxIterations)

end Verif.Optimizer2
