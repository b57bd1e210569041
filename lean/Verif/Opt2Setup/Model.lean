import Mathlib.Data.List.Basic

/-!
How an `Optimizer2` gets its linear solver, its trust-region policy and its problem: `aslam_backend/src/Optimizer2.cpp` (O below), `src/OptimizerBase.cpp` (B), `src/util/ProblemManager.cpp` (P),
`src/LinearSystemSolver.cpp` (L). Solvers, policies, problems and optimizers are objects with an identity, since the options hold shared pointers: any number of optimizers may share any of them.
What one optimization computes is not modelled here (see `Verif.Optimizer2`), only what it is run with. An error term and a design variable are numbers.
-/
namespace Verif.Opt2Setup

/-- The solvers, by `name()`: SparseCholeskyLinearSystemSolver.hpp:34, BlockCholeskyLinearSystemSolver.hpp:40, SparseQrLinearSystemSolver.hpp:31, DenseQrLinearSystemSolver.hpp:33. -/
inductive SolverKind where
  | sparseCholesky
  | blockCholesky
  | sparseQr
  | denseQr
  deriving DecidableEq, Repr

/-- The policies, by `name()`: GaussNewtonTrustRegionPolicy.hpp:28, LevenbergMarquardtTrustRegionPolicy.hpp:35, DogLegTrustRegionPolicy.hpp:29, LineSearchTrustRegionPolicy.hpp:26. -/
inductive PolicyKind where
  | gaussNewton
  | levenbergMarquardt
  | dogLeg
  | lineSearch
  deriving DecidableEq, Repr

/-- `requiresAugmentedDiagonal`: GaussNewtonTrustRegionPolicy.cpp:41-43, LevenbergMarquardtTrustRegionPolicy.cpp:113-115, DogLegTrustRegionPolicy.cpp:159-161, LineSearchTrustRegionPolicy.cpp:54-56. -/
def PolicyKind.requiresAugmentedDiagonal : PolicyKind → Bool
  | .levenbergMarquardt => true
  | _ => false

/-- A solver. `cond` is `_useDiagonalConditioner` (LinearSystemSolver.hpp:110), `none` while it was never written: the constructor L:10-13 does not initialise it. `made` are the design variables and
the error terms the matrix structure was made for, `none` before. -/
structure Solver where
  kind : SolverKind
  cond : Option Bool
  made : Option (List Nat × List Nat)
  deriving DecidableEq, Repr

/-- `new …LinearSystemSolver()`, L:10-13. -/
def Solver.new (k : SolverKind) : Solver := ⟨k, none, none⟩

/-- `initMatrixStructure`, L:97-118, with `initMatrixStructureImplementation` of SparseCholeskyLinearSystemSolver.cpp:18-40, BlockCholeskyLinearSystemSolver.cpp:36-57,
SparseQrLinearSystemSolver.cpp:30-52 (`_useDiagonalConditioner = false`) and DenseQrLinearSystemSolver.cpp:27-31 (the argument is ignored and the member is not written). -/
def Solver.initMatrixStructure (s : Solver) (dvs terms : List Nat) (useDiagonalConditioner : Bool) : Solver :=
  { s with
    made := some (dvs, terms)
    cond := match s.kind with
      | .sparseCholesky => some useDiagonalConditioner
      | .blockCholesky => some useDiagonalConditioner
      | .sparseQr => some false
      | .denseQr => s.cond }

/-- A problem as `ProblemManager::initialize` reads it, P:39-89: design variables with `isActive()`, the error terms, and the number of non-squared terms. -/
structure Problem where
  dvs : List (Nat × Bool)
  terms : List Nat
  nonSquared : Nat
  deriving DecidableEq, Repr

/-- An optimizer: `_options.linearSystemSolver`, `_options.trustRegionPolicy` (Optimizer2Options.hpp:34-35), `_solver`, `_trustRegionPolicy` (Optimizer2.hpp:174-176), and of its problem manager the
problem, `_isInitialized`, `_designVariables` and `_errorTermsS` (ProblemManager.hpp:125-156). Other options do not take part. -/
structure Optimizer where
  optSolver : Option Nat
  optPolicy : Option Nat
  solver : Nat
  policy : Nat
  problem : Option Nat
  initialized : Bool
  dvs : List Nat
  terms : List Nat
  deriving DecidableEq, Repr

/-- All objects of the program. An object is named by its position. Objects are never destroyed in the model.
Not code: the objects that O:70-101 points to. -/
structure World where
  solvers : List Solver
  policies : List PolicyKind
  problems : List Problem
  opts : List Optimizer
  deriving DecidableEq, Repr

/-- What one optimization is run with, O:153-255: the solver, the policy, the flag `_useDiagonalConditioner` that decides in `solveSystem` whether the conditioner is added
(SparseCholeskyLinearSystemSolver.cpp:55, BlockCholeskyLinearSystemSolver.cpp:78, SparseQrLinearSystemSolver.cpp:67, DenseQrLinearSystemSolver.cpp:43), what the solver's matrices were made for,
and the design variables updated with the step (O:279-286). -/
structure Run where
  solver : SolverKind
  policy : PolicyKind
  damped : Option Bool
  built : Option (List Nat × List Nat)
  updated : List Nat
  deriving DecidableEq, Repr

/-- How a call ends: it returns; it throws; it runs an optimization; it uses an object that does not exist. Not code: outcomes of B:122-133. -/
inductive Outcome where
  | done
  | threw
  | ran (r : Run)
  | ub
  deriving DecidableEq, Repr

/-- `initializeLinearSolver`, O:91-101. -/
def initializeLinearSolver (w : World) (x : Optimizer) : World × Optimizer :=
  match x.optSolver with
  | none => ({ w with solvers := w.solvers ++ [Solver.new .sparseCholesky] }, { x with solver := w.solvers.length })
  | some s => (w, { x with solver := s })

/-- The first part of `initializeTrustRegionPolicy`, O:72-77. -/
def namedPolicy (w : World) (x : Optimizer) : World × Optimizer :=
  match x.optPolicy with
  | none => ({ w with policies := w.policies ++ [PolicyKind.levenbergMarquardt] }, { x with policy := w.policies.length })
  | some p => (w, { x with policy := p })

/-- `initializeTrustRegionPolicy`, O:70-88. -/
def initializeTrustRegionPolicy (w : World) (x : Optimizer) : World × Optimizer :=
  let a := namedPolicy w x
  if a.1.solvers[a.2.solver]?.map Solver.kind = some SolverKind.sparseQr ∧ a.1.policies[a.2.policy]? = some PolicyKind.levenbergMarquardt then
    ({ a.1 with policies := a.1.policies ++ [PolicyKind.dogLeg] }, { a.2 with policy := a.1.policies.length })
  else a

/-- The active design variables, P:51-56. -/
def Problem.active (q : Problem) : List Nat := (q.dvs.filter (·.2)).map (·.1)

/-- `ProblemManager::initialize`, P:39-95, for a problem that is set: the lists are cleared and filled, two checks throw, and only then is the flag set. The flag is not cleared at the start. -/
def managerInitialize (q : Problem) (x : Optimizer) : Optimizer × Bool :=
  if q.active = [] then ({ x with dvs := [], terms := [] }, false)
  else if q.terms = [] ∧ q.nonSquared = 0 then ({ x with dvs := q.active, terms := [] }, false)
  else ({ x with dvs := q.active, terms := q.terms, initialized := true }, true)

/-- `OptimizerBase::initialize`, B:129-133, with `Optimizer2::initializeImplementation`, O:103-115. -/
def initializeAll (w : World) (o : Nat) (x : Optimizer) : World × Outcome :=
  match x.problem with
  | none => (w, .threw)
  | some p =>
    match w.problems[p]? with
    | none => (w, .ub)
    | some q =>
      let m := managerInitialize q x
      if m.2 = false then ({ w with opts := w.opts.set o m.1 }, .threw) else
      let a := initializeLinearSolver w m.1
      let b := initializeTrustRegionPolicy a.1 a.2
      match b.1.solvers[b.2.solver]?, b.1.policies[b.2.policy]? with
      | some s, some k =>
        ({ b.1 with
            solvers := b.1.solvers.set b.2.solver (s.initMatrixStructure b.2.dvs b.2.terms k.requiresAugmentedDiagonal)
            opts := b.1.opts.set o b.2 }, .done)
      | _, _ => (b.1, .ub)

/-- `optimizeImplementation`, O:153-255, as far as it matters here: what it is run with. -/
def optimizeImplementation (w : World) (o : Nat) : Outcome :=
  match w.opts[o]? with
  | none => .ub
  | some x =>
    match w.solvers[x.solver]?, w.policies[x.policy]? with
    | some s, some k => .ran ⟨s.kind, k, s.cond, s.made, x.dvs⟩
    | _, _ => .ub

/-- `OptimizerBase::optimize`, B:122-127. -/
def optimize (w : World) (o : Nat) (x : Optimizer) : World × Outcome :=
  if x.initialized then (w, optimizeImplementation w o) else
  let r := initializeAll w o x
  if r.2 = .done then (r.1, optimizeImplementation r.1 o) else r

/-- The calls of a program. `modify` stands for every change of a problem, including `setActive` of one of its variables.
B:122-133, O:70-101, LinearSystemSolver.hpp:30-75. -/
inductive Op where
  | newSolver (k : SolverKind)
  | newPolicy (k : PolicyKind)
  | newProblem (q : Problem)
  | modify (p : Nat) (q : Problem)
  | newOptimizer (s p : Option Nat)
  | setOptions (o : Nat) (s p : Option Nat)
  | setProblem (o p : Nat)
  | initializeLinearSolver (o : Nat)
  | initializeTrustRegionPolicy (o : Nat)
  | init (o : Nat)
  | optimize (o : Nat)
  deriving DecidableEq, Repr

/-- One call: the constructors of solvers, policies and problems; the constructor O:42-47 (the one from a property tree, O:49-64, ends the same way); `setOptions`, Optimizer2.hpp:89; `setProblem`,
OptimizerProblemManagerBase.hpp:27 with P:32-36; and the functions above. -/
def step (w : World) : Op → World × Outcome
  | .newSolver k => ({ w with solvers := w.solvers ++ [Solver.new k] }, .done)
  | .newPolicy k => ({ w with policies := w.policies ++ [k] }, .done)
  | .newProblem q => ({ w with problems := w.problems ++ [q] }, .done)
  | .modify p q => ({ w with problems := w.problems.set p q }, .done)
  | .newOptimizer s p =>
    let a := initializeLinearSolver w ⟨s, p, 0, 0, none, false, [], []⟩
    let b := initializeTrustRegionPolicy a.1 a.2
    ({ b.1 with opts := b.1.opts ++ [b.2] }, .done)
  | .setOptions o s p =>
    match w.opts[o]? with
    | none => (w, .ub)
    | some x => ({ w with opts := w.opts.set o { x with optSolver := s, optPolicy := p } }, .done)
  | .setProblem o p =>
    match w.opts[o]? with
    | none => (w, .ub)
    | some x => ({ w with opts := w.opts.set o { x with problem := some p, initialized := false } }, .done)
  | .initializeLinearSolver o =>
    match w.opts[o]? with
    | none => (w, .ub)
    | some x =>
      let a := initializeLinearSolver w x
      ({ a.1 with opts := a.1.opts.set o a.2 }, .done)
  | .initializeTrustRegionPolicy o =>
    match w.opts[o]? with
    | none => (w, .ub)
    | some x =>
      let a := initializeTrustRegionPolicy w x
      ({ a.1 with opts := a.1.opts.set o a.2 }, .done)
  | .init o =>
    match w.opts[o]? with
    | none => (w, .ub)
    | some x => initializeAll w o x
  | .optimize o =>
    match w.opts[o]? with
    | none => (w, .ub)
    | some x => optimize w o x

/-- The world after a sequence of calls. Not code: a sequence of calls. -/
def run (w : World) : List Op → World
  | [] => w
  | op :: ops => run (step w op).1 ops

/-- Nothing exists yet. Not code. -/
def World.empty : World := ⟨[], [], [], []⟩

end Verif.Opt2Setup
