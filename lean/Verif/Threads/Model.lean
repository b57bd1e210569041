import Verif.Prelude
import Mathlib.Data.List.Basic
import Mathlib.Algebra.BigOperators.Group.List.Basic

/-!
Model of the threaded range processing
(`aslam_backend/src/util/ThreadedRangeProcessor.cpp`, `aslam_backend/src/LinearSystemSolver.cpp`,
`aslam_backend/include/aslam/backend/implementation/CompressedColumnJacobianTransposeBuilder.hpp`).
-/
namespace Verif.Threads

/-- A job: thread index, first and past-the-end index of its sub-range. LinearSystemSolver.cpp:31-58. -/
structure Job where
  id : Nat
  first : Nat
  last : Nat
  deriving DecidableEq, Repr

/-- The array `indices` for `t` threads and `n` elements: `t+1` entries, filled by
`indices[i + 1] = indices[i] + nJPerThread`, last entry overwritten with `n`
(ThreadedRangeProcessor.cpp:26-31, LinearSystemSolver.cpp:37-43,
CompressedColumnJacobianTransposeBuilder.hpp:69-75). Simplification: the code uses `int`; the model has
unbounded integers, so it describes ranges shorter than 2^31. -/
def indices (t n : Nat) : List Nat :=
  let per := max 1 (n / t)
  let filled := (List.range t).foldl (fun (l : List Nat) i => l.set (i + 1) (l.getD i 0 + per))
    (List.replicate (t + 1) 0)
  filled.set t n

/-- The jobs started by the loop over the threads (ThreadedRangeProcessor.cpp:35-40,
LinearSystemSolver.cpp:47-53, CompressedColumnJacobianTransposeBuilder.hpp:79-84). -/
def split (t n : Nat) : List Job :=
  (List.range t).map fun i => ⟨i, (indices t n).getD i 0, (indices t n).getD (i + 1) 0⟩

/-- `runThreadedJob(job, rangeLength, nThreads)`: which jobs are started,
ThreadedRangeProcessor.cpp:14-45. -/
def runThreadedJob (n nThreads : Nat) : Res (List Job) :=
  if nThreads = 0 then .exc
  else if n = 0 then .ok []
  else if nThreads = 1 then .ok [⟨0, 0, n⟩]
  else .ok (split (min nThreads n) n)

/-- `setupThreadedJob`: LinearSystemSolver.cpp:31-58 and
CompressedColumnJacobianTransposeBuilder.hpp:60-92 (the same code). With no elements and more than one
thread, `size() / nThreads` divides by zero: undefined behaviour. -/
def setupThreadedJob (n nThreads : Nat) : Res (List Job) :=
  if nThreads ≤ 1 then .ok [⟨0, 0, n⟩]
  else if min nThreads n = 0 then .ub
  else .ok (split (min nThreads n) n)

/-- What the caller sees after `for (auto& j : jobs) j.get();` (ThreadedRangeProcessor.cpp:41-43 and the
copies): `get` waits for the job and rethrows its exception; unwinding destroys the remaining futures,
whose destructors wait (`std::async`). So all jobs have finished in any case, and the exception of the
first failing job in thread order is thrown. `outcomes` has one entry per job, `none` for a normal
return. -/
def join {ε : Type} (outcomes : List (Option ε)) : Option ε := outcomes.findSome? id

/-! ### Shared memory of `LinearSystemSolver::evaluateError` -/

/-- What an error term contributes: `rowBase()`, the components of `getWeightedError` (their number is
the dimension), and the result of `evaluateError()`. LinearSystemSolver.cpp:22-27. -/
structure TermData (F : Type) where
  rowBase : Nat
  err : List F
  cost : F

/-- Memory: `_threadLocalErrors` and `_e`. LinearSystemSolver.hpp:98-122. -/
structure Mem (F : Type) where
  acc : Nat → F
  e : Nat → F

/-- Memory actions of `evaluateErrors`, LinearSystemSolver.cpp:23-28: the accumulation into the
thread's own slot and the element writes of the segment assignment. -/
inductive Act where
  | accumulate (term : Nat)
  | write (term row : Nat)
  deriving DecidableEq, Repr

variable {F : Type} [Add F] [Neg F] [Zero F]

/-- Effect of one action of thread `tid`, LinearSystemSolver.cpp:25,27. Addition is not assumed to be
associative or commutative, so this also covers floating point. -/
def act (terms : List (TermData F)) (m : Mem F) (tid : Nat) : Act → Mem F
  | .accumulate k =>
    match terms[k]? with
    | none => m
    | some t => { m with acc := fun i => if i = tid then m.acc i + t.cost else m.acc i }
  | .write k r =>
    match terms[k]? with
    | none => m
    | some t => { m with e := fun i => if i = t.rowBase + r then - t.err.getD r 0 else m.e i }

/-- Actions of one job in program order, LinearSystemSolver.cpp:23-28. -/
def program (terms : List (TermData F)) (j : Job) : List Act :=
  (List.range' j.first (j.last - j.first)).flatMap fun k =>
    .accumulate k :: (List.range ((terms[k]?.map fun t => t.err.length).getD 0)).map fun r => .write k r

/-- Running a schedule: a sequence of (thread, action). Not code: an interleaving of the jobs started at LinearSystemSolver.cpp:31-58. -/
def execute (terms : List (TermData F)) (m : Mem F) (sched : List (Nat × Act)) : Mem F :=
  sched.foldl (fun m s => act terms m s.1 s.2) m

/-- Start of `evaluateError`, LinearSystemSolver.cpp:63-65: the thread-local errors are zero. -/
def start (e : Nat → F) : Mem F := ⟨fun _ => 0, e⟩

/-- Gathering, LinearSystemSolver.cpp:69-71: sum of the thread-local errors in thread order. -/
def gather (nThreads : Nat) (m : Mem F) : F := (List.range nThreads).foldl (fun s i => s + m.acc i) 0

/-- Row bases assigned by `ProblemManager::initialize`, ProblemManager.cpp:80-86 (also
OptimizerBase and Optimizer): prefix sums of the dimensions. -/
def assignRowBases : Nat → List (List F × F) → List (TermData F)
  | _, [] => []
  | b, (err, cost) :: ts => ⟨b, err, cost⟩ :: assignRowBases (b + err.length) ts

end Verif.Threads
