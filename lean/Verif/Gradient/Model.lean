import Verif.Jacobian.Model
import Verif.Threads.Model
import Mathlib.Algebra.Order.Group.Abs
import Mathlib.Algebra.Order.Ring.Defs

/-!
Model of the gradient computation (`aslam_backend/src/util/ProblemManager.cpp`, called P below), of the weights of `ScalarNonSquaredErrorTerm` (`aslam_backend/src/ScalarNonSquaredErrorTerm.cpp`, called N, and its
header, called NH) and of `L1Regularizer` (`aslam_backend_expressions/src/L1Regularizer.cpp`, called L).
-/
namespace Verif.Gradient
open Verif Verif.Jacobian
open Verif.MatrixStack (DMat new)

variable {R : Type} [CommRing R]

/-- An error term as the gradient computation sees it: its dimension, the calls its `getWeightedJacobians` / `evaluateJacobians` makes on the container it is given, and its weighted error vector.
P:140-159, 293-296. -/
structure Term (R : Type) where
  n : Nat
  ops : List (Op R)
  err : Nat → R

/-- Run the calls of a term on a container. P:147-159. -/
def runOps {σ : Type} (debug : Bool) (align : Nat) (env : Env R) (addJ : AddJ R σ) (jc : JC R σ) (ops : List (Op R)) : Res (JC R σ) := Res.run (step debug align env addJ) jc ops

/-- `J.block(0, dv->columnBase(), ..) += grad` for each entry of a sparse container, P:154-157 and P:163-164. `c` are the coefficients the rows are combined with (`2 * error` for a squared term, `1` for a non-squared
one). An out-of-range block is undefined (Eigen assertion). -/
def addEntries (env : Env R) (n : Nat) (c : Nat → R) : SMap R → DMat R → Res (DMat R)
  | [], J => .ok J
  | p :: ps, J => (denseAddJ false env J p.1 ⟨1, p.2.cols, fun _ j => ∑ i ∈ Finset.range n, c i * p.2.e i j⟩).bind fun J => addEntries env n c ps J

/-- `addGradientForErrorTerm` for a squared term, P:140-159. -/
def addSquared (debug : Bool) (align : Nat) (env : Env R) (useDense : Bool) (t : Term R) (J : DMat R) : Res (DMat R) :=
  if useDense then
    (runOps debug align env denseAddJ (newDense t.n J.cols) t.ops).bind fun jc =>
      .ok ⟨J.rows, J.cols, fun r j => J.e r j + ∑ i ∈ Finset.range t.n, (2 * t.err i) * jc.store.e i j⟩
  else
    (runOps debug align env sparseAddJ (newSparse t.n 100) t.ops).bind fun jc => addEntries env t.n (fun i => 2 * t.err i) jc.store J

/-- The loop over the non-squared terms with one dense container around the gradient, P:278-280, P:167-169. -/
def nsDense (debug : Bool) (align : Nat) (env : Env R) : List (Term R) → JC R (DMat R) → Res (JC R (DMat R))
  | [], jc => .ok jc
  | t :: ts, jc => (runOps debug align env denseAddJ jc t.ops).bind fun jc => nsDense debug align env ts jc

/-- The loop over the non-squared terms with one sparse container that is cleared for each term, P:284-289, P:161-165 (`clear()` empties the map and keeps the chain). -/
def nsSparse (debug : Bool) (align : Nat) (env : Env R) : List (Term R) → JC R (SMap R) → DMat R → Res (DMat R)
  | [], _, J => .ok J
  | t :: ts, jc, J => (runOps debug align env sparseAddJ { jc with store := [] } t.ops).bind fun jc => (addEntries env 1 (fun _ => 1) jc.store J).bind fun J => nsSparse debug align env ts jc J

/-- The loop over the squared terms, P:293-296. -/
def sqLoop (debug : Bool) (align : Nat) (env : Env R) (useDense : Bool) : List (Term R) → DMat R → Res (DMat R)
  | [], J => .ok J
  | t :: ts, J => (addSquared debug align env useDense t J).bind fun J => sqLoop debug align env useDense ts J

/-- `evaluateGradients`, P:269-298: non-squared terms `first, .., min(last, #ns) - 1`, then the squared ones. -/
def evaluateGradients (debug : Bool) (align : Nat) (env : Env R) (useDense : Bool) (ns sq : List (Term R)) (first last : Nat) (J : DMat R) : Res (DMat R) :=
  let nsPart := (ns.drop first).take (last - first)
  let cnt := first + nsPart.length
  let J1 := if useDense then (nsDense debug align env nsPart ⟨J.rows, new J.rows 100 9, J⟩).bind fun jc => .ok jc.store else nsSparse debug align env nsPart (newSparse 1 100) J
  J1.bind fun J => sqLoop debug align env useDense ((sq.drop (cnt - ns.length)).take (last - cnt)) J

/-- Run the jobs, each on its own zero vector (P:124-126), and keep the results. -/
def runJobs (debug : Bool) (align : Nat) (env : Env R) (useDense : Bool) (ns sq : List (Term R)) (nCols : Nat) : List Threads.Job → Res (List (DMat R))
  | [] => .ok []
  | j :: js => (evaluateGradients debug align env useDense ns sq j.first j.last ⟨1, nCols, fun _ _ => 0⟩).bind fun g => (runJobs debug align env useDense ns sq nCols js).bind fun gs => .ok (g :: gs)

/-- `applyDesignVariableScaling`, P:135-138, over the active design variables. -/
def applyScaling (env : Env R) : List Nat → DMat R → DMat R
  | [], J => J
  | d :: ds, J => applyScaling env ds ⟨J.rows, J.cols, fun i c => if (env.columnBase d).toNat ≤ c ∧ c < (env.columnBase d).toNat + env.dim d then J.e i c * env.scaling d else J.e i c⟩

/-- `computeGradient`, P:120-133. The threads write to separate vectors; the vectors of threads without a job stay zero. That the jobs do not otherwise interfere (error terms shared between threads, caches) is
assumed here. -/
def computeGradient (debug : Bool) (align : Nat) (env : Env R) (dvs : List Nat) (nCols : Nat) (ns sq : List (Term R)) (nThreads : Nat) (applyDvScaling useDense : Bool) : Res (DMat R) :=
  (Threads.runThreadedJob (ns.length + sq.length) nThreads).bind fun js =>
    (runJobs debug align env useDense ns sq nCols js).bind fun gs =>
      let all := gs ++ List.replicate (nThreads - gs.length) (⟨1, nCols, fun _ _ => 0⟩ : DMat R)
      let sum := all.foldl addMat (⟨1, nCols, fun _ _ => 0⟩ : DMat R)
      .ok (if applyDvScaling then applyScaling env dvs sum else sum)

/-! ### Non-squared terms -/

/-- State of a non-squared term: `_w`, `_error` (N:10: both start at 0) and the policy. -/
structure NSTerm where
  w : R
  error : R
  policy : R → R

/-- `updateRawError`, N:18-21, with `e` the value of `evaluateErrorImplementation`. -/
def NSTerm.updateRawError (t : NSTerm (R := R)) (e : R) : NSTerm (R := R) := { t with error := t.w * e }

/-- `getWeightedError`, NH:72, NH:97-99: the policy gets the absolute value. -/
def NSTerm.weightedError [LinearOrder R] (t : NSTerm (R := R)) : R := t.policy |t.error| * t.error

/-- `evaluateError`, NH:38-41. -/
def NSTerm.evaluateError [LinearOrder R] (t : NSTerm (R := R)) (e : R) : R := (t.updateRawError e).weightedError

/-- `evaluateWeightedJacobians`, N:28-32: the factor applied to the container. The policy gets the stored error, with its sign; nothing is re-evaluated. -/
def NSTerm.weightedFactor (t : NSTerm (R := R)) : R := t.w * t.policy t.error

/-- `evaluateRawJacobians`, N:23-26: the factor applied to the container. -/
def NSTerm.rawFactor (t : NSTerm (R := R)) : R := t.w

/-- The calls of `evaluateRawJacobians` on a container for a term whose implementation makes the calls `impl`. N:23-26. -/
def NSTerm.rawOps (t : NSTerm (R := R)) (impl : List (Op R)) : List (Op R) := .applyS t.rawFactor :: impl ++ [.endScope]

/-! ### L1 regulariser -/

/-- `L1Regularizer::evaluateErrorImplementation`, L:23-31. -/
def l1Error [LinearOrder R] (env : Env R) (x : Nat → R) : List Nat → R
  | [] => 0
  | d :: ds => (if env.active d then |x d| else 0) + l1Error env x ds

/-- The signum of L:38. -/
def signum [LinearOrder R] (x : R) : R := (if (0 : R) < x then 1 else 0) - (if x < (0 : R) then 1 else 0)

/-- `L1Regularizer::evaluateJacobiansImplementation`, L:33-42: the calls on the container. -/
def l1Ops [LinearOrder R] (env : Env R) (x : Nat → R) (ds : List Nat) : List (Op R) :=
  (ds.filter fun d => env.active d).map fun d => .add d ⟨1, 1, fun _ _ => signum (x d)⟩

end Verif.Gradient
