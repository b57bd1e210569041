import Verif.LineSearch.Model
import Mathlib.Data.Matrix.Mul
import Mathlib.LinearAlgebra.Matrix.Notation

/-!
Model of the BFGS optimizer (`aslam_backend/src/OptimizerBFGS.cpp`, O below; `OptimizerBase.cpp`, P below) in exact arithmetic over an
ordered field, on top of the line-search model. Not modelled: callbacks, log output, timers, option loading, the counters of error and
gradient evaluations. Numbers are finite, so the failure test for an infinite error (O:184-188) never applies and is left out.
-/
namespace Verif.BFGS
open LineSearch Matrix

variable {K : Type} [LinearOrder K] [Field K] [FloatLike.Sq K] {X : Type} {n : Nat}

/-- The problem: error, gradient (a row vector, O:87), the update of the design variables (util/utils.hpp:119-133), the norm of a gradient
(O:89, O:135) and the largest change of a parameter between two states (O:138). -/
structure Env (K X : Type) (n : Nat) where
  err : X → K
  grad : X → Fin n → K
  upd : X → K → (Fin n → K) → X
  norm : (Fin n → K) → K
  diff : X → X → K

/-- What the line search sees of it, O:53. -/
def Env.ls (E : Env K X n) : LineSearch.Env K X (Fin n → K) := ⟨E.err, E.grad, E.upd, fun a b => a ⬝ᵥ b⟩

/-- `OptimizerOptionsBFGS`, OptimizerBase.hpp:59-62 with the line-search options. No `maxIter` means -1 (unlimited). -/
structure Opts (K : Type) where
  cGrad : K
  cDx : K
  cDerr : K
  maxIter : Option Nat
  ls : Opt K

/-- `ConvergenceStatus`, OptimizerBase.hpp:24-31 (the values this optimizer uses). -/
inductive Conv where
  | inProgress | failure | gradientNorm | dObjective | dX
  deriving DecidableEq, Repr

/-- The optimizer with its line search (whose `x` are the design variables), `_Bk`, the local `gfk` and the status
(OptimizerBase.hpp:94-101). `dErr` and `dX` are NaN (absent) before the first iteration; `error` is set at the start of `optimize`. -/
structure State (K X : Type) (n : Nat) where
  ls : LS K X (Fin n → K)
  B : Matrix (Fin n) (Fin n) K
  g : Fin n → K
  conv : Conv
  iters : Nat
  error : K
  gNorm : K
  dErr : Option K
  dX : Option K

/-- `updateConvergenceStatus`, P:141-158, after IN_PROGRESS has been set (O:191). -/
def convergence (o : Opts K) (gNorm : K) (dErr dX : Option K) : Conv :=
  if gNorm < o.cGrad then .gradientNorm
  else if dErr.any (fun e => |e| < o.cDerr) then .dObjective
  else if dX.any (fun e => e < o.cDx) then .dX
  else .inProgress

/-- `updateStatus`, O:177-197. -/
def updateStatus (o : Opts K) (ok : Bool) (s : State K X n) : State K X n :=
  { s with conv := if ok then convergence o s.gNorm s.dErr s.dX else .failure }

/-- `OptimizerStatus::success`, P:64-67 (every value but IN_PROGRESS and FAILURE). -/
def Conv.success : Conv → Bool
  | .inProgress => false
  | .failure => false
  | _ => true

/-- The search direction, O:109-124: an ascent direction resets `_Bk` once; a second one throws. -/
def direction (E : Env K X n) (s : State K X n) : Res (State K X n × (Fin n → K)) :=
  let p := -(s.B *ᵥ s.g)
  match setSearchDirection E.ls s.ls p with
  | (l, .ok _) => .ok ({ s with ls := l }, p)
  | (l, .ub) => .ub
  | (l, .exc) =>
    let p1 := -((1 : Matrix (Fin n) (Fin n) K) *ᵥ s.g)
    match setSearchDirection E.ls l p1 with
    | (l1, .ok _) => .ok ({ s with ls := l1, B := 1 }, p1)
    | (_, .exc) => .exc
    | (_, .ub) => .ub

/-- The factor `rhok`, O:154-158: the inverse is infinite exactly if the product is zero. -/
def rho (s y : Fin n → K) : K := if y ⬝ᵥ s = 0 then 1000 else 1 / (y ⬝ᵥ s)

/-- The new inverse Hessian, O:160-162. -/
def update (B : Matrix (Fin n) (Fin n) K) (s y : Fin n → K) : Matrix (Fin n) (Fin n) K :=
  let C := rho s y • vecMulVec s y
  let A := 1 - C
  A * (B * Aᵀ) + rho s y • vecMulVec s s

/-- The status after a search from state `x0`, O:133-140. -/
def afterSearch (E : Env K X n) (o : Opts K) (x0 : X) (s : State K X n) (ok : Bool) : State K X n :=
  updateStatus o ok { s with gNorm := E.norm s.ls.grad, dErr := some (s.ls.err - s.error), error := s.ls.err, dX := some (E.diff s.ls.x x0) }

/-- The update at the end of an iteration, O:150-162, and the counter of O:100. -/
def finish (s : State K X n) (p : Fin n → K) : State K X n :=
  { s with B := update s.B (s.ls.step • p) (s.ls.grad - s.g), g := s.ls.grad, iters := s.iters + 1 }

/-- The body of the loop, O:102-167. The flag tells whether the loop goes on. A getter that throws (O:136-137) ends everything. -/
def iteration (E : Env K X n) (o : Opts K) (s : State K X n) : Res (State K X n × Bool) :=
  (direction E s).bind fun r =>
    match wolfe12 E.ls o.ls r.1.ls with
    | (_, .exc) => .exc
    | (_, .ub) => .ub
    | (l, .ok b) =>
      (getError l).bind fun _ =>
        let s1 := afterSearch E o r.1.ls.x { r.1 with ls := l } b
        if s1.conv.success || s1.conv == .failure then .ok (s1, false) else .ok (finish s1 r.2, true)

/-- The loop, O:100-168; the first argument bounds the number of passes (`maxIterations`, or any number if unlimited). -/
def loop (E : Env K X n) (o : Opts K) : Nat → State K X n → Res (State K X n)
  | 0, s => .ok s
  | k + 1, s => (iteration E o s).bind fun r => if r.2 then loop E o k r.1 else .ok r.1

/-- `resetImplementation`, O:75-78, with `OptimizerStatus::reset`, P:58-62. The NaN of `_error_old` cannot be expressed by a number: the line
search is started with a value `eo` that is arbitrary in the theorems; with `eo` below the current error the first trial step is the initial step
length, as with NaN. -/
def reset (E : Env K X n) (eo : K) (l : LS K X (Fin n → K)) : State K X n :=
  { ls := (initialize' E.ls l none none none eo).1, B := 1, g := fun _ => 0, conv := .inProgress, iters := 0, error := 0, gNorm := 0, dErr := none, dX := none }

/-- The start of `optimizeImplementation`, O:88-95. -/
def start (E : Env K X n) (o : Opts K) (s : State K X n) : State K X n :=
  updateStatus o true { s with g := s.ls.grad, gNorm := E.norm s.ls.grad, error := s.ls.err }

/-- `optimizeImplementation`, O:80-175. -/
def optimize (E : Env K X n) (o : Opts K) (passes : Nat) (s : State K X n) : Res (State K X n) :=
  if (start E o s).conv.success then .ok (start E o s) else loop E o passes (start E o s)

end Verif.BFGS
