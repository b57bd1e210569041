import Verif.Prelude
import Mathlib.Algebra.Order.Field.Basic
import Mathlib.Algebra.Order.Group.Abs
import Mathlib.Data.Finset.Lattice.Fold
import Mathlib.Data.Fintype.Basic

/-!
Model of `OptimizerRprop` (`aslam_backend/src/OptimizerRprop.cpp`, R below). Values are elements of an ordered
field (no rounding, NaN or overflow). The problem (gradient with regularizer, error, state update) is arbitrary.
-/
namespace Verif.Rprop

/-- `OptimizerOptionsRprop::Method`, OptimizerRprop.hpp:23. -/
inductive Method where
  | rpropPlus | rpropMinus | irpropMinus | irpropPlus
  deriving DecidableEq, Repr

/-- The options, OptimizerRprop.hpp:27-34, and the thresholds of `OptimizerOptionsBase`. -/
structure Opt (K : Type) where
  etaMinus : K
  etaPlus : K
  initialDelta : K
  minDelta : K
  maxDelta : K
  method : Method
  gradientNorm : K
  deltaX : K
  deltaError : K
  maxIterations : Int

variable {K : Type} [LinearOrder K] [Field K]

/-- `OptimizerOptionsRprop::check`, R:29-37 (without the checks of the base class): `true` if nothing is thrown. -/
def Opt.check (o : Opt K) : Bool :=
  decide (0 < o.etaMinus) && decide (o.etaMinus < o.etaPlus) && decide (0 < o.initialDelta) && decide (0 < o.minDelta) &&
  decide (o.minDelta < o.maxDelta)

/-- Entry of `_dx`, `_prev_gradient`, `_delta` for one parameter. OptimizerRprop.hpp:102-117. -/
structure Coord (K : Type) where
  dx : K
  prevG : K
  delta : K

/-- `resetImplementation`, R:96-101. -/
def Coord.reset (o : Opt K) : Coord K := ⟨0, 0, o.initialDelta⟩

/-- `sign`, OptimizerRprop.hpp:95-97. -/
def sign (g : K) : K := (if 0 < g then 1 else 0) - (if g < 0 then 1 else 0)

/-- `switchYes`, R:158. -/
def switchYes (s : Coord K) (g : K) : Bool := decide (s.prevG * g < 0)

/-- The adapted step length, R:164-167. -/
def adapt (o : Opt K) (s : Coord K) (g : K) : K :=
  if 0 < s.prevG * g then min (s.delta * o.etaPlus) o.maxDelta
  else if switchYes s g then max (s.delta * o.etaMinus) o.minDelta
  else s.delta

/-- One pass of the loop over the parameters, R:161-233. -/
def coord (o : Opt K) (errorIncreased : Bool) (s : Coord K) (g : K) : Coord K :=
  let delta := adapt o s g
  let yes := switchYes s g
  let move : Coord K := ⟨-sign g * delta, g, delta⟩
  match o.method with
  | .rpropPlus => if yes then ⟨-s.dx, 0, delta⟩ else move
  | .rpropMinus => move
  | .irpropMinus => if yes then ⟨0, 0, delta⟩ else move
  | .irpropPlus => if yes then ⟨if errorIncreased then -s.dx else 0, 0, delta⟩ else move

/-- The optimization problem: gradient (with regularizer, R:120-130), error, `applyStateUpdate`, norm. -/
structure Env (K X : Type) (n : Nat) where
  gradient : X → Fin n → K
  cost : X → K
  update : X → (Fin n → K) → X
  norm : (Fin n → K) → K

/-- `ConvergenceStatus`, OptimizerBase.hpp:33-41. -/
inductive Conv where
  | inProgress | failure | gradientNorm | dx | dObjective | maxIterations
  deriving DecidableEq, Repr

/-- Members and status. `prevError = none` is the initial `numeric_limits<double>::max()`. OptimizerRprop.hpp:102-117. -/
structure St (K X : Type) (n : Nat) where
  x : X
  c : Fin n → Coord K
  prevError : Option K
  conv : Conv
  iterations : Nat

variable {X : Type} {n : Nat} [NeZero n]

/-- `initialize`/`reset`: OptimizerBase.cpp:129-139 and R:96-101. -/
def start (o : Opt K) (x : X) : St K X n := ⟨x, fun _ => Coord.reset o, none, .inProgress, 0⟩

/-- `_dx.cwiseAbs().maxCoeff()`, R:242. -/
def maxAbs (d : Fin n → K) : K := Finset.univ.sup' Finset.univ_nonempty (fun i => |d i|)

/-- `errorIncreased`, computed for IRPROP_PLUS only, R:147-153. -/
def errorIncreased (o : Opt K) (prev : Option K) (err : K) : Bool :=
  match o.method, prev with
  | .irpropPlus, some e => decide (0 < err - e)
  | _, _ => false

/-- The loop body, R:114-267: the new state and whether the loop continues (`false`: `break`). The iteration
counter is incremented only if it continues. -/
def iter (E : Env K X n) (o : Opt K) (s : St K X n) : St K X n × Bool :=
  let s := { s with conv := .inProgress }
  let g := E.gradient s.x
  if E.norm g < o.gradientNorm then ({ s with conv := .gradientNorm }, false)
  else
    let err := E.cost s.x
    let inc := errorIncreased o s.prevError err
    let prevError := if o.method = .irpropPlus then some err else s.prevError
    let c := fun i => coord o inc (s.c i) (g i)
    let dx := fun i => (c i).dx
    let x := E.update s.x dx
    let s := { s with x := x, c := c, prevError := prevError }
    if maxAbs dx < o.deltaX then ({ s with conv := .dx }, false)
    else if o.method = .irpropPlus ∧ |E.cost x - err| < o.deltaError then ({ s with conv := .dObjective }, false)
    else ({ s with iterations := s.iterations + 1 }, true)

/-- The loop for a budget, R:114-267: `fuel` is the remaining number of passes. -/
def loop (E : Env K X n) (o : Opt K) : Nat → St K X n → St K X n
  | 0, s => s
  | k + 1, s =>
    let r := iter E o s
    if r.2 then loop E o k r.1 else r.1

/-- `optimizeImplementation`, R:103-271, for a non-negative `maxIterations`. -/
def optimize (E : Env K X n) (o : Opt K) (s : St K X n) : St K X n :=
  loop E o (o.maxIterations.toNat - s.iterations) s

/-- States between passes of the loop (for any budget, also the unlimited one `maxIterations == -1`). -/
inductive Reach (E : Env K X n) (o : Opt K) (x : X) : St K X n → Prop
  | start : Reach E o x (start o x)
  | step {s s' : St K X n} (h : Reach E o x s) (hi : iter E o s = (s', true)) : Reach E o x s'

end Verif.Rprop
