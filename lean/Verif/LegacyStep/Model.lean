import Verif.Hessian.Model
import Verif.Schur.Model

/-!
One iteration of the legacy optimizer, `aslam_backend/src/Optimizer.cpp` (LO below), LO:505-525 and 614-647: build the normal equations, reduce them to the variables that are not marginalised, solve the reduced
system, update all variables. The normal equations are those of `Verif.Hessian`: `buildGnMatrices`, LO:684-696, and `zeroMatrices`, LO:699-705, are the same loop as `buildSystem` of the block solver. The
reduction is that of `Verif.Schur`. The vector `dx` that the linear solver returned is an argument.
-/
namespace Verif.LegacyStep
open Verif.MatrixStack (DMat)
open Verif.Jacobian (Env)
open Verif.SBM Verif.Hessian Verif.Schur

variable {R : Type} [CommRing R]

/-- The first loop of `applyStateUpdate`, LO:616-627: what `update` is called with, variable by variable, for the variables from position `startIdx` of the step on. -/
def denseUpdates (env : Env R) (dx : Nat → R) : List Nat → Nat → List (Nat × (Nat → R))
  | [], _ => []
  | d :: ds, startIdx => (d, fun a => dx (startIdx + a) * env.scaling d) :: denseUpdates env dx ds (startIdx + env.dim d)

/-- The second loop of `applyStateUpdate`, LO:636-645, from position `i` on; `sparseVariable(i)` is LO:599-603. -/
def sparseUpdates (env : Env R) (dvs : List Nat) (m : Nat) (H : SBM R) (rhs dx : Nat → R) : List (DMat R) → Nat → List (Nat × (Nat → R))
  | [], _ => []
  | W :: Ws, i => (dvs.getD (m + i) 0, fun a => buildDsi H rhs m i W dx a * env.scaling (dvs.getD (m + i) 0)) :: sparseUpdates env dvs m H rhs dx Ws (i + 1)

/-- `applyStateUpdate`, LO:614-647: the calls of `update` it makes. Simplified: the maximum of the step that it returns is not modelled here, nor that variables of dimension zero are skipped. -/
def applyStateUpdate (env : Env R) (dvs : List Nat) (m : Nat) (H : SBM R) (rhs : Nat → R) (invV : List (DMat R)) (dx : Nat → R) : List (Nat × (Nat → R)) :=
  denseUpdates env dx (dvs.take m) 0 ++ sparseUpdates env dvs m H rhs dx invV 0

/-- LO:506-518: `buildGnMatrices` and `applySchurComplement`. Returns the normal equations and the reduced system. -/
def reduce (debug : Bool) (align : Nat) (inv : DMat R → DMat R) (env : Env R) (ts : List (Term R)) (lambda : R) (m p : Nat) (lm : Bool) (s : Sys R) (A : SBM R) : Res (Sys R × Schur.St R) :=
  buildSystem debug align env ts s >>= fun s' =>
  applySchur debug inv s'.H s'.rhs lambda m lm A p >>= fun r => .ok (s', r)

/-- The predicted reduction `d2` in `getLmRho`, LO:127-133; `n` is the length of `_dx` and `_b`. -/
def lmDen (lambda : R) (dx b : Nat → R) (n : Nat) : R := ∑ j ∈ Finset.range n, dx j * (lambda * dx j + b j)

end Verif.LegacyStep
