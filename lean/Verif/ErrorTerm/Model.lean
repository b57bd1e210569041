import Verif.Jacobian.Props
import Verif.MEstimator.Model

/-!
Model of `ErrorTerm`, `ErrorTermFs`, `ErrorTermDs` and `ExpressionErrorTerm`
(`aslam_backend/include/aslam/backend/ErrorTerm.hpp`, called ET.hpp, its implementation
`implementation/ErrorTerm.hpp`, called ETi, `aslam_backend/src/ErrorTermDs.cpp` and
`aslam_backend_expressions/include/aslam/backend/ExpressionErrorTerm.hpp`, called EET).
Simplified: real numbers instead of doubles; `setInvR` (a matrix square root of an external library) is
not modelled, the square root information matrix is arbitrary.
-/
namespace Verif.ErrorTerm
open Verif.MatrixStack (DMat)

/-- Data members: `_error`, `_sqrtInvR` (square of size `dim`), the weight function of the M-estimator
policy and `_squaredError` (ET.hpp:192-196, initially 0, ErrorTerm.cpp:8-12). -/
structure Term where
  dim : Nat
  error : Nat → ℝ
  sqrtInvR : DMat ℝ
  policy : ℝ → ℝ
  squaredError : ℝ

/-- `evaluateChiSquaredError()`, ETi:169-174, ErrorTermDs.cpp:136-140: `‖Sᵀ e‖²`. -/
def chiSquared (t : Term) : ℝ :=
  ∑ u ∈ Finset.range t.sqrtInvR.cols,
    (∑ v ∈ Finset.range t.dim, t.sqrtInvR.e v u * t.error v) *
    (∑ v ∈ Finset.range t.dim, t.sqrtInvR.e v u * t.error v)

/-- What `ExpressionErrorTerm::evaluateErrorImplementation` returns, EET:112-117: `‖S e‖²`. -/
def expressionSquared (t : Term) : ℝ :=
  ∑ u ∈ Finset.range t.dim,
    (∑ v ∈ Finset.range t.sqrtInvR.cols, t.sqrtInvR.e u v * t.error v) *
    (∑ v ∈ Finset.range t.sqrtInvR.cols, t.sqrtInvR.e u v * t.error v)

/-- How a subclass computes its squared error. The lines are at `chiSquared` and `expressionSquared`. -/
inductive Kind where
  | chi
  | expression

/-- `updateRawSquaredError()`, ET.hpp:51-53: a new error vector is computed by the subclass and
the squared error is stored. -/
def updateRaw (k : Kind) (t : Term) (e : Nat → ℝ) : Term :=
  let t := { t with error := e }
  { t with squaredError := match k with
    | .chi => chiSquared t
    | .expression => expressionSquared t }

/-- `getSquaredError(useMEstimator)`, ET.hpp:127-129. -/
def squaredError (t : Term) (useM : Bool) : ℝ :=
  if useM then t.policy t.squaredError * t.squaredError else t.squaredError

/-- `evaluateError()`, ET.hpp:44-47: update, then the *weighted* squared error. -/
def evaluateError (k : Kind) (t : Term) (e : Nat → ℝ) : Term × ℝ :=
  let t' := updateRaw k t e
  (t', squaredError t' true)

/-- The square root of the weight, ETi:186-188. -/
noncomputable def sqrtWeight (t : Term) (useM : Bool) : ℝ :=
  if useM then Real.sqrt (t.policy t.squaredError) else 1

/-- `getWeightedError(e, useMEstimator)`, ETi:183-190. -/
noncomputable def weightedError (t : Term) (useM : Bool) (u : Nat) : ℝ :=
  (∑ v ∈ Finset.range t.dim, t.sqrtInvR.e v u * t.error v) * sqrtWeight t useM

/-- `getInvR()`, ETi:136-140. -/
def invR (t : Term) (v v' : Nat) : ℝ :=
  ∑ u ∈ Finset.range t.sqrtInvR.cols, t.sqrtInvR.e v u * t.sqrtInvR.e v' u

/-- The factor `sqrtWeight*weight.transpose()` pushed by `evaluateWeightedJacobian`, ET.hpp:188. -/
noncomputable def weightFactor (t : Term) (useM : Bool) : DMat ℝ :=
  ⟨t.sqrtInvR.cols, t.sqrtInvR.rows, fun i j => sqrtWeight t useM * t.sqrtInvR.e j i⟩

/-- `getWeightedJacobians(outJc, useMEstimator)`, ETi:176-180 and ET.hpp:181-189: the calls made on
the container, when `evaluateJacobians` makes `calls`. The guard of `apply` lives until the end of the
full expression. -/
noncomputable def weightedCalls (t : Term) (useM : Bool) (calls : List (Jacobian.Op ℝ)) :
    List (Jacobian.Op ℝ) :=
  .applyM (weightFactor t useM) :: calls ++ [.endScope]

end Verif.ErrorTerm
