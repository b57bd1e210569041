import Verif.Expr.Model
import Verif.ErrorTerm.Model
import Verif.Gradient.Model
import Verif.Hessian.Model
import Verif.Jacobian.Adds

/-!
Model of error terms made from expressions, `aslam_backend_expressions/include/aslam/backend/ExpressionErrorTerm.hpp` (EET below), inside a
problem: `ProblemManager` (`aslam_backend/src/util/ProblemManager.cpp`, P below) evaluates their costs and their gradient, the linear solvers
build the normal equations from them. The parts are those of `Expr`, `ErrorTerm`, `Jacobian`, `Gradient` and `Hessian`.
Simplified: scalar and Euclidean expressions (the other kinds of expressions occur as operands); non-squared terms have no M-estimator; the
Jacobians of an expression reach the container as one `add` per contribution with the chain rule of the expression already applied (C04 and
C05 are about that); the terms are visited in the order of the list, one after the other (C18, C19 and C70 are about threads).
-/
namespace Verif.ExprTerm
open Verif.Expr (Node Store Contr Var)
open Verif.MatrixStack (DMat)
open Verif.Geo

/-- `minimalDimensions()` of the design variables of expressions, see `Var.Idx`. See there for the lines. -/
def dimV : Var → Nat
  | .sc _ => 1
  | .pt _ => 3
  | .ro _ => 3
  | .ho _ => 3
  | .mat _ l => l.length

/-- The minimal coordinates in their order. Not code. -/
def coord : (v : Var) → Fin (dimV v) → v.Idx
  | .sc _, _ => ()
  | .pt _, k => k
  | .ro _, k => k
  | .ho _, k => k
  | .mat _ _, k => k

/-- The expression of a term, EET:28-63 (dimension). -/
inductive Body : Type
  | scalar (e : Node .S)
  | point (e : Node .E)

/-- `ExpressionDimensionTraits`, EET:38-63. -/
def Body.dim : Body → Nat
  | .scalar _ => 1
  | .point _ => 3

/-- A point as error vector. EET:66-89. -/
def vec (v : V3) (i : Nat) : ℝ := if h : i < 3 then v ⟨i, h⟩ else 0

/-- `toEigenErrorVector(_expression.evaluate())`, EET:66-89, EET:113. -/
noncomputable def Body.evaluate (env : Expr.Env) : Body → Store → Res ((Nat → ℝ) × Store)
  | .scalar e, σ => Expr.evaluate env e σ >>= fun r => .ok (fun _ => r.1, r.2)
  | .point e, σ => Expr.evaluate env e σ >>= fun r => .ok (vec r.1, r.2)

/-- One contribution as a call of the container; `num` gives the address of a design variable.
aslam_backend/include/aslam/backend/JacobianContainer.hpp:59-62. -/
noncomputable def encode (num : Var → Nat) {m : Nat} (b : Contr m) : Nat × DMat ℝ :=
  (num b.v, ⟨m, dimV b.v, fun i j => if h : i < m ∧ j < dimV b.v then b.B ⟨i, h.1⟩ (coord b.v ⟨j, h.2⟩) else 0⟩)

/-- `_expression.evaluateJacobians(jacobians)`, EET:121-123. -/
noncomputable def Body.jacobians (invS : V3 × ℝ → Matrix (Fin 3 ⊕ Unit) (Fin 3) ℝ) (num : Var → Nat) (env : Expr.Env) :
    Body → Store → Res (List (Nat × DMat ℝ) × Store)
  | .scalar e, σ => Expr.jac invS env e (fun (_ : Fin 1) _ => 1) σ >>= fun r => .ok (r.1.map (encode num), r.2)
  | .point e, σ => Expr.jac invS env e (1 : M3) σ >>= fun r => .ok (r.1.map (encode num), r.2)

/-- `ExpressionErrorTerm`, EET:92-133: the expression, `_sqrtInvR` and the M-estimator policy. -/
structure ETerm : Type where
  body : Body
  sqrtInvR : DMat ℝ
  policy : ℝ → ℝ

/-- The members of `ErrorTerm` after `updateRawSquaredError` (ErrorTerm.hpp:51-53) with the error vector `x`, EET:112-117. -/
noncomputable def ETerm.updated (T : ETerm) (x : Nat → ℝ) : ErrorTerm.Term :=
  ErrorTerm.updateRaw .expression ⟨T.body.dim, fun _ => 0, T.sqrtInvR, T.policy, 0⟩ x

/-- `ScalarNonSquaredExpressionErrorTerm`, EET:135-166: the expression and the weight. -/
structure NTerm : Type where
  e : Node .S
  w : ℝ

/-- A loop over terms that keeps the members of the nodes. P:251-259. -/
def each {α β : Type} (f : α → Store → Res (β × Store)) : List α → Store → Res (List β × Store)
  | [], σ => .ok ([], σ)
  | a :: as, σ => f a σ >>= fun r => each f as r.2 >>= fun q => .ok (r.1 :: q.1, q.2)

/-- `evaluateError()` of a squared term, ErrorTerm.hpp:44-47: its cost. -/
noncomputable def ETerm.error (env : Expr.Env) (T : ETerm) (σ : Store) : Res (ℝ × Store) :=
  T.body.evaluate env σ >>= fun r => .ok (ErrorTerm.squaredError (T.updated r.1) true, r.2)

/-- `evaluateError()` of a non-squared term, ScalarNonSquaredErrorTerm.cpp:18-21, EET:150-153. -/
noncomputable def NTerm.error (env : Expr.Env) (T : NTerm) (σ : Store) : Res (ℝ × Store) :=
  Expr.evaluate env T.e σ >>= fun r => .ok (T.w * r.1, r.2)

/-- `ProblemManager::evaluateError`, P:172-184, P:251-259. -/
noncomputable def cost (env : Expr.Env) (ns : List NTerm) (sq : List ETerm) (σ : Store) : Res (ℝ × Store) :=
  each (NTerm.error env) ns σ >>= fun r => each (ETerm.error env) sq r.2 >>= fun q => .ok (r.1.sum + q.1.sum, q.2)

variable (invS : V3 × ℝ → Matrix (Fin 3 ⊕ Unit) (Fin 3) ℝ) (num : Var → Nat)

/-- What `addGradientForErrorTerm` obtains from a squared term, P:140-152: the error is evaluated again, then the weighted error and the
weighted Jacobians are taken. -/
noncomputable def ETerm.view (env : Expr.Env) (useM : Bool) (T : ETerm) (σ : Store) : Res (Gradient.Term ℝ × Store) :=
  T.body.evaluate env σ >>= fun r => T.body.jacobians invS num env r.2 >>= fun q =>
    .ok (⟨T.body.dim, ErrorTerm.weightedCalls (T.updated r.1) useM (Jacobian.adds q.1), ErrorTerm.weightedError (T.updated r.1) useM⟩, q.2)

/-- What `addGradientForErrorTerm` obtains from a non-squared term, P:161-169, ScalarNonSquaredErrorTerm.cpp:23-32: nothing is evaluated again. -/
noncomputable def NTerm.view (env : Expr.Env) (T : NTerm) (σ : Store) : Res (Gradient.Term ℝ × Store) :=
  (Body.scalar T.e).jacobians invS num env σ >>= fun q => .ok (⟨1, .applyS T.w :: Jacobian.adds q.1 ++ [.endScope], fun _ => 0⟩, q.2)

/-- `evaluateError` followed by `computeGradient`, P:120-133, as the optimizers without linear solver call them. -/
noncomputable def costAndGradient (debug : Bool) (align : Nat) (jenv : Jacobian.Env ℝ) (dvs : List Nat) (nCols nThreads : Nat)
    (useM applyDvScaling useDense : Bool) (env : Expr.Env) (ns : List NTerm) (sq : List ETerm) (σ : Store) : Res (ℝ × DMat ℝ) :=
  cost env ns sq σ >>= fun r => each (NTerm.view invS num env) ns r.2 >>= fun n => each (ETerm.view invS num env useM) sq n.2 >>= fun q =>
    Gradient.computeGradient debug align jenv dvs nCols n.1 q.1 nThreads applyDvScaling useDense >>= fun g => .ok (r.1, g)

/-- `LinearSystemSolver::evaluateErrors`, LinearSystemSolver.cpp:17-28: a squared term and its error vector. -/
noncomputable def ETerm.stored (env : Expr.Env) (T : ETerm) (σ : Store) : Res ((ETerm × ErrorTerm.Term) × Store) :=
  T.body.evaluate env σ >>= fun r => .ok ((T, T.updated r.1), r.2)

/-- What `buildHessian` obtains from a squared term, ErrorTerm.hpp:103-116: the stored error and the Jacobians at the current values. -/
noncomputable def hview (env : Expr.Env) (useM : Bool) (T : ETerm × ErrorTerm.Term) (σ : Store) : Res (Hessian.Term ℝ × Store) :=
  T.1.body.jacobians invS num env σ >>= fun q =>
    .ok (⟨T.1.body.dim, Jacobian.adds q.1, T.2.error, T.1.sqrtInvR, ErrorTerm.sqrtWeight T.2 useM⟩, q.2)

/-- `evaluateError` followed by `buildSystem` of the block solver, Optimizer2.cpp:166-213, BlockCholeskyLinearSystemSolver.cpp:59-75. -/
noncomputable def normalEquations (debug : Bool) (align : Nat) (jenv : Jacobian.Env ℝ) (useM : Bool) (env : Expr.Env) (sq : List ETerm) (σ : Store)
    (s : Hessian.Sys ℝ) : Res (Hessian.Sys ℝ) :=
  each (ETerm.stored env) sq σ >>= fun r => each (hview invS num env useM) r.1 r.2 >>= fun q => Hessian.buildSystem debug align jenv q.1 s

end Verif.ExprTerm
