import Verif.Geo
import Verif.Expr.Scalar
import Mathlib.Data.Matrix.ColumnRowPartitioned

/-!
Model of scalar, Euclidean, rotation, transformation, homogeneous and matrix expressions of `aslam_backend_expressions`
(files: N = `include/aslam/backend/implementation/ScalarExpressionNode.hpp`, E = `src/EuclideanExpressionNode.cpp`,
V = `include/aslam/backend/implementation/VectorExpressionNode.hpp`, R = `src/RotationExpressionNode.cpp`,
T = `src/TransformationExpressionNode.cpp`, B = `src/TransformationBasic.cpp`, H = `src/HomogeneousExpressionNode.cpp`,
X = `src/RotationScalarExpressionNode.cpp`, M = `src/MatrixBasic.cpp`).

An expression is a tree of nodes. Nodes which keep the values of their operands in members carry an identity `id`; the members live
in a `Store`. Two occurrences with the same identity are the same node, so shared subexpressions share their members.

Simplified: numbers are reals and `ub` stands for an infinite or NaN result (or for reading members which were never written).
A transformation matrix is its rotation part and its translation; constants whose last row is not `(0 0 0 1)` are not covered.
When evaluating throws, the members written until then are not described.
Not modelled here: `EuclideanExpressionNodeRotationParameters` (`Verif/Expr/Parameters`), `Vector2RotationQuaternionExpressionAdapter`, `EuclideanDirection`.
-/
namespace Verif.Expr
open Matrix Verif.Geo

/-- The kinds of expressions. The classes of include/aslam/backend/{Scalar,Euclidean,Rotation,Transformation,Homogeneous,Matrix}ExpressionNode.hpp. -/
inductive Ty | S | E | R | T | H | M
  deriving DecidableEq

/-- A transformation matrix `[C t; 0 1]`. -/
structure Pose where
  C : M3
  t : V3

/-- What an expression evaluates to: a number, a point, a rotation matrix, a transformation, homogeneous coordinates, a matrix.
The return types of `toScalar` and the like: N:29-33, E:9-20. -/
abbrev Val : Ty → Type
  | .S => ℝ
  | .E => V3
  | .R => M3
  | .T => Pose
  | .H => V3 × ℝ
  | .M => M3

/-- The rows of Jacobians: one for scalars, three for points and rotations, translation and rotation for transformations, four
for homogeneous coordinates, and for matrices all entries column by column (column, row).
The sizes of the matrices given to `JacobianContainer::add`; the lines are at `jac`. -/
abbrev TI : Ty → Type
  | .S => Unit
  | .E => Fin 3
  | .R => Fin 3
  | .T => Fin 3 ⊕ Fin 3
  | .H => Fin 3 ⊕ Unit
  | .M => Fin 3 × Fin 3

instance (ty : Ty) : Fintype (TI ty) := by cases ty <;> exact inferInstance
instance (ty : Ty) : DecidableEq (TI ty) := by cases ty <;> exact inferInstance

/-- The design variables at the leaves: `Scalar`, `EuclideanPoint`, `RotationQuaternion`, `HomogeneousPoint` and `MatrixBasic` with
the free entries (row, column) in the order of M:19-27. -/
inductive Var
  | sc (i : Nat)
  | pt (i : Nat)
  | ro (i : Nat)
  | ho (i : Nat)
  | mat (i : Nat) (free : List (Fin 3 × Fin 3))
  deriving DecidableEq

/-- Minimal coordinates of a design variable. `src/Scalar.cpp:34-37`, `src/EuclideanPoint.cpp:35-38`, `src/RotationQuaternion.cpp:39-42`,
`src/HomogeneousPoint.cpp:35-38`, M:47-49. -/
abbrev Var.Idx : Var → Type
  | .sc _ => Unit
  | .pt _ => Fin 3
  | .ro _ => Fin 3
  | .ho _ => Fin 3
  | .mat _ l => Fin l.length

instance (v : Var) : Fintype v.Idx := by cases v <;> exact inferInstance

/-- The values of all design variables. A rotation is its matrix `_C` (`src/RotationQuaternion.cpp:44-47`). -/
structure Env where
  sc : Nat → ℝ
  pt : Nat → V3
  ro : Nat → M3
  ho : Nat → V3 × ℝ
  mat : Nat → List (Fin 3 × Fin 3) → M3

/-- Expression nodes. The lines of each node are at `val` and `jac`. -/
inductive Node : Ty → Type
  /-- `ScalarExpressionNodeConstant` -/
  | sconst (c : ℝ) : Node .S
  /-- `Scalar` -/
  | svar (i : Nat) : Node .S
  /-- nodes with one scalar operand -/
  | sun (f : UnOp) (a : Node .S) : Node .S
  /-- `ScalarExpressionNodeMultiply` -/
  | smul (a b : Node .S) : Node .S
  /-- `ScalarExpressionNodeDivide` -/
  | sdiv (a b : Node .S) : Node .S
  /-- `ScalarExpressionNodeAdd` with `_multiplyRhs` -/
  | sadd (a b : Node .S) (k : ℝ) : Node .S
  /-- `ScalarExpressionNodeAtan2` -/
  | satan2 (a b : Node .S) : Node .S
  /-- `ScalarExpressionPiecewiseExpression`; the condition can look at anything -/
  | spiece (cond : Env → Bool) (a b : Node .S) : Node .S
  /-- `ScalarExpressionNodeFromVectorExpression` -/
  | scomp (k : Fin 3) (p : Node .E) : Node .S
  /-- `ConstantVectorExpressionNode` -/
  | econst (v : V3) : Node .E
  /-- `EuclideanPoint` -/
  | evar (i : Nat) : Node .E
  /-- `StackedScalarVectorExpressionNode` -/
  | estack (a b c : Node .S) : Node .E
  /-- `EuclideanExpressionNodeAddEuclidean`, `VectorExpressionNodeAddVector` -/
  | eadd (a b : Node .E) : Node .E
  /-- `EuclideanExpressionNodeSubtractEuclidean` -/
  | esub (a b : Node .E) : Node .E
  /-- `EuclideanExpressionNodeSubtractVector` -/
  | esubc (a : Node .E) (v : V3) : Node .E
  /-- `EuclideanExpressionNodeNegated` -/
  | eneg (a : Node .E) : Node .E
  /-- `EuclideanExpressionNodeScalarMultiply`, `VectorExpressionNodeScalarMultiply` -/
  | escale (p : Node .E) (s : Node .S) : Node .E
  /-- `EuclideanExpressionNodeCrossEuclidean` -/
  | ecross (a b : Node .E) : Node .E
  /-- `EuclideanExpressionNodeElementwiseMultiplyEuclidean` -/
  | eelem (a b : Node .E) : Node .E
  /-- `EuclideanExpressionNodeMultiply` -/
  | erot (id : Nat) (r : Node .R) (p : Node .E) : Node .E
  /-- `EuclideanExpressionNodeMatrixMultiply` -/
  | emat (id : Nat) (m : Node .M) (p : Node .E) : Node .E
  /-- `EuclideanExpressionNodeTranslation` -/
  | etrans (T : Node .T) : Node .E
  /-- `EuclideanExpressionNodeFromHomogeneous` -/
  | ehom (h : Node .H) : Node .E
  /-- `ConstantRotationExpressionNode` -/
  | rconst (C : M3) : Node .R
  /-- `RotationQuaternion` -/
  | rvar (i : Nat) : Node .R
  /-- `RotationExpressionNodeMultiply` -/
  | rmul (id : Nat) (a b : Node .R) : Node .R
  /-- `RotationExpressionNodeInverse` -/
  | rinv (id : Nat) (a : Node .R) : Node .R
  /-- `RotationScalarExpressionNode` -/
  | raxis (k : Fin 3) (s : Node .S) : Node .R
  /-- `RotationExpressionNodeTransformation` -/
  | rtrans (T : Node .T) : Node .R
  /-- `TransformationExpressionNodeConstant` -/
  | tconst (P : Pose) : Node .T
  /-- `TransformationBasic` with both parts -/
  | tbasic (r : Node .R) (p : Node .E) : Node .T
  /-- `TransformationBasic` with an empty translation -/
  | tbasicR (r : Node .R) : Node .T
  /-- `TransformationBasic` with an empty rotation -/
  | tbasicE (p : Node .E) : Node .T
  /-- `TransformationExpressionNodeMultiply` -/
  | tmul (id : Nat) (a b : Node .T) : Node .T
  /-- `TransformationExpressionNodeInverse` -/
  | tinv (id : Nat) (a : Node .T) : Node .T
  /-- `HomogeneousExpressionNodeConstant` -/
  | hconst (v : V3 × ℝ) : Node .H
  /-- `HomogeneousPoint` -/
  | hvar (i : Nat) : Node .H
  /-- `HomogeneousExpressionNodeMultiply` -/
  | hmul (id : Nat) (T : Node .T) (h : Node .H) : Node .H
  /-- `HomogeneousExpressionNodeEuclidean` -/
  | heuc (p : Node .E) : Node .H
  /-- `MatrixBasic` -/
  | mvar (i : Nat) (free : List (Fin 3 × Fin 3)) : Node .M

/-- Product of transformation matrices. T:56. -/
def Pose.mul (P Q : Pose) : Pose := ⟨P.C * Q.C, P.C *ᵥ Q.t + P.t⟩

/-- Inverse of a transformation matrix (Eigen's `inverse()`, which needs an invertible matrix). T:77. -/
noncomputable def Pose.inv (P : Pose) : Res Pose := if P.C.det = 0 then .ub else .ok ⟨P.C⁻¹, -(P.C⁻¹ *ᵥ P.t)⟩

/-- Transformation matrix times homogeneous coordinates. H:61. -/
def Pose.ap (P : Pose) (v : V3 × ℝ) : V3 × ℝ := (P.C *ᵥ v.1 + v.2 • P.t, v.2)

/-- Rotation about a coordinate axis. X:14-26. -/
noncomputable def axisRot (k : Fin 3) (s : ℝ) : M3 := fun i j =>
  if i = k ∧ j = k then 1
  else if i = k + 1 ∧ j = k + 1 ∨ i = k + 2 ∧ j = k + 2 then Real.cos s
  else if i = k + 1 ∧ j = k + 2 then -Real.sin s
  else if i = k + 2 ∧ j = k + 1 then Real.sin s
  else 0

/-- Value of an expression. N:29-33, 40-43, 63-66, 142-146, 236-243; `include/aslam/backend/ScalarExpressionNode.hpp:335-341` (component);
V:39-48, 72-75, 98-102; E:28-34, 64-70, 101-104, 131-134, 161-164, 188-191, 213-216, 241-244, 263-265, 314-316 (`fromHomogeneous` divides by the
last coordinate), 344-347; R:35-37, 61-65, 89-93, 117-119; T:52-57, 75-79, 95; B:17-26; H:56-62, 83, 98-100; M:51-53. -/
noncomputable def val (env : Env) : {ty : Ty} → Node ty → Res (Val ty)
  | _, .sconst c => .ok c
  | _, .svar i => .ok (env.sc i)
  | _, .sun f a => val env a >>= fun x => f.ap x
  | _, .smul a b => val env a >>= fun x => val env b >>= fun y => .ok (x * y)
  | _, .sdiv a b => val env a >>= fun x => val env b >>= fun y => if y = 0 then .ub else .ok (x / y)
  | _, .sadd a b k => val env a >>= fun x => val env b >>= fun y => .ok (x + k * y)
  | _, .satan2 a b => val env a >>= fun x => val env b >>= fun y => .ok (atan2 x y)
  | _, .spiece cond a b => if cond env then val env a else val env b
  | _, .scomp k p => val env p >>= fun v => .ok (v k)
  | _, .econst v => .ok v
  | _, .evar i => .ok (env.pt i)
  | _, .estack a b c => val env a >>= fun x => val env b >>= fun y => val env c >>= fun z => .ok ![x, y, z]
  | _, .eadd a b => val env a >>= fun x => val env b >>= fun y => .ok (x + y)
  | _, .esub a b => val env a >>= fun x => val env b >>= fun y => .ok (x - y)
  | _, .esubc a v => val env a >>= fun x => .ok (x - v)
  | _, .eneg a => val env a >>= fun x => .ok (-x)
  | _, .escale p s => val env p >>= fun v => val env s >>= fun c => .ok (c • v)
  | _, .ecross a b => val env a >>= fun x => val env b >>= fun y => .ok (crossMx x *ᵥ y)
  | _, .eelem a b => val env a >>= fun x => val env b >>= fun y => .ok (x * y)
  | _, .erot _ r p => val env r >>= fun C => val env p >>= fun x => .ok (C *ᵥ x)
  | _, .emat _ m p => val env m >>= fun A => val env p >>= fun x => .ok (A *ᵥ x)
  | _, .etrans T => val env T >>= fun P => .ok P.t
  | _, .ehom h => val env h >>= fun v => if v.2 = 0 then .ub else .ok (v.2⁻¹ • v.1)
  | _, .rconst C => .ok C
  | _, .rvar i => .ok (env.ro i)
  | _, .rmul _ a b => val env a >>= fun x => val env b >>= fun y => .ok (x * y)
  | _, .rinv _ a => val env a >>= fun x => .ok xᵀ
  | _, .raxis k s => val env s >>= fun x => .ok (axisRot k x)
  | _, .rtrans T => val env T >>= fun P => .ok P.C
  | _, .tconst P => .ok P
  | _, .tbasic r p => val env r >>= fun C => val env p >>= fun x => .ok ⟨C, x⟩
  | _, .tbasicR r => val env r >>= fun C => .ok ⟨C, 0⟩
  | _, .tbasicE p => val env p >>= fun x => .ok ⟨1, x⟩
  | _, .tmul _ a b => val env a >>= fun x => val env b >>= fun y => .ok (x.mul y)
  | _, .tinv _ a => val env a >>= fun x => x.inv
  | _, .hconst v => .ok v
  | _, .hvar i => .ok (env.ho i)
  | _, .hmul _ T h => val env T >>= fun P => val env h >>= fun v => .ok (P.ap v)
  | _, .heuc p => val env p >>= fun x => .ok (x, 1)
  | _, .mvar i free => .ok (env.mat i free)

/-- The members in which a node keeps values: `_C_lhs`, `_p_rhs` (E:30-31), `_A_lhs`, `_p_rhs` (E:66-67), `_C_lhs`, `_C_rhs` (R:62-63),
`_C` (R:91), `_T_lhs`, `_T_rhs` (T:54-55), `_T` (T:77), `_T_lhs`, `_p_rhs` (H:58-59). -/
inductive Cell
  | rp (C : M3) (p : V3)
  | mp (A : M3) (p : V3)
  | rr (Cl Cr : M3)
  | r (C : M3)
  | tt (Tl Tr : Pose)
  | t (T : Pose)
  | th (T : Pose) (p : V3 × ℝ)

/-- The members of all nodes; `none`: never written. The members listed at `Cell`. -/
abbrev Store := Nat → Option Cell

/-- What a node writes into its members when it is evaluated, E:30-31, 66-67, R:62-63, 91, T:54-55, 77, H:58-59. -/
noncomputable def cell (env : Env) : {ty : Ty} → Node ty → Res Cell
  | _, .erot _ r p => val env r >>= fun C => val env p >>= fun x => .ok (.rp C x)
  | _, .emat _ m p => val env m >>= fun A => val env p >>= fun x => .ok (.mp A x)
  | _, .rmul _ a b => val env a >>= fun x => val env b >>= fun y => .ok (.rr x y)
  | _, .rinv _ a => val env a >>= fun x => .ok (.r x)
  | _, .tmul _ a b => val env a >>= fun x => val env b >>= fun y => .ok (.tt x y)
  | _, .tinv _ a => val env a >>= fun x => x.inv >>= fun y => .ok (.t y)
  | _, .hmul _ T h => val env T >>= fun P => val env h >>= fun v => .ok (.th P v)
  | _, _ => .ub

/-- Assignment to the members of one node. The assignments listed at `cell`. -/
def put (id : Nat) : Res Cell → Store → Store
  | .ok c, σ => fun i => if i = id then some c else σ i
  | _, σ => σ

/-- What evaluating an expression writes into the members of its nodes (lines as for `val`). See `cell` for the lines. -/
noncomputable def upd (env : Env) : {ty : Ty} → Node ty → Store → Store
  | _, .sun _ a, σ => upd env a σ
  | _, .smul a b, σ => upd env b (upd env a σ)
  | _, .sdiv a b, σ => upd env b (upd env a σ)
  | _, .sadd a b _, σ => upd env b (upd env a σ)
  | _, .satan2 a b, σ => upd env b (upd env a σ)
  | _, .spiece cond a b, σ => if cond env then upd env a σ else upd env b σ
  | _, .scomp _ p, σ => upd env p σ
  | _, .estack a b c, σ => upd env c (upd env b (upd env a σ))
  | _, .eadd a b, σ => upd env b (upd env a σ)
  | _, .esub a b, σ => upd env b (upd env a σ)
  | _, .esubc a _, σ => upd env a σ
  | _, .eneg a, σ => upd env a σ
  | _, .escale p s, σ => upd env s (upd env p σ)
  | _, .ecross a b, σ => upd env b (upd env a σ)
  | _, .eelem a b, σ => upd env b (upd env a σ)
  | _, .erot id r p, σ => put id (cell env (.erot id r p)) (upd env p (upd env r σ))
  | _, .emat id m p, σ => put id (cell env (.emat id m p)) (upd env p (upd env m σ))
  | _, .etrans T, σ => upd env T σ
  | _, .ehom h, σ => upd env h σ
  | _, .rmul id a b, σ => put id (cell env (.rmul id a b)) (upd env b (upd env a σ))
  | _, .rinv id a, σ => put id (cell env (.rinv id a)) (upd env a σ)
  | _, .raxis _ s, σ => upd env s σ
  | _, .rtrans T, σ => upd env T σ
  | _, .tbasic r p, σ => upd env p (upd env r σ)
  | _, .tbasicR r, σ => upd env r σ
  | _, .tbasicE p, σ => upd env p σ
  | _, .tmul id a b, σ => put id (cell env (.tmul id a b)) (upd env b (upd env a σ))
  | _, .tinv id a, σ => put id (cell env (.tinv id a)) (upd env a σ)
  | _, .hmul id T h, σ => put id (cell env (.hmul id T h)) (upd env h (upd env T σ))
  | _, .heuc p, σ => upd env p σ
  | _, _, σ => σ

/-- Evaluating an expression: its value and the members afterwards. See `val` and `cell` for the lines. -/
noncomputable def evaluate (env : Env) {ty : Ty} (e : Node ty) (σ : Store) : Res (Val ty × Store) :=
  val env e >>= fun v => .ok (v, upd env e σ)

/-- One call of `JacobianContainer::add`: the design variable and its Jacobian with all chain rule matrices applied.
aslam_backend/include/aslam/backend/JacobianContainer.hpp:59-62. -/
structure Contr (m : Nat) where
  v : Var
  B : Matrix (Fin m) v.Idx ℝ

/-- What evaluating Jacobians adds to the container, and the members afterwards. Not code: the effect of the lines listed at `jac`. -/
abbrev JRes (m : Nat) := Res (List (Contr m) × Store)

/-- One after the other. Two statements of the bodies listed at `jac`, for example N:40-43. -/
def seq {m : Nat} (f g : Store → JRes m) (σ : Store) : JRes m :=
  f σ >>= fun r => g r.2 >>= fun q => .ok (r.1 ++ q.1, q.2)

/-- Evaluate an operand and go on with its value. A call of an operand in the bodies listed at `jac`. -/
noncomputable def ev (env : Env) {ty : Ty} {m : Nat} (e : Node ty) (k : Val ty → Store → JRes m) (σ : Store) : JRes m :=
  val env e >>= fun v => k v (upd env e σ)

/-- Unit row vector, `include/aslam/backend/ScalarExpressionNode.hpp:347`. -/
def rowUnit (k : Fin 3) : Matrix Unit (Fin 3) ℝ := fun _ j => if j = k then 1 else 0
/-- A vector as a matrix with one column. Not code. -/
def colM (v : V3) : Matrix (Fin 3) Unit ℝ := fun i _ => v i
/-- Unit column vector, V:55, X:34. -/
def colUnit (k : Fin 3) : Matrix (Fin 3) Unit ℝ := colM (fun i => if i = k then 1 else 0)
/-- `sm::kinematics::boxTimes`, an external function: `[C, -t^× C; 0, C]`. -/
def boxTimes (P : Pose) : Matrix (Fin 3 ⊕ Fin 3) (Fin 3 ⊕ Fin 3) ℝ := fromBlocks P.C (-crossMx P.t * P.C) 0 P.C
/-- `sm::kinematics::boxMinus`, an external function: `[p₄ 1, p^×; 0, 0]`. -/
def boxMinus (v : V3 × ℝ) : Matrix (Fin 3 ⊕ Unit) (Fin 3 ⊕ Fin 3) ℝ := fromBlocks (v.2 • (1 : M3)) (crossMx v.1) 0 0
/-- The transformation matrix itself. Not code: the representation of `Pose`. -/
def Pose.mat (P : Pose) : Matrix (Fin 3 ⊕ Unit) (Fin 3 ⊕ Unit) ℝ := fromBlocks P.C (colM P.t) 0 1
/-- The Jacobian of `sm::kinematics::fromHomogeneous`, an external function: `[1/p₄, -p/p₄²]`. -/
noncomputable def fromHomJ (v : V3 × ℝ) : Matrix (Fin 3) (Fin 3 ⊕ Unit) ℝ := fromCols (v.2⁻¹ • (1 : M3)) (colM (-(v.2⁻¹ * v.2⁻¹) • v.1))
/-- The 3×9 matrix of E:74-75. -/
def matJ (p : V3) : Matrix (Fin 3) (Fin 3 × Fin 3) ℝ := fun i c => if c.2 = i then p c.1 else 0

/-- `evaluateJacobians` with the chain rule matrix `A` applied: N:34-38, 45-51, 63-72, 148-158, 245-252 and the factors of one-operand nodes;
`include/aslam/backend/ScalarExpressionNode.hpp:343-348` (component); V:50-57, 78-83, 105-110; E:36-40, 72-78, 106-110, 136-140, 166-170, 193-196, 218-221,
246-250, 267-272, 318-323, 349-353; R:39-40, 67-70, 95-98, 121-125; T:59-63, 81-84, 96; B:28-50; H:64-68, 84, 102-104; X:28-35; M:55-59 and the leaves
`src/Scalar.cpp:45-48`, `src/EuclideanPoint.cpp:45-48`, `src/RotationQuaternion.cpp:49-52`, `src/HomogeneousPoint.cpp:45-48`.
`invS` is the external function `sm::kinematics::quatInvS`. That `apply` multiplies the chain rule matrices is the subject of C05. -/
noncomputable def jac (invS : V3 × ℝ → Matrix (Fin 3 ⊕ Unit) (Fin 3) ℝ) (env : Env) {m : Nat} :
    {ty : Ty} → Node ty → Matrix (Fin m) (TI ty) ℝ → Store → JRes m
  | _, .sconst _, _, σ => .ok ([], σ)
  | _, .svar i, A, σ => .ok ([⟨.sc i, A⟩], σ)
  | _, .sun f a, A, σ => ev env a (fun x σ => f.factor x >>= fun d => jac invS env a (d • A) σ) σ
  | _, .smul a b, A, σ =>
    seq (ev env b fun y => jac invS env a (y • A)) (ev env a fun x => jac invS env b (x • A)) σ
  | _, .sdiv a b, A, σ => ev env b (fun y => ev env a fun x σ =>
      if y = 0 then .ub else seq (jac invS env a ((1 / y) • A)) (jac invS env b ((-x * (1 / y) * (1 / y)) • A)) σ) σ
  | _, .sadd a b k, A, σ => seq (jac invS env a A) (jac invS env b (k • A)) σ
  | _, .satan2 a b, A, σ => ev env a (fun y => ev env b fun x σ =>
      if y * y + x * x = 0 then .ub else
      seq (jac invS env a ((x * (1 / (y * y + x * x))) • A)) (jac invS env b ((-y * (1 / (y * y + x * x))) • A)) σ) σ
  | _, .spiece cond a b, A, σ => if cond env then jac invS env a A σ else jac invS env b A σ
  | _, .scomp k p, A, σ => jac invS env p (A * rowUnit k) σ
  | _, .econst _, _, σ => .ok ([], σ)
  | _, .evar i, A, σ => .ok ([⟨.pt i, A⟩], σ)
  | _, .estack a b c, A, σ =>
    seq (jac invS env a (A * colUnit 0)) (seq (jac invS env b (A * colUnit 1)) (jac invS env c (A * colUnit 2))) σ
  | _, .eadd a b, A, σ => seq (jac invS env a A) (jac invS env b A) σ
  | _, .esub a b, A, σ => seq (jac invS env a A) (jac invS env b ((-1 : ℝ) • A)) σ
  | _, .esubc a _, A, σ => jac invS env a A σ
  | _, .eneg a, A, σ => jac invS env a ((-1 : ℝ) • A) σ
  | _, .escale p s, A, σ =>
    seq (ev env s fun c => jac invS env p ((show ℝ from c) • A)) (ev env p fun v => jac invS env s (A * colM v)) σ
  | _, .ecross a b, A, σ =>
    seq (ev env b fun y => jac invS env a (A * -crossMx y)) (ev env a fun x => jac invS env b (A * crossMx x)) σ
  | _, .eelem a b, A, σ =>
    seq (ev env b fun y => jac invS env a (A * (diagonal y : M3))) (ev env a fun x => jac invS env b (A * (diagonal x : M3))) σ
  | _, .erot id r p, A, σ =>
    match σ id with
    | some (.rp C x) => seq (jac invS env r (A * crossMx (C *ᵥ x))) (jac invS env p (A * C)) σ
    | _ => .ub
  | _, .emat id b p, A, σ =>
    match σ id with
    | some (.mp B x) => seq (jac invS env b (A * matJ x)) (jac invS env p (A * B)) σ
    | _ => .ub
  | _, .etrans T, A, σ => ev env T (fun P => jac invS env T (A * fromCols (1 : M3) (crossMx P.t))) σ
  | _, .ehom h, A, σ => ev env h (fun v σ => if v.2 = 0 then .ub else jac invS env h (A * fromHomJ v) σ) σ
  | _, .rconst _, _, σ => .ok ([], σ)
  | _, .rvar i, A, σ => .ok ([⟨.ro i, A⟩], σ)
  | _, .rmul id a b, A, σ =>
    match σ id with
    | some (.rr C _) => seq (jac invS env b (A * C)) (jac invS env a A) σ
    | _ => .ub
  | _, .rinv id a, A, σ =>
    match σ id with
    | some (.r C) => jac invS env a (A * -Cᵀ) σ
    | _ => .ub
  | _, .raxis k s, A, σ => jac invS env s (A * -colUnit k) σ
  | _, .rtrans T, A, σ => jac invS env T (A * fromCols (0 : M3) (1 : M3)) σ
  | _, .tconst _, _, σ => .ok ([], σ)
  | _, .tbasic r p, A, σ =>
    seq (ev env p fun x => jac invS env r (A * fromRows (-crossMx x) (1 : M3))) (jac invS env p (A * fromRows (1 : M3) (0 : M3))) σ
  | _, .tbasicR r, A, σ => jac invS env r (A * fromRows (0 : M3) (1 : M3)) σ
  | _, .tbasicE p, A, σ => jac invS env p (A * fromRows (1 : M3) (0 : M3)) σ
  | _, .tmul id a b, A, σ =>
    match σ id with
    | some (.tt P _) => seq (jac invS env b (A * boxTimes P)) (jac invS env a A) σ
    | _ => .ub
  | _, .tinv id a, A, σ =>
    match σ id with
    | some (.t P) => jac invS env a (A * -boxTimes P) σ
    | _ => .ub
  | _, .hconst _, _, σ => .ok ([], σ)
  | _, .hvar i, A, σ => .ok ([⟨.ho i, A * invS (env.ho i)⟩], σ)
  | _, .hmul id T h, A, σ =>
    match σ id with
    | some (.th P v) => seq (jac invS env T (A * boxMinus (P.ap v))) (jac invS env h (A * P.mat)) σ
    | _ => .ub
  | _, .heuc p, A, σ => jac invS env p (A * fromRows (1 : M3) (0 : Matrix Unit (Fin 3) ℝ)) σ
  | _, .mvar i free, A, σ => .ok (if free = [] then [] else [⟨.mat i free, fun a k => A a ((free.get k).2, (free.get k).1)⟩], σ)

/-- `getDesignVariables`: `src/ScalarExpressionNode.cpp:18-21` and the functions after each constructor, 265-272 (piecewise);
E:21-25, 57-61, 94-98, 124-128, 154-158, 183-186, 208-211, 235-239, 274-276, 325-327, 338-342; R:42-43, 72-75, 100-103, 127-129; T:42-46, 86-89, 97; B:52-58;
H:70-74, 85, 106-108; X:37-40; M:65-69; V:59-65, 85-90, 92-97; leaves insert themselves. -/
def dvs (env : Env) : {ty : Ty} → Node ty → List Var
  | _, .svar i => [.sc i]
  | _, .evar i => [.pt i]
  | _, .rvar i => [.ro i]
  | _, .hvar i => [.ho i]
  | _, .mvar i free => if free = [] then [] else [.mat i free]
  | _, .sun _ a => dvs env a
  | _, .smul a b => dvs env a ++ dvs env b
  | _, .sdiv a b => dvs env a ++ dvs env b
  | _, .sadd a b _ => dvs env a ++ dvs env b
  | _, .satan2 a b => dvs env a ++ dvs env b
  | _, .spiece cond a b => if cond env then dvs env a else dvs env b
  | _, .scomp _ p => dvs env p
  | _, .estack a b c => dvs env a ++ (dvs env b ++ dvs env c)
  | _, .eadd a b => dvs env a ++ dvs env b
  | _, .esub a b => dvs env a ++ dvs env b
  | _, .esubc a _ => dvs env a
  | _, .eneg a => dvs env a
  | _, .escale p s => dvs env p ++ dvs env s
  | _, .ecross a b => dvs env a ++ dvs env b
  | _, .eelem a b => dvs env a ++ dvs env b
  | _, .erot _ r p => dvs env r ++ dvs env p
  | _, .emat _ m p => dvs env m ++ dvs env p
  | _, .etrans T => dvs env T
  | _, .ehom h => dvs env h
  | _, .rmul _ a b => dvs env a ++ dvs env b
  | _, .rinv _ a => dvs env a
  | _, .raxis _ s => dvs env s
  | _, .rtrans T => dvs env T
  | _, .tbasic r p => dvs env r ++ dvs env p
  | _, .tbasicR r => dvs env r
  | _, .tbasicE p => dvs env p
  | _, .tmul _ a b => dvs env a ++ dvs env b
  | _, .tinv _ a => dvs env a
  | _, .hmul _ T h => dvs env T ++ dvs env h
  | _, .heuc p => dvs env p
  | _, .sconst _ => []
  | _, .econst _ => []
  | _, .rconst _ => []
  | _, .tconst _ => []
  | _, .hconst _ => []

end Verif.Expr
