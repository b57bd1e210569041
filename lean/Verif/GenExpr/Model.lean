import Verif.Prelude
import Verif.Quat.Model
import Mathlib.Data.Real.Basic
import Mathlib.LinearAlgebra.Matrix.NonsingularInverse
import Mathlib.LinearAlgebra.CrossProduct

/-!
Model of the generic matrix expressions and of the differentials their nodes exchange:
`aslam_backend_expressions/include/aslam/backend/Differential.hpp` (below `D`),
`OperationResultNodes.hpp` (`O`), `implementation/GenericMatrixExpression.hpp` (`G`),
`implementation/QuaternionExpression.hpp` (`Q`), `implementation/VectorExpressionNode.hpp` (`V`),
`DesignVariableGenericVector.hpp`, `DesignVariableUnitQuaternion.hpp`, `DesignVariableVector.hpp`.

Numbers are reals.  Matrices carry their sizes in their types, as the C++ templates do; the sizes which C++ only
knows at run time (the container and its chain rule) are run-time values here too and a mismatch is an outcome
(`exc` for the always-on assertion, `ub` for Eigen's own debug assertion / out-of-bounds access).
-/
namespace Verif.GenExpr
open Verif.Quat (Mode Geometry Q4)
open Matrix

/-- `Eigen::Matrix<double, r, c>`; for example D:174-182. -/
abbrev Mat (r c : Nat) := Matrix (Fin r) (Fin c) ℝ

/-- The column of an `n × 1` matrix as a vector (Eigen does not distinguish the two). -/
def col {n : Nat} (A : Mat n 1) : Fin n → ℝ := fun i => A i 0

/-- A vector as an `n × 1` matrix. -/
def ofCol {n : Nat} (v : Fin n → ℝ) : Mat n 1 := fun i _ => v i

/-- The kinds of expression nodes which can occur in one tree: `ScalarExpressionNode`, `VectorExpressionNode<n>`,
`GenericMatrixExpressionNode<r, c>`.
The classes of ScalarExpressionNode.hpp, VectorExpressionNode.hpp and GenericMatrixExpressionNode.hpp in aslam_backend_expressions/include/aslam/backend. -/
inductive Kind
  | S
  | V (n : Nat)
  | G (r c : Nat)

/-- The design variables: `Scalar`, `DesignVariableVector<n>`, `DesignVariableGenericVector<n>`
(`DesignVariableGenericVector.hpp`:14-80), `DesignVariableUnitQuaternion` (`DesignVariableUnitQuaternion.hpp`:17-48).
Variables of one type are told apart by a number. -/
inductive Var
  | sc (i : Nat)
  | vec (n i : Nat)
  | gvec (n i : Nat)
  | quat (m : Mode) (g : Geometry) (i : Nat)
  deriving DecidableEq

/-- `minimalDimensions` (`DesignVariableGenericVector.hpp`:47-49, `DesignVariableUnitQuaternion.hpp`:37-39). -/
abbrev Var.dim : Var → Nat
  | .sc _ => 1
  | .vec n _ => n
  | .gvec n _ => n
  | .quat _ _ _ => 3

/-- The values of the design variables. The members read by V:59-65 and DesignVariableGenericVector.hpp:37-58. -/
structure Env where
  sc : Nat → ℝ
  vec : (n : Nat) → Nat → Fin n → ℝ
  gvec : (n : Nat) → Nat → Fin n → ℝ
  quat : Mode → Geometry → Nat → Q4 ℝ

/-- Functions of the external library `sm_kinematics` which Q:106-118 and Q:144-152 call: the logarithm, its Jacobian
and the Jacobian of the exponential. -/
structure Ext where
  log : Mode → Q4 ℝ → Fin 3 → ℝ
  dlog : Mode → Q4 ℝ → Mat 3 4
  dexp : Mode → (Fin 3 → ℝ) → Mat 4 3

/-- Expression nodes.  Of the scalar and vector nodes only some are included here, to let generic matrix expressions
be built from and converted to them; the others are the subject of `Verif/Expr`.
The lines of each node are at `dvs` and in the comments of `val` and `jac`. -/
inductive Node : Kind → Type
  /-- `ConstantScalarExpressionNode` -/
  | sconst (x : ℝ) : Node .S
  /-- `Scalar` -/
  | svar (i : Nat) : Node .S
  /-- `ScalarExpressionNodeAdd` -/
  | sadd (a b : Node .S) : Node .S
  /-- `ScalarExpressionNodeMultiply` -/
  | smul (a b : Node .S) : Node .S
  /-- `ScalarExpressionNodeFromVectorExpression<n, k>` (`ScalarExpressionNode.hpp`:319-350) -/
  | sofV {n : Nat} (v : Node (.V n)) (k : Fin n) : Node .S
  /-- `toScalarExpression<i, j>()` and `toScalarExpression(i, j)` (G:88-136) -/
  | sofG {r c : Nat} (g : Node (.G r c)) (i : Fin r) (j : Fin c) : Node .S
  /-- `squaredNorm()` (G:184-213) -/
  | sqn {r : Nat} (g : Node (.G r 1)) : Node .S
  /-- `ConstantVectorExpressionNode` -/
  | vconst {n : Nat} (v : Fin n → ℝ) : Node (.V n)
  /-- `DesignVariableVector<n>` -/
  | vvar (n i : Nat) : Node (.V n)
  /-- `StackedScalarVectorExpressionNode` (V:34-65) -/
  | vstack {n : Nat} (cs : Fin n → Node .S) : Node (.V n)
  /-- `VectorExpressionNodeAddVector` (V:67-90) -/
  | vadd {n : Nat} (a b : Node (.V n)) : Node (.V n)
  /-- `VectorExpressionNodeScalarMultiply` (V:92-110) -/
  | vscale {n : Nat} (p : Node (.V n)) (s : Node .S) : Node (.V n)
  /-- a constant matrix (G:27) -/
  | gconst {r c : Nat} (A : Mat r c) : Node (.G r c)
  /-- `DesignVariableGenericVector<n>` -/
  | gvar (n i : Nat) : Node (.G n 1)
  /-- `DesignVariableUnitQuaternion` -/
  | gquat (m : Mode) (g : Geometry) (i : Nat) : Node (.G 4 1)
  /-- a vector expression used as a matrix expression (`convertToGME`): the root is the vector node itself -/
  | ofV {n : Nat} (v : Node (.V n)) : Node (.G n 1)
  /-- a scalar expression used as a `1 × 1` matrix expression (G:38-57) -/
  | ofS (s : Node .S) : Node (.G 1 1)
  /-- the conversion to the default node type (G:143-161) -/
  | copy {r c : Nat} (a : Node (.G r c)) : Node (.G r c)
  /-- `transpose()` (G:163-182) -/
  | transpose {r c : Nat} (a : Node (.G r c)) : Node (.G c r)
  /-- `inverse()` (G:215-237) -/
  | inverse {r : Nat} (a : Node (.G r r)) : Node (.G r r)
  /-- `operator*` for matrices (G:239-263) -/
  | mul {r k c : Nat} (a : Node (.G r k)) (b : Node (.G k c)) : Node (.G r c)
  /-- `operator+` (G:265-290) -/
  | add {r c : Nat} (a b : Node (.G r c)) : Node (.G r c)
  /-- binary `operator-` (G:292-316) -/
  | sub {r c : Nat} (a b : Node (.G r c)) : Node (.G r c)
  /-- unary `operator-` (G:318-339) -/
  | neg {r c : Nat} (a : Node (.G r c)) : Node (.G r c)
  /-- `operator*` with a scalar expression (G:341-364) -/
  | scaleS {r c : Nat} (a : Node (.G r c)) (s : Node .S) : Node (.G r c)
  /-- `operator*` with a number (G:366-390) -/
  | scale {r c : Nat} (a : Node (.G r c)) (x : ℝ) : Node (.G r c)
  /-- `cross` of a vector with a matrix, column by column (G:412-430, 432-467) -/
  | crossL {c : Nat} (a : Node (.G 3 1)) (b : Node (.G 3 c)) : Node (.G 3 c)
  /-- `cross` of a matrix with a vector, column by column (G:404-411, 432-467) -/
  | crossR {c : Nat} (a : Node (.G 3 c)) (b : Node (.G 3 1)) : Node (.G 3 c)
  /-- the product of quaternion expressions (Q:175-198) -/
  | qmul (m : Mode) (a b : Node (.G 4 1)) : Node (.G 4 1)
  /-- `inverse()` of a quaternion expression (Q:200-226) -/
  | qinv (m : Mode) (a : Node (.G 4 1)) : Node (.G 4 1)
  /-- `conjugate()` (Q:228-246) -/
  | qconj (m : Mode) (a : Node (.G 4 1)) : Node (.G 4 1)
  /-- `imaginaryPart()` (Q:249-269) -/
  | qimag (m : Mode) (a : Node (.G 4 1)) : Node (.G 3 1)
  /-- `rotate3Vector` (Q:275-305) -/
  | qrot (m : Mode) (q : Node (.G 4 1)) (v : Node (.G 3 1)) : Node (.G 3 1)
  /-- `log` (Q:307-329) -/
  | qlog (m : Mode) (a : Node (.G 4 1)) : Node (.G 3 1)
  /-- `exp` (Q:331-352) -/
  | qexp (m : Mode) (a : Node (.G 3 1)) : Node (.G 4 1)

/-- The type of the values of a node.
GenericMatrixExpressionNode.hpp:1-118, VectorExpressionNode.hpp:1-161, ScalarExpressionNode.hpp:1-364 (the return types of `evaluate`). -/
abbrev Val : Kind → Type
  | .S => ℝ
  | .V n => Fin n → ℝ
  | .G r c => Mat r c

/-- The cross product of a vector with every column (`CrossProductCalculator<1, IRhsCols>`, G:412-420). -/
def crossCols {c : Nat} (a : Fin 3 → ℝ) (B : Mat 3 c) : Mat 3 c := fun i j => (a ⨯₃ fun k => B k j) i

/-- The cross product of every column with a vector (`CrossProductCalculator<ILhsCols, 1>`, G:404-411). -/
def colsCross {c : Nat} (A : Mat 3 c) (b : Fin 3 → ℝ) : Mat 3 c := fun i j => ((fun k => A k j) ⨯₃ b) i

/-- `evaluate` of every node (the `evaluateImplementation`s of G, Q, V and of the scalar nodes). The lines of each node are those at `dvs`. -/
noncomputable def val (x : Ext) (env : Env) : {k : Kind} → Node k → Val k
  | _, .sconst y => y
  | _, .svar i => env.sc i
  | _, .sadd a b => val x env a + val x env b
  | _, .smul a b => val x env a * val x env b
  | _, .sofV v k => val x env v k
  | _, .sofG g i j => val x env g i j
  | _, .sqn g => ∑ i, val x env g i 0 * val x env g i 0
  | _, .vconst v => v
  | _, .vvar n i => env.vec n i
  | _, .vstack cs => fun i => val x env (cs i)
  | _, .vadd a b => val x env a + val x env b
  | _, .vscale p s => fun i => val x env p i * val x env s
  | _, .gconst A => A
  | _, .gvar n i => ofCol (env.gvec n i)
  | _, .gquat m g i => ofCol (env.quat m g i)
  | _, .ofV v => ofCol (val x env v)
  | _, .ofS s => fun _ _ => val x env s
  | _, .copy a => val x env a
  | _, .transpose a => (val x env a)ᵀ
  | _, .inverse a => (val x env a)⁻¹
  | _, .mul a b => val x env a * val x env b
  | _, .add a b => val x env a + val x env b
  | _, .sub a b => val x env a - val x env b
  | _, .neg a => -val x env a
  | _, .scaleS a s => val x env s • val x env a
  | _, .scale a y => y • val x env a
  | _, .crossL a b => crossCols (col (val x env a)) (val x env b)
  | _, .crossR a b => colsCross (val x env a) (col (val x env b))
  | _, .qmul m a b => ofCol (Quat.mult m (col (val x env a)) (col (val x env b)))
  | _, .qinv m a => ofCol (Quat.invert m (col (val x env a)))
  | _, .qconj m a => ofCol (Quat.conjugate m (col (val x env a)))
  | _, .qimag m a => ofCol (Quat.imag m (col (val x env a)))
  | _, .qrot m q v => ofCol (Quat.rotate m (col (val x env q)) (col (val x env v)))
  | _, .qlog m a => ofCol (x.log m (col (val x env a)))
  | _, .qexp m a => ofCol (Quat.exp m (col (val x env a)))

/-- Differentials (D): a linear map from the tangent space of an `r × c` expression to vectors of length `m`.
`id` is `IdentityDifferential` (D:103-134; it only compiles for column vectors), `mat` is `MatrixDifferential`
(D:280-318), `comp` is the `Diff` class of the operation nodes (O:71-88, O:168-190: `ComposedDifferential` with the
node's `applyDiff`), `compMat` is `ComposedMatrixDifferential` (D:324-364). -/
inductive Diff : Nat → Nat → Nat → Type
  | id {m : Nat} : Diff m 1 m
  | mat {n m : Nat} (M : Mat m n) : Diff n 1 m
  | comp {r c r' c' m : Nat} (f : Mat r c → Mat r' c') (next : Diff r' c' m) : Diff r c m
  | compMat {n p m : Nat} (M : Mat p n) (next : Diff p 1 m) : Diff n 1 m

/-- `applyInto` (D:116-118, D:252-254 with O:85-87, D:300-302, D:349-351). -/
def Diff.apply : {r c m : Nat} → Diff r c m → Mat r c → Fin m → ℝ
  | _, _, _, .id, t => col t
  | _, _, _, .mat M, t => M *ᵥ col t
  | _, _, _, .comp f next, t => next.apply (f t)
  | _, _, _, .compMat M next, t => next.apply (M * t)

/-- `getDomainBasisVectorByIndex` for column vectors (D:41-53). -/
def basis {n : Nat} (i : Fin n) : Mat n 1 := fun k _ => if k = i then 1 else 0

/-- `Eigen::Matrix<double, 1, n>::Unit(k)` (`ScalarExpressionNode.hpp`:348). -/
def unitRow {n : Nat} (k : Fin n) : Mat 1 n := fun _ i => if i = k then 1 else 0

/-- `applyBasisVectorInto` (D:111-114, D:248-250 with D:244-246, D:296-298, D:353-355). -/
def Diff.applyBasis : {n m : Nat} → Diff n 1 m → Fin n → Fin m → ℝ
  | _, _, .id, i => fun k => if k = i then 1 else 0
  | _, _, .mat M, i => fun k => M k i
  | _, _, .comp f next, i => next.apply (f (basis i))
  | _, _, .compMat M next, i => next.apply fun k _ => M k i

/-- `calcJacobianByApplication` (D:174-182), called with the right number of rows and columns. -/
def Diff.calc {n m : Nat} (d : Diff n 1 m) : Mat m n := fun k i => d.applyBasis i k

/-- The chain rule matrix of a Jacobian container with `R` rows (`JacobianContainer.hpp`:45-130): the top of its
matrix stack, if any. -/
abbrev Chain (R : Nat) := Option (Σ k, Mat R k)

/-- The chain rule as a matrix with `m` columns, if it has that many (an empty chain rule is the identity).
Used for `JacobianContainer.hpp`:59-62, 76-83. -/
def Chain.get {R : Nat} (ch : Chain R) (m : Nat) : Option (Mat R m) :=
  match ch with
  | none => if h : R = m then some fun i j => if i = Fin.cast h.symm j then 1 else 0 else none
  | some ⟨k, A⟩ => if h : k = m then some fun i j => A i (Fin.cast h.symm j) else none

/-- The outcome of a size mismatch when a matrix is pushed: an empty chain rule is checked by an assertion
(`JacobianContainer.hpp`:80-81), a non-empty one is multiplied without a check. -/
def Chain.bad {R : Nat} {α : Type} (ch : Chain R) : Res α := if ch.isNone then .exc else .ub

/-- `JacobianContainer::apply(mat)` (`JacobianContainer.hpp`:76-83, `MatrixStack::push`). -/
def Chain.push {R m q : Nat} (ch : Chain R) (M : Mat m q) : Res (Chain R) :=
  match ch.get m with
  | some A => .ok (some ⟨q, A * M⟩)
  | none => ch.bad

/-- `JacobianContainer::apply(scalar)` (`JacobianContainer.hpp`:85-89). -/
def Chain.pushScalar {R : Nat} (ch : Chain R) (s : ℝ) : Chain R :=
  match ch with
  | none => some ⟨R, s • (1 : Mat R R)⟩
  | some ⟨k, A⟩ => some ⟨k, s • A⟩

/-- A Jacobian added to the container. `JacobianContainer.hpp`:59-62. -/
structure Contr (R : Nat) where
  v : Var
  J : Mat R v.dim

/-- `add(dv, J)`: the chain rule is multiplied with `J`; the sizes are not checked in release builds. `JacobianContainer.hpp`:59. -/
def addJ {R k : Nat} (ch : Chain R) (v : Var) (J : Mat k v.dim) : Res (List (Contr R)) :=
  match ch.get k with
  | some A => .ok [⟨v, A * J⟩]
  | none => .ub

/-- `add(dv)`.  The code does not check the sizes: a chain rule with a wrong number of columns is stored as it is.
Modelled as `ub`. `JacobianContainer.hpp`:62. -/
def addId {R : Nat} (ch : Chain R) (v : Var) : Res (List (Contr R)) :=
  match ch.get v.dim with
  | some A => .ok [⟨v, A⟩]
  | none => .ub

/-- `calcJacobianByApplication(jc.rows(), …)` followed by `jc.add` (D:166-168).  The temporary vector has as many
entries as the container has rows, not as many as the differential yields: other sizes are undefined behaviour. -/
def addByApplication {R m : Nat} (ch : Chain R) (v : Var) (d : Diff v.dim 1 m) : Res (List (Contr R)) :=
  if R = m then addJ ch v d.calc else .ub

/-- `addToJacobianContainer(jc, dv)` (D:120-122, D:304-306, D:256-258). -/
def Diff.addTo {R m : Nat} (ch : Chain R) (v : Var) (d : Diff v.dim 1 m) : Res (List (Contr R)) :=
  match d with
  | .id => addId ch v
  | .mat M => addJ ch v M
  | .comp _ _ => addByApplication ch v d
  | .compMat _ _ => addByApplication ch v d

/-- `addToJacobianContainer(jc, dv, J)` (D:124-126, D:308-310, D:260-262 with D:170-172 and D:345-347). -/
def Diff.addToJ {R n m : Nat} (ch : Chain R) (v : Var) (d : Diff n 1 m) (J : Mat n v.dim) : Res (List (Contr R)) :=
  match d with
  | .id => addJ ch v J
  | .mat M => addJ ch v (M * J)
  | .comp f next => addByApplication ch v (.compMat J (.comp f next))
  | .compMat M next => addByApplication ch v (.compMat (M * J) next)

/-- `applyDifferentialToJacobianContainer` (D:55-73) with `convertIntoMatrix` (D:128-133, D:312-318, D:264-275,
D:357-363).  The last one ignores the next differential.  Assignments between maps of different sizes are `ub`. -/
def Diff.applyTo {R n m : Nat} (ch : Chain R) (d : Diff n 1 m) : Res (Chain R) :=
  match d with
  | .id => match ch.get n with
    | some A => .ok (some ⟨n, A⟩)
    | none => .ub
  | .mat M => match ch.get m with
    | some A => .ok (some ⟨n, A * M⟩)
    | none => .ub
  | .comp f next => match ch.get m with
    | some A => .ok (some ⟨n, A * (Diff.comp f next).calc⟩)
    | none => .ub
  | .compMat (p := p) M _ => match ch.get p with
    | some A => .ok (some ⟨n, A * M⟩)
    | none => .ub

/-- What `evaluateJacobians` of a node is given besides the container: nothing, or a differential. The arguments of `evaluateJacobians`, D:55-73. -/
abbrev Arg : Kind → Type
  | .S => Unit
  | .V _ => Unit
  | .G r c => Σ m, Diff r c m

/-- One evaluation after another. Not code: two statements of the bodies modelled by `jac`. -/
def cat {α : Type} (x y : Res (List α)) : Res (List α) := x >>= fun a => y >>= fun b => .ok (a ++ b)

/-- A loop of evaluations. Not code: a loop in the bodies modelled by `jac`. -/
def catAll {α : Type} : List (Res (List α)) → Res (List α)
  | [] => .ok []
  | x :: xs => cat x (catAll xs)

/-- `evaluateJacobians` of every node: the Jacobians added to a container with `R` rows and chain rule `ch`. The lines of each node are those at `dvs`. -/
noncomputable def jac (x : Ext) (env : Env) {R : Nat} : {k : Kind} → Node k → Arg k → Chain R → Res (List (Contr R))
  | _, .sconst _, _, _ => .ok []
  | _, .svar i, _, ch => addId ch (.sc i)
  | _, .sadd a b, _, ch => cat (jac x env a () ch) (jac x env b () ch)
  | _, .smul a b, _, ch =>
    cat (jac x env a () (ch.pushScalar (val x env b))) (jac x env b () (ch.pushScalar (val x env a)))
  -- `ScalarExpressionNode.hpp`:345-349
  | _, .sofV v k, _, ch => ch.push (unitRow k) >>= fun ch' => jac x env v () ch'
  -- `UnaryOperationResultNodeNoDiff` (O:90-99): the node's differential after the identity
  | _, .sofG g i j, _, ch => jac x env g ⟨1, .comp (fun t => (fun _ _ => t i j : Mat 1 1)) .id⟩ ch
  -- G:205-208
  | _, .sqn (r := r) g, _, ch =>
    ch.push ((2 : ℝ) • (val x env g)ᵀ) >>= fun ch' => jac x env g ⟨r, .id⟩ ch'
  | _, .vconst _, _, _ => .ok []
  | _, .vvar n i, _, ch => addId ch (.vec n i)
  -- V:50-57
  | _, .vstack (n := n) cs, _, ch => catAll ((List.finRange n).map fun i =>
      ch.push (basis i) >>= fun ch' => jac x env (cs i) () ch')
  | _, .vadd a b, _, ch => cat (jac x env a () ch) (jac x env b () ch)
  -- V:105-110
  | _, .vscale p s, _, ch => cat (jac x env p () (ch.pushScalar (val x env s)))
      (ch.push (ofCol (val x env p)) >>= fun ch' => jac x env s () ch')
  | _, .gconst _, _, _ => .ok []
  -- `DesignVariableGenericVector.hpp`:64-66
  | _, .gvar n i, ⟨_, d⟩, ch => Diff.addTo ch (.gvec n i) d
  -- `DesignVariableUnitQuaternion.hpp`:41-45
  | _, .gquat m .right i, ⟨_, d⟩, ch => Diff.addToJ ch (.quat m .right i) d (Quat.dUpdate m .right (env.quat m .right i))
  | _, .gquat _ .left _, _, _ => .ok []
  -- V:14-22
  | _, .ofV v, ⟨_, d⟩, ch => Diff.applyTo ch d >>= fun ch' => jac x env v () ch'
  -- O:102-110 with `ScalarExpressionNode.hpp`:41-43
  | _, .ofS s, ⟨_, d⟩, ch => Diff.applyTo ch (Diff.comp (fun t : Mat 1 1 => t) d) >>= fun ch' => jac x env s () ch'
  | _, .copy a, ⟨m, d⟩, ch => jac x env a ⟨m, .comp (fun t => t) d⟩ ch
  | _, .transpose a, ⟨m, d⟩, ch => jac x env a ⟨m, .comp (fun t => tᵀ) d⟩ ch
  | _, .inverse a, ⟨m, d⟩, ch => jac x env a ⟨m, .comp (fun t => -(val x env a)⁻¹ * t * (val x env a)⁻¹) d⟩ ch
  | _, .mul a b, ⟨m, d⟩, ch =>
    cat (jac x env a ⟨m, .comp (fun t => t * val x env b) d⟩ ch) (jac x env b ⟨m, .comp (fun t => val x env a * t) d⟩ ch)
  | _, .add a b, ⟨m, d⟩, ch => cat (jac x env a ⟨m, .comp (fun t => t) d⟩ ch) (jac x env b ⟨m, .comp (fun t => t) d⟩ ch)
  | _, .sub a b, ⟨m, d⟩, ch => cat (jac x env a ⟨m, .comp (fun t => t) d⟩ ch) (jac x env b ⟨m, .comp (fun t => -t) d⟩ ch)
  | _, .neg a, ⟨m, d⟩, ch => jac x env a ⟨m, .comp (fun t => -t) d⟩ ch
  | _, .scaleS a s, ⟨m, d⟩, ch =>
    cat (jac x env a ⟨m, .comp (fun t => val x env s • t) d⟩ ch)
      (Diff.applyTo ch (Diff.comp (fun t : Mat 1 1 => t 0 0 • val x env a) d) >>= fun ch' => jac x env s () ch')
  | _, .scale a y, ⟨m, d⟩, ch => jac x env a ⟨m, .comp (fun t => y • t) d⟩ ch
  | _, .crossL a b, ⟨m, d⟩, ch =>
    cat (jac x env a ⟨m, .comp (fun t => crossCols (col t) (val x env b)) d⟩ ch)
      (jac x env b ⟨m, .comp (fun t => crossCols (col (val x env a)) t) d⟩ ch)
  | _, .crossR a b, ⟨m, d⟩, ch =>
    cat (jac x env a ⟨m, .comp (fun t => colsCross t (col (val x env b))) d⟩ ch)
      (jac x env b ⟨m, .comp (fun t => colsCross (val x env a) (col t)) d⟩ ch)
  | _, .qmul md a b, ⟨m, d⟩, ch =>
    cat (jac x env a ⟨m, .comp (fun t => ofCol (Quat.mult md (col t) (col (val x env b)))) d⟩ ch)
      (jac x env b ⟨m, .comp (fun t => ofCol (Quat.mult md (col (val x env a)) (col t))) d⟩ ch)
  | _, .qinv md a, ⟨m, d⟩, ch => jac x env a ⟨m, .comp (fun t => ofCol (Quat.invertDiff md (col (val x env a)) (col t))) d⟩ ch
  | _, .qconj md a, ⟨m, d⟩, ch => jac x env a ⟨m, .comp (fun t => ofCol (Quat.conjugate md (col t))) d⟩ ch
  | _, .qimag md a, ⟨m, d⟩, ch => jac x env a ⟨m, .comp (fun t => ofCol (Quat.imag md (col t))) d⟩ ch
  | _, .qrot md q v, ⟨m, d⟩, ch =>
    cat (jac x env q ⟨m, .comp (fun t => ofCol (Quat.rotateDiffL md (col (val x env q)) (col (val x env v)) (col t))) d⟩ ch)
      (jac x env v ⟨m, .comp (fun t => ofCol (Quat.rotateDiffR md (col (val x env q)) (col t))) d⟩ ch)
  | _, .qlog md a, ⟨m, d⟩, ch => jac x env a ⟨m, .compMat (x.dlog md (col (val x env a))) d⟩ ch
  | _, .qexp md a, ⟨m, d⟩, ch => jac x env a ⟨m, .compMat (x.dexp md (col (val x env a))) d⟩ ch

/-- `getDesignVariables` (O:62-64, O:156-159, V:59-65, V:85-97, `DesignVariableGenericVector.hpp`:60-62): the set as a
list. -/
def dvs : {k : Kind} → Node k → List Var
  | _, .sconst _ => []
  | _, .svar i => [.sc i]
  | _, .sadd a b => dvs a ++ dvs b
  | _, .smul a b => dvs a ++ dvs b
  | _, .sofV v _ => dvs v
  | _, .sofG g _ _ => dvs g
  | _, .sqn g => dvs g
  | _, .vconst _ => []
  | _, .vvar n i => [.vec n i]
  | _, .vstack (n := n) cs => (List.finRange n).flatMap fun i => dvs (cs i)
  | _, .vadd a b => dvs a ++ dvs b
  | _, .vscale p s => dvs p ++ dvs s
  | _, .gconst _ => []
  | _, .gvar n i => [.gvec n i]
  | _, .gquat m g i => [.quat m g i]
  | _, .ofV v => dvs v
  | _, .ofS s => dvs s
  | _, .copy a => dvs a
  | _, .transpose a => dvs a
  | _, .inverse a => dvs a
  | _, .mul a b => dvs a ++ dvs b
  | _, .add a b => dvs a ++ dvs b
  | _, .sub a b => dvs a ++ dvs b
  | _, .neg a => dvs a
  | _, .scaleS a s => dvs a ++ dvs s
  | _, .scale a _ => dvs a
  | _, .crossL a b => dvs a ++ dvs b
  | _, .crossR a b => dvs a ++ dvs b
  | _, .qmul _ a b => dvs a ++ dvs b
  | _, .qinv _ a => dvs a
  | _, .qconj _ a => dvs a
  | _, .qimag _ a => dvs a
  | _, .qrot _ q v => dvs q ++ dvs v
  | _, .qlog _ a => dvs a
  | _, .qexp _ a => dvs a

end Verif.GenExpr
