import Verif.Expr.Model

/-!
The expression classes users combine: a shared pointer to a node which may be empty.
`aslam_backend_expressions/src/EuclideanExpression.cpp` (E'), `RotationExpression.cpp` (R'), `TransformationExpression.cpp` (T'), `HomogeneousExpression.cpp`
(H'), `MatrixExpression.cpp` (M'), `ScalarExpression.cpp` (S'), `TransformationBasic.cpp` (B) and
`include/aslam/backend/implementation/VectorExpression.hpp` (V').

A node built over an empty operand holds a null pointer and every use of it dereferences the pointer; here building it is already `ub`.
-/
namespace Verif.Expr
open Matrix Verif.Geo

/-- `EuclideanExpression`, `RotationExpression`, ...: the member `_root`. For example include/aslam/backend/RotationExpression.hpp:66. -/
abbrev Handle (ty : Ty) := Option (Node ty)

/-- Value of an expression object: V':39-45 (zero when empty), R':33-37 and T':50-57 (identity when empty); the others dereference `_root`
(S' `toScalar`, H':41-44, M':26-29). -/
noncomputable def Handle.val (env : Env) : {ty : Ty} → Handle ty → Res (Val ty)
  | _, some e => Expr.val env e
  | .E, none => .ok 0
  | .R, none => .ok 1
  | .T, none => .ok ⟨1, 0⟩
  | _, none => .ub

/-- Both operands must not be null. Not code: null pointers are dereferenced when the node is evaluated, for example R':36, 51. -/
def both {a b c : Ty} (f : Node a → Node b → Node c) : Handle a → Handle b → Res (Handle c)
  | some x, some y => .ok (some (f x y))
  | _, _ => .ub

namespace Handle

/-- `EuclideanExpression::cross`, E':32-38. -/
def cross : Handle .E → Handle .E → Res (Handle .E)
  | some a, some b => .ok (some (.ecross a b))
  | _, _ => .ok none

/-- `EuclideanExpression::elementwiseMultiply`, E':40-44. -/
def elementwise : Handle .E → Handle .E → Res (Handle .E) := both .eelem

/-- `EuclideanExpression::operator+`, E':46-54; `VectorExpression::operator+`, V':74-84. -/
def add : Handle .E → Handle .E → Res (Handle .E)
  | a, none => .ok a
  | none, b => .ok b
  | some a, some b => .ok (some (.eadd a b))

/-- `EuclideanExpression::operator-(EuclideanExpression)`, E':56-64. -/
def sub : Handle .E → Handle .E → Res (Handle .E)
  | a, none => .ok a
  | none, b => .ok b
  | some a, some b => .ok (some (.esub a b))

/-- `EuclideanExpression::operator-(Eigen::Vector3d)`, E':66-72 (`return p` makes a constant expression). -/
def subVec : Handle .E → V3 → Res (Handle .E)
  | none, p => .ok (some (.econst p))
  | some a, p => .ok (some (.esubc a p))

/-- `EuclideanExpression::operator-()`, E':74-80. -/
def neg : Handle .E → Res (Handle .E)
  | none => .ok none
  | some a => .ok (some (.eneg a))

/-- `EuclideanExpression::operator*(ScalarExpression)`, E':82-88; V':86-95. `ScalarExpression::isEmpty` is always false
(`include/aslam/backend/ScalarExpression.hpp:43`), so a null scalar is not noticed. -/
def scale : Handle .E → Handle .S → Res (Handle .E)
  | some a, some s => .ok (some (.escale a s))
  | some _, none => .ub
  | none, _ => .ok none

/-- `VectorExpression::toScalarExpression<k>`, V':61-66; with an empty operand the node's value is 0 and it has no variables
(`include/aslam/backend/ScalarExpressionNode.hpp:335-356`), like a constant. -/
def component (k : Fin 3) : Handle .E → Res (Handle .S)
  | some a => .ok (some (.scomp k a))
  | none => .ok (some (.sconst 0))

/-- `RotationExpression::inverse`, R':40-45. -/
def rinv (id : Nat) : Handle .R → Res (Handle .R)
  | none => .ok none
  | some a => .ok (some (.rinv id a))

/-- `RotationExpression::operator*(RotationExpression)`, R':54-62. -/
def rmul (id : Nat) : Handle .R → Handle .R → Res (Handle .R)
  | a, none => .ok a
  | none, b => .ok b
  | some a, some b => .ok (some (.rmul id a b))

/-- `RotationExpression::operator*(EuclideanExpression)`, R':64-73. -/
def rotate (id : Nat) : Handle .R → Handle .E → Res (Handle .E)
  | _, none => .ok none
  | none, p => .ok p
  | some r, some p => .ok (some (.erot id r p))

/-- `MatrixExpression::operator*`, M':31-34. -/
def matMul (id : Nat) : Handle .M → Handle .E → Res (Handle .E) := both (.emat id)

/-- `TransformationExpression(rotation, translation)`, T':33-36. -/
def transformation : Handle .R → Handle .E → Res (Handle .T)
  | none, none => .ok none
  | some r, none => .ok (some (.tbasicR r))
  | none, some p => .ok (some (.tbasicE p))
  | some r, some p => .ok (some (.tbasic r p))

/-- `TransformationExpression::toRotationExpression`, T':59-65, B:71-73 (its own rotation), otherwise `src/TransformationExpressionNode.cpp:99-102`. -/
def rotation : Handle .T → Res (Handle .R)
  | none => .ok none
  | some (.tbasic r _) => .ok (some r)
  | some (.tbasicR r) => .ok (some r)
  | some (.tbasicE _) => .ok none
  | some T => .ok (some (.rtrans T))

/-- `TransformationExpression::toEuclideanExpression`, T':67-73, B:75-81, otherwise `src/TransformationExpressionNode.cpp:104-107`. -/
def translation : Handle .T → Res (Handle .E)
  | none => .ok none
  | some (.tbasicE p) => .ok (some p)
  | some T => .ok (some (.etrans T))

/-- `TransformationExpression::operator*(HomogeneousExpression)`, T':86-91. -/
def tmulH (id : Nat) : Handle .T → Handle .H → Res (Handle .H)
  | none, h => .ok h
  | some T, h => both (.hmul id) (some T) h

/-- `EuclideanExpression::toHomogeneousExpression`, E':13-18 (assertion in debug builds, a null operand in release builds). -/
def toHom : Handle .E → Res (Handle .H)
  | none => .ub
  | some p => .ok (some (.heuc p))

/-- `HomogeneousExpression::toEuclideanExpression`, H':46-51. -/
def toEuc : Handle .H → Res (Handle .E)
  | none => .ub
  | some h => .ok (some (.ehom h))

/-- `TransformationExpression::operator*(EuclideanExpression)`, T':82-85. -/
def tmulE (id : Nat) : Handle .T → Handle .E → Res (Handle .E)
  | none, p => .ok p
  | T, p => toHom p >>= fun h => tmulH id T h >>= fun q => toEuc q

/-- `TransformationExpression::operator*(TransformationExpression)`, T':93-99. -/
def tmul (id : Nat) : Handle .T → Handle .T → Res (Handle .T)
  | none, b => .ok b
  | a, none => .ok a
  | some a, some b => .ok (some (.tmul id a b))

/-- `TransformationExpression::inverse`, T':101-106. -/
def tinv (id : Nat) : Handle .T → Res (Handle .T)
  | none => .ok none
  | some a => .ok (some (.tinv id a))

/-- The operand must not be null. Not code, as `both`; for example R':43. -/
def one {a c : Ty} (f : Node a → Node c) : Handle a → Res (Handle c)
  | some x => .ok (some (f x))
  | none => .ub

/-- `ScalarExpression::operator+(ScalarExpression)`, S':61-64 (the default factor of the second operand is 1,
`include/aslam/backend/ScalarExpressionNode.hpp:109-112`). -/
def sadd : Handle .S → Handle .S → Res (Handle .S) := both (fun a b => .sadd a b 1)

/-- `ScalarExpression::operator-(ScalarExpression)`, S':66-69. -/
def ssub : Handle .S → Handle .S → Res (Handle .S) := both (fun a b => .sadd a b (-1))

/-- `ScalarExpression::operator-(double)`, S':71-76. -/
def ssubc (a : Handle .S) (x : ℝ) : Res (Handle .S) := one (fun e => .sadd e (.sconst (-x)) 1) a

/-- `ScalarExpression::operator-()`, S':78-82. -/
def sneg : Handle .S → Res (Handle .S) := one (.sun .neg)

/-- `ScalarExpression::operator/(ScalarExpression)`, S':85-88. -/
def sdiv : Handle .S → Handle .S → Res (Handle .S) := both .sdiv

/-- `ScalarExpression::operator/(double)`, S':90-94. -/
def sdivc (a : Handle .S) (x : ℝ) : Res (Handle .S) := one (fun e => .sdiv e (.sconst x)) a

/-- `operator/(double, ScalarExpression)`, `include/aslam/backend/ScalarExpression.hpp:95-97`. -/
def scdiv (x : ℝ) (a : Handle .S) : Res (Handle .S) := sdiv (some (.sconst x)) a

/-- `ScalarExpression::operator+(double)`, S':96-100. -/
def saddc (a : Handle .S) (x : ℝ) : Res (Handle .S) := one (fun e => .sadd e (.sconst x) 1) a

/-- `ScalarExpression::operator*(double)`, S':102-106. -/
def smulc (a : Handle .S) (x : ℝ) : Res (Handle .S) := one (fun e => .smul e (.sconst x)) a

/-- `ScalarExpression::operator*(ScalarExpression)`, S':108-111. -/
def smul : Handle .S → Handle .S → Res (Handle .S) := both .smul

/-- `sqrt`, S':151-154. -/
def sqrt : Handle .S → Res (Handle .S) := one (.sun .sqrt)

/-- `log`, S':156-159. -/
def log : Handle .S → Res (Handle .S) := one (.sun .log)

/-- `exp`, S':161-164. -/
def exp : Handle .S → Res (Handle .S) := one (.sun .exp)

/-- `atan`, S':166-169. -/
def atan : Handle .S → Res (Handle .S) := one (.sun .atan)

/-- `tanh`, S':171-174. -/
def tanh : Handle .S → Res (Handle .S) := one (.sun .tanh)

/-- `atan2`, S':176-179. -/
def atan2 : Handle .S → Handle .S → Res (Handle .S) := both .satan2

/-- `acos`, S':181-184. -/
def acos : Handle .S → Res (Handle .S) := one (.sun .acos)

/-- `sin`, S':186-188. -/
def sin : Handle .S → Res (Handle .S) := one (.sun .sin)

/-- `cos`, S':190-192. -/
def cos : Handle .S → Res (Handle .S) := one (.sun .cos)

/-- `acosSquared`, S':194-197. -/
def acosSquared : Handle .S → Res (Handle .S) := one (.sun .acosSquared)

/-- `inverseSigmoid`, S':199-202. -/
def inverseSigmoid (height scale shift : ℝ) : Handle .S → Res (Handle .S) := one (.sun (.inverseSigmoid height scale shift))

/-- `powerExpression`, S':204-207. -/
def power (k : ℤ) : Handle .S → Res (Handle .S) := one (.sun (.power k))

/-- `piecewiseExpression`, S':209-212. -/
def piecewise (cond : Env → Bool) : Handle .S → Handle .S → Res (Handle .S) := both (.spiece cond)

end Handle

end Verif.Expr
