import Verif.Geo

/-!
Model of `CoordinateFrame` (`aslam_backend_expressions/include/aslam/backend/KinematicChain.hpp`, K.hpp, and
`aslam_backend_expressions/src/KinematicChain.cpp`, K.cpp).
An expression is represented by its value as a function of time; `none` is the empty (default constructed) expression.
The operators are those of `EuclideanExpression.cpp` (E) and `RotationExpression.cpp` (R) including their rules for empty operands.
Simplified: the `mutable` members caching the global expressions are not part of the state: a frame and its ancestors are built
once, so a cached expression is the one which would be built again. The pointer to the parent is the parent itself.
-/
namespace Verif.Kinematic
open Matrix Verif.Geo

/-- `EuclideanExpression` as a function of time; empty is `none`. E, `implementation/VectorExpression.hpp:39-45` (empty evaluates to zero). -/
abbrev Eu := Option (ℝ → V3)
/-- `RotationExpression` as a function of time; empty is `none`. R:33-37 (empty evaluates to the identity). -/
abbrev Ro := Option (ℝ → M3)

/-- `toValue`, `implementation/VectorExpression.hpp:39-45`. -/
def valE : Eu → ℝ → V3
  | none, _ => 0
  | some f, t => f t
/-- `toRotationMatrix`, R:33-37. -/
def valR : Ro → ℝ → M3
  | none, _ => 1
  | some f, t => f t

/-- `operator+`, E:46-54. -/
def add : Eu → Eu → Eu
  | a, none => a
  | none, b => b
  | some f, some g => some fun t => f t + g t

/-- `cross`, E:32-38. -/
def cross : Eu → Eu → Eu
  | some f, some g => some fun t => f t ⨯₃ g t
  | _, _ => none

/-- `RotationExpression::operator*(RotationExpression)`, R:54-62. -/
def mulR : Ro → Ro → Ro
  | a, none => a
  | none, b => b
  | some f, some g => some fun t => f t * g t

/-- `RotationExpression::operator*(EuclideanExpression)`, R:64-73. -/
def rot : Ro → Eu → Eu
  | _, none => none
  | none, b => b
  | some f, some g => some fun t => f t *ᵥ g t

/-- The local quantities of a frame, all expressed in its parent's coordinates; K.hpp:105-107. -/
structure Frame where
  R : Ro := none
  p : Eu := none
  v : Eu := none
  a : Eu := none
  omega : Eu := none
  alpha : Eu := none

/-- A frame with its ancestors: `pp` null or a parent, K.hpp:21, 28-44, 104. -/
inductive Chain
  | root (f : Frame)
  | child (parent : Chain) (f : Frame)

/-- `getR_G_L`, K.hpp:50-55, K.cpp:7. -/
def getR : Chain → Ro
  | .root f => f.R
  | .child c f => mulR (getR c) f.R

/-- `getPG`, K.hpp:72-77, K.cpp:8. -/
def getP : Chain → Eu
  | .root f => f.p
  | .child c f => add (getP c) (rot (getR c) f.p)

/-- `getOmegaG`, K.hpp:57-62, K.cpp:9. -/
def getOmega : Chain → Eu
  | .root f => f.omega
  | .child c f => add (getOmega c) (rot (getR c) f.omega)

/-- `getVG`, K.cpp:10, 15-20. -/
def getV : Chain → Eu
  | .root f => f.v
  | .child c f => add (add (getV c) (rot (getR c) f.v)) (cross (getOmega c) (rot (getR c) f.p))

/-- `getAlphaG`, K.hpp:64-69, K.cpp:11. -/
def getAlpha : Chain → Eu
  | .root f => f.alpha
  | .child c f => add (add (getAlpha c) (cross (getOmega c) (rot (getR c) f.omega))) (rot (getR c) f.alpha)

/-- `getAG`, K.cpp:12, 22-27. -/
def getA : Chain → Eu
  | .root f => f.a
  | .child c f =>
    add (add (add (add (getA c) (rot (getR c) f.a)) (cross (getOmega c) (rot (getR c) f.v)))
      (cross (getAlpha c) (rot (getR c) f.p))) (cross (getOmega c) (cross (getOmega c) (rot (getR c) f.p)))

end Verif.Kinematic
