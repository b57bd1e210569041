import Verif.Dbl
import Mathlib.Algebra.Order.Field.Basic
import Mathlib.Data.Rat.Defs

/-!
Arithmetic on floating point numbers as an interface without laws. Code that only compares and combines
`double`s is modelled over every type with these operations, so theorems that need no laws hold for IEEE
arithmetic with rounding as well as for exact arithmetic. This file models no code of its own.
-/
namespace Verif

/-- The operations of `double` used by the code: nothing is assumed about them. -/
class FloatLike (F : Type) where
  add : F → F → F
  sub : F → F → F
  mul : F → F → F
  div : F → F → F
  neg : F → F
  abs : F → F
  sqrt : F → F
  lt : F → F → Bool
  le : F → F → Bool
  eq : F → F → Bool
  isnan : F → Bool
  lit : ℚ → F

namespace FloatLike
variable {F : Type} [FloatLike F]

/-- `std::max(a, b)`: `(a < b) ? b : a`. -/
def fmax (a b : F) : F := if lt a b then b else a
/-- `std::min(a, b)`: `(b < a) ? b : a`. -/
def fmin (a b : F) : F := if lt b a then b else a

/-- Exact arithmetic in an ordered field, with some function standing for the square root. -/
@[reducible] def exact {K : Type} [LinearOrder K] [Field K] (sq : K → K) : FloatLike K where
  add := (· + ·)
  sub := (· - ·)
  mul := (· * ·)
  div := (· / ·)
  neg := fun a => -a
  abs := fun a => |a|
  sqrt := sq
  lt := fun a b => decide (a < b)
  le := fun a b => decide (a ≤ b)
  eq := fun a b => decide (a = b)
  isnan := fun _ => false
  lit := fun q => (q.num : K) / (q.den : K)

/-- Sign-based infinity. -/
def inf {K : Type} [LinearOrder K] [Zero K] (a : K) : Dbl K := if 0 < a then .pinf else if a < 0 then .ninf else .nan

/-- IEEE addition without rounding. -/
def dadd {K : Type} [Add K] : Dbl K → Dbl K → Dbl K
  | .nan, _ => .nan
  | _, .nan => .nan
  | .fin a, .fin b => .fin (a + b)
  | .pinf, .ninf => .nan
  | .ninf, .pinf => .nan
  | .pinf, _ => .pinf
  | _, .pinf => .pinf
  | .ninf, _ => .ninf
  | _, .ninf => .ninf

/-- Negation. -/
def dneg {K : Type} [Neg K] : Dbl K → Dbl K
  | .nan => .nan
  | .fin a => .fin (-a)
  | .pinf => .ninf
  | .ninf => .pinf

/-- IEEE multiplication without rounding. -/
def dmul {K : Type} [LinearOrder K] [Field K] : Dbl K → Dbl K → Dbl K
  | .nan, _ => .nan
  | _, .nan => .nan
  | .fin a, .fin b => .fin (a * b)
  | .fin a, .pinf => inf a
  | .fin a, .ninf => inf (-a)
  | .pinf, .fin a => inf a
  | .ninf, .fin a => inf (-a)
  | .pinf, .pinf => .pinf
  | .ninf, .ninf => .pinf
  | .pinf, .ninf => .ninf
  | .ninf, .pinf => .ninf

/-- IEEE division without rounding; the sign of a zero divisor is taken as positive. -/
def ddiv {K : Type} [LinearOrder K] [Field K] : Dbl K → Dbl K → Dbl K
  | .nan, _ => .nan
  | _, .nan => .nan
  | .fin a, .fin b => if b = 0 then inf a else .fin (a / b)
  | .fin _, _ => .fin 0
  | .pinf, .fin b => if b < 0 then .ninf else .pinf
  | .ninf, .fin b => if b < 0 then .pinf else .ninf
  | _, _ => .nan

/-- Square root; of a negative number NaN. -/
def dsqrt {K : Type} [LinearOrder K] [Zero K] (sq : K → K) : Dbl K → Dbl K
  | .fin a => if a < 0 then .nan else .fin (sq a)
  | .pinf => .pinf
  | _ => .nan

/-- `==`: false if an operand is NaN. -/
def deq {K : Type} [DecidableEq K] (a b : Dbl K) : Bool := decide (a = b) && decide (a ≠ .nan)

/-- Numbers with NaN and infinities. -/
@[reducible] def special {K : Type} [LinearOrder K] [Field K] (sq : K → K) : FloatLike (Dbl K) where
  add := dadd
  sub := fun a b => Dbl.sub a b
  mul := dmul
  div := ddiv
  neg := dneg
  abs := Dbl.abs
  sqrt := dsqrt sq
  lt := Dbl.lt
  le := Dbl.le
  eq := deq
  isnan := fun a => decide (a = .nan)
  lit := fun q => .fin ((q.num : K) / (q.den : K))

/-- Some function standing for the square root of exact numbers. -/
class Sq (K : Type) where
  sq : K → K

instance (priority := low) {K : Type} [LinearOrder K] [Field K] [Sq K] : FloatLike K := exact Sq.sq
instance {K : Type} [LinearOrder K] [Field K] [Sq K] : FloatLike (Dbl K) := special Sq.sq

end FloatLike
end Verif
