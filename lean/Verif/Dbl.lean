import Mathlib.Algebra.Order.Ring.Defs
import Mathlib.Algebra.Order.Group.Abs
import Mathlib.Order.Basic

/-!
Numbers with the special values of C++ `double`. Finite values are exact elements of an ordered ring;
rounding and overflow are not modelled, the order and the special values are those of IEEE 754: every
comparison with NaN is false, infinity minus infinity is NaN. This file models no code of its own; it is
used where the control flow of the code depends on comparisons of doubles.
-/
namespace Verif

/-- A `double`: not a number, minus infinity, a finite value, plus infinity. -/
inductive Dbl (K : Type) where
  | nan
  | ninf
  | fin (r : K)
  | pinf
  deriving DecidableEq, Repr

namespace Dbl
variable {K : Type}

/-- IEEE `a < b`. -/
def lt [LinearOrder K] : Dbl K → Dbl K → Bool
  | .nan, _ => false
  | _, .nan => false
  | .ninf, .ninf => false
  | .ninf, _ => true
  | .fin a, .fin b => decide (a < b)
  | .fin _, .pinf => true
  | .fin _, .ninf => false
  | .pinf, _ => false

/-- IEEE `a <= b`. -/
def le [LinearOrder K] : Dbl K → Dbl K → Bool
  | .nan, _ => false
  | _, .nan => false
  | a, b => !lt b a

/-- IEEE `a - b` without rounding. -/
def sub [Sub K] : Dbl K → Dbl K → Dbl K
  | .nan, _ => .nan
  | _, .nan => .nan
  | .fin a, .fin b => .fin (a - b)
  | .fin _, .pinf => .ninf
  | .fin _, .ninf => .pinf
  | .pinf, .pinf => .nan
  | .pinf, _ => .pinf
  | .ninf, .ninf => .nan
  | .ninf, _ => .ninf

/-- `fabs`. -/
def abs [LinearOrder K] [AddGroup K] : Dbl K → Dbl K
  | .nan => .nan
  | .ninf => .pinf
  | .pinf => .pinf
  | .fin a => .fin |a|

/-- `a / b` of finite values: division by zero gives NaN or an infinity. -/
def div [LinearOrder K] [Div K] [Zero K] (a b : K) : Dbl K :=
  if b = 0 then (if a = 0 then .nan else if 0 < a then .pinf else .ninf) else .fin (a / b)

variable [LinearOrder K]

theorem lt_nan_left (a : Dbl K) : lt .nan a = false := by cases a <;> rfl
theorem lt_nan_right (a : Dbl K) : lt a .nan = false := by cases a <;> rfl
theorem le_nan_left (a : Dbl K) : le .nan a = false := by cases a <;> rfl
theorem le_nan_right (a : Dbl K) : le a .nan = false := by cases a <;> rfl

theorem le_fin (a b : K) : le (.fin a) (.fin b) = true ↔ a ≤ b := by
  simp [le, lt]

theorem lt_fin (a b : K) : lt (.fin a) (.fin b) = true ↔ a < b := by
  simp [lt]

theorem le_refl {a : Dbl K} (h : a ≠ .nan) : le a a = true := by
  cases a <;> simp_all [le, lt]

theorem le_trans {a b c : Dbl K} (h1 : le a b = true) (h2 : le b c = true) : le a c = true := by
  cases a <;> cases b <;> cases c <;> simp_all [le, lt]
  exact _root_.le_trans h1 h2

theorem not_lt {a b : Dbl K} (ha : a ≠ .nan) (hb : b ≠ .nan) (h : lt a b = false) : le b a = true := by
  cases a <;> cases b <;> simp_all [le, lt]

theorem le_iff_not_lt {a b : Dbl K} (ha : a ≠ .nan) (hb : b ≠ .nan) : le a b = true ↔ lt b a = false := by
  cases a <;> cases b <;> simp_all [le, lt]

/-- A difference that is not negative and not NaN orders the operands. -/
theorem le_of_sub_not_neg [AddCommGroup K] [IsOrderedAddMonoid K] {a b : Dbl K} (ha : a ≠ .nan) (hb : b ≠ .nan)
    (h : lt (sub a b) (.fin 0) = false) : le b a = true := by
  cases a <;> cases b <;> simp_all [le, lt, sub]

theorem lt_of_sub_neg [AddCommGroup K] [IsOrderedAddMonoid K] {a b : Dbl K}
    (h : lt (sub a b) (.fin 0) = true) : lt a b = true := by
  cases a <;> cases b <;> simp_all [lt, sub]

end Dbl
end Verif
