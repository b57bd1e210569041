import Verif.Prelude
import Mathlib.Data.Int.Log
import Mathlib.Data.Rat.Floor
import Mathlib.Data.Int.DivMod

/-!
Model of fixed-point numbers, `aslam_backend_expressions/include/aslam/backend/FixedPointNumber.hpp` (F below), for signed `Integer_` of 8, 16, 32 or 64 bits. Signed overflow of 32 and 64-bit arithmetic is undefined
behaviour; conversion of an integer to a narrower signed type wraps (as GCC and Clang define it). `long double` is the 80-bit format (64-bit significand), `double` has a 53-bit significand; both round to nearest, ties
to even, and the exponent range is not modelled (the values in question are between 2^-64 and 2^190).
-/
namespace Verif.FixedPoint
open Verif

/-- A format: width of `Integer_` and `Divider` (F:57-58). -/
structure Fmt where
  bits : Nat
  div : Nat
deriving DecidableEq

/-- The instances of the template that compile (F:32-53 for the width; F:71-74: the divider is not zero and converts to the integer type without loss). Dividers above `2^63`, which a conversion to the signed type and
back also preserves, are left out. -/
def Fmt.Ok (f : Fmt) : Prop := (f.bits = 8 ∨ f.bits = 16 ∨ f.bits = 32 ∨ f.bits = 64) ∧ 0 < f.div ∧ f.div < 2 ^ (f.bits - 1)

/-- Range of a signed integer type (type of `_num`, F:157). -/
def InRange (bits : Nat) (x : Int) : Prop := -2 ^ (bits - 1) ≤ x ∧ x < 2 ^ (bits - 1)

instance (bits : Nat) (x : Int) : Decidable (InRange bits x) := inferInstanceAs (Decidable (_ ∧ _))

/-- Conversion to a signed type (`Numerator(Integer i)`, F:65-68, F:82). -/
def wrap (bits : Nat) (x : Int) : Int := Int.bmod x (2 ^ bits)

/-- Result of a sum, difference or negation of two `Integer_` stored to `Integer_`: narrower types are promoted to `int` and the result wraps, otherwise overflow is undefined (F:96, 100, 103, 108, 111). -/
def arith (bits : Nat) (x : Int) : Res Int :=
  if bits < 32 then .ok (wrap bits x) else if InRange bits x then .ok x else .ub

/-- `operator-()`, F:95-97. -/
def neg (f : Fmt) (a : Int) : Res Int := arith f.bits (-a)

/-- `operator+`, `operator+=`, F:99-105. -/
def add (f : Fmt) (a b : Int) : Res Int := arith f.bits (a + b)

/-- `operator-`, `operator-=`, F:107-113. -/
def sub (f : Fmt) (a b : Int) : Res Int := arith f.bits (a - b)

/-- Round to the nearest integer, ties to even. Not code: the rounding of the arithmetic at F:84, 89, 116, 124. -/
def rne (x : ℚ) : Int :=
  if x - ⌊x⌋ < 1 / 2 then ⌊x⌋ else if 1 / 2 < x - ⌊x⌋ then ⌊x⌋ + 1 else if ⌊x⌋ % 2 = 0 then ⌊x⌋ else ⌊x⌋ + 1

/-- Rounding of a floating-point operation with a significand of `p` bits (F:84, 89, 116, 124). -/
def roundBits (p : Nat) (x : ℚ) : ℚ :=
  let ulp : ℚ := 2 ^ (Int.log 2 |x| - p + 1)
  rne (x / ulp) * ulp

/-- Conversion of a floating-point number to an integer type: truncation, undefined if out of range (F:84, 116, 124). -/
def truncTo (bits : Nat) (x : ℚ) : Res Int :=
  let t := if 0 ≤ x then ⌊x⌋ else ⌈x⌉
  if InRange bits t then .ok t else .ub

/-- `operator*`, F:115-117: in the integer type of twice the width, with truncation towards zero, and converted back; for 64 bits in `long double` (F:51-53). -/
def mul (f : Fmt) (a b : Int) : Res Int :=
  if f.bits = 64 then truncTo 64 (roundBits 64 (roundBits 64 (a * b) / f.div))
  else .ok (wrap f.bits ((a * b).tdiv f.div))

/-- `operator/`, F:123-125. Division of integers by zero is undefined; in `long double` it gives an infinity or NaN, whose conversion to an integer is undefined. -/
def divide (f : Fmt) (a b : Int) : Res Int :=
  if b = 0 then .ub
  else if f.bits = 64 then truncTo 64 (roundBits 64 (roundBits 64 (a * f.div) / b))
  else .ok (wrap f.bits ((a * f.div).tdiv b))

/-- `operator<`, F:137-139. -/
def lt (a b : Int) : Bool := decide (a < b)

/-- `operator==`, F:131-133. -/
def eq (a b : Int) : Bool := decide (a = b)

/-- Conversion from another format, F:86-87. `Divider` has type `std::uintmax_t`, so the product and the quotient are computed modulo `2^64` without sign. -/
def convert (src dst : Fmt) (a : Int) : Int :=
  wrap dst.bits ((((a % 2 ^ 64).toNat * dst.div) % 2 ^ 64 / src.div : Nat) : Int)

/-- `FixedPointNumber(double)`, F:84: the product is rounded, then truncated. -/
def fromDouble (f : Fmt) (x : ℚ) : Res Int := truncTo f.bits (roundBits 53 (x * f.div))

/-- `operator double`, F:89: divide in `long double`, then round to `double`. -/
def toDouble (f : Fmt) (a : Int) : ℚ := roundBits 53 (roundBits 64 (a / f.div))

end Verif.FixedPoint
