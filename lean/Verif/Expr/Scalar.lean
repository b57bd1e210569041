import Verif.Prelude
import Mathlib.Analysis.SpecialFunctions.Trigonometric.Arctan
import Mathlib.Analysis.SpecialFunctions.Trigonometric.Inverse
import Mathlib.Analysis.SpecialFunctions.Sqrt
import Mathlib.Analysis.SpecialFunctions.Log.Deriv
import Mathlib.Analysis.SpecialFunctions.Complex.Arg

/-!
Functions of one or two numbers used by scalar expressions
(`aslam_backend_expressions/include/aslam/backend/implementation/ScalarExpressionNode.hpp`, called N below).
Numbers are reals; the outcome `ub` stands for an infinite or NaN result.
-/
namespace Verif.Expr

/-- The scalar nodes with one operand. The lines of each are at its value and derivative below. -/
inductive UnOp
  | neg | sqrt | log | exp | atan | tanh | acos | acosSquared | sin | cos
  | inverseSigmoid (height scale shift : ℝ)
  | power (k : ℤ)

/-- `std::numeric_limits<double>::epsilon()`. Its use is at the nodes below. -/
noncomputable def eps : ℝ := 1 / 2 ^ 52

/-- Values: N:53-56 (negation), 74-80 (sqrt), 89-95 (log), 103-107 (exp), 116-120 (atan), 129-133 (tanh), 160-166 (acos), 177-185
(acosSquared), 204-209 (inverseSigmoid), 220-225 (power); sin and cos, `src/ScalarExpression.cpp:128-145, 186-192`. -/
noncomputable def UnOp.ap : UnOp → ℝ → Res ℝ
  | .neg, x => .ok (-x)
  | .sqrt, x => if 0 < x then .ok (Real.sqrt x) else .exc
  | .log, x => if 0 < x then .ok (Real.log x) else .exc
  | .exp, x => .ok (Real.exp x)
  | .atan, x => .ok (Real.arctan x)
  | .tanh, x => .ok (Real.tanh x)
  | .acos, x => if -1 ≤ x ∧ x ≤ 1 then .ok (Real.arccos x) else .exc
  | .acosSquared, x => if -1 ≤ x ∧ x ≤ 1 then .ok (Real.arccos x * Real.arccos x) else .exc
  | .sin, x => .ok (Real.sin x)
  | .cos, x => .ok (Real.cos x)
  | .inverseSigmoid h s c, x => .ok (h * 0.5 * (1 + Real.tanh (-s * (x - c) * 0.5)))
  | .power k, x => if x = 0 ∧ k < 0 then .ub else .ok (x ^ k)

/-- Factors applied to the Jacobian: N:58-61 (negation), 82-87 (sqrt), 97-101 (log), 109-114 (exp), 122-127 (atan), 135-140 (tanh),
168-175 (acos), 187-202 (acosSquared), 211-218 (inverseSigmoid), 227-234 (power; in debug builds a NaN throws instead); sin and cos,
`src/ScalarExpression.cpp:137-139, 186-192`. -/
noncomputable def UnOp.factor : UnOp → ℝ → Res ℝ
  | .neg, _ => .ok (-1)
  | .sqrt, x => if 0 < x then .ok (1 / (2 * Real.sqrt x)) else .ub
  | .log, x => if x = 0 then .ub else .ok (1 / x)
  | .exp, x => .ok (Real.exp x)
  | .atan, x => .ok (1 / (1 + x * x))
  | .tanh, x => .ok (1 - Real.tanh x * Real.tanh x)
  | .acos, x => if 1 < x then .exc else if -1 < x ∧ x < 1 then .ok (-1 / Real.sqrt (1 - x * x)) else .ub
  | .acosSquared, x =>
    if (x - 1) * (x - 1) < eps then .ok (-2 + 2 / 3 * (x - 1))
    else if -1 < x ∧ x < 1 then .ok (-2 * Real.arccos x / Real.sqrt (1 - x * x))
    else if x = -1 then .ub else .exc
  | .sin, x => .ok (Real.cos x)
  | .cos, x => .ok (-Real.sin x)
  | .inverseSigmoid h s c, x => .ok (-0.25 * h * s * (1 / Real.cosh (0.5 * s * (c - x))) * (1 / Real.cosh (0.5 * s * (c - x))))
  | .power k, x => if x = 0 ∧ k < 1 then .ub else .ok (k * x ^ (k - 1))

/-- `std::atan2(y, x)`: the angle of the point `(x, y)` in `(-π, π]`; N:142-146. -/
noncomputable def atan2 (y x : ℝ) : ℝ := Complex.arg ⟨x, y⟩

end Verif.Expr
