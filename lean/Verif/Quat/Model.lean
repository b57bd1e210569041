import Verif.Geo
import Mathlib.Analysis.SpecialFunctions.Trigonometric.Basic

/-!
Model of the quaternion calculator behind `QuaternionExpression` and `DesignVariableUnitQuaternion`.
`Q` = aslam_backend_expressions/include/aslam/backend/implementation/QuaternionExpression.hpp,
`QH` = aslam_backend_expressions/include/aslam/backend/QuaternionExpression.hpp,
`DQ` = aslam_backend_expressions/include/aslam/backend/DesignVariableUnitQuaternion.hpp.
Numbers are elements of a field (the reals where needed): rounding and casts between scalar types are not modelled.
-/
namespace Verif.Quat

/-- QH:21-26, 35-48: `QuaternionMode` with the two bits read by `isRealFirst` and `isTraditionalMultOrder`. -/
structure Mode where
  realFirst : Bool
  trad : Bool
  deriving DecidableEq, Repr

/-- QH:28-31: `UnitQuaternionGeometry`. -/
inductive Geometry
  | left
  | right
  deriving DecidableEq, Repr

section Ring
variable {R : Type} [Field R]

/-- The four components of a quaternion; which is the real one is said by the mode, Q:20-31. -/
abbrev Q4 (R : Type) := Fin 4 → R

/-- Q:20-31: `getRealIndex`, `getIIndex`, `getJIndex`, `getKIndex`. -/
def Mode.ri (m : Mode) : Fin 4 := if m.realFirst then 0 else 3
/-- Q:20-31: `getIIndex`. -/
def Mode.ii (m : Mode) : Fin 4 := if m.realFirst then 1 else 0
/-- Q:20-31: `getJIndex`. -/
def Mode.ji (m : Mode) : Fin 4 := if m.realFirst then 2 else 1
/-- Q:20-31: `getKIndex`. -/
def Mode.ki (m : Mode) : Fin 4 := if m.realFirst then 3 else 2

/-- QH:106-108 (`createQuatVal`): the vector with the given components; also stands for the assignments `res[IIndex] = ...`,
which set all four components. -/
def mk (m : Mode) (i j k r : R) : Q4 R := if m.realFirst then ![r, i, j, k] else ![i, j, k, r]

/-- Q:50-52. -/
def identity (m : Mode) : Q4 R := if m.realFirst then ![1, 0, 0, 0] else ![0, 0, 0, 1]

/-- Q:54-66. -/
def multTrad (m : Mode) (a b : Q4 R) : Q4 R :=
  mk m (a m.ii * b m.ri + a m.ji * b m.ki - a m.ki * b m.ji + a m.ri * b m.ii)
    (a m.ki * b m.ii - a m.ii * b m.ki + a m.ji * b m.ri + a m.ri * b m.ji)
    (a m.ii * b m.ji - a m.ji * b m.ii + a m.ki * b m.ri + a m.ri * b m.ki)
    (a m.ri * b m.ri - a m.ji * b m.ji - a m.ki * b m.ki - a m.ii * b m.ii)

/-- Q:68-75: the left factor is purely imaginary. -/
def multTradPL (m : Mode) (a : Fin 3 → R) (b : Q4 R) : Q4 R :=
  mk m (a 0 * b m.ri + a 1 * b m.ki - a 2 * b m.ji)
    (a 2 * b m.ii - a 0 * b m.ki + a 1 * b m.ri)
    (a 0 * b m.ji - a 1 * b m.ii + a 2 * b m.ri)
    (-a 1 * b m.ji - a 2 * b m.ki - a 0 * b m.ii)

/-- Q:77-84: the right factor is purely imaginary. -/
def multTradPR (m : Mode) (a : Q4 R) (b : Fin 3 → R) : Q4 R :=
  mk m (a m.ji * b 2 - a m.ki * b 1 + a m.ri * b 0)
    (a m.ki * b 0 - a m.ii * b 2 + a m.ri * b 1)
    (a m.ii * b 1 - a m.ji * b 0 + a m.ri * b 2)
    (-a m.ji * b 1 - a m.ki * b 2 - a m.ii * b 0)

/-- Q:86-89. -/
def mult (m : Mode) (a b : Q4 R) : Q4 R := if m.trad then multTrad m a b else multTrad m b a

/-- Q:86-89 for an imaginary left factor. -/
def multPL (m : Mode) (a : Fin 3 → R) (b : Q4 R) : Q4 R := if m.trad then multTradPL m a b else multTradPR m b a

/-- Q:86-89 for an imaginary right factor. -/
def multPR (m : Mode) (a : Q4 R) (b : Fin 3 → R) : Q4 R := if m.trad then multTradPR m a b else multTradPL m b a

/-- Q:91-95: the three entries starting at `IIndex` are negated. -/
def conjugate (m : Mode) (v : Q4 R) : Q4 R := fun k => if m.ii.val ≤ k.val ∧ k.val < m.ii.val + 3 then v k * (-1) else v k

/-- `dot` of Eigen. External function. -/
def dot4 (a b : Q4 R) : R := a 0 * b 0 + a 1 * b 1 + a 2 * b 2 + a 3 * b 3

/-- Q:96-100. Division by zero for the zero quaternion gives infinities or NaN in C++ and is excluded by hypotheses. -/
def invert (m : Mode) (v : Q4 R) : Q4 R := fun k => conjugate m v k / dot4 (conjugate m v) (conjugate m v)

/-- Q:102-104. -/
def imag (m : Mode) (v : Q4 R) : Fin 3 → R := fun k => v ⟨m.ii.val + k.val, by unfold Mode.ii; split <;> fin_cases k <;> decide⟩

/-- Q:154-165, for a vector (one column). The order of multiplication does not matter for the conversion. -/
def convert (m m' : Mode) (v : Q4 R) : Q4 R :=
  if m.realFirst = m'.realFirst then v else mk m' (v m.ii) (v m.ji) (v m.ki) (v m.ri)

/-- Q:298-301 (`rotate3Vector`): value. -/
def rotate (m : Mode) (q : Q4 R) (v : Fin 3 → R) : Fin 3 → R := imag m (mult m (multPR m q v) (conjugate m q))

/-- Q:288-292: differential with respect to the quaternion. -/
def rotateDiffL (m : Mode) (q : Q4 R) (v : Fin 3 → R) (t : Q4 R) : Fin 3 → R :=
  imag m (mult m (multPR m q v) (conjugate m t) + mult m (multPR m t v) (conjugate m q))

/-- Q:293-296: differential with respect to the vector. -/
def rotateDiffR (m : Mode) (q : Q4 R) (t : Fin 3 → R) : Fin 3 → R := imag m (mult m (multPR m q t) (conjugate m q))

/-- Q:210-218 (`inverse`): differential. -/
def invertDiff (m : Mode) (q : Q4 R) (t : Q4 R) : Q4 R :=
  fun k => -mult m (conjugate m q) (mult m t (conjugate m q)) k /
    (dot4 (conjugate m q) (conjugate m q) * dot4 (conjugate m q) (conjugate m q))

/-- `sm::kinematics::quatPlus`, an external function (real part last). Used at aslam_backend_expressions/include/aslam/backend/implementation/QuaternionExpression.hpp:138-139. -/
def quatPlus (q : Q4 R) : Matrix (Fin 4) (Fin 4) R :=
  !![q 3, q 2, -q 1, q 0; -q 2, q 3, q 0, q 1; q 1, -q 0, q 3, q 2; -q 0, -q 1, -q 2, q 3]

/-- `sm::kinematics::quatOPlus`, an external function (real part last). Used at aslam_backend_expressions/include/aslam/backend/implementation/QuaternionExpression.hpp:138-139. -/
def quatOPlus (q : Q4 R) : Matrix (Fin 4) (Fin 4) R :=
  !![q 3, -q 2, q 1, q 0; q 2, q 3, -q 0, q 1; -q 1, q 0, q 3, q 2; -q 0, -q 1, -q 2, q 3]

/-- Q:134-142. The rows are converted like the components of a quaternion (Q:154-165 with three columns). -/
def dUpdate (m : Mode) (g : Geometry) (p : Q4 R) : Matrix (Fin 4) (Fin 3) R :=
  let last : Mode := ⟨false, false⟩
  let P := if m.trad != (g == .right) then quatOPlus (convert m last p) else quatPlus (convert m last p)
  fun r c => convert last m (fun k => P k c.castSucc) r

end Ring

/-- `sm::kinematics::axisAngle2quat`, an external function (real part last): the unit quaternion of the rotation about `a` by `|a|`. -/
noncomputable def axisAngle2quat (a : Fin 3 → ℝ) : Q4 ℝ :=
  let θ := Real.sqrt (a 0 * a 0 + a 1 * a 1 + a 2 * a 2)
  let s := if θ = 0 then 1 / 2 else Real.sin (θ / 2) / θ
  ![a 0 * s, a 1 * s, a 2 * s, Real.cos (θ / 2)]

/-- Q:120-122. -/
noncomputable def exp (m : Mode) (v : Fin 3 → ℝ) : Q4 ℝ := convert ⟨false, true⟩ m (axisAngle2quat fun k => 2 * v k)

/-- Q:124-132; DQ:31-35. -/
noncomputable def update (m : Mode) (g : Geometry) (p : Q4 ℝ) (v : Fin 3 → ℝ) : Q4 ℝ :=
  match g with
  | .left => mult m p (exp m v)
  | .right => mult m (exp m v) p

end Verif.Quat
