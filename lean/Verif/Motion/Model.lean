import Verif.DesignVar.Pattern
import Verif.Expr.Model

/-!
How the steps handed to design variables move the values that expressions show, and two ways of making expressions:
`Vector2RotationQuaternionExpressionAdapter` (a rotation from four numbers) and `transformationToExpression` (a transformation
kept in memory of the user).  `X` = aslam_backend_expressions.
-/
namespace Verif.Motion
open Verif.Quat (Q4 axisAngle2quat quatPlus quatOPlus dot4)
open Verif.DesignVar (Sm Cls Class St Mat vec unvec)
open Verif.Geo (M3 V3)
open Verif.Expr (Env Var Pose)
open Matrix

/-- `sm::kinematics::quat2r`, an external function: the real part is the last entry, `(η² - ε·ε) 1 + 2 ε εᵀ - 2 η ε^×`. -/
def quat2r (q : Q4 ℝ) : M3 :=
  !![q 0 * q 0 - q 1 * q 1 - q 2 * q 2 + q 3 * q 3, 2 * (q 0 * q 1 + q 2 * q 3), 2 * (q 0 * q 2 - q 1 * q 3);
     2 * (q 0 * q 1 - q 2 * q 3), q 1 * q 1 - q 0 * q 0 - q 2 * q 2 + q 3 * q 3, 2 * (q 1 * q 2 + q 0 * q 3);
     2 * (q 0 * q 2 + q 1 * q 3), 2 * (q 1 * q 2 - q 0 * q 3), q 2 * q 2 - q 0 * q 0 - q 1 * q 1 + q 3 * q 3]

/-- `sm::kinematics::quatInv`, an external function: the vector part changes sign. Called at X/src/RotationQuaternion.cpp:79. -/
def quatInv (q : Q4 ℝ) : Q4 ℝ := ![-q 0, -q 1, -q 2, q 3]

/-- `sm::kinematics`: `qplus(a, b) = quatPlus(a) b`, `updateQuat(q, δ) = qplus(axisAngle2quat(δ), q)` and the functions above (all
external); the logarithm is not used here and is the one of `Verif.DesignVar.smQuat`. -/
noncomputable def smKin : Sm where
  updateQuat q δ := quatPlus (axisAngle2quat δ) *ᵥ q
  qplus a b := quatPlus a *ᵥ b
  quatInv := quatInv
  qlog := DesignVar.smQuat.qlog
  quat2r := quat2r

/-- `sm::kinematics::quatInvS`, an external function: the velocity of a quaternion for the velocity of its minimal coordinates, as in
X/include/aslam/backend/test/RotationQuaternionAsVectorExpressionNode.hpp:26 (`quatOPlus(q * 0.5).topLeftCorner<4,3>()`). -/
noncomputable def invS (h : V3 × ℝ) : Matrix (Fin 3 ⊕ Unit) (Fin 3) ℝ :=
  let P := quatOPlus ((1 / 2 : ℝ) • (![h.1 0, h.1 1, h.1 2, h.2] : Q4 ℝ))
  fun r c => match r with
    | .inl k => P k.castSucc c.castSucc
    | .inr _ => P 3 c.castSucc

/-- `_B` of `MatrixBasic` for the entries in the order they were found, X/src/MatrixBasic.cpp:16-29 (see `DesignVar.pattern`). -/
def selection (free : List (Fin 3 × Fin 3)) : Mat 9 free.length := fun r k => if DesignVar.place (free.get k) = r then 1 else 0

/-- All design variables that expressions can have at their leaves: their objects.
X/src/Scalar.cpp:6-29, X/src/EuclideanPoint.cpp:6-10, X/src/RotationQuaternion.cpp:9 and the other classes of `DesignVar.Class.cls`. -/
structure World where
  sc : Nat → St (Class.scalar.cls smKin)
  pt : Nat → St (Class.euclideanPoint.cls smKin)
  ro : Nat → St (Class.rotationQuaternion.cls smKin)
  ho : Nat → St (Class.homogeneousPoint.cls smKin)
  mat : Nat → (free : List (Fin 3 × Fin 3)) → St ((Class.matrixBasic free.length (selection free)).cls smKin)

/-- What the expressions read: X/src/Scalar.cpp:37-40, X/src/EuclideanPoint.cpp:40-43, X/src/RotationQuaternion.cpp:44-47,
X/src/HomogeneousPoint.cpp:40-43, X/src/MatrixBasic.cpp:51-53. -/
def World.env (w : World) : Env where
  sc i := (w.sc i).shown 0
  pt i := (w.pt i).shown
  ro i := (w.ro i).shown
  ho i := (![(w.ho i).shown 0, (w.ho i).shown 1, (w.ho i).shown 2], (w.ho i).shown 3)
  mat i free := (w.mat i free).shown

/-- `update` called on every design variable with `s` times its part of a step: `Optimizer2::applyStateUpdate` and the line searches
(see `Verif/Trust`, `Verif/LineSearch`), all variables active and scalings 1. -/
def World.step (debug : Bool) (w : World) (s : ℝ) (δ : (v : Var) → v.Idx → ℝ) (w' : World) : Prop :=
  (∀ i, DesignVar.update debug (w.sc i) [s * δ (.sc i) ()] = .ok (w'.sc i)) ∧
  (∀ i, DesignVar.update debug (w.pt i) (List.ofFn (s • δ (.pt i))) = .ok (w'.pt i)) ∧
  (∀ i, DesignVar.update debug (w.ro i) (List.ofFn (s • δ (.ro i))) = .ok (w'.ro i)) ∧
  (∀ i, DesignVar.update debug (w.ho i) (List.ofFn (s • δ (.ho i))) = .ok (w'.ho i)) ∧
  (∀ i free, DesignVar.update debug (w.mat i free) (List.ofFn (s • δ (.mat i free))) = .ok (w'.mat i free))

/-- The objects are as their calls leave them (`DesignVar.C63_shown`) and the rotations are given by unit quaternions. -/
structure World.Ok (w : World) : Prop where
  sc : ∀ i, (w.sc i).shown = (Class.scalar.cls smKin).eval (w.sc i).val
  pt : ∀ i, (w.pt i).shown = (Class.euclideanPoint.cls smKin).eval (w.pt i).val
  ro : ∀ i, (w.ro i).shown = (Class.rotationQuaternion.cls smKin).eval (w.ro i).val
  ho : ∀ i, (w.ho i).shown = (Class.homogeneousPoint.cls smKin).eval (w.ho i).val
  mat : ∀ i free, (w.mat i free).shown = ((Class.matrixBasic free.length (selection free)).cls smKin).eval (w.mat i free).val
  unit : ∀ i, dot4 (vec (w.ro i).val) (vec (w.ro i).val) = 1

/-- `Vector2RotationQuaternionExpressionAdapter`, X/src/Vector2RotationQuaternionExpressionAdapter.cpp:21-24: the value. -/
def adapterValue (v : Q4 ℝ) : M3 := quat2r v

/-- X/src/Vector2RotationQuaternionExpressionAdapter.cpp:26-33: the chain rule matrix handed to the vector expression. -/
noncomputable def adapterMatrix (v : Q4 ℝ) : Matrix (Fin 3) (Fin 4) ℝ := fun r c => quatOPlus (quatInv ((2 : ℝ) • v)) r.castSucc c

/-- `transformationToExpression`, X/src/MapTransformation.cpp:7-16: two design variables on the memory of the transformation.  The
memory itself is the `val` of the two objects. -/
structure Mapped where
  q : St (Class.mappedRotationQuaternion.cls smKin)
  t : St (Class.mappedEuclideanPoint.cls smKin)

/-- X/src/MapTransformation.cpp:11-12 with X/src/MappedRotationQuaternion.cpp:9 and X/src/MappedEuclideanPoint.cpp:6-10. -/
noncomputable def mapTransformation (q : Q4 ℝ) (t : V3) : Mapped :=
  ⟨DesignVar.make _ (unvec q), DesignVar.make _ (unvec t)⟩

/-- Calls: to either design variable, or the owner of the transformation assigns it. X/src/MapTransformation.cpp:7-17. -/
inductive MOp
  | onQ (o : DesignVar.Op (Class.mappedRotationQuaternion.cls smKin))
  | onT (o : DesignVar.Op (Class.mappedEuclideanPoint.cls smKin))
  | assign (q : Q4 ℝ) (t : V3)

/-- One call. The two design variables of X/src/MapTransformation.cpp:11-12. -/
noncomputable def Mapped.step (debug : Bool) (m : Mapped) : MOp → Res Mapped
  | .onQ o => DesignVar.step debug m.q o >>= fun q => .ok { m with q := q }
  | .onT o => DesignVar.step debug m.t o >>= fun t => .ok { m with t := t }
  | .assign q t => DesignVar.step debug m.q (.write (unvec q)) >>= fun a => DesignVar.step debug m.t (.write (unvec t)) >>= fun b => .ok ⟨a, b⟩

/-- The value of the expression: X/src/MapTransformation.cpp:14 with `TransformationBasic` (X/src/TransformationBasic.cpp:17-26). -/
def Mapped.expression (m : Mapped) : Pose := ⟨m.q.shown, m.t.shown⟩

/-- The value of the user's `Transformation` (an external class with a quaternion and a translation). X/src/MapTransformation.cpp:7-12. -/
def Mapped.transformation (m : Mapped) : Pose := ⟨quat2r (vec m.q.val), vec m.t.val⟩

end Verif.Motion
