import Verif.Prelude
import Verif.Quat.Model
import Mathlib.Analysis.SpecialFunctions.Trigonometric.Inverse

/-!
Model of the design variable classes: `update`, `revertUpdate`, `getParameters`, `setParameters`, `minimalDifference` and the
value shown by the expression.  `X` = aslam_backend_expressions, `I` = X/include/aslam/backend/implementation,
`H` = X/include/aslam/backend.  The public functions of `DesignVariable` (aslam_backend/src/DesignVariable.cpp:18-62) only
invalidate caches (see `Verif/Cache`) and forward to the functions modelled here.  Numbers are reals; conversions between
scalar types are exact.
-/
namespace Verif.DesignVar
open Verif.Quat (Q4 axisAngle2quat dot4 quatPlus Mode Geometry)
open Matrix

/-- `Eigen::Matrix<double, r, c>`; for example X/src/MatrixBasic.cpp:9-45. -/
abbrev Mat (r c : Nat) := Matrix (Fin r) (Fin c) ℝ

/-- `Eigen::MatrixXd`: a matrix whose size is known at run time only. Arguments of aslam_backend/src/DesignVariable.cpp:18-70. -/
structure Param where
  rows : Nat
  cols : Nat
  M : Mat rows cols

/-- Assignment of a run-time sized matrix to one of fixed size; `none` where the sizes differ (an Eigen assertion, or an access
out of range where assertions are disabled). The assignments listed at `Class.cls`, for example X/src/EuclideanPoint.cpp:64-79. -/
def Param.to (p : Param) (r c : Nat) : Option (Mat r c) :=
  if h : p.rows = r ∧ p.cols = c then some fun i j => p.M (i.cast h.1.symm) (j.cast h.2.symm) else none

/-- The functions of sm_kinematics used by the rotation and homogeneous classes (external to the repository).
Called at X/src/RotationQuaternion.cpp:21-37, 64-80 and X/src/HomogeneousPoint.cpp:19-32, 60-75. -/
structure Sm where
  updateQuat : Q4 ℝ → (Fin 3 → ℝ) → Q4 ℝ
  qplus : Q4 ℝ → Q4 ℝ → Q4 ℝ
  quatInv : Q4 ℝ → Q4 ℝ
  qlog : Q4 ℝ → Fin 3 → ℝ
  quat2r : Q4 ℝ → Mat 3 3

/-- How `updateImplementation` checks the size of the step. The lines are at each class in `Class.cls`. -/
inductive UpdCheck
  /-- not at all: the entries needed are read -/
  | none
  /-- `SM_ASSERT_EQ_DBG` -/
  | dbg
  /-- `SM_ASSERT_EQ` -/
  | always
  /-- by the size assertion of an Eigen product -/
  | eigen
  deriving DecidableEq

/-- How `setParametersImplementation` reads the argument. The lines are at each class in `Class.cls`. -/
inductive SetCheck
  /-- `_v = value` -/
  | assign
  /-- `SM_ASSERT_EQ(value.size(), getSize())` before `_v = value` -/
  | size
  /-- `value(0, 0)` -/
  | front
  deriving DecidableEq

/-- Which member `minimalDifferenceImplementation` reads. The lines are at each class in `Class.cls`. -/
inductive DiffOn
  | current
  | previous
  deriving DecidableEq

/-- One class: the members and the places in which the classes differ. The lines are at each class in `Class.cls`. -/
structure Cls where
  r : Nat
  c : Nat
  d : Nat
  S : Type
  /-- the new value in `updateImplementation` -/
  upd : Mat r c → (Fin d → ℝ) → Mat r c
  updCheck : UpdCheck
  setCheck : SetCheck
  /-- `setParametersImplementation` saves the previous value -/
  saves : Bool
  /-- the constructor initialises the previous value -/
  inits : Bool
  /-- the value lives in memory owned by the caller -/
  mapped : Bool
  /-- the value shown by the expression -/
  eval : Mat r c → S
  /-- that value is stored at every change rather than computed when asked for -/
  caches : Bool
  /-- `minimalDifferenceImplementation`; `none`: it throws -/
  diff : Option (DiffOn × (Mat r c → Mat r c → Fin d → ℝ))

/-- The vector in a matrix of one column. Not code. -/
def vec {n : Nat} (A : Mat n 1) : Fin n → ℝ := fun i => A i 0
/-- The matrix of one column of a vector. Not code. -/
def unvec {n : Nat} (v : Fin n → ℝ) : Mat n 1 := fun i _ => v i

/-- The classes whose parameters are a vector with `v += dp`. For example X/src/EuclideanPoint.cpp:17-32, 64-79; all lines are in `Class.cls`. -/
noncomputable def additive (n : Nat) (uc : UpdCheck) (sc : SetCheck) (mapped : Bool) (on : DiffOn) : Cls :=
  { r := n, c := 1, d := n, S := Fin n → ℝ
    upd := fun A δ => unvec (vec A + δ)
    updCheck := uc, setCheck := sc, saves := true, inits := true, mapped := mapped
    eval := vec, caches := false
    diff := some (on, fun A x => vec A - vec x) }

/-- The classes whose parameters are a quaternion updated by `updateQuat`.
For example X/src/RotationQuaternion.cpp:21-37, 64-80; all lines are in `Class.cls`. -/
noncomputable def quaternion (sm : Sm) (S : Type) (eval : Q4 ℝ → S) (uc : UpdCheck) (mapped caches : Bool) (on : DiffOn) : Cls :=
  { r := 4, c := 1, d := 3, S := S
    upd := fun A δ => unvec (sm.updateQuat (vec A) δ)
    updCheck := uc, setCheck := .assign, saves := true, inits := true, mapped := mapped
    eval := fun A => eval (vec A), caches := caches
    diff := some (on, fun A x => sm.qlog (sm.qplus (vec A) (sm.quatInv (vec x)))) }

/-- The classes; the files and lines of each are in `Class.cls`. -/
inductive Class
  | euclideanPoint
  | vector (n : Nat)
  | scalar
  | genericScalar
  | matrixBasic (d : Nat) (B : Matrix (Fin 9) (Fin d) ℝ)
  | homogeneousPoint
  | rotationQuaternion
  | euclideanDirection (ypr : (Fin 3 → ℝ) → Mat 3 3) (magnitude : ℝ)
  | mappedVector (n : Nat)
  | mappedEuclideanPoint
  | mappedHomogeneousPoint
  | mappedRotationQuaternion
  | genericVector (n : Nat)
  | unitQuaternion (m : Mode) (g : Geometry)

/-- What each class is made of; the files and lines stand before each case. -/
noncomputable def Class.cls (sm : Sm) : Class → Cls
  /- X/src/EuclideanPoint.cpp:6-10, 17-32, 40-43, 64-79 -/
  | .euclideanPoint => additive 3 .dbg .assign false .current
  /- I/DesignVariableVector.hpp:13-46, 56-60, 74-93 -/
  | .vector n => additive n .dbg .size false .current
  /- X/src/Scalar.cpp:6-29, 37-40, 64-80 -/
  | .scalar => additive 1 .none .front false .current
  /- I/GenericScalar.hpp:9-31, 51-65 -/
  | .genericScalar => additive 1 .none .front false .current
  /- X/src/MatrixBasic.cpp:9-45, 51-53, 71-78; `_B` is the selection of the entries that move (column-major), here any matrix;
     `minimalDifference` is the default, which throws (aslam_backend/src/DesignVariable.cpp:67-70) -/
  | .matrixBasic d B =>
    { r := 3, c := 3, d := d, S := Mat 3 3
      upd := fun A δ i j => A i j + (B *ᵥ δ) ⟨j.val * 3 + i.val, by omega⟩
      updCheck := .eigen, setCheck := .assign, saves := true, inits := true, mapped := false
      eval := id, caches := false, diff := none }
  /- X/src/HomogeneousPoint.cpp:19-32, 40-43, 60-75 (the constructor 7-13 normalises, see `homogeneousPoint`) -/
  | .homogeneousPoint => quaternion sm (Q4 ℝ) id .none false false .current
  /- X/src/RotationQuaternion.cpp:9, 21-37, 44-47, 64-80 -/
  | .rotationQuaternion => quaternion sm (Mat 3 3) sm.quat2r .dbg false true .current
  /- X/src/EuclideanDirection.cpp:26-38, 54-57, 74-90; `ypr` is the transposed rotation matrix of the external class
     EulerAnglesYawPitchRoll -/
  | .euclideanDirection ypr mag =>
    { r := 3, c := 3, d := 2, S := Fin 3 → ℝ
      upd := fun C δ => C * ypr ![0, δ 0, δ 1]
      updCheck := .none, setCheck := .assign, saves := true, inits := true, mapped := false
      eval := fun C i => mag * C i 2, caches := false, diff := none }
  /- I/DesignVariableMappedVector.hpp:5-15, 44-62, 74-77, 93-112 -/
  | .mappedVector n => additive n .dbg .assign true .previous
  /- X/src/MappedEuclideanPoint.cpp:6-32, 40-43, 60-75 -/
  | .mappedEuclideanPoint => additive 3 .dbg .assign true .previous
  /- X/src/MappedHomogeneousPoint.cpp:19-32, 40-43, 60-75 -/
  | .mappedHomogeneousPoint => quaternion sm (Q4 ℝ) id .none true false .previous
  /- X/src/MappedRotationQuaternion.cpp:10, 16-31, 38-41, 58-74 -/
  | .mappedRotationQuaternion => quaternion sm (Mat 3 3) sm.quat2r .dbg true true .previous
  /- H/DesignVariableGenericVector.hpp:20-22, 37-58 -/
  | .genericVector n =>
    { r := n, c := 1, d := n, S := Fin n → ℝ
      upd := fun A δ => unvec (vec A + δ)
      updCheck := .always, setCheck := .assign, saves := false, inits := false, mapped := false
      eval := vec, caches := false, diff := none }
  /- H/DesignVariableUnitQuaternion.hpp:23-39 and the base class above -/
  | .unitQuaternion m g =>
    { r := 4, c := 1, d := 3, S := Q4 ℝ
      upd := fun A δ => unvec (Verif.Quat.update m g (vec A) δ)
      updCheck := .always, setCheck := .assign, saves := false, inits := false, mapped := false
      eval := vec, caches := false, diff := none }

/-- The members: the value, the previous value (`none`: never written) and the value shown. The lines are at each class in `Class.cls`. -/
structure St (k : Cls) where
  val : Mat k.r k.c
  prev : Option (Mat k.r k.c)
  shown : k.S

variable {k : Cls}

/-- The constructors from a value. The lines are at each class in `Class.cls`. -/
def make (k : Cls) (x : Mat k.r k.c) : St k := ⟨x, if k.inits then some x else none, k.eval x⟩

/-- X/src/HomogeneousPoint.cpp:7-13, X/src/MappedHomogeneousPoint.cpp:7-13: the value is normalised.  Division by zero is
excluded by hypotheses. -/
noncomputable def homogeneousPoint (sm : Sm) (p : Q4 ℝ) : St (Class.homogeneousPoint.cls sm) :=
  make _ (unvec ((1 / Real.sqrt (dot4 p p)) • p))

/-- X/src/RotationQuaternion.cpp:11-15: the matrix given is stored beside its quaternion `q = r2quat(C)`. -/
noncomputable def rotationFromMatrix (sm : Sm) (q : Q4 ℝ) (C : Mat 3 3) : St (Class.rotationQuaternion.cls sm) :=
  ⟨unvec q, some (unvec q), C⟩

/-- The calls.  `write` and `remap` are what the owner of mapped memory can do: write to it, and
(`updateMap`, I/DesignVariableMappedVector.hpp:31-40) attach other memory. -/
inductive Op (k : Cls)
  | update (dp : List ℝ)
  | revert
  | set (p : Param)
  | write (x : Mat k.r k.c)
  | remap (x : Mat k.r k.c)

/-- `updateImplementation`. The array has the size that is passed along.
Called by aslam_backend/src/DesignVariable.cpp:18-62; the lines are at each class in `Class.cls`. -/
def update (debug : Bool) (s : St k) (dp : List ℝ) : Res (St k) :=
  if k.updCheck = .always ∧ dp.length ≠ k.d then .exc
  else if k.updCheck = .dbg ∧ debug = true ∧ dp.length ≠ k.d then .exc
  else if k.updCheck = .eigen ∧ dp.length ≠ k.d then .ub
  else if dp.length < k.d then .ub
  else
    let v := k.upd s.val fun i => dp.getD i.val 0
    .ok ⟨v, some s.val, k.eval v⟩

/-- `revertUpdateImplementation`.  Reading a previous value that was never written is undefined.
Called by aslam_backend/src/DesignVariable.cpp:18-62; the lines are at each class in `Class.cls`. -/
def revert (s : St k) : Res (St k) :=
  match s.prev with
  | none => .ub
  | some p => .ok ⟨p, some p, k.eval p⟩

/-- The value read by `setParametersImplementation`. The lines are at each class in `Class.cls`. -/
def readParam (k : Cls) (p : Param) : Res (Mat k.r k.c) :=
  match k.setCheck with
  | .assign => match p.to k.r k.c with | none => .ub | some M => .ok M
  | .size => if p.rows * p.cols ≠ k.r * k.c then .exc else match p.to k.r k.c with | none => .ub | some M => .ok M
  | .front => if h : 0 < p.rows ∧ 0 < p.cols then .ok fun _ _ => p.M ⟨0, h.1⟩ ⟨0, h.2⟩ else .ub

/-- `setParametersImplementation`. Called by aslam_backend/src/DesignVariable.cpp:18-62; the lines are at each class in `Class.cls`. -/
def set (s : St k) (p : Param) : Res (St k) := do
  let M ← readParam k p
  .ok ⟨M, if k.saves then some s.val else s.prev, k.eval M⟩

/-- `getParametersImplementation`. The lines are at each class in `Class.cls`. -/
def get (s : St k) : Param := ⟨k.r, k.c, s.val⟩

/-- `minimalDifferenceImplementation`. The lines are at each class in `Class.cls`; the default is aslam_backend/src/DesignVariable.cpp:67-70. -/
def difference (s : St k) (x : Param) : Res (Fin k.d → ℝ) :=
  match k.diff with
  | none => .exc
  | some (on, f) =>
    match x.to k.r k.c with
    | none => .exc
    | some X =>
      match on with
      | .current => .ok (f s.val X)
      | .previous => match s.prev with | none => .ub | some p => .ok (f p X)

/-- One call. aslam_backend/src/DesignVariable.cpp:18-62. -/
def step (debug : Bool) (s : St k) : Op k → Res (St k)
  | .update dp => update debug s dp
  | .revert => revert s
  | .set p => set s p
  | .write x => if k.mapped then .ok ⟨x, s.prev, if k.caches then s.shown else k.eval x⟩ else .exc
  | .remap x => if k.mapped ∧ k.caches = false then .ok ⟨x, some x, k.eval x⟩ else .exc

/-!
`DesignVariableAdapter` (aslam_backend/include/aslam/backend/implementation/DesignVariableAdapter.hpp, below `A`) wraps a class
of the user.
-/

/-- The user's class. The functions A:42-90 calls. -/
structure User where
  T : Type
  get : T → Param
  /-- `none`: the arguments do not fit -/
  set : T → Param → Option T
  upd : T → List ℝ → T

/-- A:5-18: the wrapped object and the backup, at first an empty matrix. -/
structure ASt (u : User) where
  dv : u.T
  backup : Param

variable {u : User}

/-- A:5-18. -/
def ASt.make (x : u.T) : ASt u := ⟨x, ⟨0, 0, fun i => i.elim0⟩⟩

/-- The calls A:42-55, 85-90. -/
inductive AOp
  | update (dp : List ℝ)
  | revert
  | set (p : Param)

/-- A:42-55, 85-90. -/
def ASt.step (s : ASt u) : AOp → Res (ASt u)
  | .update dp => .ok ⟨u.upd s.dv dp, u.get s.dv⟩
  | .revert => match u.set s.dv s.backup with | none => .ub | some x => .ok ⟨x, s.backup⟩
  | .set p => match u.set s.dv p with | none => .ub | some x => .ok ⟨x, u.get s.dv⟩

/-- A:92-96: the output is left as it was. -/
def ASt.difference (_ : ASt u) (_ : Param) (out : List ℝ) : Res (List ℝ) := .ok out

end Verif.DesignVar
