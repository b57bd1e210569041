import Verif.Prelude
import Mathlib.Data.Real.Basic
import Mathlib.Algebra.BigOperators.Fin

/-!
Model of the Jacobians by finite differences of an error term and of the numerical check of its Jacobians:
`aslam_backend/src/ErrorTerm.cpp` (called ET), `include/aslam/backend/implementation/ErrorTerm.hpp` (called ETi),
`src/ErrorTermDs.cpp` (called Ds), `src/ScalarNonSquaredErrorTerm.cpp` (called NS).

`X` is the type of values of design variables. Simplified: real numbers; the external `sm::eigen::NumericalDiff` evaluates the function at the given
point and then twice per column, and takes central differences; with step 0 it divides 0 by 0 (`ub`); the debug assertions ET:138, 142 on sizes
always hold and are left out.
-/
namespace Verif.FiniteDiff

/-- What is needed of the design variables: `minimalDimensions()` and how an update changes the value
(`DesignVariable::update`, aslam_backend/src/DesignVariable.cpp; the classes are the subject of C63). -/
structure Kit (X : Type) where
  dim : Nat → Nat
  plus : Nat → X → (Nat → ℝ) → X

/-- An error term: its design variables in order (`_designVariables`, ET:45-54), the number of rows and the error vector which
`evaluateErrorImplementation` computes from the values of the design variables. -/
structure Term (X : Type) where
  dvs : List Nat
  rows : Nat
  err : (Nat → X) → Nat → ℝ

/-- Values of all design variables, the values they would go back to, and the error stored in the term (`_error`, include/aslam/backend/ErrorTerm.hpp:286). -/
structure St (X : Type) where
  cur : Nat → X
  prev : Nat → X
  stored : Nat → ℝ

variable {X : Type} (K : Kit X)

/-- The part of `dr` for a variable, `&dr[offset]` with `minimalDimensions()` entries, ET:139. -/
def part (d off : Nat) (dr : Nat → ℝ) : Nat → ℝ := fun k => if k < K.dim d then dr (off + k) else 0

/-- The loop ET:136-141 (ETi:82-87, Ds:59-64, NS:151-156): update every design variable. -/
def updAll (dr : Nat → ℝ) : List Nat → Nat → (Nat → X) × (Nat → X) → (Nat → X) × (Nat → X)
  | [], _, s => s
  | d :: ds, off, (cur, prev) =>
    updAll dr ds (off + K.dim d) (Function.update cur d (K.plus d (cur d) (part K d off dr)), Function.update prev d (cur d))

/-- The loop ET:145-148 (ETi:91-94, Ds:68-71, NS:162-165): `revertUpdate` of every design variable. -/
def revAll : List Nat → (Nat → X) × (Nat → X) → (Nat → X)
  | [], (cur, _) => cur
  | d :: ds, (cur, prev) => revAll ds (Function.update cur d (prev d), prev)

/-- The functor, ET:134-150, ETi:80-97, Ds:57-73, NS:149-167. -/
def functor (t : Term X) (dr : Nat → ℝ) (s : St X) : (Nat → ℝ) × St X :=
  let (cur, prev) := updAll K dr t.dvs 0 (s.cur, s.prev)
  (t.err cur, ⟨revAll t.dvs (cur, prev), prev, t.err cur⟩)

/-- `update(x, c, delta)` of the functor at `x = 0`, ET:128-132. -/
def single (c : Nat) (delta : ℝ) : Nat → ℝ := fun q => if q = c then delta else 0

/-- The first `n` columns of `NumericalDiff::estimateJacobian` (external): central differences with step `h`. Called in ET:166. -/
noncomputable def columns (t : Term X) (h : ℝ) : Nat → St X → (Nat → Nat → ℝ) × St X
  | 0, s => (fun _ _ => 0, (functor K t (fun _ => 0) s).2)
  | n + 1, s =>
    let (J, s) := columns t h n s
    let (p, s) := functor K t (single n h) s
    let (m, s) := functor K t (single n (-h)) s
    (fun r q => if q = n then (p r - m r) / (2 * h) else J r q, s)

/-- The sum of the dimensions, ET:162-165. -/
def inputSize (dvs : List Nat) : Nat := (dvs.map K.dim).sum

/-- The loop ET:168-173: the block of each design variable. -/
def blocks (J : Nat → Nat → ℝ) : List Nat → Nat → List (Nat × (Nat → Nat → ℝ))
  | [], _ => []
  | d :: ds, off => (d, fun r k => if k < K.dim d then J r (off + k) else 0) :: blocks J ds (off + K.dim d)

/-- `evaluateJacobiansFiniteDifference`, ET:158-175, NS:175-195: what is added to the container, and the state afterwards. -/
noncomputable def finiteDifference (t : Term X) (s : St X) : List (Nat × (Nat → Nat → ℝ)) × St X :=
  let (J, s) := columns K t (1 / 10 ^ 6) (inputSize K t.dvs) s
  (blocks K J t.dvs 0, s)

/-- Comparison of the blocks, ETi:219-229: `Jacobian(d)` throws when the container `ana` has none for `d`. -/
noncomputable def compare (rows : Nat) (tolerance : ℝ) (ana : Nat → Option (Nat → Nat → ℝ)) : List (Nat × (Nat → Nat → ℝ)) → Res Unit
  | [] => .ok ()
  | (d, B) :: l => match ana d with
    | none => .exc
    | some A => open Classical in
      if ∀ r < rows, ∀ k < K.dim d, |A r k - B r k| ≤ tolerance then compare rows tolerance ana l else .exc

/-- `ErrorTermFs::checkJacobiansNumerical`, ETi:203-232: `ana` is what `evaluateJacobians` leaves in a new container (as a function of the values of the
design variables; variables which are not active have none). The tolerance is also the step. -/
noncomputable def checkFs (t : Term X) (ana : (Nat → X) → Nat → Option (Nat → Nat → ℝ)) (tolerance : ℝ) (s : St X) : Res (St X) :=
  let A := ana s.cur
  if tolerance = 0 then .ub else
  let (J, s) := columns K t tolerance (inputSize K t.dvs) s
  compare K t.rows tolerance A (blocks K J t.dvs 0) >>= fun _ => .ok s

/-- `ErrorTermDs::checkJacobiansNumerical`, Ds:172-194: the same with the member `_jacobians`, into which nothing in the class writes (Ds:11, 94, 197 make it
empty). -/
noncomputable def checkDs (t : Term X) (tolerance : ℝ) (s : St X) : Res (St X) :=
  checkFs K t (fun _ _ => none) tolerance s

end Verif.FiniteDiff
