import Verif.Config.Model
import Verif.Config.Props

/-!
C123: options and status objects written to an archive are read back unchanged. `serialize` is one function for both directions: `ar & x` appends the member to an output archive and overwrites it from an
input archive. A member with its name is a named value (`BOOST_SERIALIZATION_NVP`); an input archive that finds another name throws, as the XML archives of Boost do. Archives store every value exactly
(text and XML archives cannot read back the value "not a number" the status starts with). The regularizer, a pointer to an abstract class, is not modelled.
-/
namespace Verif.Config
open FloatLike

/-- The values an archive stores. aslam_backend/include/aslam/backend/implementation/OptimizerBaseImplementation.hpp:21-50 stores values of these types. -/
inductive Item (F : Type) where
  | dbl (x : F)
  | int (i : Int)
  | count (n : Nat)
  | bool (b : Bool)
  | enum (n : Nat)

/-- An archive: named values in the order they were written. External (Boost). -/
abbrev Archive (F : Type) := List (String × Item F)

/-- One statement `ar & BOOST_SERIALIZATION_NVP(member)` of an object of type `O`: the name, what is written and how the member is read. The files are at the lists of members below, for example implementation/OptimizerBaseImplementation.hpp. -/
structure Member (F O : Type) where
  name : String
  get : O → Item F
  set : O → Item F → Option O

/-- `serialize` with an output archive. The lines are at the lists of members below. -/
def save {F O : Type} (ms : List (Member F O)) (o : O) : Archive F := ms.map fun m => (m.name, m.get o)

/-- `serialize` with an input archive, on an existing object. The lines are at the lists of members below. -/
def load {F O : Type} : List (Member F O) → O → Archive F → Res (O × Archive F)
  | [], o, a => .ok (o, a)
  | _ :: _, _, [] => .exc
  | m :: ms, o, (n, x) :: a => if n = m.name then (match m.set o x with | some o' => load ms o' a | none => .exc) else .exc

/-- The members of a base class or of a member object. -/
def Member.lift {F O P : Type} (g : P → O) (s : P → O → P) (m : Member F O) : Member F P :=
  ⟨m.name, fun p => m.get (g p), fun p x => (m.set (g p) x).map (s p)⟩

/-- A member of type `double`. -/
def dblM {F O : Type} (name : String) (g : O → F) (s : O → F → O) : Member F O := ⟨name, fun o => .dbl (g o), fun o x => match x with | .dbl y => some (s o y) | _ => none⟩
/-- A member of type `int`. -/
def intM {F O : Type} (name : String) (g : O → Int) (s : O → Int → O) : Member F O := ⟨name, fun o => .int (g o), fun o x => match x with | .int y => some (s o y) | _ => none⟩
/-- A member of type `std::size_t`. -/
def countM {F O : Type} (name : String) (g : O → Nat) (s : O → Nat → O) : Member F O := ⟨name, fun o => .count (g o), fun o x => match x with | .count y => some (s o y) | _ => none⟩
/-- A member of type `bool`. -/
def boolM {F O : Type} (name : String) (g : O → Bool) (s : O → Bool → O) : Member F O := ⟨name, fun o => .bool (g o), fun o x => match x with | .bool y => some (s o y) | _ => none⟩

variable {F : Type}

/-- `OptimizerOptionsBase::serialize`, implementation/OptimizerBaseImplementation.hpp:20-28. -/
def Base.members : List (Member F (Base F)) :=
  [dblM "convergenceGradientNorm" (·.convergenceGradientNorm) fun o x => { o with convergenceGradientNorm := x },
   dblM "convergenceDeltaX" (·.convergenceDeltaX) fun o x => { o with convergenceDeltaX := x },
   dblM "convergenceDeltaError" (·.convergenceDeltaError) fun o x => { o with convergenceDeltaError := x },
   intM "maxIterations" (·.maxIterations) fun o x => { o with maxIterations := x },
   countM "numThreadsJacobian" (·.numThreadsJacobian) fun o x => { o with numThreadsJacobian := x },
   countM "numThreadsError" (·.numThreadsError) fun o x => { o with numThreadsError := x }]

/-- The values of the enumeration `OptimizerOptionsRprop::Method`, OptimizerRprop.hpp:23. -/
def methodNum : Rprop.Method → Nat
  | .rpropPlus => 0
  | .rpropMinus => 1
  | .irpropMinus => 2
  | .irpropPlus => 3

/-- The method with a number. An archive that stores another number gives an object without a valid method; the model refuses to read it. -/
def methodOf : Nat → Option Rprop.Method
  | 0 => some .rpropPlus
  | 1 => some .rpropMinus
  | 2 => some .irpropMinus
  | 3 => some .irpropPlus
  | _ => none

/-- `OptimizerOptionsRprop::serialize`, implementation/OptimizerRpropImpl.hpp:16-27. The names of members of the base class are nested in an element of their own; the model leaves this level out. -/
def RpropOptions.members : List (Member F (RpropOptions F)) :=
  (Base.members.map (Member.lift (·.toBase) fun o b => { o with toBase := b })) ++
  [dblM "etaMinus" (·.etaMinus) fun o x => { o with etaMinus := x },
   dblM "etaPlus" (·.etaPlus) fun o x => { o with etaPlus := x },
   dblM "initialDelta" (·.initialDelta) fun o x => { o with initialDelta := x },
   dblM "minDelta" (·.minDelta) fun o x => { o with minDelta := x },
   dblM "maxDelta" (·.maxDelta) fun o x => { o with maxDelta := x },
   boolM "useDenseJacobianContainer" (·.useDenseJacobianContainer) fun o x => { o with useDenseJacobianContainer := x },
   ⟨"method", fun o => .enum (methodNum o.method), fun o x => match x with | .enum n => (methodOf n).map fun m => { o with method := m } | _ => none⟩]

/-- `LineSearchOptions::serialize`, implementation/LineSearchImpl.hpp:16-27. -/
def searchMembers : List (Member F (LineSearch.Opt F)) :=
  [dblM "c1WolfeCondition" (·.c1) fun o x => { o with c1 := x },
   dblM "c2WolfeCondition" (·.c2) fun o x => { o with c2 := x },
   dblM "maxStepLength" (·.maxStep) fun o x => { o with maxStep := x },
   dblM "minStepLength" (·.minStep) fun o x => { o with minStep := x },
   dblM "xtol" (·.xtol) fun o x => { o with xtol := x },
   dblM "initialStepLength" (·.initStep) fun o x => { o with initStep := x },
   countM "nMaxIterWolfe1" (·.nWolfe1) fun o x => { o with nWolfe1 := x },
   countM "nMaxIterWolfe2" (·.nWolfe2) fun o x => { o with nWolfe2 := x },
   countM "nMaxIterZoom" (·.nZoom) fun o x => { o with nZoom := x }]

/-- `OptimizerOptionsBFGS::serialize`, implementation/OptimizerBFGSImpl.hpp:16-22. -/
def BfgsOptions.members : List (Member F (BfgsOptions F)) :=
  (Base.members.map (Member.lift (·.toBase) fun o b => { o with toBase := b })) ++
  (searchMembers.map (Member.lift (·.linesearch) fun o l => { o with linesearch := l })) ++
  [boolM "useDenseJacobianContainer" (·.useDenseJacobianContainer) fun o x => { o with useDenseJacobianContainer := x }]

/-- `Optimizer2Options` has no `serialize` of its own and inherits the one of its base class, Optimizer2Options.hpp:14-36. -/
def Options2.members : List (Member F (Options2 F)) := Base.members.map (Member.lift (·.toBase) fun o b => { o with toBase := b })

/-- `OptimizerStatus`, OptimizerBase.hpp:92-99; the convergence status by its number in the enumeration, OptimizerBase.hpp:34-42. -/
structure Status (F : Type) where
  convergence : Fin 6
  numIterations : Nat
  numJacobianEvaluations : Nat
  numErrorEvaluations : Nat
  gradientNorm : F
  maxDeltaX : F
  error : F
  deltaError : F

/-- `OptimizerStatus::serialize`, implementation/OptimizerBaseImplementation.hpp:30-40. -/
def Status.members : List (Member F (Status F)) :=
  [⟨"convergence", fun o => .enum o.convergence.1, fun o x => match x with | .enum n => if h : n < 6 then some { o with convergence := ⟨n, h⟩ } else none | _ => none⟩,
   countM "numIterations" (·.numIterations) fun o x => { o with numIterations := x },
   countM "numJacobianEvaluations" (·.numJacobianEvaluations) fun o x => { o with numJacobianEvaluations := x },
   countM "numErrorEvaluations" (·.numErrorEvaluations) fun o x => { o with numErrorEvaluations := x },
   dblM "gradientNorm" (·.gradientNorm) fun o x => { o with gradientNorm := x },
   dblM "maxDeltaX" (·.maxDeltaX) fun o x => { o with maxDeltaX := x },
   dblM "error" (·.error) fun o x => { o with error := x },
   dblM "deltaError" (·.deltaError) fun o x => { o with deltaError := x }]

/-- C123: status objects and options of the gradient-based optimizers: what was saved is loaded, whatever the target held before, and the archive is left after the object, so sequences of
objects can be stored. -/
theorem C123_round_trip (rest : Archive F) :
    (∀ s s' : Status F, load Status.members s' (save Status.members s ++ rest) = .ok (s, rest)) ∧
    (∀ o o' : Base F, load Base.members o' (save Base.members o ++ rest) = .ok (o, rest)) ∧
    (∀ o o' : RpropOptions F, load RpropOptions.members o' (save RpropOptions.members o ++ rest) = .ok (o, rest)) ∧
    (∀ o o' : LineSearch.Opt F, load searchMembers o' (save searchMembers o ++ rest) = .ok (o, rest)) ∧
    (∀ o o' : BfgsOptions F, load BfgsOptions.members o' (save BfgsOptions.members o ++ rest) = .ok (o, rest)) := by
  refine ⟨?_, ?_, ?_, ?_, ?_⟩
  · rintro ⟨⟨c, hc⟩, n1, n2, n3, a, b, d, e⟩ s'
    simp [load, save, Status.members, countM, dblM, hc]
  · rintro ⟨a, b, c, d, e, f⟩ o'
    rfl
  · rintro ⟨⟨a, b, c, d, e, f⟩, g, h, i, j, k, l, m⟩ o'
    cases m <;> rfl
  · rintro ⟨a, b, c, d, e, f, g, h, i⟩ o'
    rfl
  · rintro ⟨⟨a, b, c, d, e, f⟩, ⟨g, h, i, j, k, l, m, n, p⟩, q⟩ o'
    rfl

/-- Reading `n` objects one after the other, each into a new object `d`; stands for a loop of the user. -/
def loadMany {O : Type} (ms : List (Member F O)) (d : O) : Nat → Archive F → Res (List O × Archive F)
  | 0, a => .ok ([], a)
  | n + 1, a => load ms d a >>= fun r => loadMany ms d n r.2 >>= fun q => .ok (r.1 :: q.1, q.2)

/-- C123: a list of status objects (for example the history of several runs) is restored in order. -/
theorem C123_history (l : List (Status F)) (rest : Archive F) (d : Status F) :
    loadMany Status.members d l.length (l.flatMap (save Status.members) ++ rest) = .ok (l, rest) := by
  induction l with
  | nil => rfl
  | cons s l ih =>
    simp only [List.length_cons, List.flatMap_cons, List.append_assoc, loadMany]
    rw [(C123_round_trip _).1 s d]
    simp only [Res.bind_ok, ih]

/-- C123 (Optimizer2Options). Missing: the members of the class itself, see the counterexample; what is proved is that the members of the base class are restored. -/
theorem C123_optimizer2_partial (rest : Archive F) (o o' : Options2 F) :
    load Options2.members o' (save Options2.members o ++ rest) = .ok ({ o' with toBase := o.toBase }, rest) := by
  obtain ⟨⟨a, b, c, d, e, f⟩, g, h, i⟩ := o
  rfl

/-- The number of failures of the linear solver an `Optimizer2` tolerates is lost in the archive. -/
theorem C123_optimizer2_counterexample :
    ∃ (o d q : Options2 ℚ), load Options2.members d (save Options2.members o) = .ok (q, []) ∧ q.linearSolverMaximumFails ≠ o.linearSolverMaximumFails :=
  ⟨⟨⟨0, 0, 1, 5, 1, 1⟩, false, false, 3⟩, ⟨⟨0, 0, 0, 0, 0, 0⟩, false, false, 0⟩, ⟨⟨0, 0, 1, 5, 1, 1⟩, false, false, 0⟩, rfl, by decide⟩

/-- An archive of the wrong kind is refused. -/
theorem C123_wrong_kind (s : Status F) (o : Base F) : load Base.members o (save Status.members s) = .exc := rfl

example : ∃ s : Status ℚ, s.convergence = 4 ∧ s.numIterations = 7 ∧ load Status.members s (save Status.members s ++ save Status.members s) = .ok (s, save Status.members s) :=
  ⟨⟨4, 7, 7, 9, 1, 2, 3, 4⟩, rfl, rfl, (C123_round_trip _).1 _ _⟩

end Verif.Config
