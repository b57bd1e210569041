import Verif.SBMOwn.Model

/-!
What a user expects of programs with matrices: every matrix is a value, and an operation changes the matrices it names and no others.
-/
namespace Verif.SBMOwn
open Verif.MatrixStack (DMat)
open Verif.SBM (Layout sliceLayout)

variable {R : Type} [CommRing R]

/-- A matrix as a value: its layouts, whether it can hold blocks, and its blocks. Specification, not code. -/
structure Val (R : Type) where
  rl : Layout
  cl : Layout
  store : Bool
  blk : Key → Option (DMat R)

/-- The value of a matrix that was moved away. Specification, not code (compare SBM.hpp:72-88). -/
def movedVal : Val R := ⟨⟨0, fun _ => 0⟩, ⟨0, fun _ => 0⟩, false, fun _ => none⟩

/-- The values of all matrices of a program. -/
abbrev Vals (R : Type) := Nat → Option (Val R)

/-- Operations on values. Specification, not code: what the comments in SBM.h:88-150, 192-199 promise. Copies are deep, moves transfer the value. -/
def vstep (v : Vals R) : Op R → Except Fault (Vals R)
  | .construct x rl cl st => match v x with
    | some _ => .error .misuse
    | none => .ok (Function.update v x (some ⟨rl, cl, st, fun _ => none⟩))
  | .copyConstruct x y => match v x, v y with
    | none, some q => if q.rl.n = 0 ∨ q.cl.n = 0 then .error .emptyVector else .ok (Function.update v x (some { q with store := true }))
    | _, _ => .error .misuse
  | .moveConstruct x y => match v x, v y with
    | none, some q => .ok (Function.update (Function.update v x (some q)) y (some movedVal))
    | _, _ => .error .misuse
  | .assign x y => match v x, v y with
    | some _, some q => if x = y then .ok v else if q.rl.n = 0 ∨ q.cl.n = 0 then .error .emptyVector else .ok (Function.update v x (some { q with store := true }))
    | _, _ => .error .misuse
  | .moveAssign x y => match v x, v y with
    | some _, some q => if x = y then .ok v else .ok (Function.update (Function.update v x (some q)) y (some movedVal))
    | _, _ => .error .misuse
  | .slice x y rmin rmax cmin cmax _ => match v x, v y with
    | none, some q =>
      if rmin < rmax ∧ rmax ≤ q.rl.n ∧ cmin < cmax ∧ cmax ≤ q.cl.n then
        .ok (Function.update v x (some ⟨sliceLayout q.rl rmin rmax, sliceLayout q.cl cmin cmax, true, fun k =>
          if k.1 < cmax - cmin ∧ k.2 < rmax - rmin then q.blk (cmin + k.1, rmin + k.2) else none⟩))
      else .error .misuse
    | _, _ => .error .misuse
  | .write x r c B => match v x with
    | none => .error .misuse
    | some o =>
      if r < o.rl.n ∧ c < o.cl.n then
        if o.store ∨ o.blk (c, r) ≠ none then .ok (Function.update v x (some { o with blk := Function.update o.blk (c, r) (some B) }))
        else .error .null
      else .error .misuse
  | .scale x s => match v x with
    | none => .error .misuse
    | some o => .ok (Function.update v x (some { o with blk := fun k => (o.blk k).map fun B => ⟨B.rows, B.cols, fun i j => s * B.e i j⟩ }))
  | .clear x d => match v x with
    | none => .error .misuse
    | some o => .ok (Function.update v x (some { o with blk := fun k => if o.store && d then none else (o.blk k).map fun B => ⟨B.rows, B.cols, fun _ _ => 0⟩ }))
  | .destroy x => match v x with
    | none => .error .misuse
    | some _ => .ok (Function.update v x none)

/-- A program on values. Specification, not code. -/
def vrun : Vals R → List (Op R) → Except Fault (Vals R)
  | v, [] => .ok v
  | v, o :: os => match vstep v o with
    | .error e => .error e
    | .ok v' => vrun v' os

/-- Reading a block of a value. Specification, not code. -/
def vread (v : Vals R) (x r c : Nat) : Except Fault (Option (DMat R)) := match v x with
  | none => .error .misuse
  | some o => if r < o.rl.n ∧ c < o.cl.n then .ok (o.blk (c, r)) else .error .misuse

/-- The operation does not create a view (a slice that shares blocks with the matrix it is taken from). -/
def Op.NoView : Op R → Prop
  | .slice _ _ _ _ _ _ alloc => alloc = true
  | _ => True

/-- Every allocated block belongs to exactly one matrix with storage, and such a matrix has only allocated blocks. -/
def Accounted (w : World R) : Prop :=
  (∀ a, w.heap a ≠ none → ∃! x, ∃ o, w.obj x = some o ∧ o.store = true ∧ a ∈ o.ents.map Prod.snd) ∧
  ∀ x o, w.obj x = some o → o.store = true → ∀ a ∈ o.ents.map Prod.snd, w.heap a ≠ none

end Verif.SBMOwn
