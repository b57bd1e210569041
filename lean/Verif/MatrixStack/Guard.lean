import Verif.Prelude

/-!
Model of `MatrixStack::PopGuard`
(`aslam_backend/include/aslam/backend/MatrixStack.hpp:71-109,162-175`).
-/
namespace Verif.PopGuard

/-- A chain-rule stack and the guard objects of a program. `slot g = none`: no object `g` exists;
`some true`: `g._stack` points to the stack; `some false`: `g._stack` is null
(MatrixStack.hpp:107-108). Simplified: the stack is abstracted to the list of pushed factors
(top first), justified by theorem `C01_top_is_product`. -/
structure State (α : Type) where
  stack : List α
  slot : Nat → Option Bool

/-- What a program can do with guards. MatrixStack.hpp:71-99, 164-181. -/
inductive Op (α : Type) where
  /-- `PopGuard g = stack.pushWithGuard(x)` -/
  | create (g : Nat) (x : α)
  /-- `PopGuard d(std::move(s))` -/
  | moveConstruct (d s : Nat)
  /-- `d = std::move(s)` -/
  | moveAssign (d s : Nat)
  /-- `g.pop()` -/
  | pop (g : Nat)
  /-- end of the lifetime of `g` -/
  | destroy (g : Nat)

/-- Update one guard slot. -/
def setSlot (f : Nat → Option Bool) (g : Nat) (v : Option Bool) : Nat → Option Bool :=
  fun k => if k = g then v else f k

/-- `PopGuard::pop()`, MatrixStack.hpp:92-98, calling `MatrixStack::pop()`, lines 178-183, which throws
on an empty stack. -/
def popGuard {α} (s : State α) (g : Nat) : Res (State α) :=
  match s.slot g with
  | none => .ub
  | some false => .ok s
  | some true => match s.stack with
    | [] => .exc
    | _ :: st => .ok { stack := st, slot := setSlot s.slot g (some false) }

/-- One statement of a program. Using an object outside its lifetime is undefined behaviour.
`create`: MatrixStack.hpp:164-175 and 73-77; `moveConstruct`: 82-85; `moveAssign`: 86-90;
`destroy`: 99. -/
def step {α} (s : State α) : Op α → Res (State α)
  | .create g x =>
    if s.slot g = none then .ok { stack := x :: s.stack, slot := setSlot s.slot g (some true) } else .ub
  | .moveConstruct d src =>
    if s.slot d ≠ none then .ub else
    match s.slot src with
    | none => .ub
    | some p => .ok { s with slot := setSlot (setSlot s.slot d (some p)) src (some false) }
  | .moveAssign d src =>
    if s.slot d = none then .ub else
    match s.slot src with
    | none => .ub
    | some p => .ok { s with slot := setSlot (setSlot s.slot d (some p)) src (some false) }
  | .pop g => popGuard s g
  | .destroy g => do
    let s' ← popGuard s g
    .ok { s' with slot := setSlot s'.slot g none }

/-- A move assignment to a guard that still owns a factor. -/
def Leaky {α} (s : State α) (o : Op α) : Prop :=
  match o with
  | .moveAssign d _ => s.slot d = some true
  | _ => False

/-- The program never executes a leaky move assignment when started in `s`. -/
def Clean {α} : State α → List (Op α) → Prop
  | _, [] => True
  | s, o :: os => ¬ Leaky s o ∧ ∀ s', step s o = .ok s' → Clean s' os

end Verif.PopGuard
