import Verif.SBM.Model

/-!
Who owns the blocks of a `SparseBlockMatrix`. `Verif.SBM` treats a matrix as a value; here a matrix is an object that holds pointers to blocks on a heap, together with the flag `_hasStorage` that
says whether it deletes them. Cited files are `sparse_block_matrix/include/sparse_block_matrix/sparse_block_matrix.h` (SBM.h) and `.../implementation/sparse_block_matrix.hpp` (SBM.hpp).

A program is a list of operations on named matrix objects. Simplified: the maps of all block columns are one association list with key (block column, block row); their order is not observable here.
-/
namespace Verif.SBMOwn
open Verif.MatrixStack (DMat)
open Verif.SBM (Layout sliceLayout)

/-- Why the behaviour of a program is undefined: an object that does not exist (or exists already) or an index out of range is used; a null block pointer is dereferenced; a deleted block is accessed;
a block is deleted a second time; the first element of an empty vector is taken. Not code: the causes are at SBM.hpp:38-177. -/
inductive Fault where
  | misuse
  | null
  | dangling
  | doubleDelete
  | emptyVector
  deriving DecidableEq

/-- Key of a block: block column, block row. SBM.h:81, 249-254. -/
abbrev Key := Nat × Nat

/-- The members of a matrix, SBM.h:249-254: layouts, `_hasStorage`, and `_blockCols` with the address of each block. -/
structure Obj where
  rl : Layout
  cl : Layout
  store : Bool
  ents : List (Key × Nat)

/-- `_blockCols[c].find(r)`, SBM.hpp:122,150. -/
def find (es : List (Key × Nat)) (k : Key) : Option Nat := (es.find? fun e => e.1 == k).map Prod.snd

/-- The heap of blocks and the matrix objects of a program. `heap a` is none if no block is allocated at `a`.
Not code: memory; the pointers to it are in SBM.h:81, 249-254. -/
structure World (R : Type) where
  heap : Nat → Option (DMat R)
  next : Nat
  obj : Nat → Option Obj

variable {R : Type} [CommRing R]

/-- A program starts without matrices. Not code. -/
def init : World R := ⟨fun _ => none, 0, fun _ => none⟩

/-- `b->setZero()`, SBM.hpp:106. -/
def zeroBlk (B : DMat R) : DMat R := ⟨B.rows, B.cols, fun _ _ => 0⟩

/-- `*a *= a_`, SBM.hpp:516. -/
def scaleBlk (s : R) (B : DMat R) : DMat R := ⟨B.rows, B.cols, fun i j => s * B.e i j⟩

/-- `delete b` for all blocks of a matrix, SBM.hpp:103-104. -/
def deleteAll (H : Nat → Option (DMat R)) : List (Key × Nat) → Except Fault (Nat → Option (DMat R))
  | [] => .ok H
  | e :: es => match H e.2 with
    | none => .error .doubleDelete
    | some _ => deleteAll (Function.update H e.2 none) es

/-- A loop that changes all blocks of a matrix in place, SBM.hpp:100-108 and 510-519. -/
def mapAll (f : DMat R → DMat R) (H : Nat → Option (DMat R)) : List (Key × Nat) → Except Fault (Nat → Option (DMat R))
  | [] => .ok H
  | e :: es => match H e.2 with
    | none => .error .dangling
    | some B => mapAll f (Function.update H e.2 (some (f B))) es

/-- `new SparseMatrixBlock(*it->second)` for a list of blocks, SBM.hpp:170-171 and 559: the heap, the next free address and the pointers to the copies, under the same keys. -/
def cloneAll (H : Nat → Option (DMat R)) (n : Nat) : List (Key × Nat) → Except Fault ((Nat → Option (DMat R)) × Nat × List (Key × Nat))
  | [] => .ok (H, n, [])
  | e :: es => match H e.2 with
    | none => .error .dangling
    | some B => match cloneAll (Function.update H n (some B)) (n + 1) es with
      | .error x => .error x
      | .ok (H', n', es') => .ok (H', n', (e.1, n) :: es')

/-- The object a name refers to. Not code. -/
def get (w : World R) (x : Nat) : Except Fault Obj := match w.obj x with
  | some o => .ok o
  | none => .error .misuse

/-- The name of an object that is about to be constructed. Not code. -/
def fresh (w : World R) (x : Nat) : Except Fault Unit := match w.obj x with
  | some _ => .error .misuse
  | none => .ok ()

/-- Assignment to the members of an object. Not code. -/
def World.set (w : World R) (x : Nat) (o : Obj) : World R := { w with obj := Function.update w.obj x (some o) }

/-- What is left of a matrix whose vectors were moved away, SBM.hpp:73-75 and 81-86: empty vectors and no storage. -/
def movedObj : Obj := ⟨⟨0, fun _ => 0⟩, ⟨0, fun _ => 0⟩, false, []⟩

/-- `clear(dealloc)`, SBM.hpp:97-112: deletes the blocks if the matrix owns them and `dealloc` is set, and sets them to zero otherwise. -/
def clear (w : World R) (x : Nat) (dealloc : Bool) : Except Fault (World R) := do
  let o ← get w x
  if o.store && dealloc then
    let H ← deleteAll w.heap o.ents
    return { w with heap := H }.set x { o with ents := [] }
  else
    let H ← mapAll zeroBlk w.heap o.ents
    return { w with heap := H }

/-- `operator=(SparseBlockMatrix&&)`, SBM.hpp:77-88. -/
def moveAssign (w : World R) (x y : Nat) : Except Fault (World R) := do
  let _ ← get w x
  let _ ← get w y
  if x = y then return w
  else
    let w ← clear w x true
    let p ← get w y
    return (w.set x p).set y movedObj

/-- `cloneInto(ret)`, SBM.hpp:163-177, with `this` = `y` and `ret` = `x`. The assignment in line 167 moves a temporary without blocks into `ret`, which clears `ret` once more. Taking
`&_rowBlockIndices[0]` of an empty vector is undefined behaviour. -/
def cloneInto (w : World R) (x y : Nat) : Except Fault (World R) := do
  let _ ← get w x
  let _ ← get w y
  if x = y then return w
  else
    let w ← clear w x true
    let p ← get w y
    if p.rl.n = 0 ∨ p.cl.n = 0 then throw .emptyVector
    let w ← clear w x true
    let (H, n, es) ← cloneAll w.heap w.next p.ents
    return (World.mk H n w.obj).set x ⟨p.rl, p.cl, true, es⟩

/-- Operations of a program on matrices. `write` stands for `*x.block(r, c, true) = B`. A `slice` is a new matrix. The lines are at `step`. -/
inductive Op (R : Type) where
  | construct (x : Nat) (rl cl : Layout) (store : Bool)
  | copyConstruct (x y : Nat)
  | moveConstruct (x y : Nat)
  | assign (x y : Nat)
  | moveAssign (x y : Nat)
  | slice (x y rmin rmax cmin cmax : Nat) (alloc : Bool)
  | write (x r c : Nat) (B : DMat R)
  | scale (x : Nat) (s : R)
  | clear (x : Nat) (dealloc : Bool)
  | destroy (x : Nat)

/-- The blocks of a slice and their keys in it, SBM.hpp:555-562. -/
def sliceEnts (es : List (Key × Nat)) (rmin rmax cmin cmax : Nat) : List (Key × Nat) :=
  (es.filter fun e => decide (cmin ≤ e.1.1 ∧ e.1.1 < cmax ∧ rmin ≤ e.1.2 ∧ e.1.2 < rmax)).map fun e => ((e.1.1 - cmin, e.1.2 - rmin), e.2)

/-- One operation. Constructors SBM.hpp:38-44 (a default-constructed matrix, SBM.hpp:91-95, is `construct` with empty layouts and storage), SBM.hpp:66-70 (copy; `_hasStorage` is not initialised before
`cloneInto`, but there are no blocks it could matter for), SBM.hpp:72-75 (move); `operator=` SBM.h:144; `slice` SBM.hpp:539-566; `block(r,c,true)` SBM.hpp:120-142; `scale` SBM.hpp:510-519; the
destructor SBM.hpp:114-118. -/
def step (w : World R) : Op R → Except Fault (World R)
  | .construct x rl cl st => do
    fresh w x
    return w.set x ⟨rl, cl, st, []⟩
  | .copyConstruct x y => do
    fresh w x
    let _ ← get w y
    cloneInto (w.set x ⟨⟨0, fun _ => 0⟩, ⟨0, fun _ => 0⟩, true, []⟩) x y
  | .moveConstruct x y => do
    fresh w x
    let p ← get w y
    return (w.set x p).set y movedObj
  | .assign x y => cloneInto w x y
  | .moveAssign x y => moveAssign w x y
  | .slice x y rmin rmax cmin cmax alloc => do
    fresh w x
    let p ← get w y
    if rmin < rmax ∧ rmax ≤ p.rl.n ∧ cmin < cmax ∧ cmax ≤ p.cl.n then
      if alloc then
        let (H, n, es) ← cloneAll w.heap w.next (sliceEnts p.ents rmin rmax cmin cmax)
        return (World.mk H n w.obj).set x ⟨sliceLayout p.rl rmin rmax, sliceLayout p.cl cmin cmax, true, es⟩
      else return w.set x ⟨sliceLayout p.rl rmin rmax, sliceLayout p.cl cmin cmax, false, sliceEnts p.ents rmin rmax cmin cmax⟩
    else throw .misuse
  | .write x r c B => do
    let o ← get w x
    if r < o.rl.n ∧ c < o.cl.n then
      match find o.ents (c, r) with
      | some a => match w.heap a with
        | none => throw .dangling
        | some _ => return { w with heap := Function.update w.heap a (some B) }
      | none =>
        if o.store then return (World.mk (Function.update w.heap w.next (some B)) (w.next + 1) w.obj).set x { o with ents := o.ents ++ [((c, r), w.next)] }
        else throw .null
    else throw .misuse
  | .scale x s => do
    let o ← get w x
    let H ← mapAll (scaleBlk s) w.heap o.ents
    return { w with heap := H }
  | .clear x d => clear w x d
  | .destroy x => do
    let o ← get w x
    let w ← if o.store then clear w x true else pure w
    return { w with obj := Function.update w.obj x none }

/-- A program. Not code: a sequence of operations. -/
def run : World R → List (Op R) → Except Fault (World R)
  | w, [] => .ok w
  | w, o :: os => match step w o with
    | .error e => .error e
    | .ok w' => run w' os

/-- `const block(r,c)`, SBM.hpp:145-154, and access to the block if there is one. -/
def read (w : World R) (x r c : Nat) : Except Fault (Option (DMat R)) := do
  let o ← get w x
  if r < o.rl.n ∧ c < o.cl.n then
    match find o.ents (c, r) with
    | none => return none
    | some a => match w.heap a with
      | none => throw .dangling
      | some B => return some B
  else throw .misuse

end Verif.SBMOwn
