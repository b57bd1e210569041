import Mathlib.Algebra.BigOperators.Ring.Finset
import Verif.Prelude

/-!
Model of `aslam::backend::MatrixStack`
(`aslam_backend/include/aslam/backend/MatrixStack.hpp`).
-/
namespace Verif.MatrixStack

/-- `MatrixStack::Header`, MatrixStack.hpp:55-64 (`cols` is a `uint16_t`, `dataIndex` a `uint32_t`;
the truncation happens in `allocate`). -/
structure Header where
  cols : Nat
  dataIndex : Nat
  deriving DecidableEq, Repr

/-- Data members of `MatrixStack`, MatrixStack.hpp:249-253. `mem` and `cap` are the contents and the
size of `_data`; `headers` is `_headers` with the last element first. -/
structure Stack (R : Type) where
  mem : Nat → R
  cap : Nat
  headers : List Header
  numRows : Nat
  dataSize : Nat

/-- A dense matrix argument (any Eigen expression): sizes and coefficients. Arguments of MatrixStack.hpp:131, 164. -/
structure DMat (R : Type) where
  rows : Nat
  cols : Nat
  e : Nat → Nat → R

variable {R : Type} [Semiring R]

/-- Constructor, MatrixStack.hpp:114-118; `numRows` is a `uint16_t` parameter. -/
def new (numRows maxNumMatrices estimated : Nat) : Stack R :=
  { mem := fun _ => 0, cap := maxNumMatrices * estimated, headers := [],
    numRows := numRows % 2 ^ 16, dataSize := 0 }

/-- Start index of a new element, MatrixStack.hpp:207-209 (`align = DataAlignment/sizeof(double)`). -/
def alignStart (align start : Nat) : Nat :=
  if start % align ≠ 0 then start + (align - start % align) else start

/-- `allocate`, MatrixStack.hpp:204-223. The product `numRows()*cols` is computed in `int`: an
overflow is undefined behaviour. The debug assertion of line 222 is a check in debug builds only.
Simplified: `std::vector` allocation failure is not modelled. -/
def allocate (debug : Bool) (align : Nat) (s : Stack R) (cols : Nat) : Res (Stack R) :=
  if 2 ^ 31 ≤ s.numRows * cols then .ub else
  let start := alignStart align s.dataSize
  let newSize := start + s.numRows * cols
  let cap' := if newSize > s.cap then max (2 * s.cap) newSize else s.cap
  let h : Header := { cols := cols % 2 ^ 16, dataIndex := start % 2 ^ 32 }
  if debug && (h.dataIndex % align != 0) then .exc else
  .ok { s with cap := cap', dataSize := newSize, headers := h :: s.headers }

/-- One past the last element of the region of a header (`Map(&_data[dataIndex], numRows, cols)`),
MatrixStack.hpp:190,198,230. -/
def Stack.regionEnd (s : Stack R) (h : Header) : Nat := h.dataIndex + s.numRows * h.cols

/-- Coefficient `(i,j)` of a stored matrix (Eigen's default column-major map),
MatrixStack.hpp:190,198,230. -/
def Stack.coeff (s : Stack R) (h : Header) (i j : Nat) : R := s.mem (h.dataIndex + j * s.numRows + i)

/-- Assignment to the mapped top matrix, MatrixStack.hpp:137,143,153,158: writes every element of the
region, undefined behaviour if the region is not inside the buffer. -/
def Stack.write (s : Stack R) (h : Header) (f : Nat → Nat → R) : Res (Stack R) :=
  let mem' : Nat → R := fun a =>
    if h.dataIndex ≤ a ∧ a < s.regionEnd h then
      f ((a - h.dataIndex) % s.numRows) ((a - h.dataIndex) / s.numRows)
    else s.mem a
  if s.regionEnd h ≤ s.cap then .ok { s with mem := mem' } else .ub

/-- The two regions share an element (then a `noalias` assignment is undefined behaviour). For MatrixStack.hpp:137-142. -/
def Stack.overlap (s : Stack R) (h h' : Header) : Bool :=
  decide (h.dataIndex < s.regionEnd h' ∧ h'.dataIndex < s.regionEnd h)

/-- `push(mat)`, MatrixStack.hpp:130-145. A size mismatch throws in debug builds (lines 135, 141) and is
undefined behaviour in release builds; assigning a product whose column count differs from the stored
(truncated) header is undefined behaviour (fixed-size map). -/
def pushM (debug : Bool) (align : Nat) (s : Stack R) (mat : DMat R) : Res (Stack R) :=
  match s.headers with
  | prev :: _ =>
    if prev.cols ≠ mat.rows then (if debug then .exc else .ub) else do
    let s' ← allocate debug align s mat.cols
    match s'.headers with
    | [] => .exc
    | top :: _ =>
      if top.cols ≠ mat.cols ∨ s'.overlap prev top ∨ s'.cap < s'.regionEnd prev then .ub
      else s'.write top fun i j => ∑ t ∈ Finset.range prev.cols, s'.coeff prev i t * mat.e t j
  | [] =>
    if s.numRows ≠ mat.rows then (if debug then .exc else .ub) else do
    let s' ← allocate debug align s mat.cols
    match s'.headers with
    | [] => .exc
    | top :: _ => if top.cols ≠ mat.cols then .ub else s'.write top mat.e

/-- `push(scalar)`, MatrixStack.hpp:148-160. -/
def pushS (debug : Bool) (align : Nat) (s : Stack R) (c : R) : Res (Stack R) :=
  match s.headers with
  | prev :: _ => do
    let s' ← allocate debug align s prev.cols
    match s'.headers with
    | [] => .exc
    | top :: _ =>
      if top.cols ≠ prev.cols ∨ s'.overlap prev top ∨ s'.cap < s'.regionEnd prev then .ub
      else s'.write top fun i j => s'.coeff prev i j * c
  | [] => do
    let s' ← allocate debug align s s.numRows
    match s'.headers with
    | [] => .exc
    | top :: _ =>
      if top.cols ≠ s.numRows then .ub
      else s'.write top fun i j => (if i = j then 1 else 0) * c

/-- `pop()`, MatrixStack.hpp:178-183. -/
def pop (s : Stack R) : Res (Stack R) :=
  match s.headers with
  | [] => .exc
  | _ :: hs =>
    .ok { s with headers := hs,
                 dataSize := match hs with
                   | [] => 0
                   | h :: _ => h.dataIndex + s.numRows * h.cols }

/-- Public operations of the stack. MatrixStack.hpp:131-181. -/
inductive Op (R : Type) where
  | pushM (m : DMat R)
  | pushS (c : R)
  | pop

/-- One call on the stack. MatrixStack.hpp:131-181 (dispatch only). -/
def step (debug : Bool) (align : Nat) (s : Stack R) : Op R → Res (Stack R)
  | .pushM m => pushM debug align s m
  | .pushS c => pushS debug align s c
  | .pop => pop s

end Verif.MatrixStack
