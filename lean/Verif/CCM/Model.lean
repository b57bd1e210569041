import Verif.Prelude
import Verif.CCS.Basic
import Verif.Jacobian.Model
import Verif.Threads.Model
import Mathlib.Data.List.Sort

/-!
Model of `CompressedColumnMatrix`
(`aslam_backend/include/aslam/backend/implementation/CompressedColumnMatrix.hpp`, below `CCM.hpp`) and of
`CompressedColumnJacobianTransposeBuilder`
(`aslam_backend/include/aslam/backend/implementation/CompressedColumnJacobianTransposeBuilder.hpp`).

Indices are natural numbers; the index type `I` of the code is assumed wide enough.
-/
namespace Verif.CCM
open Verif.MatrixStack Verif.Jacobian

/-- The members of the class (`aslam_backend/include/aslam/backend/CompressedColumnMatrix.hpp:155-164`).
Capacities reserved by `init` are not modelled. -/
structure CCM (R : Type) where
  rows : Nat
  cols : Nat
  values : List R
  rowInd : List Nat
  colPtr : List Nat
  hasDiag : Bool
  acceptConst : Bool

/-- `v[k]` for a `std::vector`: undefined behaviour out of range (used throughout CCM.hpp). Used at CompressedColumnMatrix.hpp:118-127, 168-200. -/
def elt {α : Type} (v : List α) (k : Nat) : Res α :=
  match v[k]? with
  | some a => .ok a
  | none => .ub

/-- `v[k] = a`: undefined behaviour out of range (used throughout CCM.hpp). Used at CompressedColumnJacobianTransposeBuilder.hpp:102-107. -/
def put {α : Type} (v : List α) (k : Nat) (a : α) : Res (List α) :=
  if k < v.length then .ok (v.set k a) else .ub

/-- A sequence of assignments `v[k] = a`. Used for the loops of CompressedColumnJacobianTransposeBuilder.hpp:102-107. -/
def putAll {α : Type} (v : List α) (ws : List (Nat × α)) : Res (List α) :=
  Res.run (fun v w => put v w.1 w.2) v ws

variable {R : Type}

/-- `init`, CCM.hpp:35-45: values and row indices are *not* cleared. -/
def init (A : CCM R) (rows cols : Nat) : CCM R :=
  { A with rows := rows, cols := cols, colPtr := List.replicate (cols + 1) 0, hasDiag := false }

/-- Constructors, CCM.hpp:22-33. -/
def new (rows cols : Nat) : CCM R :=
  init { rows := 0, cols := 0, values := [], rowInd := [], colPtr := [], hasDiag := false,
         acceptConst := false } rows cols

/-- `checkMatrixDbg()`, CCM.hpp:5-8: despite the name always active. `back()` of an empty vector is
undefined. -/
def check (A : CCM R) : Res Unit :=
  match A.colPtr.getLast? with
  | none => .ub
  | some b =>
    if b = A.values.length ∧ b = A.rowInd.length ∧ A.colPtr.length = A.cols + 1 then .ok () else .exc

/-- `clear`, CCM.hpp:131-137: the column pointers get `_rows + 1` entries; `_cols` and the diagonal flag
stay. -/
def clear (A : CCM R) : CCM R :=
  { A with values := [], rowInd := [], colPtr := List.replicate (A.rows + 1) 0 }

/-- `std::lower_bound` on `rowInd[first, first + len)` by bisection (used at CCM.hpp:177); `len` halves
in each step. -/
def lowerBound (rowInd : List Nat) (r : Nat) (first len : Nat) : Res Nat :=
  if h : len = 0 then .ok first
  else do
    let x ← elt rowInd (first + len / 2)
    if x < r then lowerBound rowInd r (first + len / 2 + 1) (len - len / 2 - 1)
    else lowerBound rowInd r first (len / 2)
termination_by len

variable [Semiring R]

/-- `operator()(r, c)`, CCM.hpp:167-186. Pointers up to one past the end of the array are accepted
(strictly, `&v[v.size()]` is not allowed either). -/
def access (debug : Bool) (A : CCM R) (r c : Nat) : Res R :=
  if debug && !(decide (r < A.rows) && decide (c < A.cols)) then .exc else do
  let b ← elt A.colPtr c
  let e ← elt A.colPtr (c + 1)
  if A.rowInd.length < b ∨ A.rowInd.length < e ∨ e < b then .ub else do
  let k ← lowerBound A.rowInd r b (e - b)
  if k = e then .ok 0 else do
  let x ← elt A.rowInd k
  if x = r then elt A.values k else .ok 0

/-- `value(r, c)`, CCM.hpp:157-163: bounds are always checked. -/
def value (debug : Bool) (A : CCM R) (r c : Nat) : Res R :=
  if ¬ (r < A.rows ∧ c < A.cols) then .exc else access debug A r c

/-- One assignment `outM(_row_ind[v], c) = _values[v]` of `toDenseInto`, CCM.hpp:124: undefined
outside of the dense matrix. -/
def denseStep (A : CCM R) (c : Nat) (M : Nat → Nat → R) (v : Nat) : Res (Nat → Nat → R) := do
  let i ← elt A.rowInd v
  let x ← elt A.values v
  if i < A.rows ∧ c < A.cols then .ok fun i' c' => if i' = i ∧ c' = c then x else M i' c'
  else .ub

/-- Inner loop of `toDenseInto` for one column, CCM.hpp:123-125. -/
def denseCol (A : CCM R) (M : Nat → Nat → R) (c : Nat) : Res (Nat → Nat → R) := do
  let b ← elt A.colPtr c
  let e ← elt A.colPtr (c + 1)
  Res.run (denseStep A c) M (List.range' b (e - b))

/-- `toDenseInto`, CCM.hpp:117-127; the result has `A.rows × A.cols` elements. -/
def toDense (A : CCM R) : Res (Nat → Nat → R) :=
  Res.run (denseCol A) (fun _ _ => 0) (List.range (A.colPtr.length - 1))

/-- Number of columns the products work on, CCM.hpp:380,397. -/
def prodCols (A : CCM R) : Nat := if A.hasDiag then A.cols - A.rows else A.cols

/-- `outY[_row_ind[idx]] += _values[idx] * x[c]`, CCM.hpp:386. -/
def rightStep (A : CCM R) (x : List R) (c : Nat) (y : Nat → R) (idx : Nat) : Res (Nat → R) := do
  let i ← elt A.rowInd idx
  let v ← elt A.values idx
  let xc ← elt x c
  if i < A.rows then .ok fun i' => if i' = i then y i' + v * xc else y i' else .ub

/-- Inner loop of `rightMultiply`, CCM.hpp:385-387. -/
def rightCol (A : CCM R) (x : List R) (y : Nat → R) (c : Nat) : Res (Nat → R) := do
  let b ← elt A.colPtr c
  let e ← elt A.colPtr (c + 1)
  Res.run (rightStep A x c) y (List.range' b (e - b))

/-- `rightMultiply`, CCM.hpp:377-389; the result has `A.rows` elements. -/
def rightMultiply (A : CCM R) (x : List R) : Res (Nat → R) :=
  if x.length ≠ prodCols A then .exc
  else Res.run (rightCol A x) (fun _ => 0) (List.range (prodCols A))

/-- `outY[c] += _values[idx] * x[_row_ind[idx]]`, CCM.hpp:403. -/
def leftStep (A : CCM R) (x : List R) (s : R) (idx : Nat) : Res R := do
  let i ← elt A.rowInd idx
  let v ← elt A.values idx
  let xi ← elt x i
  .ok (s + v * xi)

/-- One column of `leftMultiply`, CCM.hpp:401-405 (`outY[c]` starts at zero, line 400). -/
def leftCol (A : CCM R) (x : List R) (y : Nat → R) (c : Nat) : Res (Nat → R) := do
  let b ← elt A.colPtr c
  let e ← elt A.colPtr (c + 1)
  let s ← Res.run (leftStep A x) (y c) (List.range' b (e - b))
  .ok fun c' => if c' = c then s else y c'

/-- `leftMultiply`, CCM.hpp:394-406; the result has `prodCols A` elements. -/
def leftMultiply (A : CCM R) (x : List R) : Res (Nat → R) :=
  if x.length ≠ A.rows then .exc
  else Res.run (leftCol A x) (fun _ => 0) (List.range (prodCols A))

/-- One element of `fromDenseTolerance`, CCM.hpp:428-431. `big x` stands for `fabs(x) > tolerance`. -/
def fromDenseElt (big : R → Bool) (M : DMat R) (c : Nat) (A : CCM R) (r : Nat) : CCM R :=
  if big (M.e r c) then { A with values := A.values ++ [M.e r c], rowInd := A.rowInd ++ [r] } else A

/-- One column of `fromDenseTolerance`, CCM.hpp:427-433. -/
def fromDenseCol (big : R → Bool) (M : DMat R) (A : CCM R) (c : Nat) : CCM R :=
  let A := (List.range M.rows).foldl (fromDenseElt big M c) A
  { A with colPtr := A.colPtr ++ [A.values.length] }

/-- `fromDenseTolerance`, CCM.hpp:416-436. The diagonal flag stays as it was. -/
def fromDense (big : R → Bool) (A : CCM R) (M : DMat R) : Res (CCM R) := do
  let A := { A with rows := M.rows, cols := M.cols, values := [], rowInd := [], colPtr := [0] }
  let A := (List.range M.cols).foldl (fromDenseCol big M) A
  check A
  .ok A

/-- Loop of `pushDiagonalBlock` over the rows, CCM.hpp:331-336, on resized vectors; `cp` counts up from
the last old column pointer. -/
def diagLoop (n : Nat) (rowInd colPtr : List Nat) : Res (List Nat × List Nat) := do
  let cp ← elt colPtr (colPtr.length - 1)
  let ri ← putAll (rowInd ++ List.replicate n 0) ((List.range n).map fun i => (rowInd.length + i, i))
  let co ← putAll (colPtr ++ List.replicate n 0)
    ((List.range n).map fun i => (colPtr.length + i, cp + (i + 1)))
  .ok (ri, co)

/-- `pushDiagonalBlock`, CCM.hpp:315-342. Line 323 resizes the row indices to the size of the *values*
plus `_rows`; the check before guarantees that this is the same. The internal assertions of the loop
("Bad") cannot fire and are left out. -/
def pushDiag (A : CCM R) (d : List R) : Res (CCM R) := do
  check A
  if d.length ≠ A.rows then .exc else
  if A.hasDiag then .exc else do
  let (ri, co) ← diagLoop A.rows A.rowInd A.colPtr
  let A := { A with values := A.values ++ d, rowInd := ri, colPtr := co, cols := A.cols + A.rows,
                    hasDiag := true }
  check A
  .ok A

/-- `pushConstantDiagonalBlock`, CCM.hpp:309-313. -/
def pushConstDiag (A : CCM R) (c : R) : Res (CCM R) := pushDiag A (List.replicate A.rows c)

/-- `popDiagonalBlock`, CCM.hpp:344-354. Subtractions on `size_t` do not go below zero in states where
a diagonal was pushed. -/
def popDiag (A : CCM R) : Res (CCM R) :=
  if A.hasDiag = false then .exc else do
  let A := { A with values := A.values.take (A.values.length - A.rows),
                    rowInd := A.rowInd.take (A.rowInd.length - A.rows),
                    colPtr := A.colPtr.take (A.colPtr.length - A.rows),
                    cols := A.cols - A.rows, hasDiag := false }
  check A
  .ok A

/-- `updateDiagonalBlock`, CCM.hpp:357-364: the size of the vector is not checked; a wrong size is
undefined behaviour (assignment to an `Eigen::Map` of another size). -/
def updateDiag (A : CCM R) (d : List R) : Res (CCM R) :=
  if A.hasDiag = false then .exc
  else if d.length ≠ A.rows then .ub
  else .ok { A with values := A.values.take (A.values.length - A.rows) ++ d }

/-- `updateConstantDiagonalBlock`, CCM.hpp:366-373. -/
def updateConstDiag (A : CCM R) (c : R) : Res (CCM R) :=
  if A.hasDiag = false then .exc
  else .ok { A with values := A.values.take (A.values.length - A.rows) ++ List.replicate A.rows c }

/-! ### Jacobians -/

/-- `JacobianColumnPointer` (CompressedColumnMatrix.hpp:25-30). -/
structure Ptr where
  start : Nat
  perCol : Nat
  nActive : Nat
  deriving DecidableEq, Repr

/-- Loop that sets the new column pointers, CCM.hpp:262-265: each is its predecessor plus the number of
elements per column. -/
def ptrLoop (epc : Nat) : Nat → List Nat → Res (List Nat)
  | 0, cp => .ok cp
  | n + 1, cp => do
    let prev ← elt cp (cp.length - 1)
    ptrLoop epc n (cp ++ [prev + epc])

/-- Assignments to the row indices in the order of the loops of `appendJacobiansSymbolic`,
CCM.hpp:266-281; `off` is `rowOffset`. -/
def symWrites (env : Env R) (start epc Jrows : Nat) : Nat → List Nat → List (Nat × Int)
  | _, [] => []
  | off, d :: ds =>
    ((List.range Jrows).flatMap fun c => (List.range (env.dim d)).map fun r =>
      (start + c * epc + off + r, env.columnBase d + r)) ++
    symWrites env start epc Jrows (off + env.dim d) ds

/-- `appendJacobiansSymbolic(Jrows, dvs)`, CCM.hpp:235-286. `std::sort` by block index is modelled by
insertion sort (they agree when block indices differ). A negative column base of an active variable,
which would be stored as a negative row index, counts as undefined behaviour here. -/
def appendSymbolic (debug : Bool) (env : Env R) (A : CCM R) (Jrows : Nat) (dvs : List Nat) :
    Res (CCM R × Ptr) :=
  if A.hasDiag then .exc else
  let act := dvs.filter env.active
  if debug && (act.any fun d => decide (env.blockIndex d < 0)) then .exc else
  let epc := (act.map env.dim).sum
  if !A.acceptConst && act.isEmpty then .exc else
  let act := act.insertionSort fun a b => env.blockIndex a ≤ env.blockIndex b
  let start := A.rowInd.length
  let ws := symWrites env start epc Jrows 0 act
  if debug && (ws.any fun w => decide ((A.rows : Int) ≤ w.2)) then .exc else
  if (ws.any fun w => decide (w.2 < 0)) then .ub else do
  let ri ← putAll (A.rowInd ++ List.replicate (epc * Jrows) 0) (ws.map fun w => (w.1, w.2.toNat))
  let co ← ptrLoop epc Jrows A.colPtr
  let A := { A with rowInd := ri, values := A.values ++ List.replicate (epc * Jrows) 0, colPtr := co,
                    cols := A.cols + Jrows }
  check A
  .ok (A, ⟨start, epc, act.length⟩)

/-- Assignments to the values in the order of the loops of `writeJacobians`, CCM.hpp:291-305. -/
def jacWrites (start epc : Nat) : Nat → SMap R → List (Nat × R)
  | _, [] => []
  | off, (_, J) :: es =>
    ((List.range J.rows).flatMap fun c => (List.range J.cols).map fun r =>
      (start + c * epc + off + r, J.e c r)) ++
    jacWrites start epc (off + J.cols) es

/-- `writeJacobians(jc, cp)`, CCM.hpp:288-306. -/
def writeJacobians (A : CCM R) (m : SMap R) (p : Ptr) : Res (CCM R) :=
  if m.length ≠ p.nActive then .exc else do
  let vs ← putAll A.values (jacWrites p.start p.perCol 0 m)
  .ok { A with values := vs }

/-- `appendJacobians(jc)`, CCM.hpp:217-227. -/
def appendJacobians (debug : Bool) (env : Env R) (A : CCM R) (jc : JC R (SMap R)) : Res (CCM R) := do
  let (A, p) ← appendSymbolic debug env A jc.rows (jc.store.map Prod.fst)
  writeJacobians A jc.store p

/-! ### Builder -/

/-- What the builder uses of an error term: `dimension()`, `designVariables()` and the calls that
`getWeightedJacobians` makes on the container. CompressedColumnJacobianTransposeBuilder.hpp:29-32, 47-50, 102-107. -/
structure Term (R : Type) where
  dim : Nat
  dvs : List Nat
  calls : List (Jacobian.Op R)

/-- Members of `CompressedColumnJacobianTransposeBuilder`: the matrix and the array
`_jacobianPointers` (`aslam_backend/include/aslam/backend/CompressedColumnJacobianTransposeBuilder.hpp`
lines 49-70). -/
structure Builder (R : Type) where
  mat : CCM R
  ptrs : List (Ptr × Term R)

/-- Loop of `initMatrixStructure` over the error terms, builder lines 47-52. -/
def symbolicAll (debug : Bool) (env : Env R) : CCM R → List (Term R) → Res (CCM R × List (Ptr × Term R))
  | A, [] => .ok (A, [])
  | A, t :: ts => do
    let (A, p) ← appendSymbolic debug env A t.dim t.dvs
    let (A, ps) ← symbolicAll debug env A ts
    .ok (A, (p, t) :: ps)

/-- `initMatrixStructure(dvs, errors)`, builder lines 20-56: `dvs.back()` of an empty list is undefined
behaviour. The number of rows is column base plus dimension of the last design variable. -/
def initStructure (debug : Bool) (env : Env R) (b : Builder R) (dvs : List Nat) (ts : List (Term R)) :
    Res (Builder R) :=
  match dvs.getLast? with
  | none => .ub
  | some d => do
    let A := init (clear b.mat) (env.columnBase d + env.dim d).toNat 0
    let (A, ps) ← symbolicAll debug env A ts
    .ok ⟨A, ps⟩

/-- The container filled by one error term in `evaluateJacobians`, builder lines 103-105. -/
def termJacobian (debug : Bool) (align : Nat) (env : Env R) (t : Term R) : Res (SMap R) := do
  let jc ← Res.run (Jacobian.step debug align env sparseAddJ) (newSparse t.dim 100) t.calls
  .ok jc.store

/-- One iteration of `evaluateJacobians`, builder lines 102-107. -/
def writeTerm (debug : Bool) (align : Nat) (env : Env R) (A : CCM R) (pt : Ptr × Term R) :
    Res (CCM R) := do
  let m ← termJacobian debug align env pt.2
  writeJacobians A m pt.1

/-- `buildSystem(nThreads, ...)` with the jobs run one after the other, builder lines 95-108. -/
def buildSystem (debug : Bool) (align : Nat) (env : Env R) (b : Builder R) (nThreads : Nat) :
    Res (Builder R) := do
  let js ← Threads.setupThreadedJob b.ptrs.length nThreads
  let A ← Res.run (fun A (j : Threads.Job) =>
    Res.run (writeTerm debug align env) A ((b.ptrs.drop j.first).take (j.last - j.first))) b.mat js
  .ok { b with mat := A }

end Verif.CCM
