import Verif.MatrixStack.Model

/-!
Model of `sparse_block_matrix::SparseBlockMatrix`
(`sparse_block_matrix/include/sparse_block_matrix/sparse_block_matrix.h`, called SBM.h below, and
`.../implementation/sparse_block_matrix.hpp`, called SBM.hpp below).
-/
namespace Verif.SBM
open Verif.MatrixStack (DMat)

/-- `_rowBlockIndices` / `_colBlockIndices` (SBM.hpp:39-40): `n` cumulative block ends `idx 0 … idx (n-1)`.
Simplified: block indices are natural numbers (the code uses `int`). -/
structure Layout where
  n : Nat
  idx : Nat → Nat

namespace Layout

/-- `rowBaseOfBlock` / `colBaseOfBlock`, SBM.h:129,132. -/
def base (L : Layout) (r : Nat) : Nat := if r = 0 then 0 else L.idx (r - 1)

/-- `rowsOfBlock` / `colsOfBlock`, SBM.h:123,126. -/
def size (L : Layout) (r : Nat) : Nat := if r = 0 then L.idx 0 else L.idx r - L.idx (r - 1)

/-- `rows()` / `cols()`, SBM.h:66,68. -/
def total (L : Layout) : Nat := if L.n = 0 then 0 else L.idx (L.n - 1)

/-- `std::upper_bound(indices.begin(), indices.end(), r) - indices.begin()`, SBM.hpp:215,220: the first
position whose value exceeds `r`, or the end. -/
def upperBound (L : Layout) (r : Nat) : Nat :=
  ((List.range L.n).find? fun i => decide (r < L.idx i)).getD L.n

/-- Equality of the index vectors, as checked element by element in SBM.hpp:246-257 and others. -/
def same (L M : Layout) : Bool := L.n == M.n && (List.range L.n).all fun i => L.idx i == M.idx i

end Layout

/-- Data members of `SparseBlockMatrix` (SBM.h:249-254): layouts, ownership flag, and for each block
column the ordered map from block row to block, as a list sorted by block row. -/
structure SBM (R : Type) where
  rl : Layout
  cl : Layout
  hasStorage : Bool
  col : Nat → List (Nat × DMat R)

variable {R : Type} [CommRing R]

/-- Constructor, SBM.hpp:38-44: no blocks. -/
def new (rl cl : Layout) (hasStorage : Bool := true) : SBM R := ⟨rl, cl, hasStorage, fun _ => []⟩

/-- `const block(r,c)`, SBM.hpp:145-155: `none` is the null pointer. -/
def SBM.block (A : SBM R) (r c : Nat) : Option (DMat R) :=
  ((A.col c).find? fun p => p.1 == r).map Prod.snd

/-- Insertion of a new key into an ordered map. External (`std::map`), SBM.h:81, SBM.hpp:135. -/
def insertRow (r : Nat) (B : DMat R) : List (Nat × DMat R) → List (Nat × DMat R)
  | [] => [(r, B)]
  | p :: ps => if r < p.1 then (r, B) :: p :: ps else p :: insertRow r B ps

/-- A zero block of the size the layout prescribes, SBM.hpp:128-131. -/
def SBM.zeroBlock (A : SBM R) (r c : Nat) : DMat R := ⟨A.rl.size r, A.cl.size c, fun _ _ => 0⟩

/-- A statement `*block(r,c,true) = f(*block(r,c,true))`: SBM.hpp:120-143 followed by a write through
the returned pointer. Indices outside the layout throw in debug builds (lines 121-122) and are undefined
behaviour otherwise; a missing block of a view (`!_hasStorage`) gives a null pointer whose use is
undefined behaviour. -/
def SBM.upd (debug : Bool) (A : SBM R) (r c : Nat) (f : DMat R → DMat R) : Res (SBM R) :=
  if ¬ (r < A.rl.n ∧ c < A.cl.n) then (if debug then .exc else .ub)
  else match A.block r c with
    | some _ =>
      let l := (A.col c).map fun p => if p.1 = r then (p.1, f p.2) else p
      .ok { A with col := Function.update A.col c l }
    | none =>
      if A.hasStorage then
        let l := insertRow r (f (A.zeroBlock r c)) (A.col c)
        .ok { A with col := Function.update A.col c l }
      else .ub

/-- `clear(dealloc)`, SBM.hpp:96-112. -/
def SBM.clear (A : SBM R) (dealloc : Bool) : SBM R :=
  { A with col := fun c =>
      if A.hasStorage && dealloc then []
      else (A.col c).map fun p => (p.1, ⟨p.2.rows, p.2.cols, fun _ _ => 0⟩) }

/-- All stored blocks in iteration order (block columns ascending, block rows ascending) as
(block row, block column, block): the visiting order of the nested loops of SBM.hpp. The loops of SBM.hpp:188-199, 300-304, 325-340. -/
def SBM.visits (A : SBM R) : List (Nat × Nat × DMat R) :=
  (List.range A.cl.n).flatMap fun c => (A.col c).map fun p => (p.1, c, p.2)

/-- `toDenseInto`, SBM.hpp:178-201: start from zero and copy every block to its offset. -/
def SBM.toDense (A : SBM R) : DMat R :=
  ⟨A.rl.total, A.cl.total,
    A.visits.foldl (fun H v i j =>
      if A.rl.base v.1 ≤ i ∧ i < A.rl.base v.1 + A.rl.size v.1 ∧
         A.cl.base v.2.1 ≤ j ∧ j < A.cl.base v.2.1 + A.cl.size v.2.1
      then v.2.2.e (i - A.rl.base v.1) (j - A.cl.base v.2.1) else H i j) (fun _ _ => 0)⟩

/-- `operator()(r,c)`, SBM.hpp:210-236. Reading a coefficient outside of a block would throw in debug
builds (lines 230-231) and be undefined behaviour otherwise. -/
def SBM.get (debug : Bool) (A : SBM R) (r c : Nat) : Res R :=
  if ¬ r < A.rl.total then .exc
  else if ¬ c < A.cl.total then .exc
  else
    let brow := A.rl.upperBound r
    let bcol := A.cl.upperBound c
    if ¬ (brow < A.rl.n ∧ bcol < A.cl.n) then (if debug then .exc else .ub)
    else match A.block brow bcol with
      | none => .ok 0
      | some B =>
        if A.rl.base brow ≤ r ∧ r - A.rl.base brow < B.rows ∧
           A.cl.base bcol ≤ c ∧ c - A.cl.base bcol < B.cols
        then .ok (B.e (r - A.rl.base brow) (c - A.cl.base bcol))
        else (if debug then .exc else .ub)

/-- `(*d) += *s` on two blocks; different sizes are undefined behaviour, decided by the callers. SBM.hpp:300-304. -/
def addBlock (A B : DMat R) : DMat R := ⟨A.rows, A.cols, fun i j => A.e i j + B.e i j⟩

/-- The loop `for all visited blocks: *dest->block(r,c,true) += B`. Adding blocks of different sizes
is undefined behaviour. SBM.hpp:300-304, 325-340. -/
def accum (debug : Bool) (dest : SBM R) (ws : List (Nat × Nat × DMat R)) : Res (SBM R) :=
  Res.run (fun D (w : Nat × Nat × DMat R) =>
    if w.2.2.rows ≠ (((D.block w.1 w.2.1).getD (D.zeroBlock w.1 w.2.1))).rows ∨
       w.2.2.cols ≠ (((D.block w.1 w.2.1).getD (D.zeroBlock w.1 w.2.1))).cols then
      (if debug then .exc else .ub)
    else D.upd debug w.1 w.2.1 fun B => addBlock B w.2.2) dest ws

/-- The loop `for all visited blocks: *dest->block(r,c,true) = B` (dynamic blocks are resized). SBM.hpp:555-562, 649-662. -/
def assign (debug : Bool) (dest : SBM R) (ws : List (Nat × Nat × DMat R)) : Res (SBM R) :=
  Res.run (fun D (w : Nat × Nat × DMat R) => D.upd debug w.1 w.2.1 fun _ => w.2.2) dest ws

/-- `add(dest)`, SBM.hpp:280-308; `none` is the return value `false`. With a null `dest` the caller
passes `new A.rl A.cl` (line 283). -/
def SBM.add (debug : Bool) (A dest : SBM R) : Option (Res (SBM R)) :=
  if dest.hasStorage && A.rl.same dest.rl && A.cl.same dest.cl then some (accum debug dest A.visits)
  else none

/-- `scale(a)`, SBM.hpp:511-519. -/
def SBM.scale (A : SBM R) (a : R) : SBM R :=
  { A with col := fun c => (A.col c).map fun p => (p.1, ⟨p.2.rows, p.2.cols, fun i j => p.2.e i j * a⟩) }

/-- Transposed block. SBM.hpp:238-268. -/
def trans (B : DMat R) : DMat R := ⟨B.cols, B.rows, fun i j => B.e j i⟩

/-- `transpose(dest)`, SBM.hpp:238-268; with a null `dest` the caller passes `new A.cl A.rl`. An
existing destination is not cleared. -/
def SBM.transposeInto (debug : Bool) (A dest : SBM R) : Option (Res (SBM R)) :=
  if dest.hasStorage && A.rl.same dest.cl && A.cl.same dest.rl then
    some (assign debug dest (A.visits.map fun v => (v.2.1, v.1, trans v.2.2)))
  else none

/-- Product of two blocks. SBM.hpp:325-340. -/
def mulBlock (A B : DMat R) : DMat R :=
  ⟨A.rows, B.cols, fun i j => ∑ t ∈ Finset.range A.cols, A.e i t * B.e t j⟩

/-- `multiply(dest, M)`, SBM.hpp:310-345; with a null `dest` the caller passes `new A.rl M.cl`. The
products are added to whatever `dest` holds. -/
def SBM.mul (debug : Bool) (A M dest : SBM R) : Option (Res (SBM R)) :=
  if A.cl.same M.rl && dest.hasStorage then
    some (accum debug dest (M.visits.flatMap fun v =>
      (A.col v.1).map fun p => (p.1, v.2.1, mulBlock p.2 v.2.2)))
  else none

/-- `y.segment(yoff, A.rows()) += A * x.segment(xoff, A.cols())`, SBM.hpp:363-365, 430-432. -/
def axpy (A : DMat R) (x : Nat → R) (xoff : Nat) (y : Nat → R) (yoff : Nat) : Nat → R := fun i =>
  if yoff ≤ i ∧ i < yoff + A.rows then y i + ∑ t ∈ Finset.range A.cols, A.e (i - yoff) t * x (xoff + t)
  else y i

/-- `y.segment(yoff, A.cols()) += A^T * x.segment(xoff, A.rows())`, SBM.hpp:373-375, 440-442. -/
def atxpy (A : DMat R) (x : Nat → R) (xoff : Nat) (y : Nat → R) (yoff : Nat) : Nat → R := fun j =>
  if yoff ≤ j ∧ j < yoff + A.cols then y j + ∑ t ∈ Finset.range A.rows, A.e t (j - yoff) * x (xoff + t)
  else y j

/-- Loop of `multiply(double*&, const double*)`, SBM.hpp:377-398: adds `A x` to `dest`. -/
def SBM.mulVecAcc (A : SBM R) (dest src : Nat → R) : Nat → R :=
  A.visits.foldl (fun y v => axpy v.2.2 src (A.cl.base v.2.1) y (A.rl.base v.1)) dest

/-- `multiply(VectorXd*, VectorXd)`, SBM.hpp:445-463: sets `dest` to zero first. -/
def SBM.mulVec (A : SBM R) (src : Nat → R) : Nat → R := A.mulVecAcc (fun _ => 0) src

/-- `rightMultiply(VectorXd*, VectorXd)`, SBM.hpp:465-482. -/
def SBM.rightMulVec (A : SBM R) (src : Nat → R) : Nat → R :=
  A.visits.foldl (fun y v => atxpy v.2.2 src (A.rl.base v.1) y (A.cl.base v.2.1)) (fun _ => 0)

/-- Layout of a slice, SBM.hpp:543-553: partial sums of the block sizes from `lo`. -/
def sliceLayout (L : Layout) (lo hi : Nat) : Layout :=
  ⟨hi - lo, fun i => ∑ k ∈ Finset.range (i + 1), L.size (lo + k)⟩

/-- `slice(rmin,rmax,cmin,cmax,alloc)`, SBM.hpp:539-566. An empty range writes element 0 of a
zero-length array (lines 544, 550): undefined behaviour. Reading outside of the layout is undefined
behaviour. Simplified: a view (`alloc = false`) is modelled as the value at the time of the call. -/
def SBM.slice (A : SBM R) (rmin rmax cmin cmax : Nat) (alloc : Bool) : Res (SBM R) :=
  if ¬ (rmin < rmax ∧ rmax ≤ A.rl.n ∧ cmin < cmax ∧ cmax ≤ A.cl.n) then .ub
  else .ok ⟨sliceLayout A.rl rmin rmax, sliceLayout A.cl cmin cmax, alloc, fun i =>
    ((A.col (cmin + i)).filter fun p => rmin ≤ p.1 ∧ p.1 < rmax).map fun p => (p.1 - rmin, p.2)⟩

/-- Permuted layout, SBM.hpp:617-632: block sizes scattered through `pinv` (later writes win), then
partial sums. -/
def permLayout (L : Layout) (pinv : Nat → Nat) : Layout :=
  let sizes := (List.range L.n).foldl (fun s i => Function.update s (pinv i) (L.size i)) (fun _ => 0)
  ⟨L.n, fun i => ∑ k ∈ Finset.range (i + 1), sizes k⟩

/-- The writes of `symmPermutation`, SBM.hpp:650-672. -/
def permWrites (A : SBM R) (pinv : Nat → Nat) (upper : Bool) : List (Nat × Nat × DMat R) :=
  A.visits.map fun v =>
    if !upper || decide (pinv v.1 ≤ pinv v.2.1) then (pinv v.1, pinv v.2.1, v.2.2)
    else (pinv v.2.1, pinv v.1, trans v.2.2)

/-- `symmPermutation(dest, pinv, upperTriangle)` with a null `dest`, SBM.hpp:614-675. -/
def SBM.symmPerm (debug : Bool) (A : SBM R) (pinv : Nat → Nat) (upper : Bool) : Res (SBM R) :=
  assign debug (new (permLayout A.rl pinv) (permLayout A.rl pinv)) (permWrites A pinv upper)

/-- `nonZeros()` for dynamic blocks, SBM.hpp:583-590. -/
def SBM.nonZeros (A : SBM R) : Nat := (A.visits.map fun v => v.2.2.cols * v.2.2.rows).sum

end Verif.SBM
