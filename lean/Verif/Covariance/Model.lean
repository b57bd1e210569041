import Verif.Prelude
import Verif.SBM.Model
import Mathlib.Algebra.Field.Basic

/-!
Model of `MarginalCovarianceCholesky` (`sparse_block_matrix/src/marginal_covariance_cholesky.cpp`, called C below, and `marginal_covariance_cholesky.h`, called H). Recovers entries of the inverse of `L Lᵀ` from the
compressed columns of `L`.
-/
namespace Verif.Covariance
open Verif

/-- The factor as stored by `setCholeskyFactor`, H:70-77. Pointers are index functions; reads outside the arrays are excluded by the well-formedness hypothesis of the theorems. -/
structure Factor (K : Type) where
  n : Nat
  Ap : Nat → Nat
  Ai : Nat → Nat
  Ax : Nat → K
  perm : Option (Nat → Nat)
  diag : Nat → K

/-- `setCholeskyFactor`, C:44-59. The `assert` of C:56 is part of the well-formedness hypothesis. -/
def setCholeskyFactor {K : Type} [Field K] (n : Nat) (Lp Li : Nat → Nat) (Lx : Nat → K) (permInv : Option (Nat → Nat)) : Factor K := ⟨n, Lp, Li, Lx, permInv, fun r => 1 / Lx (Lp r)⟩

/-- The memo table `_map`, H:76. -/
abbrev Memo (K : Type) := Nat → Option K

/-- `computeIndex`, H:80: `r * n + c` in a signed 32-bit `int`; overflow is undefined. The intermediate product is not larger than the sum. -/
def computeIndex (n r c : Nat) : Res Nat := if r * n + c < 2 ^ 31 then .ok (r * n + c) else .ub

/-- The loop C:135-139 over the positions `js` of column `r`, with the recursive call as a parameter. -/
def sumLoop {K : Type} [Field K] (F : Factor K) (rec : Nat → Nat → Memo K → Res (K × Memo K)) (c : Nat) : List Nat → K → Memo K → Res (K × Memo K)
  | [], s, m => .ok (s, m)
  | j :: js, s, m => (if F.Ai j < c then rec (F.Ai j) c m else rec c (F.Ai j) m).bind fun p => sumLoop F rec c js (s + p.1 * F.Ax j) p.2

/-- `computeEntry`, C:121-150. The recursion is given fuel; running out of it stands for unbounded recursion (which the theorems exclude). -/
def computeEntry {K : Type} [Field K] (F : Factor K) : Nat → Nat → Nat → Memo K → Res (K × Memo K)
  | 0, _, _, _ => .ub
  | fuel + 1, r, c, m =>
    (computeIndex F.n r c).bind fun idx =>
      match m idx with
      | some v => .ok (v, m)
      | none =>
        (sumLoop F (computeEntry F fuel) c (List.range' (F.Ap r + 1) (F.Ap (r + 1) - (F.Ap r + 1))) 0 m).bind fun p =>
          let result := if r = c then F.diag r * (F.diag r - p.1) else -p.1 * F.diag r
          .ok (result, Function.update p.2 idx (some result))

/-- The depth that always suffices: every recursive call increases `r + c`. Not code: the fuel of the recursion C:121-150. -/
def depth (n : Nat) : Nat := 2 * n

/-- Calling `computeEntry` for a list of elements, C:175-178 and C:242-245. -/
def computeAll {K : Type} [Field K] (F : Factor K) : List (Nat × Nat) → Memo K → Res (Memo K)
  | [], m => .ok m
  | e :: es, m => (computeEntry F (depth F.n) e.1 e.2 m).bind fun p => computeAll F es p.2

/-- The permutation, C:162 (identity for a null pointer). -/
def Factor.p {K : Type} (F : Factor K) (i : Nat) : Nat := match F.perm with | none => i | some q => q i

/-- Permute and order a pair, C:162-165 and C:230-233. -/
def elem {K : Type} (F : Factor K) (rr cc : Nat) : Nat × Nat := if F.p rr > F.p cc then (F.p cc, F.p rr) else (F.p rr, F.p cc)

/-- `MatrixElem::operator<`, C:29-32, as "not greater" for the sort. -/
def elemLe (a b : Nat × Nat) : Bool := !(decide (b.2 > a.2) || (b.2 == a.2 && decide (b.1 > a.1)))

/-- The lookup C:192-195: dereferencing the end iterator is undefined. -/
def lookup {K : Type} (F : Factor K) (m : Memo K) (rr cc : Nat) : Res K :=
  (computeIndex F.n (elem F rr cc).1 (elem F rr cc).2).bind fun idx => match m idx with | some v => .ok v | none => .ub

/-- A loop that collects results. The loops C:186-198, 236-266. -/
def mapRes {α β : Type} (f : α → Res β) : List α → Res (List β)
  | [] => .ok []
  | a :: as => (f a).bind fun b => (mapRes f as).bind fun bs => .ok (b :: bs)

/-- The elements of one requested block, C:226-235. -/
def blockElems {K : Type} (F : Factor K) (lay : SBM.Layout) (b : Nat × Nat) : List (Nat × Nat) :=
  (List.range (lay.size b.1)).flatMap fun i => (List.range (lay.size b.2)).map fun j => elem F (lay.base b.1 + i) (lay.base b.2 + j)

/-- `computeCovariance` for a list of block positions, C:204-270. The blocks are returned as lists of rows in the order of the request; writing them to the result through `block(.., true)` is covered by C51. -/
def covPattern {K : Type} [Field K] (F : Factor K) (lay : SBM.Layout) (blocks : List (Nat × Nat)) : Res (List (List (List K))) :=
  (computeAll F ((blocks.flatMap (blockElems F lay)).mergeSort elemLe) fun _ => none).bind fun m =>
    mapRes (fun b => mapRes (fun i => mapRes (fun j => lookup F m (lay.base b.1 + i) (lay.base b.2 + j)) (List.range (lay.size b.2))) (List.range (lay.size b.1))) blocks

/-- The pairs `rr ≤ cc < vdim` in loop order, C:160-161. -/
def upperPairs (vdim : Nat) : List (Nat × Nat) := (List.range vdim).flatMap fun rr => (List.range' rr (vdim - rr)).map fun cc => (rr, cc)

/-- The elements of the diagonal blocks, C:155-169. -/
def diagElems {K : Type} (F : Factor K) : List Nat → Nat → List (Nat × Nat)
  | [], _ => []
  | nb :: ns, base => (upperPairs (nb - base)).map (fun q => elem F (q.1 + base) (q.2 + base)) ++ diagElems F ns nb

/-- The inner loops C:186-198 that write one block into the memory of the caller. -/
def writeBlock {K : Type} (F : Factor K) (m : Memo K) (base vdim : Nat) : List (Nat × Nat) → (Nat → K) → Res (Nat → K)
  | [], cov => .ok cov
  | q :: qs, cov => (lookup F m (q.1 + base) (q.2 + base)).bind fun v =>
      let cov1 := Function.update cov (q.1 * vdim + q.2) v
      writeBlock F m base vdim qs (if q.1 ≠ q.2 then Function.update cov1 (q.2 * vdim + q.1) v else cov1)

/-- The outer loop C:182-200; `mems` is the memory of the blocks (`covBlocks`). -/
def writeBlocks {K : Type} (F : Factor K) (m : Memo K) : List Nat → Nat → List (Nat → K) → Res (List (Nat → K))
  | nb :: ns, base, mem :: mems => (writeBlock F m base (nb - base) (upperPairs (nb - base)) mem).bind fun c => (writeBlocks F m ns nb mems).bind fun cs => .ok (c :: cs)
  | [], _, _ => .ok []
  | _, _, [] => .ub

/-- `computeCovariance` for the diagonal blocks ending at the given indices, C:152-201. -/
def covDiag {K : Type} [Field K] (F : Factor K) (ends : List Nat) (mems : List (Nat → K)) : Res (List (Nat → K)) :=
  (computeAll F ((diagElems F ends 0).mergeSort elemLe) fun _ => none).bind fun m => writeBlocks F m ends 0 mems

end Verif.Covariance
