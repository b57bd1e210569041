import Verif.SBM.Spec
import Verif.CCS.Basic

/-!
Model of the compressed-column exports of `SparseBlockMatrix` (SBM.hpp:677-884). The caller-owned
buffers are modelled as lists the code appends to; the separate capacity theorems compare their final
length with what the callers allocate.
-/
namespace Verif.SBM
open Verif.MatrixStack (DMat)

variable {R : Type} [CommRing R]

/-- The three output cursors and the counter `nz`, SBM.hpp:705, 735. -/
structure Buf (R : Type) where
  cp : List Nat
  ci : List Nat
  cx : List R
  nz : Nat

/-- The body `*Cx++ = (*b)(r, c); *Ci++ = row; ++nz;`, SBM.hpp:719-721, 766-768, 792-794. Reading
outside of the block is undefined behaviour (an assertion in debug builds of the matrix library). -/
def emit (debug : Bool) (b : DMat R) (s : Buf R) (e : Nat × Nat × Nat) : Res (Buf R) :=
  if e.1 < b.rows ∧ e.2.1 < b.cols then
    .ok ⟨s.cp, s.ci ++ [e.2.2], s.cx ++ [b.e e.1 e.2.1], s.nz + 1⟩
  else (if debug then .exc else .ub)

/-- `elemsToCopy`, SBM.hpp:715-717: a block that starts on the diagonal is cut below the diagonal. -/
def elems (upper : Bool) (A : SBM R) (i c : Nat) (p : Nat × DMat R) : Nat :=
  if upper && A.rl.base p.1 == A.cl.base i then c + 1 else p.2.rows

/-- Scalar columns in the order of the two outer loops, SBM.hpp:706-709: (block column, column in it). -/
def scalarCols (L : Layout) : List (Nat × Nat) :=
  (List.range L.n).flatMap fun i => (List.range (L.size i)).map fun c => (i, c)

/-- The loop over the blocks of one scalar column, SBM.hpp:711-723. -/
def fillDown (debug upper : Bool) (A : SBM R) (s : Buf R) (ic : Nat × Nat) : Res (Buf R) :=
  Res.run (fun s (p : Nat × DMat R) =>
    Res.run (emit debug p.2) s
      ((List.range (elems upper A ic.1 ic.2 p)).map fun r => (r, ic.2, A.rl.base p.1 + r)))
    s (A.col ic.1)

/-- `fillCCS(Cp, Ci, Cx, upperTriangle)`, SBM.hpp:704-729. -/
def fillCCS (debug upper : Bool) (A : SBM R) : Res (Buf R) :=
  (Res.run (fun (s : Buf R) ic => fillDown debug upper A ⟨s.cp ++ [s.nz], s.ci, s.cx, s.nz⟩ ic)
    ⟨[], [], [], 0⟩ (scalarCols A.cl)).bind fun s => .ok ⟨s.cp ++ [s.nz], s.ci, s.cx, s.nz⟩

/-- Copy of the first `n` values of a scalar column of a block: the `memcpy` of SBM.hpp:692, 835. Reading
past the block's data is undefined behaviour. Simplified: copying more than one column is always counted as undefined, although
in the middle of a block it would silently read on into the next column. -/
def copyVals (b : DMat R) (c n : Nat) (s : List R) : Res (List R) :=
  if c < b.cols ∧ n ≤ b.rows then .ok (s ++ (List.range n).map fun r => b.e r c) else .ub

/-- `fillCCS(Cx, upperTriangle)`: values only, SBM.hpp:679-699. -/
def fillCCSValues (upper : Bool) (A : SBM R) : Res (List R) :=
  Res.run (fun s ic => Res.run (fun s (p : Nat × DMat R) =>
    copyVals p.2 ic.2 (elems upper A ic.1 ic.2 p) s) s (A.col ic.1)) [] (scalarCols A.cl)

/-- The second inner loop of `fillUpperTriangleCCS`, SBM.hpp:774-799: the transposed blocks of block row
`i`, from the diagonal block on. -/
def fillAcross (debug : Bool) (A : SBM R) (s : Buf R) (ic : Nat × Nat) : Res (Buf R) :=
  Res.run (fun s cb =>
    match A.block ic.1 cb with
    | none => .ok s
    | some b =>
      let first := if ic.1 = cb then ic.2 + 1 else 0
      Res.run (emit debug b) s
        ((List.range (A.cl.size cb - first)).map fun t =>
          (ic.2, first + t, A.cl.base cb + (first + t))))
    s ((List.range (A.cl.n - ic.1)).map fun k => ic.1 + k)

/-- `fillUpperTriangleCCS(Cp, Ci, Cx)`, SBM.hpp:733-805. -/
def fillSymCCS (debug : Bool) (A : SBM R) : Res (Buf R) :=
  (Res.run (fun (s : Buf R) ic =>
      (fillDown debug true A ⟨s.cp ++ [s.nz], s.ci, s.cx, s.nz⟩ ic).bind fun s =>
        fillAcross debug A s ic)
    ⟨[], [], [], 0⟩ (scalarCols A.cl)).bind fun s => .ok ⟨s.cp ++ [s.nz], s.ci, s.cx, s.nz⟩

/-- `fillUpperTriangleCCS(Cx)`: values only, SBM.hpp:809-857. -/
def fillSymCCSValues (debug : Bool) (A : SBM R) : Res (List R) :=
  Res.run (fun s ic =>
    (Res.run (fun s (p : Nat × DMat R) => copyVals p.2 ic.2 (elems true A ic.1 ic.2 p) s) s
      (A.col ic.1)).bind fun s =>
    Res.run (fun s cb =>
      match A.block ic.1 cb with
      | none => .ok s
      | some b =>
        let first := if ic.1 = cb then ic.2 + 1 else 0
        Res.run (fun (s : List R) ci =>
          if ic.2 < b.rows ∧ ci < b.cols then .ok (s ++ [b.e ic.2 ci])
          else (if debug then .exc else .ub)) s
          ((List.range (A.cl.size cb - first)).map fun t => first + t))
      s ((List.range (A.cl.n - ic.1)).map fun k => ic.1 + k)) [] (scalarCols A.cl)

/-- `fillBlockStructure(ms)`, SBM.hpp:859-884: the block pattern on and above the diagonal; the pair
(column pointers, row indices). -/
def fillBlockStructure (A : SBM R) : List Nat × List Nat :=
  let s := (List.range A.cl.n).foldl (fun (s : List Nat × List Nat × Nat) c =>
    (A.col c).foldl (fun (s : List Nat × List Nat × Nat) p =>
      if p.1 ≤ c then (s.1, s.2.1 ++ [p.1], s.2.2 + 1) else s) (s.1 ++ [s.2.2], s.2.1, s.2.2))
    (([], [], 0) : List Nat × List Nat × Nat)
  (s.1 ++ [s.2.2], s.2.1)

end Verif.SBM
