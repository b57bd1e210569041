import Verif.SBM.Model

/-!
Model of `applySchurComplement` and `buildDsi` (`aslam_backend/src/sparse_matrix_functions.cpp`, called F below) and of
`SparseBlockMatrix::sliceInto` (`sparse_block_matrix/include/sparse_block_matrix/implementation/sparse_block_matrix.hpp`, SBM.hpp).
Vectors are index functions. Simplified: sums of blocks of different sizes and segments outside a vector are not detected; the theorems are about matrices whose blocks have the sizes of their layout.
-/
namespace Verif.Schur
open Verif.MatrixStack (DMat)
open Verif.SBM

variable {R : Type} [CommRing R]

/-- `sliceInto(rmin, rmax, cmin, cmax, out)`, SBM.hpp:522-537: zero the blocks of `out`, then copy the blocks of the range. -/
def sliceInto (debug : Bool) (H : SBM R) (rmin rmax cmin cmax : Nat) (out : SBM R) : Res (SBM R) :=
  assign debug (out.clear false) ((List.range (cmax - cmin)).flatMap fun i =>
    ((H.col (cmin + i)).filter fun p => rmin ≤ p.1 ∧ p.1 < rmax).map fun p => (p.1 - rmin, i, p.2))

/-- `B - Y * Cᵀ`, F:50. -/
def subMulT (Y C B : DMat R) : DMat R := ⟨B.rows, B.cols, fun i j => B.e i j - ∑ t ∈ Finset.range Y.cols, Y.e i t * C.e j t⟩

/-- `b.segment(off, Y.rows()) -= Y * rhs.segment(roff, Y.cols())`, F:47. -/
def subSeg (Y : DMat R) (rhs : Nat → R) (roff : Nat) (b : Nat → R) (off : Nat) : Nat → R := fun i =>
  if off ≤ i ∧ i < off + Y.rows then b i - ∑ t ∈ Finset.range Y.cols, Y.e (i - off) t * rhs (roff + t) else b i

/-- The loop F:48-51 over the entries from `j` on. -/
def inner (debug : Bool) (j : Nat) (Y : DMat R) (l : List (Nat × DMat R)) (A : SBM R) : Res (SBM R) :=
  Res.run (fun A (k : Nat × DMat R) => A.upd debug j k.1 (subMulT Y k.2)) A l

/-- The loop F:45-52 over the entries of a column above the marginalised blocks. -/
def elimCol (debug : Bool) (L : Layout) (W : DMat R) (rhs : Nat → R) (roff : Nat) : List (Nat × DMat R) → SBM R × (Nat → R) → Res (SBM R × (Nat → R))
  | [], s => .ok s
  | p :: ps, s =>
    inner debug p.1 (mulBlock p.2 W) (p :: ps) s.1 >>= fun A =>
    elimCol debug L W rhs roff ps (A, subSeg (mulBlock p.2 W) rhs roff s.2 (L.base p.1))

/-- `X.diagonal().array() += lambda`, F:31, 57. -/
def shift (lambda : R) (B : DMat R) : DMat R := ⟨B.rows, B.cols, fun i j => if i = j then B.e i j + lambda else B.e i j⟩

/-- What the elimination works on: `A`, `b`, `H` (missing diagonal blocks are allocated) and the inverses found so far. F:8-58. -/
structure St (R : Type) where
  A : SBM R
  b : Nat → R
  H : SBM R
  invV : List (DMat R)

/-- One pass of the loop F:23-53. `inv` is Eigen's `inverse()`. -/
def pass (debug : Bool) (inv : DMat R → DMat R) (rhs : Nat → R) (lambda : R) (m : Nat) (lm : Bool) (s : St R) (i : Nat) : Res (St R) :=
  s.H.upd debug (m + i) (m + i) (fun B => B) >>= fun H =>
  let V := (H.block (m + i) (m + i)).getD (H.zeroBlock (m + i) (m + i))
  let W := inv (if lm then shift lambda V else V)
  elimCol debug H.rl W rhs (H.rl.base (m + i)) ((H.col (m + i)).takeWhile fun p => p.1 < m) (s.A, s.b) >>= fun r =>
  .ok ⟨r.1, r.2, H, s.invV ++ [W]⟩

/-- The loop F:55-58. -/
def damp (debug : Bool) (lambda : R) (A : SBM R) : Res (SBM R) :=
  Res.run (fun A i => A.upd debug i i (shift lambda)) A (List.range A.rl.n)

/-- `applySchurComplement(H, rhs, lambda, marginalizedStartingBlock, doLevenbergMarquardt, A, invVi, b)`, F:8-60; `m` is the starting block, `p` the size of `invVi`. The assertions F:19-20 are in debug builds. -/
def applySchur (debug : Bool) (inv : DMat R → DMat R) (H : SBM R) (rhs : Nat → R) (lambda : R) (m : Nat) (lm : Bool) (A : SBM R) (p : Nat) : Res (St R) :=
  sliceInto debug H 0 m 0 m A >>= fun A =>
  if debug ∧ (A.rl.n ≠ m ∨ A.cl.n ≠ m) then .exc
  else Res.run (pass debug inv rhs lambda m lm) ⟨A, rhs, H, []⟩ (List.range p) >>= fun s =>
    if lm then damp debug lambda s.A >>= fun A => .ok { s with A := A } else .ok s

/-- The loop of `buildDsi`, F:75-79. -/
def dsiLoop (L : Layout) (dx : Nat → R) : List (Nat × DMat R) → (Nat → R) → (Nat → R)
  | [], v => v
  | p :: ps, v => dsiLoop L dx ps fun i => v i - ∑ t ∈ Finset.range p.2.rows, p.2.e t i * dx (L.base p.1 + t)

/-- `buildDsi(i, H, rhs, marginalizedStartingBlock, invVi, dx, outDsi)`, F:64-82. -/
def buildDsi (H : SBM R) (rhs : Nat → R) (m i : Nat) (W : DMat R) (dx : Nat → R) : Nat → R := fun a =>
  ∑ t ∈ Finset.range W.cols, W.e a t *
    dsiLoop H.rl dx ((H.col (m + i)).takeWhile fun p => p.1 < m) (fun t => rhs (H.rl.base (m + i) + t)) t

end Verif.Schur
