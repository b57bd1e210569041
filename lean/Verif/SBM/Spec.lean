import Verif.SBM.Model

/-! Specification vocabulary for sparse block matrices. -/
namespace Verif.SBM
open Verif.MatrixStack (DMat)

variable {R : Type} [CommRing R]

/-- Cumulative indices do not decrease. -/
def Layout.Mono (L : Layout) : Prop := ∀ r, r + 1 < L.n → L.idx r ≤ L.idx (r + 1)

/-- A legal block matrix: cumulative indices do not decrease, each block column is ordered by block row
(a `std::map`), block rows lie inside the layout and each block has the size the layout prescribes. -/
structure WF (A : SBM R) : Prop where
  rmono : A.rl.Mono
  cmono : A.cl.Mono
  sorted : ∀ c, c < A.cl.n → (A.col c).Pairwise fun p q => p.1 < q.1
  shape : ∀ c, c < A.cl.n → ∀ p ∈ A.col c, p.1 < A.rl.n ∧ p.2.rows = A.rl.size p.1 ∧
    p.2.cols = A.cl.size c

/-- Coefficient `(a,b)` of block `(r,c)`; a missing block is zero. -/
def SBM.at (A : SBM R) (r c a b : Nat) : R :=
  match A.block r c with
  | none => 0
  | some B => B.e a b

end Verif.SBM
