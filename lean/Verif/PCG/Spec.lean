import Verif.PCG.Model
import Verif.SBM.Spec

/-! Specification vocabulary for the conjugate gradient solver. -/
namespace Verif.PCG
open Verif.MatrixStack (DMat)
open Verif.SBM (SBM Layout WF)

variable {K : Type} [Field K] [LinearOrder K]

/-- The linear system a caller describes by a block matrix: `S` is symmetric, and the blocks on and above
the diagonal of `A` hold its upper triangle; every diagonal block is present. -/
structure Describes (A : SBM K) (S : Nat → Nat → K) : Prop where
  wf : WF A
  square : A.rl.same A.cl = true
  diag : ∀ c, c < A.cl.n → (A.block c c).isSome = true
  upper : ∀ r c, r ≤ c → c < A.cl.n → ∀ a b, a < A.rl.size r → b < A.cl.size c →
    A.toDense.e (A.rl.base r + a) (A.cl.base c + b) = S (A.rl.base r + a) (A.cl.base c + b)
  symm : ∀ i j, i < A.rl.total → j < A.rl.total → S i j = S j i

/-- `S v` for vectors of length `n`. -/
def apply (n : Nat) (S : Nat → Nat → K) (v : Nat → K) (i : Nat) : K := ∑ j ∈ Finset.range n, S i j * v j

/-- Positive definite. -/
def PosDef (n : Nat) (S : Nat → Nat → K) : Prop :=
  ∀ v : Nat → K, (∃ i, i < n ∧ v i ≠ 0) → 0 < ∑ i ∈ Finset.range n, v i * apply n S v i

/-- The block diagonal part of `S`. -/
def blockDiag (L : Layout) (S : Nat → Nat → K) (i j : Nat) : K :=
  if L.upperBound i = L.upperBound j then S i j else 0

/-- The matrix library's inverse is right for the diagonal blocks of `A`. -/
def InvOk (inv : DMat K → DMat K) (A : SBM K) : Prop :=
  ∀ c B, c < A.cl.n → A.block c c = some B → (inv B).rows = B.rows ∧ (inv B).cols = B.cols ∧
    ∀ i k, i < B.rows → k < B.rows →
      ∑ j ∈ Finset.range B.rows, B.e i j * (inv B).e j k = if i = k then 1 else 0

/-- The residual `b - S x`. -/
def resid (n : Nat) (S : Nat → Nat → K) (b x : Nat → K) (i : Nat) : K := b i - apply n S x i

/-- `e` is the size of `v` measured with the inverse of the block diagonal part of `S`: `vᵀ P⁻¹ v`. -/
def Size (L : Layout) (S : Nat → Nat → K) (v : Nat → K) (e : K) : Prop :=
  ∃ z, (∀ i, i < L.total → apply L.total (blockDiag L S) z i = v i) ∧
    e = ∑ i ∈ Finset.range L.total, v i * z i

/-- Energy of a candidate: `½ xᵀ S x - bᵀ x`, the quadratic model a step is meant to reduce. -/
def energy (n : Nat) (S : Nat → Nat → K) (b x : Nat → K) : K :=
  (∑ i ∈ Finset.range n, x i * apply n S x i) / 2 - ∑ i ∈ Finset.range n, b i * x i

end Verif.PCG
