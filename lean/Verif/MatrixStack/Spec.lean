import Verif.MatrixStack.Model

/-!
Specification of the chain-rule stack: the list of live factors (most recent first) and its product.
-/
namespace Verif.MatrixStack.Spec
open Verif.MatrixStack

variable {R : Type} [Semiring R]

/-- A scalar factor seen as a square matrix. -/
def scalarMat (n : Nat) (c : R) : DMat R := ⟨n, n, fun i j => if i = j then c else 0⟩

/-- Number of columns of the product of the live factors. -/
def cols (numRows : Nat) : List (DMat R) → Nat
  | [] => numRows
  | f :: _ => f.cols

/-- Product `I · F₁ · F₂ ⋯ Fₖ` of the live factors (list is most recent first). -/
def prod : List (DMat R) → Nat → Nat → R
  | [], i, j => if i = j then 1 else 0
  | f :: fs, i, j => ∑ t ∈ Finset.range f.rows, prod fs i t * f.e t j

/-- Legal calls act on the list of live factors; `none` for a call the documentation forbids. -/
def step (numRows : Nat) (fs : List (DMat R)) : Op R → Option (List (DMat R))
  | .pushM m => if m.rows = cols numRows fs then some (m :: fs) else none
  | .pushS c => some (scalarMat (cols numRows fs) c :: fs)
  | .pop => match fs with
    | [] => none
    | _ :: fs => some fs

/-- Smallest multiple of `align` that is at least `n`. -/
def roundUp (align n : Nat) : Nat := (n + align - 1) / align * align

/-- Buffer elements needed to store the partial products of the live factors with alignment padding. -/
def footprint (align numRows : Nat) : List (DMat R) → Nat
  | [] => 0
  | f :: fs => roundUp align (footprint align numRows fs) + numRows * f.cols

/-- The integer types of the implementation can hold the sizes of the live matrices. -/
def Fits (align numRows : Nat) : List (DMat R) → Prop
  | [] => True
  | f :: fs => f.cols < 2 ^ 16 ∧ numRows * f.cols < 2 ^ 31 ∧
      footprint align numRows (f :: fs) < 2 ^ 32 ∧ Fits align numRows fs

/-- Runs of legal calls whose sizes stay representable throughout. -/
inductive Run (align numRows : Nat) : List (DMat R) → List (Op R) → List (DMat R) → Prop
  | nil (fs) : Run align numRows fs [] fs
  | cons {fs fs' fs'' o os} : step numRows fs o = some fs' → Fits align numRows fs' →
      Run align numRows fs' os fs'' → Run align numRows fs (o :: os) fs''

end Verif.MatrixStack.Spec
