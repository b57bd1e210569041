import Verif.CholSolver.Model
import Verif.CCM.Ops

/-! What a user expects of the sparse Cholesky solver: it solves with the matrix last built and the conditioner last set. No pointers, no appending and removing of the diagonal. -/
namespace Verif.CholSolver
open Verif.CCM (CCM WF withDiag)

/-- The matrix without conditioner, whether a conditioner is used, which one, whether a factor exists, and whether an analysis has failed while a conditioner was in use. -/
structure Abs (R : Type) where
  J : CCM R
  cond : Bool
  diag : List R
  fac : Bool
  stuck : Bool

variable {R : Type}

/-- The matrix that should be factorised: `[J, diag(d)]`. -/
def Abs.mat (a : Abs R) : CCM R := if a.cond then withDiag a.J a.diag else a.J

/-- The expected effect of an operation. -/
def astep [Zero R] (op : Op R) (a : Abs R) : Abs R × Val R :=
  match op with
  | .init A c t => (⟨A, c, List.replicate A.rows 0, false, false⟩, if t then .threw else .done)
  | .build v t => ({ a with J := { a.J with values := (List.range a.J.values.length).map v } }, if t then .threw else .done)
  | .setCond d => if d.length = a.J.rows then ({ a with diag := d }, .done) else (a, .threw)
  | .solve o =>
    if a.stuck then (a, .threw)
    else if a.fac = true ∨ (o.ptr = true ∧ o.status = true) then ({ a with fac := true }, .solved (o.fact && o.sl) a.mat)
    else ({ a with stuck := a.cond }, .threw)

/-- A history. -/
def arun [Zero R] : List (Op R) → Abs R → Abs R × List (Val R)
  | [], a => (a, [])
  | op :: ops, a => let r := astep op a; let q := arun ops r.1; (q.1, r.2 :: q.2)

/-- The first operation sets up the structure. -/
def Begins (ops : List (Op R)) : Prop := ∃ A c t rest, ops = .init A c t :: rest

/-- The builder delivers legal matrices without a diagonal block (C16). -/
def Legal [Semiring R] (ops : List (Op R)) : Prop := ∀ A c t, Op.init A c t ∈ ops → WF A ∧ A.hasDiag = false

/-- No analysis leaves an object behind while it reports a failure. -/
def Clean (ops : List (Op R)) : Prop := ∀ o, Op.solve o ∈ ops → o.ptr = true → o.status = true

end Verif.CholSolver
