import Verif.SBM.CCSModel
import Verif.Prelude

/-!
Model of the direct solvers of `sparse_block_matrix` as far as they keep things between calls:
`LinearSolverCholmod` (linear_solver_cholmod.h), `LinearSolverCSparse` (linear_solver_csparse.h) and
`LinearSolverQr` (linear_solver_spqr.h). The external library is a function of the compressed-column
arrays it is given; calling it with a symbolic analysis of another pattern is outside of its contract and
counted as undefined behaviour.
-/
namespace Verif.Direct
open Verif.SBM

/-- The three solver classes, linear_solver_cholmod.h:31, linear_solver_csparse.h:60,
linear_solver_spqr.h:31. -/
inductive Kind
  | cholmod | csparse | qr
  deriving DecidableEq

/-- `CholmodExt` and `CSparseExt`, sparse_helper.h:87-115 and linear_solver_csparse.h:34-54: allocated columns, allocated
values, whether `p` was ever allocated, and the initialised prefix of the three arrays (`none` for a
freshly allocated `p`). -/
structure Ext (K : Type) where
  cols : Nat
  nzmax : Nat
  hasP : Bool
  p : Option (List Nat)
  i : List Nat
  x : List K
  nrow : Nat
  ncol : Nat

/-- The pattern a symbolic analysis belongs to: rows, columns, column pointers, row indices. What linear_solver_cholmod.h:76-90 hands to the library. -/
abbrev Pattern := Nat × Nat × List Nat × List Nat

/-- State of a solver between calls: the arrays and `_cholmodFactor` (`_symbolicDecomposition`), of
which only the analysed pattern matters, linear_solver_cholmod.h:212-218, linear_solver_csparse.h:219-226. -/
structure St (K : Type) where
  ext : Ext K
  sym : Option Pattern

/-- A new solver, linear_solver_cholmod.h:34-47 with sparse_helper.h:89-106. -/
def new {K : Type} : St K := ⟨⟨0, 0, false, none, [], [], 0, 0⟩, none⟩

/-- `init()`: forget the analysis, keep the arrays, linear_solver_cholmod.h:59-68,
linear_solver_csparse.h:85-92, linear_solver_spqr.h:60-67. -/
def St.init {K : Type} (s : St K) : St K := { s with sym := none }

/-- Writing a prefix of an array. Part of `fill`, see there for the lines. -/
def overwrite {α : Type} (new old : List α) : List α := new ++ old.drop new.length

variable {K : Type} [CommRing K]

/-- The structural export a solver uses: the upper triangle (linear_solver_cholmod.h:313,
linear_solver_csparse.h:314) or the symmetric matrix (linear_solver_spqr.h:200). -/
def full (k : Kind) (debug : Bool) (A : SBM K) : Res (Buf K) :=
  match k with
  | .qr => fillSymCCS debug A
  | _ => fillCCS debug true A

/-- The values-only export, linear_solver_cholmod.h:311, linear_solver_csparse.h:312,
linear_solver_spqr.h:197. -/
def values (k : Kind) (debug : Bool) (A : SBM K) : Res (List K) :=
  match k with
  | .qr => fillSymCCSValues debug A
  | _ => fillCCSValues true A

/-- Number of values asked for: `nonZeros()` (linear_solver_cholmod.h:297, linear_solver_csparse.h:299)
or twice that (linear_solver_spqr.h:181). -/
def want (k : Kind) (A : SBM K) : Nat :=
  match k with
  | .qr => A.nonZeros * 2
  | _ => A.nonZeros

/-- Reallocation of the column pointers, linear_solver_cholmod.h:290-295, linear_solver_csparse.h:292-296,
linear_solver_spqr.h:174-179: the new array is not initialised. -/
def growCols (e : Ext K) (n : Nat) : Ext K :=
  if e.cols < n then
    { e with cols := if e.cols = 0 then n else 2 * n, hasP := true, p := none }
  else e

/-- Reallocation of row indices and values, linear_solver_cholmod.h:296-306,
linear_solver_csparse.h:298-307, linear_solver_spqr.h:180-190. -/
def growVals (e : Ext K) (nz : Nat) : Ext K :=
  if e.nzmax < nz then
    { e with nzmax := if e.nzmax = 0 then nz else 2 * nz, i := [], x := [] }
  else e

/-- `fillCholmodExt(A, onlyValues)` and `fillCSparse(A, onlyValues)`, linear_solver_cholmod.h:285-314,
linear_solver_csparse.h:287-318, linear_solver_spqr.h:169-202. Writing through a null `p` and writing past
the allocated values or column pointers is undefined behaviour. -/
def fill (k : Kind) (debug : Bool) (e : Ext K) (A : SBM K) (onlyValues : Bool) : Res (Ext K) :=
  let e := growCols e A.cl.total
  if onlyValues then do
    let v ← values k debug A
    if v.length ≤ e.nzmax then
      .ok { e with ncol := A.cl.total, nrow := A.rl.total, x := overwrite v e.x }
    else .ub
  else
    let e := growVals e (want k A)
    do
    let s ← full k debug A
    if e.hasP = true ∧ s.cp.length ≤ e.cols + 1 ∧ s.cx.length ≤ e.nzmax then
      .ok { e with
        ncol := A.cl.total, nrow := A.rl.total,
        p := some (overwrite s.cp (e.p.getD [])), i := overwrite s.ci e.i, x := overwrite s.cx e.x }
    else .ub

/-- What the library reads: `ncol+1` column pointers and as many indices and values as the last of them
says. Reading what was never written is undefined behaviour. -/
def view (e : Ext K) : Res (CCS.Arrays K) :=
  match e.p with
  | none => .ub
  | some p =>
    if e.ncol < p.length then
      let nz := p.getD e.ncol 0
      if nz ≤ e.i.length ∧ nz ≤ e.x.length then .ok ⟨p.take (e.ncol + 1), e.i.take nz, e.x.take nz⟩
      else .ub
    else .ub

/-- What is asked of the library: the solution for a right-hand side, or covariance blocks.
linear_solver_cholmod.h:70-112 (`solve`) and 114-139 (covariance blocks). -/
inductive Query (K : Type)
  | rhs (b : Nat → K)
  | cov

/-- The numeric part of the library: rows, columns, arrays and query to an answer; `none` is a failed
factorisation. External libraries, called at linear_solver_cholmod.h:76-102. -/
abbrev Lib (K α : Type) := Nat → Nat → CCS.Arrays K → Query K → Option α

variable {α : Type}

/-- `solve`, linear_solver_cholmod.h:70-112, linear_solver_csparse.h:94-127, linear_solver_spqr.h:69-154; and
`solveBlocks`, `solvePattern`, linear_solver_cholmod.h:114-206, linear_solver_csparse.h:129-213; the class
`LinearSolverQr` does not implement the latter two and inherits a `return false` (linear_solver.h:54-66). Only
`solve` of the Cholmod class forgets the analysis after a failure. -/
def call (k : Kind) (debug : Bool) (lib : Lib K α) (s : St K) (A : SBM K) (q : Query K) :
    Res (St K × Option α) :=
  match k, q with
  | .qr, .cov => .ok (s, none)
  | _, _ => do
    let e ← fill k debug s.ext A s.sym.isSome
    let m ← view e
    let pat : Pattern := (e.nrow, e.ncol, m.cp, m.ci)
    let sym := s.sym.getD pat
    if sym = pat then
      let r := lib e.nrow e.ncol m q
      let keep := match k, q, r with
        | .cholmod, .rhs _, none => false
        | _, _, _ => true
      .ok (⟨e, if keep then some sym else none⟩, r)
    else .ub

/-- Calls on a solver. sparse_block_matrix/include/sparse_block_matrix/linear_solver.h:41-61. -/
inductive Op (K : Type)
  | init
  | call (A : SBM K) (q : Query K)

/-- One call; the answers so far are kept, oldest first. sparse_block_matrix/include/sparse_block_matrix/linear_solver.h:41-61 (dispatch only). -/
def step (k : Kind) (debug : Bool) (lib : Lib K α) (w : St K × List (Option α)) : Op K →
    Res (St K × List (Option α))
  | .init => .ok (w.1.init, w.2)
  | .call A q => (call k debug lib w.1 A q).bind fun r => .ok (r.1, w.2 ++ [r.2])

end Verif.Direct
