import Verif.SBM.Model
import Verif.CCM.Model

/-!
Models of the linear-system solvers.

`B:` is `aslam_backend/src/BlockCholeskyLinearSystemSolver.cpp`, `S:` is `aslam_backend/src/SparseCholeskyLinearSystemSolver.cpp`,
`Q:` is `aslam_backend/src/SparseQrLinearSystemSolver.cpp`, `D:` is `aslam_backend/src/DenseQrLinearSystemSolver.cpp`,
`L:` is `aslam_backend/src/LinearSystemSolver.cpp` and `C:` is `aslam_backend/include/aslam/backend/implementation/Cholmod.hpp`.
The factorisations themselves (CHOLMOD, SuiteSparseQR, Eigen) are parameters; theorems state what is assumed of them.
-/
namespace Verif.Solver
open Verif.MatrixStack (DMat)
open Verif.SBM (SBM)

variable {R : Type} [CommRing R]

/-! ### Block Cholesky -/

/-- `block.diagonal() += v.segment(off, block.rows())`, B:85 and (with negated values) B:97. -/
def addDiag (v : Nat → R) (off : Nat) (B : DMat R) : DMat R :=
  ⟨B.rows, B.cols, fun i j => if i = j then B.e i j + v (off + i) else B.e i j⟩

/-- One pass of the loops B:82-87 and B:95-99; the state is the matrix and `rowBase`. A block that is not square throws in debug builds (B:84; only in the first loop,
which runs before the second) and is undefined behaviour otherwise, as is a segment outside the vector. -/
def diagPass (debug : Bool) (v : Nat → R) (len : Nat) (s : SBM R × Nat) (i : Nat) : Res (SBM R × Nat) :=
  let B := (s.1.block i i).getD (s.1.zeroBlock i i)
  if B.rows ≠ B.cols then (if debug then .exc else .ub)
  else if len < s.2 + B.rows then .ub
  else (s.1.upd debug i i (addDiag v s.2)) >>= fun H => .ok (H, s.2 + B.rows)

/-- The loops B:81-87 and B:94-99 (and B:131-137, B:143-148). -/
def augment (debug : Bool) (v : Nat → R) (len : Nat) (H : SBM R) : Res (SBM R) :=
  Res.run (diagPass debug v len) (H, 0) (List.range H.rl.n) >>= fun s => .ok s.1

/-- The members of the solver that `solveSystem` uses: `_H`, `_rhs`, `_diagonalConditioner`, `_useDiagonalConditioner`.
BlockCholeskyLinearSystemSolver.hpp:66-74, LinearSystemSolver.hpp:98-122. -/
structure Blk (R : Type) where
  H : SBM R
  rhs : Nat → R
  cond : Nat → R
  condLen : Nat
  useCond : Bool

/-- `BlockCholeskyLinearSystemSolver::solveSystem`, B:76-108. `lib` is the solver `_solver->solve`, `none` if it returns false. The second part of the result is the update,
absent for a failure. The diagonal is augmented with the squares of the conditioner and reduced by the conditioner itself. A new solver object after a failure (B:101-105) is not modelled. -/
def Blk.solve (debug : Bool) (lib : SBM R → (Nat → R) → Option (Nat → R)) (s : Blk R) : Res (Blk R × Option (Nat → R)) :=
  if s.useCond then
    augment debug (fun i => s.cond i * s.cond i) s.condLen s.H >>= fun H1 =>
    augment debug (fun i => -s.cond i) s.condLen H1 >>= fun H2 => .ok ({ s with H := H2 }, lib H1 s.rhs)
  else .ok (s, lib s.H s.rhs)

/-- What a call of `computeCovarianceBlocks` leaves, with a flag telling whether it returned (true) or threw. Not code: outcomes of B:124-150. -/
structure CovOut (R P : Type) where
  s : Blk R
  result : Option P

/-- `computeCovarianceBlocks`, B:124-150. `pat` is `_solver->solvePattern`, `none` if it returns false, which throws (B:140) and skips the second loop. -/
def Blk.covariance {P : Type} (debug : Bool) (pat : SBM R → Option P) (s : Blk R) : Res (CovOut R P) :=
  if s.useCond then
    augment debug (fun i => s.cond i * s.cond i) s.condLen s.H >>= fun H1 =>
    match pat H1 with
    | none => .ok ⟨{ s with H := H1 }, none⟩
    | some p => augment debug (fun i => -s.cond i) s.condLen H1 >>= fun H2 => .ok ⟨{ s with H := H2 }, some p⟩
  else .ok ⟨s, pat s.H⟩

/-- `setConditioner`, L:85-89: the size is checked. -/
def Blk.setConditioner (s : Blk R) (d : Nat → R) (len : Nat) : Res (Blk R) :=
  if len = s.H.cl.total then .ok { s with cond := d, condLen := len } else .exc

/-- `BlockCholeskyLinearSystemSolver::rhsJtJrhs`, B:174-178: `SparseBlockMatrixWrapper::rightMultiply` is `multiply`. -/
def Blk.rhsJtJrhs (s : Blk R) : R := ∑ i ∈ Finset.range s.H.rl.total, s.rhs i * s.H.mulVec s.rhs i

/-! ### Sparse Cholesky -/

/-- The members of the solver: the transposed Jacobian, `_e`, `_rhs`, `_diagonalConditioner`, `_useDiagonalConditioner`, and whether a symbolic factorisation exists.
SparseCholeskyLinearSystemSolver.hpp:43-51, LinearSystemSolver.hpp:98-122. -/
structure Sps (R : Type) where
  A : CCM.CCM R
  e : List R
  rhs : List R
  cond : List R
  useCond : Bool
  factor : Bool

/-- The library: `analyze` throws if the analysis fails (C:216-217); `solve` factorises and solves, none is a null pointer (C:387-399). -/
structure SpsLib (R : Type) where
  analyze : CCM.CCM R → Bool
  solve : CCM.CCM R → List R → Option (List R)

/-- How `solveSystem` ends: with a return value or an exception, and the state it leaves. Not code: outcomes of S:52-97. -/
inductive SpsOut (R : Type) where
  | ret (s : Sps R) (dx : Option (List R))
  | exc (s : Sps R)

/-- The part of `solveSystem` after the diagonal was appended, S:58-97. The matrix `B` has the diagonal if there is one. The debug checks S:80-83 of the solution are not modelled. -/
def Sps.finish (lib : SpsLib R) (s : Sps R) (B : CCM.CCM R) : Res (SpsOut R) :=
  if !s.factor && !lib.analyze B then .ok (.exc { s with A := B })
  else if s.useCond then CCM.popDiag B >>= fun A => .ok (.ret { s with A := A, factor := true } (lib.solve B s.rhs))
  else .ok (.ret { s with A := B, factor := true } (lib.solve B s.rhs))

/-- `SparseCholeskyLinearSystemSolver::solveSystem`, S:52-97. -/
def Sps.solveSystem (lib : SpsLib R) (s : Sps R) : Res (SpsOut R) :=
  if s.useCond then CCM.pushDiag s.A s.cond >>= s.finish lib else s.finish lib s.A

/-- `buildSystem`, S:43-50, after the Jacobian was built: the right-hand side. -/
def Sps.buildRhs (s : Sps R) : Res (Sps R) :=
  CCM.rightMultiply s.A s.e >>= fun y => .ok { s with rhs := (List.range s.A.rows).map y }

/-- `rhsJtJrhs`, S:110-115 and Q:186-191: the squared norm of the product. -/
def Sps.rhsJtJrhs (s : Sps R) : Res R :=
  CCM.leftMultiply s.A s.rhs >>= fun y => .ok (∑ j ∈ Finset.range (CCM.prodCols s.A), y j * y j)

/-! ### Dense QR -/

/-- The members of the solver; the matrix is a list of rows. DenseQrLinearSystemSolver.hpp:55-60, LinearSystemSolver.hpp:98-122. -/
structure Dqr (R : Type) where
  J : List (List R)
  e : List R
  cond : List R
  useCond : Bool

/-- The rows of a diagonal matrix. D:41-58. -/
def diagRows (d : List R) : List (List R) := (List.range d.length).map fun i => (List.range d.length).map fun j => if i = j then d.getD i 0 else 0

/-- `DenseQrLinearSystemSolver::solveSystem`, D:41-58: append, solve, remove. `jrows` is `_JRows`. -/
def Dqr.solve (lib : List (List R) → List R → List R) (jrows : Nat) (s : Dqr R) : Dqr R × List R :=
  if s.useCond then
    let J1 := s.J ++ diagRows s.cond
    let e1 := s.e ++ List.replicate s.cond.length 0
    ({ s with J := J1.take jrows, e := e1.take jrows }, lib J1 e1)
  else (s, lib s.J s.e)

/-- `rhsJtJrhs`, D:90-94, with `_rhs = _J^T _e` (D:37). -/
def Dqr.rhsJtJrhs (rhs : List R) (s : Dqr R) : R :=
  ((s.J.map fun row => (row.zipWith (· * ·) rhs).sum).map fun y => y * y).sum

/-! ### Sparse QR -/

/-- What `Cholmod::solve` for QR does, C:403-442. `fac` is the factorisation and the least-squares solution of the (scaled) system, none if the factorisation fails.
`norm` holds the column norms if columns are scaled: the scale factor is zero for columns with a small norm, otherwise the inverse. A failed factorisation with scaling reads the solution through a null
pointer (C:430-436). -/
def qrSolve {K : Type} [Field K] [LinearOrder K] (fac : (Nat → Nat → K) → (Nat → K) → Option (Nat → K)) (J : Nat → Nat → K) (e : Nat → K) (norm : Option (Nat → K)) (tol : K) :
    Res (Option (Nat → K)) :=
  match norm with
  | none => .ok (fac J e)
  | some nc =>
    let s := fun j => if nc j < tol then 0 else 1 / nc j
    match fac (fun i j => J i j * s j) e with
    | none => .ub
    | some y => .ok (some fun j => s j * y j)

end Verif.Solver
