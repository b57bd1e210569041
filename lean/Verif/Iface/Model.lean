import Verif.CCM.Model
import Verif.SBM.Model
import Mathlib.Algebra.Order.Ring.Abs

/-!
The common matrix interface `aslam::backend::Matrix` (aslam_backend/include/aslam/backend/Matrix.hpp:12-53) and its
three implementations: `DenseMatrix` (aslam_backend/src/DenseMatrix.cpp, below `D`), `CompressedColumnMatrix`
(`Verif.CCM`) and `SparseBlockMatrixWrapper` (aslam_backend/src/SparseBlockMatrixWrapper.cpp, below `W`).

Not modelled: `write` and the stream operators.
-/
namespace Verif.Iface
open Verif.MatrixStack (DMat)

variable {K : Type} [CommRing K]

/-- The floating point operations the conversion from a dense matrix uses: `fabs`, `<=` and `>`. They are separate
because on doubles `<=` is not the negation of `>`. CompressedColumnMatrix.hpp:425-428, D:62-71, W:67-73. -/
structure Cmp (K : Type) where
  abs : K → K
  le : K → K → Bool
  gt : K → K → Bool

/-- The operations on a linearly ordered ring. Not code. -/
def Cmp.exact (K : Type) [Ring K] [LinearOrder K] : Cmp K :=
  ⟨fun x => |x|, fun x y => decide (x ≤ y), fun x y => decide (y < x)⟩

/-- An object behind a `Matrix&`: the data members of the three classes (DenseMatrix.hpp:47,
SparseBlockMatrixWrapper.hpp:45, CCM.hpp). -/
inductive Impl (K : Type)
  | dense (M : DMat K)
  | compressed (A : CCM.CCM K)
  | block (A : SBM.SBM K)

/-- `DenseMatrix::fromDenseTolerance`, D:62-71: copy, then overwrite the small entries. -/
def denseLoad (cmp : Cmp K) (M : DMat K) (tol : K) : DMat K :=
  ⟨M.rows, M.cols, fun i j => if cmp.le (cmp.abs (M.e i j)) tol then 0 else M.e i j⟩

/-- The positions W:60-66 visits, in order: block columns, block rows, columns in the block, rows in the block; as
(block column, block row, column, row). -/
def positions (rl cl : SBM.Layout) : List (Nat × Nat × Nat × Nat) :=
  (List.range cl.n).flatMap fun bc => (List.range rl.n).flatMap fun br =>
    (List.range (cl.size bc)).flatMap fun dc => (List.range (rl.size br)).map fun dr => (bc, br, dc, dr)

/-- Body of the innermost loop, W:67-73. Simplified: the code keeps the pointer of the first `block(r, c, true)` of a
block in `B`; here the block is looked up for each entry. The check for a null block (line 71) is left out: the
wrapped matrix owns its blocks. -/
def writeEntry (debug : Bool) (cmp : Cmp K) (M : DMat K) (tol : K) (A : SBM.SBM K) (p : Nat × Nat × Nat × Nat) :
    Res (SBM.SBM K) :=
  let x := M.e (A.rl.base p.2.1 + p.2.2.2) (A.cl.base p.1 + p.2.2.1)
  if cmp.gt (cmp.abs x) tol then
    A.upd debug p.2.1 p.1 fun B => ⟨B.rows, B.cols, fun i j => if i = p.2.2.2 ∧ j = p.2.2.1 then x else B.e i j⟩
  else .ok A

/-- `SparseBlockMatrixWrapper::fromDenseTolerance`, W:54-78: the block structure must fit (lines 56-57). -/
def blockLoad (debug : Bool) (cmp : Cmp K) (A : SBM.SBM K) (M : DMat K) (tol : K) : Res (SBM.SBM K) :=
  if M.rows ≠ A.rl.total then .exc
  else if M.cols ≠ A.cl.total then .exc
  else Res.run (writeEntry debug cmp M tol) (A.clear true) (positions A.rl A.cl)

/-- `fromDenseTolerance` through the interface (Matrix.hpp:43). The compressed matrix takes the magnitude of the
tolerance first (CCM.hpp:425), the other two do not. -/
def load (debug : Bool) (cmp : Cmp K) (M : DMat K) (tol : K) : Impl K → Res (Impl K)
  | .dense _ => .ok (.dense (denseLoad cmp M tol))
  | .compressed A => CCM.fromDense (fun x => cmp.gt (cmp.abs x) (cmp.abs tol)) A M >>= fun B => .ok (.compressed B)
  | .block A => blockLoad debug cmp A M tol >>= fun B => .ok (.block B)

/-- `fromDense` through the interface (Matrix.hpp:38): D:53-56 copies, the other two use tolerance zero
(CCM.hpp:411-414, W:45-48). -/
def loadAll (debug : Bool) (cmp : Cmp K) (M : DMat K) : Impl K → Res (Impl K)
  | .dense _ => .ok (.dense M)
  | .compressed A => load debug cmp M 0 (.compressed A)
  | .block A => load debug cmp M 0 (.block A)

/-- Questions one can ask through the interface (Matrix.hpp:21-49). -/
inductive Ask (K : Type)
  | rows
  | cols
  | get (r c : Nat)
  | dense
  | right (x : List K)
  | left (x : List K)

/-- Answers: a size, a number, the rows of a dense matrix, a vector. Matrix.hpp:21-49. -/
inductive Ans (K : Type)
  | size (n : Nat)
  | num (x : K)
  | mat (M : List (List K))
  | vec (y : List K)
  deriving DecidableEq

/-- The first `n` entries of a vector. Not code. -/
def vecOf (n : Nat) (y : Nat → K) : List K := (List.range n).map y

/-- The rows of a dense matrix. Not code. -/
def matOf (m n : Nat) (e : Nat → Nat → K) : List (List K) := (List.range m).map fun i => (List.range n).map (e i)

/-- Answers of `DenseMatrix`, D:17-49, 75-85. Indices out of range and vectors of the wrong length are undefined
behaviour (an Eigen assertion in debug builds). -/
def askDense (M : DMat K) : Ask K → Res (Ans K)
  | .rows => .ok (.size M.rows)
  | .cols => .ok (.size M.cols)
  | .get r c => if r < M.rows ∧ c < M.cols then .ok (.num (M.e r c)) else .ub
  | .dense => .ok (.mat (matOf M.rows M.cols M.e))
  | .right x => if x.length = M.cols then
      .ok (.vec (vecOf M.rows fun i => ∑ j ∈ Finset.range M.cols, M.e i j * x.getD j 0)) else .ub
  | .left x => if x.length = M.rows then
      .ok (.vec (vecOf M.cols fun j => ∑ i ∈ Finset.range M.rows, M.e i j * x.getD i 0)) else .ub

/-- Answers of `CompressedColumnMatrix`, CCM.hpp:118-127, 168-186, 377-406. -/
def askCompressed (debug : Bool) (A : CCM.CCM K) : Ask K → Res (Ans K)
  | .rows => .ok (.size A.rows)
  | .cols => .ok (.size A.cols)
  | .get r c => CCM.access debug A r c >>= fun x => .ok (.num x)
  | .dense => CCM.toDense A >>= fun e => .ok (.mat (matOf A.rows A.cols e))
  | .right x => CCM.rightMultiply A x >>= fun y => .ok (.vec (vecOf A.rows y))
  | .left x => CCM.leftMultiply A x >>= fun y => .ok (.vec (vecOf (CCM.prodCols A) y))

/-- Answers of `SparseBlockMatrixWrapper`, W:16-41, 82-94. The sizes of the vectors are checked by `assert` only
(SBM.hpp:449, 469): undefined behaviour otherwise. -/
def askBlock (debug : Bool) (A : SBM.SBM K) : Ask K → Res (Ans K)
  | .rows => .ok (.size A.rl.total)
  | .cols => .ok (.size A.cl.total)
  | .get r c => A.get debug r c >>= fun x => .ok (.num x)
  | .dense => .ok (.mat (matOf A.rl.total A.cl.total A.toDense.e))
  | .right x => if x.length = A.cl.total then .ok (.vec (vecOf A.rl.total (A.mulVec fun j => x.getD j 0))) else .ub
  | .left x => if x.length = A.rl.total then .ok (.vec (vecOf A.cl.total (A.rightMulVec fun i => x.getD i 0))) else .ub

/-- A question through the interface. Matrix.hpp:21-49 (dispatch only). -/
def ask (debug : Bool) (q : Ask K) : Impl K → Res (Ans K)
  | .dense M => askDense M q
  | .compressed A => askCompressed debug A q
  | .block A => askBlock debug A q

/-- Calls through the interface. Matrix.hpp:21-49. -/
inductive Call (K : Type)
  | load (M : DMat K) (tol : K)
  | loadAll (M : DMat K)
  | ask (q : Ask K)

/-- One call; the answers are collected. Matrix.hpp:21-49 (dispatch only). -/
def call (debug : Bool) (cmp : Cmp K) (s : Impl K × List (Ans K)) : Call K → Res (Impl K × List (Ans K))
  | .load M tol => load debug cmp M tol s.1 >>= fun o => .ok (o, s.2)
  | .loadAll M => loadAll debug cmp M s.1 >>= fun o => .ok (o, s.2)
  | .ask q => ask debug q s.1 >>= fun a => .ok (s.1, s.2 ++ [a])

end Verif.Iface
