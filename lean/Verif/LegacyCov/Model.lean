import Verif.Legacy.Model
import Verif.Covariance.Model

/-!
Hessian and covariance of the legacy optimizer, `aslam_backend/src/Optimizer.cpp` (LO below): at which estimate `_H` is built, and what the functions computeCovariances, computeDiagonalCovariances,
computeCovarianceBlocks and getCovarianceBlock do with it.
-/
namespace Verif.LegacyCov
open Verif.Legacy Verif.Covariance

variable {K X D M Q : Type} [LinearOrder K] [Field K]

/-- What `optimize` is made of, with the matrices apart from the bookkeeping `Q` of lambda and mu. `build`: `buildGnMatrices`, LO:684-705, which depends on the design variables only; `lambda0`: `setInitialLambda`,
LO:136-159; `solve`: `applySchurComplement` and the linear solve, LO:516-528, `none` if it fails; the other fields as in `Legacy.Setup`. `applySchurComplement` damps copies of the blocks and may
allocate missing diagonal blocks of `_H` as zeros (sparse_matrix_functions.cpp:30-36), so the matrix `_H` does not change there. -/
structure Parts (K X D M Q : Type) where
  cost : X → Dbl K
  update : X → D → X × Dbl K
  revert : X → X
  build : X → M
  lambda0 : Q → M → Q
  solve : Q → M → Option D
  den : Q → M → D → K
  failed : Q → Q
  good : Q → Dbl K → Q

/-- The first part of the loop body, LO:506-528: the matrices are rebuilt unless the last step was a regression. The pair is what `optimize` keeps: `_H` with `_rhs`, and lambda with mu. -/
def Parts.setup (S : Parts K X D M Q) : Setup K X D (M × Q) where
  cost := S.cost
  update := S.update
  revert := S.revert
  prepare p x regr :=
    let p := if regr then p else (S.build x, S.lambda0 p.2 (S.build x))
    (p, S.solve p.2 p.1)
  den p d := S.den p.2 p.1 d
  failed p := (p.1, S.failed p.2)
  good p r := (p.1, S.good p.2 r)

/-- `optimize`, LO:472-590, with `_H` on return (`H()`, LO:709-712), the estimates on return and whether the last step was rejected. -/
def optimizeH (S : Parts K X D M Q) (o : Options K) (x : X) (p : M × Q) : M × X × Bool :=
  let s := loop S.setup o o.maxIterations.toNat (enter S.setup o x p)
  (s.p.1, s.x, s.regr)

/-- What `optimizeDogLeg` is made of, likewise: `build` is called before the loop and after every accepted step, LO:236 and LO:395-399; nothing else writes the matrices. -/
structure DogParts (K X D M : Type) where
  cost : X → Dbl K
  update : X → D → X × Dbl K
  revert : X → X
  build : X → M
  step : M → K → K × D × K
  resize : M → K → D → Dbl K → K

/-- The set-up of `optimizeDogLeg`, LO:198-465. -/
def DogParts.setup (S : DogParts K X D M) : DogLeg K X D M where
  cost := S.cost
  update := S.update
  revert := S.revert
  rebuild _ x := S.build x
  step m d := (m, S.step m d)
  resize := S.resize

/-! ### Covariances -/

/-- The members used by the covariance functions: the Hessian (`_H`, the symmetric matrix its upper triangle stands for), its block layout, and `_invH`, of which a block may not be allocated.
Optimizer.hpp:184-187. -/
structure St (K : Type) where
  H : Nat → Nat → K
  lay : SBM.Layout
  P : Nat → Nat → Option (List (List K))

/-- `block(r, c, true)` and the assignment of its entries, marginal_covariance_cholesky.cpp:241-265. -/
def setBlock (P : Nat → Nat → Option (List (List K))) (b : Nat × Nat) (m : List (List K)) : Nat → Nat → Option (List (List K)) :=
  fun i j => if (i, j) = b then some m else P i j

/-- `computeCovarianceBlocks`, LO:760-767, with `solvePattern` of a new Cholmod solver, linear_solver_cholmod.h:164-206, and marginal_covariance_cholesky.cpp:204-270: `_invH` is replaced by an empty matrix in which the requested
blocks are allocated; if the factorisation fails it is left alone and an exception is thrown (second component `true`). Block numbers outside of the layout are caught by `assert` only (undefined). `chol` is the
factorisation of Cholmod. -/
def computeBlocks (chol : SBM.Layout → (Nat → Nat → K) → Option (Factor K)) (s : St K) (bs : List (Nat × Nat)) : Res (St K × Bool) :=
  match chol s.lay s.H with
  | none => .ok (s, true)
  | some F =>
    if bs.all fun b => decide (b.1 < s.lay.n) && decide (b.2 < s.lay.n) then
      (covPattern F s.lay bs).bind fun ms => .ok ({ s with P := (bs.zip ms).foldl (fun P q => setBlock P q.1 q.2) fun _ _ => none }, false)
    else .ub

/-- The block positions of `computeDiagonalCovariances`, LO:751-758. -/
def diagonalBlocks (n : Nat) : List (Nat × Nat) := (List.range n).map fun i => (i, i)

/-- The block positions of `computeCovariances`, LO:770-779. -/
def upperBlocks (n : Nat) : List (Nat × Nat) := (List.range n).flatMap fun i => (List.range' i (n - i)).map fun j => (i, j)

/-- Calls on the optimizer: something that leaves a new Hessian (`optimize`, `optimizeDogLeg`, `initialize`: none of them touches `_invH`, LO:111 is commented out), and the three covariance functions. -/
inductive Op (K : Type)
  | newHessian (lay : SBM.Layout) (H : Nat → Nat → K)
  | blocks (bs : List (Nat × Nat))
  | diagonal
  | all

/-- One call; exceptions are caught by the caller and the optimizer is used further. LO:751-784 (dispatch only). -/
def step (chol : SBM.Layout → (Nat → Nat → K) → Option (Factor K)) (s : St K) : Op K → Res (St K)
  | .newHessian lay H => .ok { s with lay := lay, H := H }
  | .blocks bs => (computeBlocks chol s bs).bind fun r => .ok r.1
  | .diagonal => (computeBlocks chol s (diagonalBlocks s.lay.n)).bind fun r => .ok r.1
  | .all => (computeBlocks chol s (upperBlocks s.lay.n)).bind fun r => .ok r.1

/-- `getCovarianceBlock`, LO:781-784: null for a block that is not allocated. -/
def getCovarianceBlock (s : St K) (i j : Nat) : Option (List (List K)) := s.P i j

end Verif.LegacyCov
