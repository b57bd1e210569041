import Verif.Jacobian.Props
import Verif.SBM.Props

/-!
Model of the assembly of the normal equations from error terms
(`aslam_backend/include/aslam/backend/implementation/JacobianContainerSparseImpl.hpp`, JCS below,
`implementation/ErrorTerm.hpp`, ET below, `src/ErrorTermDs.cpp` and
`src/BlockCholeskyLinearSystemSolver.cpp`).
-/
namespace Verif.Hessian
open Verif.MatrixStack (DMat)
open Verif.Jacobian Verif.SBM

variable {R : Type} [CommRing R]

/-- The system being built: block matrix `_H._M` and vector `_rhs` with its length. BlockCholeskyLinearSystemSolver.cpp:59-75. -/
structure Sys (R : Type) where
  H : SBM R
  rhs : Nat → R
  rhsLen : Nat

/-- `J1^T * J2`. -/
def mulT (A B : DMat R) : DMat R :=
  ⟨A.cols, B.cols, fun a b => ∑ u ∈ Finset.range A.rows, A.e u a * B.e u b⟩

/-- One level of the recursion of `buildCorrelatedHessianBlock`, JCS:67-94, for the map element `q`.
Adding a block of different size throws in debug builds (lines 79-89) and is undefined behaviour
otherwise; so is a product of non-conformable factors. -/
def corrStep (debug : Bool) (env : Env R) (J1 : DMat R) (j1 : Nat) (H : SBM R) (q : Nat × DMat R) :
    Res (SBM R) :=
  if env.blockIndex q.1 < 0 then (if debug then .exc else .ub)
  else if debug && decide ((env.blockIndex q.1).toNat < j1) then .exc
  else if J1.rows ≠ q.2.rows then (if debug then .exc else .ub)
  else accum debug H [(j1, (env.blockIndex q.1).toNat, mulT J1 q.2)]

/-- `buildHessianBlock`, JCS:96-114: the recursion over the map. Negative block indices throw in debug
builds (line 106); a vector segment out of range throws in debug builds of Eigen and is undefined
behaviour otherwise. -/
def hessBlock (debug : Bool) (env : Env R) (e : Nat → R) (eLen : Nat) : SMap R → Sys R → Res (Sys R)
  | [], s => .ok s
  | (k, J) :: rest, s =>
    if env.blockIndex k < 0 then (if debug then .exc else .ub)
    else
      let j1 := (env.blockIndex k).toNat
      let b := s.H.rl.base j1
      if J.rows ≠ eLen ∨ ¬ b + J.cols ≤ s.rhsLen then (if debug then .exc else .ub)
      else
        let rhs := fun i =>
          if b ≤ i ∧ i < b + J.cols then s.rhs i - ∑ u ∈ Finset.range J.rows, J.e u (i - b) * e u
          else s.rhs i
        (Res.run (corrStep debug env J j1) s.H ((k, J) :: rest)) >>= fun H =>
          hessBlock debug env e eLen rest ⟨H, rhs, s.rhsLen⟩

/-- `scaling * S^T * J`. JCS:126, 132. -/
def weightJ (s : R) (S J : DMat R) : DMat R :=
  ⟨S.cols, J.cols, fun u a => ∑ v ∈ Finset.range S.rows, s * S.e v u * J.e v a⟩

/-- `evaluateHessian(e, sqrtInvR, outHessian, outRhs)`, JCS:116-133. The size checks of lines 118-119
exist in debug builds only; without them non-conformable products are undefined behaviour. -/
def evaluateHessian (debug : Bool) (env : Env R) (jc : JC R (SMap R)) (e : Nat → R) (eLen : Nat)
    (S : DMat R) (s : Sys R) : Res (Sys R) :=
  if eLen ≠ jc.rows ∨ eLen ≠ S.rows then (if debug then .exc else .ub)
  else if jc.store.any fun p => p.2.rows != S.rows then (if debug then .exc else .ub)
  else hessBlock debug env (fun u => ∑ v ∈ Finset.range S.rows, S.e v u * e v) S.cols
    (jc.store.map fun p => (p.1, weightJ (env.scaling p.1) S p.2)) s

/-- What `buildHessianImplementation` reads of an error term: its dimension, the calls
`evaluateJacobians` makes on the container, `_error`, `_sqrtInvR` and the square root of the M-estimator
weight (1 without M-estimator). -/
structure Term (R : Type) where
  dim : Nat
  calls : List (Op R)
  error : Nat → R
  sqrtInvR : DMat R
  sqrtWeight : R

/-- Scaled matrix. ET:103-116. -/
def smulMat (c : R) (A : DMat R) : DMat R := ⟨A.rows, A.cols, fun i j => c * A.e i j⟩

/-- `buildHessianImplementation`, ET:103-116 and ErrorTermDs.cpp:78-90: evaluate the Jacobians into a
new sparse container and add the weighted normal equations. -/
def buildHessian (debug : Bool) (align : Nat) (env : Env R) (t : Term R) (s : Sys R) : Res (Sys R) :=
  (Res.run (Jacobian.step debug align env sparseAddJ) (newSparse t.dim 100) t.calls) >>= fun jc =>
    evaluateHessian debug env jc t.error t.dim (smulMat t.sqrtWeight t.sqrtInvR) s

/-- `buildSystem`, BlockCholeskyLinearSystemSolver.cpp:59-75: zero the system (keeping allocated
blocks), then add every term in order. -/
def buildSystem (debug : Bool) (align : Nat) (env : Env R) (ts : List (Term R)) (s : Sys R) :
    Res (Sys R) :=
  Res.run (fun s t => buildHessian debug align env t s) ⟨s.H.clear false, fun _ => 0, s.rhsLen⟩ ts

/-- The layout made by `initMatrixStructureImplementation`,
BlockCholeskyLinearSystemSolver.cpp:49-56: partial sums of the dimensions. -/
def dvLayout (env : Env R) (dvs : List Nat) : Layout :=
  ⟨dvs.length, fun i => ∑ k ∈ Finset.range (i + 1), env.dim (dvs.getD k 0)⟩

end Verif.Hessian
