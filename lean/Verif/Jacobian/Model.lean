import Verif.MatrixStack.Model

/-!
Model of the Jacobian containers
(`aslam_backend/include/aslam/backend/JacobianContainer.hpp`, `JacobianContainerPrescale.hpp`,
`implementation/JacobianContainerImpl.hpp`, `implementation/JacobianContainerSparseImpl.hpp`,
`implementation/JacobianContainerDenseImpl.hpp`).
-/
namespace Verif.Jacobian
open Verif.MatrixStack

/-- What the containers read from a design variable (identified by its address, a `Nat`):
`blockIndex()`, `columnBase()`, `minimalDimensions()`, `isActive()`, `scaling()`
(`aslam_backend/include/aslam/backend/DesignVariable.hpp`; initial values -1, -1, false, 1.0 in
`aslam_backend/src/DesignVariable.cpp:7-10`). -/
structure Env (R : Type) where
  blockIndex : Nat → Int
  columnBase : Nat → Int
  dim : Nat → Nat
  active : Nat → Bool
  scaling : Nat → R

variable {R : Type} [Semiring R] {σ : Type}

/-- A Jacobian container: `_rows` (JacobianContainer.hpp:124), the chain-rule stack it derives from
(line 42) and the storage of the concrete container. -/
structure JC (R σ : Type) where
  rows : Nat
  stack : Stack R
  store : σ

/-- How a concrete container stores a finished Jacobian (`addJacobian`). JacobianContainerSparse.hpp:131, JacobianContainerDense.hpp:58. -/
abbrev AddJ (R σ : Type) := Bool → Env R → σ → Nat → DMat R → Res σ

/-- Store through `addJacobian`, leaving rows and chain alone. Called from JacobianContainerImpl.hpp:48-53. -/
def JC.put (jc : JC R σ) (r : Res σ) : Res (JC R σ) := do
  let st ← r
  .ok { jc with store := st }

/-- `JacobianContainerImplHelper::addImpl`, JacobianContainerImpl.hpp:26-46 and `multiplyAndAdd`,
lines 12-23. `isId` is the template flag `IS_IDENTITY`. A product of non-conformable matrices is an
exception in debug builds (line 15) and undefined behaviour otherwise. -/
def addImpl (debug : Bool) (env : Env R) (addJ : AddJ R σ) (isId : Bool) (jc : JC R σ) (dv : Nat)
    (J : DMat R) : Res (JC R σ) :=
  if debug && (J.cols != env.dim dv) then .exc
  else if !env.active dv then .ok jc
  else if debug && decide (env.blockIndex dv < 0) then .exc
  else match jc.stack.headers with
    | [] =>
      if debug && (jc.rows != J.rows) then .exc
      else jc.put (addJ debug env jc.store dv J)
    | top :: _ =>
      if isId then
        jc.put (addJ debug env jc.store dv ⟨jc.stack.numRows, top.cols, jc.stack.coeff top⟩)
      else if top.cols ≠ J.rows then (if debug then .exc else .ub)
      else jc.put (addJ debug env jc.store dv ⟨jc.stack.numRows, J.cols, fun i j =>
        ∑ t ∈ Finset.range top.cols, jc.stack.coeff top i t * J.e t j⟩)

/-- `add(dv, Jacobian)`, JacobianContainerSparseImpl.hpp:272-276, JacobianContainerDenseImpl.hpp:59-63. -/
def add (debug : Bool) (env : Env R) (addJ : AddJ R σ) (jc : JC R σ) (dv : Nat) (J : DMat R) :
    Res (JC R σ) := addImpl debug env addJ false jc dv J

/-- `add(dv)`, JacobianContainerImpl.hpp:48-53: identity of size `rows() × minimalDimensions()`. -/
def addId (debug : Bool) (env : Env R) (addJ : AddJ R σ) (jc : JC R σ) (dv : Nat) : Res (JC R σ) :=
  addImpl debug env addJ true jc dv ⟨jc.rows, env.dim dv, fun i j => if i = j then 1 else 0⟩

/-- `apply(mat)`, JacobianContainer.hpp:77-83. -/
def applyM (debug : Bool) (align : Nat) (jc : JC R σ) (m : DMat R) : Res (JC R σ) :=
  if jc.stack.headers = [] ∧ jc.rows ≠ m.rows then .exc else do
  let s ← pushM debug align jc.stack m
  .ok { jc with stack := s }

/-- `apply(scalar)`, JacobianContainer.hpp:86-89. -/
def applyS (debug : Bool) (align : Nat) (jc : JC R σ) (c : R) : Res (JC R σ) := do
  let s ← pushS debug align jc.stack c
  .ok { jc with stack := s }

/-- End of the scope of a guard returned by `apply` (JacobianContainer.hpp:25-36,
MatrixStack.hpp:92-99). -/
def unapply (jc : JC R σ) : Res (JC R σ) := do
  let s ← pop jc.stack
  .ok { jc with stack := s }

/-- Calls on a container. JacobianContainer.hpp:59-89. -/
inductive Op (R : Type) where
  | applyM (m : DMat R)
  | applyS (c : R)
  | endScope
  | add (dv : Nat) (J : DMat R)
  | addId (dv : Nat)

/-- One call on a container. JacobianContainer.hpp:59-89 (dispatch only). -/
def step (debug : Bool) (align : Nat) (env : Env R) (addJ : AddJ R σ) (jc : JC R σ) :
    Op R → Res (JC R σ)
  | .applyM m => applyM debug align jc m
  | .applyS c => applyS debug align jc c
  | .endScope => unapply jc
  | .add dv J => add debug env addJ jc dv J
  | .addId dv => addId debug env addJ jc dv

/-! ### Sparse storage -/

/-- `std::map<DesignVariable*, MatrixXd, BlockIndexOrdering>` as a list sorted by block index
(JacobianContainerSparse.hpp:24,136). -/
abbrev SMap (R : Type) := List (Nat × DMat R)

/-- `_jacobianMap.find(dv)`: the map compares block indices only (JacobianContainerSparse.hpp:24). -/
def SMap.find (env : Env R) (m : SMap R) (dv : Nat) : Option (Nat × DMat R) :=
  List.find? (fun p => env.blockIndex p.1 == env.blockIndex dv) m

/-- Insertion of a new key at its sorted position; an equivalent key keeps the old entry
(`std::map::insert`/`emplace`). External (`std::map`), used by `sparseAddJ`; JacobianContainerSparse.hpp:136. -/
def SMap.insert (env : Env R) : SMap R → Nat → DMat R → SMap R
  | [], dv, J => [(dv, J)]
  | p :: ps, dv, J =>
    if env.blockIndex dv < env.blockIndex p.1 then (dv, J) :: p :: ps
    else if env.blockIndex dv = env.blockIndex p.1 then p :: ps
    else p :: SMap.insert env ps dv J

/-- Replace the matrix stored under an equivalent key. External (`std::map`), used by `sparseAddJ`; JacobianContainerSparse.hpp:136. -/
def SMap.modify (env : Env R) (m : SMap R) (dv : Nat) (f : DMat R → DMat R) : SMap R :=
  List.map (fun p => if env.blockIndex p.1 = env.blockIndex dv then (p.1, f p.2) else p) m

/-- Coefficient-wise sum (the left operand keeps its size). External (Eigen), used by `sparseAddJ`. -/
def addMat (A B : DMat R) : DMat R := ⟨A.rows, A.cols, fun i j => A.e i j + B.e i j⟩

/-- `JacobianContainerSparse::addJacobian`, JacobianContainerSparseImpl.hpp:259-270. Adding matrices of
different sizes is undefined behaviour (Eigen fixed-destination `noalias() +=`). -/
def sparseAddJ : AddJ R (SMap R) := fun debug env m dv J =>
  match SMap.find env m dv with
  | none => .ok (SMap.insert env m dv J)
  | some (k, M) =>
    if debug && (k != dv) then .exc
    else if M.rows ≠ J.rows ∨ M.cols ≠ J.cols then .ub
    else .ok (SMap.modify env m dv fun A => addMat A J)

/-- Constructor, JacobianContainerSparse.hpp:27-31, JacobianContainer.hpp:53 (the chain reserves
`maxNumMatrices * 9` elements). -/
def newSparse (rows maxNumMatrices : Nat) : JC R (SMap R) :=
  { rows := rows, stack := new rows maxNumMatrices 9, store := [] }

/-- `Jacobian(dv)`, JacobianContainerSparseImpl.hpp:143-149: throws if there is no entry. -/
def sparseJacobian (env : Env R) (jc : JC R (SMap R)) (dv : Nat) : Res (DMat R) :=
  match SMap.find env jc.store dv with
  | none => .exc
  | some p => .ok p.2

/-! ### Dense storage -/

/-- `JacobianContainerDense::addJacobian`, JacobianContainerDenseImpl.hpp:43-50. Out-of-range blocks
throw in debug builds and are undefined behaviour otherwise. -/
def denseAddJ : AddJ R (DMat R) := fun debug env D dv J =>
  if D.rows ≠ J.rows then (if debug then .exc else .ub)
  else if ¬ (0 ≤ env.columnBase dv ∧ env.columnBase dv + J.cols ≤ D.cols) then
    (if debug then .exc else .ub)
  else
    let b := (env.columnBase dv).toNat
    .ok ⟨D.rows, D.cols, fun i j =>
      if b ≤ j ∧ j < b + J.cols then D.e i j + J.e i (j - b) else D.e i j⟩

/-- Constructor with sizes, JacobianContainerDenseImpl.hpp:13-20 (zero matrix, line 40). -/
def newDense (rows cols : Nat) : JC R (DMat R) :=
  { rows := rows, stack := new rows 100 9, store := ⟨rows, cols, fun _ _ => 0⟩ }

/-- `Jacobian(dv)`, JacobianContainerDenseImpl.hpp:29-34. -/
def denseJacobian (env : Env R) (jc : JC R (DMat R)) (dv : Nat) : Res (DMat R) :=
  if 0 ≤ env.columnBase dv ∧ env.columnBase dv + env.dim dv ≤ jc.store.cols then
    .ok ⟨jc.store.rows, env.dim dv, fun i j => jc.store.e i ((env.columnBase dv).toNat + j)⟩
  else .exc

/-! ### Prescaling wrapper -/

/-- Storage of `JacobianContainerFunctor` (JacobianContainerPrescale.hpp:16-50): the wrapped container.
The wrapper's own chain is the `stack` of the outer `JC`; `add` multiplies by it (lines 23-37) and hands
`functor(product)` to the wrapped container's `add`. Here the functor is multiplication from the left
by a matrix `F` (the scalar of lines 62-69 is `F = c·I`, the weight of an error term is
`F = sqrtInvR^T`). The wrapper does not look at activity, the wrapped container does. -/
def prescaleAddJ {τ} (F : DMat R) (inner : AddJ R τ) : AddJ R (JC R τ) := fun debug env w dv J =>
  if F.cols ≠ J.rows then .ub
  else add debug env inner w dv ⟨F.rows, J.cols, fun i j =>
    ∑ t ∈ Finset.range F.cols, F.e i t * J.e t j⟩

/-- `JacobianContainerFunctor::add(dv, J)`, JacobianContainerPrescale.hpp:23-28. -/
def prescaleAdd {τ} (debug : Bool) (env : Env R) (F : DMat R) (inner : AddJ R τ)
    (jc : JC R (JC R τ)) (dv : Nat) (J : DMat R) : Res (JC R (JC R τ)) :=
  match jc.stack.headers with
  | [] => jc.put (prescaleAddJ F inner debug env jc.store dv J)
  | top :: _ =>
    if top.cols ≠ J.rows then .ub
    else jc.put (prescaleAddJ F inner debug env jc.store dv ⟨jc.stack.numRows, J.cols, fun i j =>
      ∑ t ∈ Finset.range top.cols, jc.stack.coeff top i t * J.e t j⟩)

/-- `JacobianContainerFunctor::add(dv)`, JacobianContainerPrescale.hpp:30-37. -/
def prescaleAddId {τ} (debug : Bool) (env : Env R) (F : DMat R) (inner : AddJ R τ)
    (jc : JC R (JC R τ)) (dv : Nat) : Res (JC R (JC R τ)) :=
  match jc.stack.headers with
  | [] => prescaleAdd debug env F inner jc dv ⟨jc.rows, env.dim dv, fun i j => if i = j then 1 else 0⟩
  | top :: _ =>
    prescaleAdd debug env F inner jc dv ⟨top.cols, env.dim dv, fun i j => if i = j then 1 else 0⟩

/-- One call on a prescaling wrapper. JacobianContainerPrescale.hpp:17-57 (dispatch only). -/
def prescaleStep {τ} (debug : Bool) (align : Nat) (env : Env R) (F : DMat R) (inner : AddJ R τ)
    (jc : JC R (JC R τ)) : Op R → Res (JC R (JC R τ))
  | .applyM m => applyM debug align jc m
  | .applyS c => applyS debug align jc c
  | .endScope => unapply jc
  | .add dv J => prescaleAdd debug env F inner jc dv J
  | .addId dv => prescaleAddId debug env F inner jc dv

/-! ### Merging sparse containers -/

/-- Value inserted or added for an element of the right-hand container: `rt->second` or
`(*applyChainRule)*rt->second`, JacobianContainerSparseImpl.hpp:303,311,316. -/
def chained (CR : Option (DMat R)) (J : DMat R) : DMat R :=
  match CR with
  | none => J
  | some C => ⟨C.rows, J.cols, fun i j => ∑ t ∈ Finset.range C.cols, C.e i t * J.e t j⟩

/-- Inner `while` of the merge, JacobianContainerSparseImpl.hpp:302-306: insert elements of the
right-hand side with a block index below `bi`. Returns the map and the remaining right-hand elements. -/
def mergeWhile (env : Env R) (CR : Option (DMat R)) (bi : Int) : SMap R → SMap R → SMap R × SMap R
  | m, [] => (m, [])
  | m, (k, J) :: rs =>
    if env.blockIndex k < bi then mergeWhile env CR bi (SMap.insert env m k (chained CR J)) rs
    else (m, (k, J) :: rs)

/-- Outer loop of the merge, JacobianContainerSparseImpl.hpp:298-313, over the keys of the left-hand
map that are still to be visited (keys inserted by the loop lie before the iterator and are not
visited). `done` is `rs = []`. On a key match the right-hand iterator is *not* advanced. -/
def mergeLoop (env : Env R) (CR : Option (DMat R)) : List Nat → SMap R → SMap R → SMap R × SMap R
  | [], m, rs => (m, rs)
  | _ :: _, m, [] => (m, [])
  | k :: ks, m, r :: rs =>
    match mergeWhile env CR (env.blockIndex k) m (r :: rs) with
    | (m', []) => mergeLoop env CR ks m' []
    | (m', (k', J) :: rs') =>
      if env.blockIndex k' = env.blockIndex k then
        mergeLoop env CR ks (SMap.modify env m' k fun A => addMat A (chained CR J)) ((k', J) :: rs')
      else mergeLoop env CR ks m' ((k', J) :: rs')

/-- `JacobianContainerSparse::add(rhs, applyChainRule)`, JacobianContainerSparseImpl.hpp:284-318. The
remaining elements are inserted by lines 315-317. Adding matrices of different sizes under a common
key (line 311) is undefined behaviour; the model decides this before the loop instead of inside. -/
def mergeAdd (env : Env R) (lhs rhs : JC R (SMap R)) (CR : Option (DMat R)) : Res (JC R (SMap R)) :=
  if lhs.rows ≠ rhs.rows then .exc
  else if (match CR with | some C => C.cols != rhs.rows | none => false) then .exc
  else if (lhs.store.any fun p => rhs.store.any fun q =>
      env.blockIndex p.1 == env.blockIndex q.1 &&
        ((chained CR q.2).rows != p.2.rows || (chained CR q.2).cols != p.2.cols)) then .ub
  else
    let (m, rest) := mergeLoop env CR (lhs.store.map Prod.fst) lhs.store rhs.store
    .ok { lhs with store := rest.foldl (fun m p => SMap.insert env m p.1 (chained CR p.2)) m }

/-- `addTo(jc)`, JacobianContainerSparseImpl.hpp:328-333: adds every entry to another container. -/
def addTo (debug : Bool) (env : Env R) (addJ : AddJ R σ) (src : SMap R) (dst : JC R σ) :
    Res (JC R σ) :=
  Res.run (fun jc (p : Nat × DMat R) => add debug env addJ jc p.1 p.2) dst src

/-- `reset(rows)`, JacobianContainerSparseImpl.hpp:173-177: clears the map and sets `_rows`; the row
count of the chain-rule stack is not touched. -/
def reset (jc : JC R (SMap R)) (rows : Nat) : JC R (SMap R) := { jc with rows := rows, store := [] }

/-- `applyChainRule(df_dx)`, JacobianContainerSparseImpl.hpp:54-63. -/
def applyChainRule (jc : JC R (SMap R)) (C : DMat R) : Res (JC R (SMap R)) :=
  if C.cols ≠ jc.rows then .exc
  else .ok { jc with rows := C.rows, store := jc.store.map fun p => (p.1, chained (some C) p.2) }

end Verif.Jacobian
