import Verif.CCM.Model

/-!
The sparse QR solver as an object that lives through a history of calls: `aslam_backend/src/SparseQrLinearSystemSolver.cpp` (Q below) with the part of
`aslam_backend/include/aslam/backend/implementation/Cholmod.hpp` (C below) it uses. Matrices and factors obtained from CHOLMOD and SuiteSparseQR are handles on a heap that knows which of them
are still allocated. What the library calls return is chosen by the caller of each operation (an oracle), so that a theorem about all histories is also about all failures of the library.

The numerical work is abstract: `M` is the type of Jacobians, and `Lib` says which rank and which triangular factor the library reports for one. The computed steps are the subject of `Verif.Solver`.
-/
namespace Verif.QrSolver
open Verif.CCM (CCM)
open Verif

/-- A `cholmod_sparse` as `fromCholmodSparse` reads it, CompressedColumnMatrix.hpp:461-478: `nzmax` is the length of `values` and of `rowInd`; the last column pointer may be smaller. -/
structure CS (K : Type) where
  nrow : Nat
  ncol : Nat
  colPtr : List Nat
  rowInd : List Nat
  values : List K

/-- The library: the rank `SuiteSparseQR_numeric` finds, the column scaling of C:408-423, and the triangular factor `SuiteSparseQR` returns in C:445-453. -/
structure Lib (M K : Type) where
  rank : M → Nat
  scale : M → M
  r : M → CS K

/-- Undefined behaviour, by cause: a null pointer is dereferenced, or an object is released or used that was released before.
Not code: the causes are at C:221-284, 331-382, 403-453. -/
inductive Fault where
  | null
  | freed
  deriving DecidableEq

/-- How an operation ends: it returns, it throws (the state it leaves is kept), or its behaviour is undefined. Not code: outcomes of Q:6-193. -/
inductive Out (σ α : Type) where
  | ok (s : σ) (a : α)
  | exc (s : σ)
  | fault (f : Fault)

/-- Programs with state and exceptions. Sequencing, as `;` in C++. Not code. -/
def Out.bind {σ α β : Type} (x : Out σ α) (f : σ → α → Out σ β) : Out σ β :=
  match x with
  | .ok s a => f s a
  | .exc s => .exc s
  | .fault e => .fault e

/-- The members of the solver (SparseQrLinearSystemSolver.hpp:60-74) and the heap of the library. `num` is the matrix the factor object was last factorised from, none if it never was or the
last numeric factorisation failed. `J` stands for `_jacobianBuilder`. The conditioner is not a member: Q:38 switches it off. -/
structure St (M K : Type) where
  live : List Nat
  next : Nat
  factor : Option Nat
  num : Option M
  J : M
  R : CCM K
  colNorm : Bool

variable {M K : Type}

/-- The library allocates an object and returns its address, or null. C:221-244, 403-441. -/
def alloc (ok : Bool) (s : St M K) : Out (St M K) (Option Nat) :=
  if ok then .ok { s with live := s.next :: s.live, next := s.next + 1 } (some s.next) else .ok s none

/-- `Cholmod::free`, C:248-284, and the `free_*` functions of the library: null is ignored; an address that is not allocated is undefined behaviour. -/
def free (p : Option Nat) (s : St M K) : Out (St M K) Unit :=
  match p with
  | none => .ok s ()
  | some a => if a ∈ s.live then .ok { s with live := s.live.erase a } () else .fault .freed

/-- Access to the object a pointer points to. C:331-382, 403-453. -/
def deref (p : Option Nat) (s : St M K) : Out (St M K) Unit :=
  match p with
  | none => .fault .null
  | some a => if a ∈ s.live then .ok s () else .fault .freed

/-- `SM_ASSERT_*` (always active): throws if the condition is false. C:221-244, 403-441. -/
def need (b : Bool) (s : St M K) : Out (St M K) Unit := if b then .ok s () else .exc s

/-- What the library does in `analyzeQR`: whether the transposition and `SuiteSparseQR_symbolic` return an object, and whether the status is `CHOLMOD_OK`.
C:221-244. -/
structure SymO where
  tr : Bool
  ptr : Bool
  status : Bool

/-- `Cholmod::analyzeQR`, C:221-244. -/
def analyzeQR (o : SymO) (s : St M K) : Out (St M K) (Option Nat) :=
  (alloc o.tr s).bind fun s qrJ =>
  (alloc o.ptr s).bind fun s f =>
  (free qrJ s).bind fun s _ =>
  (need o.status s).bind fun s _ =>
  (need f.isSome s).bind fun s _ => .ok s f

/-- `SuiteSparseQR_numeric` and the return value of `factorize`, C:340 and C:378-381: the factor object holds the factorisation of `A` afterwards, or none. -/
def numeric (ok : Bool) (A : M) (s : St M K) : Out (St M K) Bool :=
  .ok { s with num := if ok then some A else none } ok

/-- `Cholmod::factorize(A, L, tol, transpose)`, C:331-382, with `At` allocated or given. -/
def factorize (ok : Bool) (At : Option Nat) (A : M) (s : St M K) : Out (St M K) Bool :=
  (need At.isSome s).bind fun s _ =>
  (need s.factor.isSome s).bind fun s _ =>
  (deref At s).bind fun s _ =>
  (deref s.factor s).bind fun s _ => numeric ok A s

/-- What the library does in `solve`: the transposition, the allocation of the scaling, `cholmod_scale`, the numeric factorisation, `SuiteSparseQR_qmult` and `SuiteSparseQR_solve`.
C:331-382, 403-441. -/
structure SolveO where
  tr : Bool
  dn : Bool
  scale : Bool
  num : Bool
  qm : Bool
  sl : Bool

/-- The scaling in `Cholmod::solve`, C:407-423. -/
def scaling (o : SolveO) (qrJ : Option Nat) (s : St M K) : Out (St M K) (Option Nat) :=
  if s.colNorm then
    (deref qrJ s).bind fun s _ =>
    (alloc o.dn s).bind fun s sc =>
    (deref sc s).bind fun s _ =>
    (need o.scale s).bind fun s _ => .ok s sc
  else .ok s none

/-- `Cholmod::solve` for QR, C:403-441. The vector `b` is a view, not an object of the library. -/
def cholmodSolve (lib : Lib M K) (o : SolveO) (s : St M K) : Out (St M K) (Option Nat) :=
  (alloc o.tr s).bind fun s qrJ =>
  (scaling o qrJ s).bind fun s sc =>
  (factorize o.num qrJ (if s.colNorm then lib.scale s.J else s.J) s).bind fun s ok =>
  (if ok then
      (alloc o.qm s).bind fun s qrY =>
      (alloc o.sl s).bind fun s res =>
      (free qrY s).bind fun s _ => .ok s res
    else .ok s none : Out (St M K) (Option Nat)).bind fun s res =>
  (if s.colNorm then
      (deref sc s).bind fun s _ =>
      (deref res s).bind fun s _ => free sc s
    else .ok s () : Out (St M K) Unit).bind fun s _ =>
  (free qrJ s).bind fun s _ => .ok s res

/-- `if (!_factor) _factor = _cholmod.analyzeQR(..)`, Q:73-78 and Q:180-181. -/
def ensureFactor (o : SymO) (s : St M K) : Out (St M K) Unit :=
  match s.factor with
  | some _ => .ok s ()
  | none => (analyzeQR o s).bind fun s f => .ok { s with factor := f, num := none } ()

/-- `solveSystem`, Q:64-108: false if there is no solution. The debug checks Q:91-94 of the solution are not modelled (they would release it before throwing). -/
def solveSystem (lib : Lib M K) (oa : SymO) (o : SolveO) (s : St M K) : Out (St M K) Bool :=
  (ensureFactor oa s).bind fun s _ =>
  (cholmodSolve lib o s).bind fun s sol =>
  if sol.isNone then .ok s false
  else (deref sol s).bind fun s _ => (free sol s).bind fun s _ => .ok s true

/-- `analyzeSystem`, Q:176-184. `tr` and `ok`: the transposition and the numeric factorisation. -/
def analyzeSystem (oa : SymO) (tr ok : Bool) (s : St M K) : Out (St M K) Unit :=
  (ensureFactor oa s).bind fun s _ =>
  (alloc tr s).bind fun s At =>
  (factorize ok At s.J s).bind fun s r =>
  (free At s).bind fun s _ => need r s

/-- `if (_factor) { free; _factor = NULL; }`, Q:22-27 (destructor) and Q:33-36. -/
def dropFactor (s : St M K) : Out (St M K) Unit :=
  (free s.factor s).bind fun s _ => .ok { s with factor := none, num := none } ()

/-- `initMatrixStructureImplementation`, Q:30-52: the factor is released, the triangular factor `_R` is kept. `J` is the transposed Jacobian the builder sets up. -/
def initStructure (J : M) (s : St M K) : Out (St M K) Unit :=
  (dropFactor s).bind fun s _ => .ok { s with J := J } ()

/-- `buildSystem`, Q:54-62: the values are written, the right-hand side is computed, then `_R` is cleared. `throws`: the evaluation of an error term throws on the way. -/
def buildSystem (J : M) (throws : Bool) (s : St M K) : Out (St M K) Unit :=
  if throws then .exc { s with J := J } else .ok { s with J := J, R := CCM.clear s.R } ()

/-- `fromCholmodSparse`, CompressedColumnMatrix.hpp:461-478: the arrays are copied, then checked. The diagonal flag is not touched. -/
def fromCS (A : CCM K) (cs : CS K) : CCM K :=
  { A with rows := cs.nrow, cols := cs.ncol, colPtr := cs.colPtr, rowInd := cs.rowInd, values := cs.values }

/-- What the library does in `getR`: the transposition, `SuiteSparseQR`, and the status. C:445-453. -/
structure RO where
  tr : Bool
  r : Bool
  status : Bool

/-- `getR`, Q:158-170, with `Cholmod::getR`, C:445-453. A null result leaves `_R` as it is (CompressedColumnMatrix.hpp:463). The matrix is checked (`CCM.check`) after the arrays were copied. -/
def getR (lib : Lib M K) (o : RO) (s : St M K) : Out (St M K) (CCM K) :=
  if s.R.values.length = 0 then
    (alloc o.tr s).bind fun s qrJ =>
    (deref qrJ s).bind fun s _ =>
    (alloc o.r s).bind fun s r =>
    (need o.status s).bind fun s _ =>
    (free qrJ s).bind fun s _ =>
    (match r with
      | none => .ok s ()
      | some _ => need (decide (CCM.check (fromCS s.R (lib.r s.J)) = .ok ())) { s with R := fromCS s.R (lib.r s.J) } : Out (St M K) Unit).bind fun s _ =>
    (free r s).bind fun s _ => .ok s s.R
  else .ok s s.R

/-- `getRank`, Q:130-134 (`getTol`, Q:136-140, is the same with another field): throws without a factor. The rank of a factor object that holds no numeric factorisation is unspecified (none). -/
def getRank (lib : Lib M K) (s : St M K) : Out (St M K) (Option Nat) :=
  (need s.factor.isSome s).bind fun s _ =>
  (deref s.factor s).bind fun s _ => .ok s (s.num.map lib.rank)

/-- The constructors, Q:6-20. -/
def new (J : M) (colNorm : Bool) : St M K := ⟨[], 0, none, none, J, CCM.new 0 0, colNorm⟩

/-- The public operations; `setColNorm` stands for `setOptions` and the mutable `getOptions()`, Q:115-123. -/
inductive Op (M : Type) where
  | init (J : M)
  | build (J : M) (throws : Bool)
  | solve (oa : SymO) (o : SolveO)
  | analyze (oa : SymO) (tr ok : Bool)
  | getR (o : RO)
  | getRank
  | setColNorm (b : Bool)

/-- What a caller sees of an operation. The return values of Q:30-184. -/
inductive Val (K : Type) where
  | done
  | solved (b : Bool)
  | rank (r : Option Nat)
  | r (A : CCM K)
  | threw

/-- One public operation of the solver (Q:30-184, dispatch only). -/
def step (lib : Lib M K) (op : Op M) (s : St M K) : Out (St M K) (Val K) :=
  match op with
  | .init J => (initStructure J s).bind fun s _ => .ok s .done
  | .build J t => (buildSystem J t s).bind fun s _ => .ok s .done
  | .solve oa o => (solveSystem lib oa o s).bind fun s b => .ok s (.solved b)
  | .analyze oa tr ok => (analyzeSystem oa tr ok s).bind fun s _ => .ok s .done
  | .getR o => (getR lib o s).bind fun s A => .ok s (.r A)
  | .getRank => (getRank lib s).bind fun s r => .ok s (.rank r)
  | .setColNorm b => .ok { s with colNorm := b } .done

/-- A history of calls; exceptions are caught by the caller, who goes on with the object (no counterpart in /repo).
Not code: a sequence of calls of Q:30-184. -/
def run (lib : Lib M K) : List (Op M) → St M K → Out (St M K) (List (Val K))
  | [], s => .ok s []
  | op :: ops, s =>
    match step lib op s with
    | .ok s v => (run lib ops s).bind fun s vs => .ok s (v :: vs)
    | .exc s => (run lib ops s).bind fun s vs => .ok s (.threw :: vs)
    | .fault f => .fault f

/-- Two objects after the implicitly generated copy constructor (SparseQrLinearSystemSolver.hpp:17-74 declares none): both hold the same pointer. The result of destroying both, Q:22-27. The library
state `cholmod_common` is copied too; only the heap of objects is modelled. -/
def destroyBoth (s : St M K) : Out (St M K) Unit :=
  (dropFactor s).bind fun s1 _ => dropFactor { s1 with factor := s.factor }

end Verif.QrSolver
