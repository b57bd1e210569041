import Verif.CCM.Model

/-!
The sparse Cholesky solver as an object that lives through a history of calls: `aslam_backend/src/SparseCholeskyLinearSystemSolver.cpp` (S below), the conditioner of
`aslam_backend/src/LinearSystemSolver.cpp` (L below), and the part of `aslam_backend/include/aslam/backend/implementation/Cholmod.hpp` (C below) they use. Factors and solutions of CHOLMOD are handles
on a heap that knows which of them are allocated. What the library calls return is chosen by the caller of each operation (an oracle). The transposed Jacobian is the matrix of `Verif.CCM`.
-/
namespace Verif.CholSolver
open Verif.CCM (CCM)
open Verif

/-- Undefined behaviour, by cause: a null pointer is dereferenced; an object is used or released that was released before; CHOLMOD factorises a matrix with another pattern than the one the factor was
analysed for; undefined behaviour in the matrix class. Not code: the causes are at C:179-219, 248-284, 286-328, 386-399. -/
inductive Fault where
  | null
  | freed
  | pattern
  | matrix
  deriving DecidableEq

/-- How an operation ends: it returns, it throws (the state it leaves is kept), or its behaviour is undefined. Not code: outcomes of S:6-119. -/
inductive Out (σ α : Type) where
  | ok (s : σ) (a : α)
  | exc (s : σ)
  | fault (f : Fault)

/-- Sequencing, as `;` in C++. Not code. -/
def Out.bind {σ α β : Type} (x : Out σ α) (f : σ → α → Out σ β) : Out σ β :=
  match x with
  | .ok s a => f s a
  | .exc s => .exc s
  | .fault e => .fault e

/-- Reduction of a sequence whose first part returns. -/
theorem Out.bind_ok_eq {σ α β : Type} (s : σ) (a : α) (f : σ → α → Out σ β) : (Out.ok s a).bind f = f s a := rfl

/-- The pattern of a matrix as CHOLMOD sees it through `getView`, CompressedColumnMatrix.hpp:48-129. -/
structure Pattern where
  rows : Nat
  cols : Nat
  colPtr : List Nat
  rowInd : List Nat
  deriving DecidableEq

/-- The pattern of a matrix (no counterpart in /repo; CHOLMOD keeps its own form of it in the factor). Used for C:179-219. -/
def patternOf {R : Type} (A : CCM R) : Pattern := ⟨A.rows, A.cols, A.colPtr, A.rowInd⟩

/-- The members of the solver (SparseCholeskyLinearSystemSolver.hpp:46-54, LinearSystemSolver.hpp:109-116) and the heap of the library. `pat` is the pattern `_factor` was analysed for. `_rhs` and `_e` are not modelled. -/
structure St (R : Type) where
  live : List Nat
  next : Nat
  factor : Option Nat
  pat : Option Pattern
  J : CCM R
  cond : Bool
  diag : List R

variable {R : Type}

/-- The library allocates an object and returns its address, or null. C:179-219, 386-399. -/
def alloc (ok : Bool) (s : St R) : Out (St R) (Option Nat) :=
  if ok then .ok { s with live := s.next :: s.live, next := s.next + 1 } (some s.next) else .ok s none

/-- `Cholmod::free`, C:248-284: null is ignored; an address that is not allocated is undefined behaviour. -/
def free (p : Option Nat) (s : St R) : Out (St R) Unit :=
  match p with
  | none => .ok s ()
  | some a => if a ∈ s.live then .ok { s with live := s.live.erase a } () else .fault .freed

/-- Access to the object a pointer points to. C:286-328, 386-399. -/
def deref (p : Option Nat) (s : St R) : Out (St R) Unit :=
  match p with
  | none => .fault .null
  | some a => if a ∈ s.live then .ok s () else .fault .freed

/-- `SM_ASSERT_*` (always active): throws if the condition is false. C:217, S:52-93. -/
def need (b : Bool) (s : St R) : Out (St R) Unit := if b then .ok s () else .exc s

/-- An operation on `J_transpose`. The exceptions of push and pop are thrown before the matrix changes, CompressedColumnMatrix.hpp:318-320 and 347. -/
def onJ (f : CCM R → Res (CCM R)) (s : St R) : Out (St R) Unit :=
  match f s.J with
  | .ok A => .ok { s with J := A } ()
  | .exc => .exc s
  | .ub => .fault .matrix

/-- What the library does in a call of `solveSystem`: whether `cholmod_analyze` returns an object and leaves the status `CHOLMOD_OK`, whether `Cholmod::factorize` succeeds (return value and status of the
library, C:292-326) and whether `cholmod_solve` returns an object. -/
structure Oracle where
  ptr : Bool
  status : Bool
  fact : Bool
  sl : Bool

/-- `Cholmod::analyze`, C:179-219. -/
def analyze (o : Oracle) (s : St R) : Out (St R) (Option Nat) :=
  (alloc o.ptr s).bind fun s f =>
  (need o.status s).bind fun s _ =>
  (need f.isSome s).bind fun s _ => .ok s f

/-- `Cholmod::factorize(A, L)`, C:286-328; the input matrix is a view and never null. -/
def factorize (o : Oracle) (s : St R) : Out (St R) Bool :=
  (need s.factor.isSome s).bind fun s _ =>
  (deref s.factor s).bind fun s _ =>
  if s.pat = some (patternOf s.J) then .ok s o.fact else .fault .pattern

/-- `Cholmod::solve(A, L, b)`, C:386-399. -/
def cholmodSolve (o : Oracle) (s : St R) : Out (St R) (Option Nat) :=
  (factorize o s).bind fun s ok => if ok then alloc o.sl s else .ok s none

/-- `if (!_factor) _factor = _cholmod.analyze(..)`, S:61-66. -/
def ensureFactor (o : Oracle) (s : St R) : Out (St R) Unit :=
  match s.factor with
  | some _ => .ok s ()
  | none => (analyze o s).bind fun s f => .ok { s with factor := f, pat := some (patternOf s.J) } ()

/-- `solveSystem`, S:52-93: whether there is a solution, and the matrix that was handed to the library. The debug checks S:78-81 of the solution are not modelled (they would release it before throwing). -/
def solveSystem (o : Oracle) (s : St R) : Out (St R) (Bool × CCM R) :=
  (if s.cond then onJ (fun A => CCM.pushDiag A s.diag) s else .ok s ()).bind fun s _ =>
  (ensureFactor o s).bind fun s _ =>
  (cholmodSolve o s).bind fun s1 sol =>
  (if s1.cond then onJ CCM.popDiag s1 else .ok s1 ()).bind fun s2 _ =>
  if sol.isNone then .ok s2 (false, s.J)
  else (deref sol s2).bind fun s2 _ => (free sol s2).bind fun s2 _ => .ok s2 (true, s.J)

/-- `if (_factor) { free; _factor = NULL; }`, S:21-24; the destructor S:12-16 does the same. -/
def dropFactor (s : St R) : Out (St R) Unit :=
  (free s.factor s).bind fun s _ => .ok { s with factor := none, pat := none } ()

/-- `initMatrixStructure`, L:116 and S:18-40. `A` is the matrix the builder sets up (see `Verif.CCM.initStructure`), or has set up when it throws. Simplified: the conditioner has as many entries as the
matrix has rows, which holds if the variables are numbered by `setOrdering` (L:99). -/
def initStructure [One R] [Zero R] (A : CCM R) (cond throws : Bool) (s : St R) : Out (St R) Unit :=
  (dropFactor { s with diag := List.replicate A.rows 0 }).bind fun s _ =>
  let s := { s with cond := cond, J := A }
  if throws then .exc s
  else
    (if cond then onJ (fun A => CCM.pushConstDiag A 1) s else .ok s ()).bind fun s _ =>
    if cond then onJ CCM.popDiag s else .ok s ()

/-- The values of the Jacobian are overwritten, an appended diagonal is not (`writeJacobians`, CompressedColumnMatrix.hpp:288-306, at positions given out when the structure was set up). -/
def writeValues (v : Nat → R) (A : CCM R) : CCM R :=
  let n := A.values.length - if A.hasDiag then A.rows else 0
  { A with values := (List.range n).map v ++ A.values.drop n }

/-- `buildSystem`, S:43-50. `throws`: an error term throws on the way; then `v` stands for the mixture of old and new values. -/
def buildSystem (v : Nat → R) (throws : Bool) (s : St R) : Out (St R) Unit :=
  if throws then .exc { s with J := writeValues v s.J } else .ok { s with J := writeValues v s.J } ()

/-- `setConditioner`, L:85-89 (`setConstantConditioner`, L:91-94, is the case of a constant vector of the right size). -/
def setConditioner (d : List R) (s : St R) : Out (St R) Unit :=
  if d.length = s.J.rows then .ok { s with diag := d } () else .exc s

/-- The public operations. SparseCholeskyLinearSystemSolver.hpp:24-41, LinearSystemSolver.hpp:30-75. -/
inductive Op (R : Type) where
  | init (A : CCM R) (cond throws : Bool)
  | build (v : Nat → R) (throws : Bool)
  | setCond (d : List R)
  | solve (o : Oracle)

/-- What a caller sees of an operation; with `solved` comes the matrix given to the library.
S:52-93 and the public functions of SparseCholeskyLinearSystemSolver.hpp:24-41. -/
inductive Val (R : Type) where
  | done
  | solved (b : Bool) (A : CCM R)
  | threw

/-- One public operation (dispatch only). S:18-115. -/
def step [One R] [Zero R] (op : Op R) (s : St R) : Out (St R) (Val R) :=
  match op with
  | .init A c t => (initStructure A c t s).bind fun s _ => .ok s .done
  | .build v t => (buildSystem v t s).bind fun s _ => .ok s .done
  | .setCond d => (setConditioner d s).bind fun s _ => .ok s .done
  | .solve o => (solveSystem o s).bind fun s r => .ok s (.solved r.1 r.2)

/-- A history of calls; exceptions are caught by the caller, who goes on with the object (no counterpart in /repo).
Not code: a sequence of calls of S:18-115. -/
def run [One R] [Zero R] : List (Op R) → St R → Out (St R) (List (Val R))
  | [], s => .ok s []
  | op :: ops, s =>
    match step op s with
    | .ok s v => (run ops s).bind fun s vs => .ok s (v :: vs)
    | .exc s => (run ops s).bind fun s vs => .ok s (.threw :: vs)
    | .fault f => .fault f

/-- The constructors, S:6-11. Simplified: `_useDiagonalConditioner` is not initialised in the code; it is set by `initMatrixStructure`, the first call in every history of the theorems. -/
def new : St R := ⟨[], 0, none, none, CCM.new 0 0, false, []⟩

end Verif.CholSolver
