import Verif.SBM.Model
import Mathlib.Algebra.Order.Field.Basic

/-!
Model of `sparse_block_matrix::LinearSolverPCG`
(`sparse_block_matrix/include/sparse_block_matrix/linear_solver_pcg.h`, called PCG.h below, and
`.../implementation/linear_solver_pcg.hpp`, called PCG.hpp below). Arithmetic is exact; a division by
zero, which fills the result with values that are not finite, is a separate outcome.
-/
namespace Verif.PCG
open Verif.MatrixStack (DMat)
open Verif.SBM (SBM Layout axpy atxpy)

variable {K : Type} [Field K] [LinearOrder K]

/-- A `const MatrixType*` kept in `_sparseMat` (PCG.h:86): which matrix object, which generation of its
blocks, and which block. -/
structure Ptr where
  mat : Nat
  gen : Nat
  r : Nat
  c : Nat
  deriving DecidableEq

/-- A live matrix object. `gen` counts how often its blocks were deallocated (SBM.hpp:96-112 with
`dealloc`, or destruction of the object). -/
structure Mat (K : Type) where
  gen : Nat
  A : SBM K

/-- The matrix objects of the caller. Not code: what the pointers of PCG.h:86 point to. -/
abbrev Heap (K : Type) := Nat → Option (Mat K)

/-- Dereferencing a block pointer: undefined behaviour once the block is gone. PCG.hpp:160-170. -/
def deref (h : Heap K) (p : Ptr) : Res (DMat K) :=
  match h p.mat with
  | none => .ub
  | some m => if m.gen = p.gen then (match m.A.block p.r p.c with | some B => .ok B | none => .ub) else .ub

/-- Data members, PCG.h:76-86. `_diag` and `_J` are rebuilt by every call and kept local; `_verbose`
only prints and is left out. -/
structure St (K : Type) where
  tol : K
  residual : K
  absTol : Bool
  maxIter : Int
  indices : List (Nat × Nat)
  sparse : List Ptr

/-- Constructor, PCG.h:38-45; the tolerance is `1e-6`. -/
def new : St K := ⟨1 / 1000000, -1, true, -1, [], []⟩

/-- `init()`, PCG.h:51-57. -/
def St.init (s : St K) : St K := { s with residual := -1, indices := [], sparse := [] }

/-- The blocks visited before the loop over a block column reaches its diagonal block and stops,
PCG.hpp:71-82. -/
def above (A : SBM K) (c : Nat) : List (Nat × DMat K) := (A.col c).takeWhile fun p => p.1 != c

/-- The contents of `_indices`, PCG.hpp:77-78: scalar row and column offset of each visited block. -/
def indicesOf (A : SBM K) : List (Nat × Nat) :=
  (List.range A.cl.n).flatMap fun c => (above A c).map fun p => (A.rl.base p.1, A.cl.base c)

/-- The contents of `_sparseMat`, PCG.hpp:79. -/
def pointersOf (id gen : Nat) (A : SBM K) : List Ptr :=
  (List.range A.cl.n).flatMap fun c => (above A c).map fun p => ⟨id, gen, p.1, c⟩

/-- The contents of `_diag`, PCG.hpp:72-73: the diagonal blocks that exist, in order. -/
def diagOf (A : SBM K) : List (DMat K) := (List.range A.cl.n).filterMap fun c => A.block c c

/-- `y.segment(yoff, A.rows()) = A * x.segment(xoff, A.cols())` on vectors of length `n`, PCG.hpp:27-30.
A segment outside of the vector is undefined behaviour (an assertion of the matrix library in debug
builds). -/
def axy (debug : Bool) (n : Nat) (B : DMat K) (x : Nat → K) (xoff : Nat) (y : Nat → K) (yoff : Nat) :
    Res (Nat → K) :=
  if yoff + B.rows ≤ n ∧ xoff + B.cols ≤ n then
    .ok fun i => if yoff ≤ i ∧ i < yoff + B.rows then
      ∑ t ∈ Finset.range B.cols, B.e (i - yoff) t * x (xoff + t) else y i
  else (if debug then .exc else .ub)

/-- `multDiag(colBlockIndices, A, src, dest)`, PCG.hpp:133-151: the `i`-th block of the list is taken to
start at the base of block column `i`. -/
def multDiag (debug : Bool) (n : Nat) (L : Layout) (bs : List (DMat K)) (src dest : Nat → K) :
    Res (Nat → K) :=
  Res.run (fun y (p : DMat K × Nat) => axy debug n p.1 src (L.base p.2) y (L.base p.2)) dest bs.zipIdx

/-- One pass of the loop of `mult`, PCG.hpp:160-170. -/
def multStep (debug : Bool) (n : Nat) (h : Heap K) (src : Nat → K) (y : Nat → K)
    (e : (Nat × Nat) × Ptr) : Res (Nat → K) :=
  (deref h e.2).bind fun B =>
    if e.1.1 + B.rows ≤ n ∧ e.1.2 + B.cols ≤ n then
      .ok (atxpy B src e.1.1 (axpy B src e.1.2 y e.1.1) e.1.2)
    else (if debug then .exc else .ub)

/-- `mult(colBlockIndices, src, dest)`, PCG.hpp:153-171. -/
def mult (debug : Bool) (n : Nat) (L : Layout) (h : Heap K) (diag : List (DMat K)) (s : St K)
    (src dest : Nat → K) : Res (Nat → K) :=
  (multDiag debug n L diag src dest).bind fun y =>
    Res.run (multStep debug n h src) y (s.indices.zip s.sparse)

/-- `u.dot(v)` for vectors of length `n`. PCG.hpp:93-126. -/
def dot (n : Nat) (u v : Nat → K) : K := ∑ i ∈ Finset.range n, u i * v i

/-- Local variables of the loop, PCG.hpp:93-103. -/
structure Loop (K : Type) where
  x : Nat → K
  r : Nat → K
  d : Nat → K
  q : Nat → K
  s : Nat → K
  dn : K

/-- The loop, PCG.hpp:110-126, with `k` passes left; `d0` is the threshold. `none`: a division by zero,
after which the values are not finite. Simplified: the loop is abandoned at that point (the code would
carry on with such values). -/
def loop (n : Nat) (mulA mulJ : (Nat → K) → (Nat → K) → Res (Nat → K)) (d0 : K) :
    Nat → Loop K → Res (Option (Loop K))
  | 0, l => .ok (some l)
  | k + 1, l =>
    if l.dn ≤ d0 then .ok (some l)
    else (mulA l.d l.q).bind fun q =>
      if dot n l.d q = 0 ∨ l.dn = 0 then .ok none
      else
        let a := l.dn / dot n l.d q
        let x := fun i => l.x i + a * l.d i
        let r := fun i => l.r i - a * q i
        (mulJ r l.s).bind fun s =>
          let dn := dot n r s
          let ba := dn / l.dn
          loop n mulA mulJ d0 k ⟨x, r, fun i => s i + ba * l.d i, q, s, dn⟩

/-- The threshold, PCG.hpp:100-105. -/
def threshold (s : St K) (dn : K) : K :=
  if s.absTol = true ∧ 0 < s.residual ∧ s.tol * dn < s.residual then s.residual else s.tol * dn

/-- The number of passes allowed, PCG.hpp:107. -/
def budget (s : St K) (rows : Nat) : Nat := if s.maxIter < 0 then rows else s.maxIter.toNat

/-- The start of `solve`, PCG.hpp:62-85: the off-diagonal blocks are collected unless the index list of
an earlier call is still there. -/
def St.index (s : St K) (id : Nat) (m : Mat K) : St K :=
  if s.indices = [] then
    { s with indices := s.indices ++ indicesOf m.A, sparse := s.sparse ++ pointersOf id m.gen m.A }
  else s

/-- `solve(A, x, b)`, PCG.hpp:60-131, for matrix object `id`: the new solver state and `x`. The return
value is always `true`. `inv` is the matrix library's inverse of a block (for a singular block its
values are not finite, which is not represented). `none`: `x` holds values that are not finite.
Simplified: a matrix that is not square is rejected at once; the code fails at the first operation on
vectors of different lengths. -/
def solve (debug : Bool) (inv : DMat K → DMat K) (h : Heap K) (s : St K) (id : Nat) (b : Nat → K) :
    Res (Option (St K × (Nat → K))) :=
  match h id with
  | none => .ub
  | some m =>
    let n := m.A.rl.total
    if n ≠ m.A.cl.total then (if debug then .exc else .ub)
    else
      let s := s.index id m
      let diag := diagOf m.A
      let mulJ := multDiag debug n m.A.cl (diag.map inv)
      (mulJ b fun _ => 0).bind fun d =>
        let dn := dot n b d
        (loop n (mult debug n m.A.cl h diag s) mulJ (threshold s dn) (budget s n)
            ⟨fun _ => 0, b, d, fun _ => 0, fun _ => 0, dn⟩).bind fun l =>
          match l with
          | none => .ok none
          | some l => .ok (some ({ s with residual := 1 / 2 * l.dn }, l.x))

/-- What a caller does over time: change settings (PCG.h:62-69), restart the solver, write a block of a
matrix object (SBM.hpp:120-143), clear it (SBM.hpp:96-112), destroy and rebuild it, or solve. -/
inductive Op (K : Type) where
  | init
  | setTolerance (t : K)
  | setMaxIterations (k : Int)
  | setAbsoluteTolerance (f : Bool)
  | write (id r c : Nat) (f : DMat K → DMat K)
  | clear (id : Nat) (dealloc : Bool)
  | rebuild (id : Nat) (A : SBM K)
  | solve (id : Nat) (b : Nat → K)

/-- Solver, matrix objects and the results so far (newest first). Not code: the solver with its caller. -/
structure World (K : Type) where
  heap : Heap K
  st : St K
  out : List (Nat → K)

/-- One call. After a division by zero nothing is said about later calls (`exc`). PCG.h:51-69, PCG.hpp:60-131 (dispatch only). -/
def World.step (debug : Bool) (inv : DMat K → DMat K) (w : World K) : Op K → Res (World K)
  | .init => .ok { w with st := w.st.init }
  | .setTolerance t => .ok { w with st := { w.st with tol := t } }
  | .setMaxIterations k => .ok { w with st := { w.st with maxIter := k } }
  | .setAbsoluteTolerance f => .ok { w with st := { w.st with absTol := f } }
  | .write id r c f =>
    match w.heap id with
    | none => .ub
    | some m => (m.A.upd debug r c f).bind fun A =>
        .ok { w with heap := Function.update w.heap id (some ⟨m.gen, A⟩) }
  | .clear id dealloc =>
    match w.heap id with
    | none => .ub
    | some m =>
      let g := if m.A.hasStorage && dealloc then m.gen + 1 else m.gen
      .ok { w with heap := Function.update w.heap id (some ⟨g, m.A.clear dealloc⟩) }
  | .rebuild id A =>
    let g := ((w.heap id).map fun m => m.gen + 1).getD 0
    .ok { w with heap := Function.update w.heap id (some ⟨g, A⟩) }
  | .solve id b =>
    (solve debug inv w.heap w.st id b).bind fun o =>
      match o with
      | none => .exc
      | some (s, x) => .ok { w with st := s, out := x :: w.out }

end Verif.PCG
