import Verif.Problem.Model
import Mathlib.Algebra.BigOperators.Group.List.Basic

/-!
`Optimizer::initialize` and `Optimizer::evaluateError`, `aslam_backend/src/Optimizer.cpp` (LO below), on an `OptimizationProblem` as modelled in `Verif.Problem`.
-/
namespace Verif.LegacyInit
open Verif.Problem (State World)

/-- What the optimizer asks design variables: `isActive()`, `isMarginalized()` and `minimalDimensions()`. LO:74-94. -/
structure Env where
  active : Nat → Bool
  marg : Nat → Bool
  dim : Nat → Nat

/-- Members of the optimizer after `initialize` (Optimizer.hpp), and the block indices stored in the design variables. `hBlocks` and `aBlocks` are the cumulative block ends of `_H` and `_A`.
Optimizer.hpp:184-227. -/
structure Layout where
  dvs : List Nat
  start : Nat
  block : Nat → Int
  terms : List Nat
  hBlocks : List Nat
  rhsSize : Nat
  aBlocks : List Nat
  bSize : Nat
  invVi : Nat
  dxSize : Nat

/-- `setBlockIndex` in a loop, LO:86-89 and 91-95. -/
def setBlocks (b : Nat → Int) : List Nat → Nat → (Nat → Int)
  | [], _ => b
  | d :: ds, i => setBlocks (Function.update b d i) ds (i + 1)

/-- `std::partial_sum`, LO:108. -/
def partialSums : Nat → List Nat → List Nat
  | _, [] => []
  | a, n :: ns => (a + n) :: partialSums (a + n) ns

/-- `_problem->getErrors(dv, set)`, LO:101-103 with OptimizationProblem.cpp:159-168: inserts the terms of one variable into the set. Simplified: a set is a list without duplicates; the code orders it by
address. -/
def insertErrors (s : State) (d : Nat) (ts : List Nat) : List Nat :=
  ((s.emap.filter fun p => p.1 == d).map Prod.snd).foldl (fun ts t => if t ∈ ts then ts else ts ++ [t]) ts

/-- `rowBaseOfBlock(i)` on cumulative ends, sparse_block_matrix.h:129. -/
def baseOf (ends : List Nat) (i : Nat) : Nat := if i = 0 then 0 else ends.getD (i - 1) 0

/-- `initialize`, LO:65-122: active variables, the marginalised ones last if the Schur complement is used; block indices; error terms; block structures. Throws if there is nothing but marginalised
variables. `b` are the block indices the variables had before. -/
def initOpt (e : Env) (schur : Bool) (s : State) (b : Nat → Int) : Res Layout :=
  let act := s.dvs.filter e.active
  let dense := act.filter fun d => !(e.marg d && schur)
  let sparse := act.filter fun d => e.marg d && schur
  if dense = [] then .exc
  else
    let dvs := dense ++ sparse
    let start := dense.length
    let b1 := setBlocks b dense 0
    let b2 := setBlocks b1 sparse start
    let terms := dvs.foldl (fun ts d => insertErrors s d ts) []
    let blocks := partialSums 0 (dvs.map e.dim)
    let rows := baseOf blocks blocks.length
    let aBlocks := blocks.take start
    .ok ⟨dvs, start, b2, terms, blocks, rows, aBlocks, baseOf aBlocks aBlocks.length, dvs.length - start, baseOf blocks start⟩

/-- `evaluateError`, LO:669-681: the sum of the squared errors of the collected terms at a state `x`. `err t x` is what `getSquaredError` returns after `updateRawSquaredError`. -/
def cost {K X : Type} [AddCommMonoid K] (err : Nat → X → K) (l : Layout) (x : X) : K := (l.terms.map fun t => err t x).foldl (· + ·) 0

end Verif.LegacyInit
