import Verif.Prelude
import Mathlib.Data.List.Basic

/-!
Model of `OptimizationProblem` (`aslam_backend/src/OptimizationProblem.cpp`, OP below) and
`SimpleOptimizationProblem` (`aslam_backend/src/SimpleOptimizationProblem.cpp`, SOP below).
Design variables and error terms are identified by their address.
-/
namespace Verif.Problem

/-- The objects outside of the problem: the design variables a squared / non-squared error term lists
(`designVariable(i)`; "may only be set once", ErrorTerm.cpp) and whether somebody besides the problem
holds a reference to the term, so that it survives its removal. Read at OP:71-92, 182-230. -/
structure World where
  dvsOf : Nat → List Nat
  nsDvsOf : Nat → List Nat
  heldOutside : Nat → Bool

/-- Data members, OptimizationProblem.hpp:82-88. A multimap is a list of pairs in insertion order
(simplified: `unordered_multimap` promises no order among equal keys). `dead` lists the terms that have
been destroyed because the last reference went away. -/
structure State where
  dvs : List Nat
  ets : List Nat
  ns : List Nat
  emap : List (Nat × Nat)
  nmap : List (Nat × Nat)
  dead : List Nat
  deriving DecidableEq, Repr

/-- Constructor, OP:10-12. -/
def init : State := ⟨[], [], [], [], [], []⟩

/-- Public operations. OP:22-230. -/
inductive Op where
  | addDV (d : Nat)
  | addET (t : Nat)
  | addNS (t : Nat)
  | removeET (t : Nat)
  | removeDV (d : Nat)
  | clear
  deriving DecidableEq, Repr

/-- Result of a call that may throw: state afterwards and whether an exception was thrown. Not code. -/
abbrev Out := Res (State × Bool)

/-- `addDesignVariable`, OP:22-43: throws if it is there already. -/
def addDV (s : State) (d : Nat) : State × Bool :=
  if d ∈ s.dvs then (s, true) else ({ s with dvs := s.dvs ++ [d] }, false)

/-- The loop filling the multimap, OP:74-79 and 86-91: in debug builds stops with an exception at the
first variable that is not in the problem. -/
def fillMap (debug : Bool) (known : List Nat) (t : Nat) : List Nat → List (Nat × Nat) →
    List (Nat × Nat) × Bool
  | [], m => (m, false)
  | d :: ds, m => if debug && decide (d ∉ known) then (m, true)
    else fillMap debug known t ds (m ++ [(d, t)])

/-- `addErrorTerm(ErrorTerm)`, OP:71-80. The term is stored before the check. -/
def addET (debug : Bool) (w : World) (s : State) (t : Nat) : State × Bool :=
  let r := fillMap debug s.dvs t (w.dvsOf t) s.emap
  ({ s with ets := s.ets ++ [t], emap := r.1 }, r.2)

/-- `addErrorTerm(ScalarNonSquaredErrorTerm)`, OP:83-92. -/
def addNS (debug : Bool) (w : World) (s : State) (t : Nat) : State × Bool :=
  let r := fillMap debug s.dvs t (w.nsDvsOf t) s.nmap
  ({ s with ns := s.ns ++ [t], nmap := r.1 }, r.2)

/-- `removeErrorTerm`, OP:182-207: for each listed variable erase one map entry, then the first
occurrence in the vector; a term nobody else holds is destroyed with its last occurrence. -/
def removeET (w : World) (s : State) (t : Nat) : State :=
  let ets := s.ets.erase t
  { s with
    emap := (w.dvsOf t).foldl (fun m d => m.erase (d, t)) s.emap
    ets := ets
    dead := if t ∈ s.ets ∧ t ∉ ets ∧ w.heldOutside t = false then t :: s.dead else s.dead }

/-- The call `removeErrorTerm(terms[i])` reads the term, OP:185: undefined behaviour if it has been
destroyed. -/
def removeETStep (w : World) (s : State) (t : Nat) : Res State :=
  if t ∈ s.dead then .ub else .ok (removeET w s t)

/-- `removeDesignVariable`, OP:210-230: collects the terms of the variable from the map, removes each of
them, then the variable. -/
def removeDV (w : World) (s : State) (d : Nat) : Res State := do
  let terms := (s.emap.filter fun p => p.1 == d).map Prod.snd
  let s ← Res.run (removeETStep w) s terms
  .ok { s with dvs := s.dvs.erase d }

/-- `clear`, OP:105-112. -/
def clear (w : World) (s : State) : State :=
  { init with dead := s.ets.filter (fun t => !w.heldOutside t) ++ s.dead }

/-- One public call; passing a destroyed term is undefined behaviour. OP:22-230 (dispatch only). -/
def step (debug : Bool) (w : World) (s : State) : Op → Out
  | .addDV d => .ok (addDV s d)
  | .addET t => if t ∈ s.dead then .ub else .ok (addET debug w s t)
  | .addNS t => .ok (addNS debug w s t)
  | .removeET t => do let s ← removeETStep w s t; .ok (s, false)
  | .removeDV d => do let s ← removeDV w s d; .ok (s, false)
  | .clear => .ok (clear w s, false)

/-- `getErrors(dv)`, OP:159-168: membership in the returned set. -/
def getErrors (s : State) (d t : Nat) : Prop := (d, t) ∈ s.emap

/-- `getNonSquaredErrors(dv)`, OP:170-179. -/
def getNonSquaredErrors (s : State) (d t : Nat) : Prop := (d, t) ∈ s.nmap

/-! ### SimpleOptimizationProblem -/

/-- Data members of `SimpleOptimizationProblem`. SimpleOptimizationProblem.hpp:67-69. -/
structure Simple where
  dvs : List Nat
  ets : List Nat
  ns : List Nat
  deriving DecidableEq, Repr

/-- Operations of `SimpleOptimizationProblem`: SOP:22-43, 68-75, 88-92. -/
inductive SOp where
  | addDV (d : Nat)
  | addET (t : Nat)
  | addNS (t : Nat)
  | clear

/-- One call on a `SimpleOptimizationProblem`: SOP:22-43 (a variable present already throws and changes
nothing), 68-75, and `clear` SOP:88-92, which does not touch the non-squared terms. -/
def sstep (s : Simple) : SOp → Simple
  | .addDV d => if d ∈ s.dvs then s else { s with dvs := s.dvs ++ [d] }
  | .addET t => { s with ets := s.ets ++ [t] }
  | .addNS t => { s with ns := s.ns ++ [t] }
  | .clear => { s with ets := [], dvs := [] }

end Verif.Problem
