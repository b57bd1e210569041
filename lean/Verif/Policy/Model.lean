import Verif.Trust.Model
import Verif.Optimizer2.Model

/-!
`Optimizer2` run with each of the four trust-region policies: the loop of `Verif.Optimizer2` (O2) with the policies of
`Verif.Trust` as its `solve`. Files: `aslam_backend/src/GaussNewtonTrustRegionPolicy.cpp` (GN below),
`LevenbergMarquardtTrustRegionPolicy.cpp` (LM), `LineSearchTrustRegionPolicy.cpp` (LS), `DogLegTrustRegionPolicy.cpp` (DL)
and `TrustRegionPolicy.cpp` (TR). Costs are finite here (other costs: C24, C28).
-/
namespace Verif.Policy
open Verif.Optimizer2 Verif.Trust

/-- The problem and the linear solver as the policies see them. `val` are the values of the design variables (`X` also
contains their backups). A system is determined by the values at which `buildSystem` was last called: `sol q m` is what
`solveSystem` returns for the system built at `q` with the conditioner `m` (`none` as conditioner: NaN; `none` as result: it
returned false), `d2 q l dx` is `dx^T (l dx + rhs)`, LM:109. -/
structure Env (K X D Q : Type) where
  val : X → Q
  update : X → D → X
  revert : X → X
  cost : Q → K
  maxAbs : D → K
  sol : Q → Option K → Option D
  d2 : Q → K → D → K

variable {K X D Q : Type} [LinearOrder K] [Field K]

/-- The parts of the set-up that do not depend on the policy. A step always has the right size. aslam_backend/src/Optimizer2.cpp:152-259. -/
def Env.base {P : Type} (E : Env K X D Q) (reverts : Bool) (start : P → Dbl K → P)
    (solve : P → X → D → Dbl K → Bool → P × Bool × D) : Setup K X D P where
  cost x := .fin (E.cost (E.val x))
  update := E.update
  revert := E.revert
  maxAbs d := .fin (E.maxAbs d)
  size _ := 1
  numOpt := 1
  start := start
  solve := solve
  reverts := reverts

/-- `Optimizer2` with the Gauss-Newton policy, GN:13-40: each call builds and solves, nothing is reverted. A solve that fails
is taken to leave the step as it was. -/
def gn (E : Env K X D Q) : Setup K X D (Base (Dbl K)) :=
  E.base false (fun _ J => Base.start J) fun b x d J f =>
    let r := E.sol (E.val x) (some 0)
    ((b.call J f).done, r.isSome, r.getD d)

/-- State of the line-search policy in a run. LineSearchTrustRegionPolicy.hpp:35-36, TrustRegionPolicy.hpp:48-54. -/
structure LSP (K : Type) where
  base : Base (Dbl K)
  ls : LS K

/-- `Optimizer2` with the line-search policy, LS:14-44 inside TR:38-49. -/
def ls (E : Env K X D Q) [SMul K D] : Setup K X D (LSP K) :=
  E.base true (fun p J => { p with base := Base.start J }) fun p x d J f =>
    let b := p.base.call J f
    let r := E.sol (E.val x) (some 0)
    let c := LS.call p.ls b.first f (r.isSome, r.getD d) d
    (⟨b.done, c.1⟩, c.2.1, c.2.2)

/-- State of the Levenberg-Marquardt policy in a run: `lm = none` while lambda is NaN, the other members are in `rest` then;
`built` are the values at which the system was last built. LevenbergMarquardtTrustRegionPolicy.hpp:38-48, TrustRegionPolicy.hpp:48-54. -/
structure LMP (K Q : Type) where
  base : Base (Dbl K)
  lm : Option (LM K)
  built : Q
  rest : LM K

/-- `getLmRho`, LM:105-111, with `get_dJ()`, TR:51-54; `d2` is the predicted decrease. Simplified: an infinite gain divided by zero has the sign of the gain (the sign of the zero is ignored). -/
def gainRatio (b : Base (Dbl K)) (d2 : K) : Dbl K :=
  match b.gain with
  | .fin g => lmRho g d2
  | .pinf => if d2 < 0 then .ninf else .pinf
  | .ninf => if d2 < 0 then .pinf else .ninf
  | .nan => .nan

/-- One call of the policy, LM:50-87 inside TR:38-49. While lambda is NaN, so is the gain ratio: a failed step doubles `mu` (LM:61-64),
otherwise the comparisons LM:65 and LM:73 are false, the system is rebuilt (LM:72) and lambda is set to 1e-15 (LM:82).
Simplified: an infinite lambda (infinite gain ratio, option `beta` less than 1) is treated as NaN. -/
def lmCall (E : Env K X D Q) (p : LMP K Q) (x : X) (d : D) (J : Dbl K) (f : Bool) : LMP K Q × Bool × D :=
  let b := p.base.call J f
  match p.lm with
  | none =>
    if f then
      let r := E.sol p.built none
      (⟨b.done, none, p.built, { p.rest with mu := p.rest.mu * 2 }⟩, r.isSome, r.getD d)
    else
      let r := E.sol (E.val x) (some (1 / 10 ^ 15))
      (⟨b.done, some { p.rest with lambda := 1 / 10 ^ 15 }, E.val x, p.rest⟩, r.isSome, r.getD d)
  | some s =>
    match lmUpdate s b.first f (gainRatio b (E.d2 p.built s.lambda d)) with
    | none =>
      let r := E.sol (E.val x) none
      (⟨b.done, none, E.val x, { s with mu := s.beta }⟩, r.isSome, r.getD d)
    | some (s', rebuild) =>
      let built := if rebuild then E.val x else p.built
      let r := E.sol built (some s'.lambda)
      (⟨b.done, some s', built, p.rest⟩, r.isSome, r.getD d)

/-- `Optimizer2` with the Levenberg-Marquardt policy; the initial values of the parameters are those of the options,
LM:7-32 and LM:38-47. -/
def lm (E : Env K X D Q) (init : LM K) : Setup K X D (LMP K Q) :=
  E.base true (fun p J => { p with base := Base.start J, lm := some init, rest := init }) (lmCall E)

/-- State of the dog-leg policy in a run. DogLegTrustRegionPolicy.hpp:32-43, TrustRegionPolicy.hpp:48-54. -/
structure DLP (V : Type) where
  base : Base (Dbl ℝ)
  dl : DL V

/-- `Optimizer2` with the dog-leg policy, DL:11-142 inside TR:29-49, for design variables with values in `V` (`X` is value and
backup, updates add). `lin` is what the solver answers for the system built at the given values. Simplified: a step that is
not finite counts as a failed solve. -/
noncomputable def dl {V : Type} [NormedAddCommGroup V] [InnerProductSpace ℝ V] (cost : V → ℝ) (maxAbs : V → ℝ)
    (lin : V → Lin V) : Setup ℝ (V × V) V (DLP V) where
  cost x := .fin (cost x.1)
  update x d := (x.1 + d, x.1)
  revert x := (x.2, x.2)
  maxAbs d := .fin (maxAbs d)
  size _ := 1
  numOpt := 1
  start p J := ⟨Base.start J, p.dl.start⟩
  solve p x d J f :=
    let b := p.base.call J f
    match b.gain, J with
    | .fin g, .fin j =>
      match dlCall p.dl b.first f g j (lin x.1) with
      | some (s, true) => (⟨b.done, s⟩, true, s.dx)
      | some (s, false) => (⟨b.done, s⟩, false, d)
      | none => (⟨b.done, p.dl⟩, false, d)
    | _, _ => (⟨b.done, p.dl⟩, false, d)
  reverts := true

/-- `n` passes of the loop body, whatever the loop condition says. aslam_backend/src/Optimizer2.cpp:193-242. -/
def passes {P : Type} (S : Setup K X D P) : Nat → St K X D P → Res (St K X D P)
  | 0, s => .ok s
  | n + 1, s => Res.bind (iter S s) (passes S n)

/-- The states at the start of the loop body in a call of `optimize`. aslam_backend/src/Optimizer2.cpp:187-243. -/
inductive Reach {P : Type} (S : Setup K X D P) (o : Options K) (b : Obj K X D P) : St K X D P → Prop where
  | enter : Reach S o b (enter S o b)
  | pass {s s' : St K X D P} : Reach S o b s → running o s = true → iter S s = .ok s' → Reach S o b s'

end Verif.Policy
