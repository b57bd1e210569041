import Verif.Num
import Mathlib.Algebra.Module.Defs

/-!
Model of the samplers: `aslam_backend/src/SamplerBase.cpp` (B below), `SamplerMetropolisHastings.cpp` (M below) and
`SamplerHybridMcmc.cpp` (H below). Random numbers are arguments: a proposal or momentum and a number of the interval `[0, 1)` per attempt.
Energies are numbers with NaN and infinities; the exponential is a parameter. Evaluating the density or its gradient may throw.
Not modelled: threads, log output, timers, option loading.
-/
namespace Verif.Sampler
open FloatLike

variable {K : Type} [LinearOrder K] [Field K]

/-- `std::exp` of a `double` for an exponential function `ex` of numbers. Used at M:69. -/
def dexp (ex : K → K) : Dbl K → Dbl K
  | .nan => .nan
  | .ninf => .fin 0
  | .fin a => .fin (ex a)
  | .pinf => .pinf

/-- `std::min(a, b)` of doubles: `(b < a) ? b : a`. Used at M:69. -/
def dmin (a b : Dbl K) : Dbl K := if Dbl.lt b a then b else a

/-- `std::isfinite`. Used at H:235. -/
def isFinite : Dbl K → Bool
  | .fin _ => true
  | _ => false

/-- `SamplerBase::Statistics`, SamplerBase.hpp:46-50. -/
structure Stats (K : Type) where
  nIter : Nat
  accTotal : Nat
  accRun : Nat
  mean : Dbl K
  alpha : K
  deriving DecidableEq

/-- `Statistics::reset`, B:22-27 (the smoothing factor stays). -/
def Stats.reset (t : Stats K) : Stats K := { t with nIter := 0, accTotal := 0, accRun := 0, mean := .fin 0 }

/-- `getAcceptanceRate`, B:30-32. -/
def Stats.rate (t : Stats K) : K := if 0 < t.nIter then (t.accTotal : K) / (t.nIter : K) else 0

/-- `updateWeightedMeanAcceptanceProbability` without its debug checks, B:44-51. -/
def Stats.update (t : Stats K) (p : Dbl K) : Stats K :=
  { t with mean := if t.nIter < 2 then p else dadd t.mean (dmul (dneg (.fin t.alpha)) (Dbl.sub t.mean p)) }

/-- The debug checks B:45-46. -/
def probOk (p : Dbl K) : Bool := Dbl.le (.fin 0) p && Dbl.le p (.fin 1)

/-- The statistics after a step, B:70-75. -/
def Stats.step (t : Stats K) (acc : Bool) (p : Dbl K) : Stats K :=
  ({ t with accRun := if acc then t.accRun + 1 else t.accRun, accTotal := if acc then t.accTotal + 1 else t.accTotal, nIter := t.nIter + 1 } : Stats K).update p

/-- `setWeightedMeanSmoothingFactor`, B:142-146. -/
def Stats.setAlpha (t : Stats K) (a : K) : Option (Stats K) := if 0 < a ∧ a ≤ 1 then some { t with alpha := a } else none

/-! ### Metropolis-Hastings -/

/-- The density and the design variables as the problem manager offers them: `obs` is what the parameters of the design variables are, `upd`
`applyStateUpdate`, `rev` `revertLastStateUpdate`, `dens` the negative log density (absent: the evaluation throws). Used at M:53-82. -/
structure Prob (K X D P : Type) where
  obs : X → P
  upd : X → D → X
  rev : X → X
  dens : P → Option (Dbl K)

/-- `SamplerMetropolisHastings` with the fields of `SamplerBase`, SamplerBase.hpp:116-122. `init`: the problem manager is initialized. -/
structure MH (K X : Type) where
  x : X
  nld : Dbl K
  st : Stats K
  last : Bool
  force : Bool
  init : Bool
  deriving DecidableEq

variable {X D P : Type}

/-- `isRecomputationNegLogDensityNecessary`, SamplerBase.hpp:84. -/
def MH.need (s : MH K X) : Bool := s.force || !s.last

/-- The acceptance probability, M:69. -/
def accProb (ex : K → K) (old new : Dbl K) : Dbl K := dexp ex (dmin (.fin 0) (dadd (dneg new) old))

/-- The density before the proposal, M:56-61; in debug builds a cached value is checked. The flag tells that nothing was thrown. -/
def MH.before (debug : Bool) (Q : Prob K X D P) (s : MH K X) : MH K X × Bool :=
  if s.need then
    match Q.dens (Q.obs s.x) with
    | some v => ({ s with nld := v }, true)
    | none => (s, false)
  else if debug then
    match Q.dens (Q.obs s.x) with
    | some v => (s, deq v s.nld)
    | none => (s, false)
  else (s, true)

/-- The decision, M:72-80. `accepted` is a reference to `_isLastSampleAccepted` (B:67). -/
def MH.decide (Q : Prob K X D P) (s : MH K X) (new p : Dbl K) (u : K) : MH K X :=
  if Dbl.lt (.fin u) p then { s with nld := new, last := true } else { s with x := Q.rev s.x, last := false }

/-- The proposal and the decision, M:63-80. The result is absent if the evaluation of the density throws; the design variables then stay at
the proposal. -/
def MH.propose (ex : K → K) (Q : Prob K X D P) (s : MH K X) (d : D) (u : K) : MH K X × Option (Dbl K) :=
  match Q.dens (Q.obs (Q.upd s.x d)) with
  | none => ({ s with x := Q.upd s.x d }, none)
  | some new => ({ s with x := Q.upd s.x d }.decide Q new (accProb ex s.nld new) u, some (accProb ex s.nld new))

/-- `SamplerMetropolisHastings::step`, M:53-82. -/
def MH.step (debug : Bool) (ex : K → K) (Q : Prob K X D P) (s : MH K X) (d : D) (u : K) : MH K X × Option (Dbl K) :=
  let r := s.before debug Q
  if r.2 then r.1.propose ex Q d u else (r.1, none)

/-- One pass of the loop of `run`, B:65-77. The flag tells that nothing was thrown. -/
def MH.one (debug : Bool) (ex : K → K) (Q : Prob K X D P) (s : MH K X) (d : D) (u : K) : MH K X × Bool :=
  match s.step debug ex Q d u with
  | (s1, none) => (s1, false)
  | (s1, some p) =>
    if debug && !probOk p then
      ({ s1 with st := { s1.st with accRun := if s1.last then s1.st.accRun + 1 else s1.st.accRun, accTotal := if s1.last then s1.st.accTotal + 1 else s1.st.accTotal,
                                    nIter := s1.st.nIter + 1 } }, false)
    else ({ s1 with st := s1.st.step s1.last p, force := false }, true)

/-- The loop, B:65-77. -/
def MH.passes (debug : Bool) (ex : K → K) (Q : Prob K X D P) : MH K X → List (D × K) → MH K X × Bool
  | s, [] => (s, true)
  | s, (d, u) :: r =>
    let t := s.one debug ex Q d u
    if t.2 then t.1.passes debug ex Q r else t

/-- `SamplerBase::reset`, B:129-134, with `resetImplementation`, M:84-86. -/
def MH.reset (s : MH K X) : MH K X := { s with st := s.st.reset, last := false, force := true, nld := .nan }

/-- `SamplerBase::run`, B:54-85, with `initialize`, B:123-126. -/
def MH.run (debug : Bool) (ex : K → K) (Q : Prob K X D P) (s : MH K X) (ds : List (D × K)) : MH K X × Bool :=
  let s1 := if s.init then s else { s.reset with init := true }
  { s1 with st := { s1.st with accRun := 0 } }.passes debug ex Q ds

/-! ### Hybrid MCMC -/

/-- `SamplerHybridMcmcOptions`, SamplerHybridMcmc.hpp:29-37. -/
structure HOpt (K : Type) where
  init : K
  min : K
  max : K
  inc : K
  dec : K
  target : K
  n : Nat

/-- `SamplerHybridMcmcOptions::check`, H:41-53. -/
def HOpt.check (o : HOpt K) : Bool :=
  decide (0 < o.init) && decide (o.min ≤ o.init) && decide (o.init ≤ o.max) && decide (0 < o.min) && decide (0 < o.max) && decide (o.min ≤ o.max) &&
  decide (1 ≤ o.inc) && decide (0 < o.dec) && decide (o.dec ≤ 1) && decide (0 ≤ o.target) && decide (o.target ≤ 1)

/-- The problem: as in `Prob`, with the gradient (may throw), saving and restoring parameters (H:87-99), the kinetic energy (H:161, H:226)
and the test for finite updates (H:200). -/
structure HProb (K X V P : Type) where
  obs : X → P
  upd : X → V → X
  restore : X → P → X
  dens : P → Option (Dbl K)
  grad : P → Option V
  kin : V → Dbl K
  fin : V → Bool

/-- `SamplerHybridMcmc`, SamplerHybridMcmc.hpp:83-88, with the fields of `SamplerBase` that `step` uses. -/
structure HS (K X V : Type) where
  x : X
  u : Dbl K
  g : V
  eps : K
  last : Bool
  force : Bool
  burnIn : Bool

variable {V : Type} [AddCommGroup V] [Module K V]

/-- The passes of the loop H:189: `l` runs from 1 to below `n - 1`, an unsigned number that wraps around for `n = 0`. -/
def passes (n : Nat) : Nat := if n = 0 then 2 ^ 64 - 2 else n - 2

/-- The variables of a trajectory: the design variables, the momentum, the gradient, whether it diverged. H:180-220. -/
structure Tr (X V : Type) where
  x : X
  p : V
  g : V
  diverged : Bool

/-- The full steps, H:189-212. -/
def full (Q : HProb K X V P) (eps : K) : Nat → Tr X V → Tr X V
  | 0, t => t
  | n + 1, t =>
    match Q.grad (Q.obs t.x) with
    | none => { t with diverged := true }
    | some g =>
      if Q.fin (eps • (t.p - eps • g)) then full Q eps n { t with x := Q.upd t.x (eps • (t.p - eps • g)), p := t.p - eps • g, g := g }
      else { t with p := t.p - eps • g, g := g, diverged := true }

/-- The first half step of the momentum and the first full step of the position, H:180-184. -/
def first (Q : HProb K X V P) (eps half : K) (x : X) (p g : V) : Tr X V :=
  { x := Q.upd x (eps • (p - half • g)), p := p - half • g, g := g, diverged := false }

/-- The last half step of the momentum, H:214-220. -/
def lastHalf (Q : HProb K X V P) (half : K) (t : Tr X V) : Tr X V :=
  if t.diverged then t
  else match Q.grad (Q.obs t.x) with
    | none => { t with diverged := true }
    | some g => { t with p := t.p - half • g, g := g }

/-- The trajectory, H:180-220. -/
def trajectory (Q : HProb K X V P) (n : Nat) (eps half : K) (x : X) (p g : V) : Tr X V :=
  lastHalf Q half (full Q eps (passes n) (first Q eps half x p g))

/-- The energies at the end, H:224-235: the potential energy if it was evaluated, and the total energy if the trajectory did not diverge. -/
def energies (Q : HProb K X V P) (t : Tr X V) : Option (Dbl K) × Option (Dbl K) :=
  if t.diverged then (none, none)
  else match Q.dens (Q.obs t.x) with
    | none => (none, none)
    | some u => (some u, if isFinite (dadd u (Q.kin t.p)) then some (dadd u (Q.kin t.p)) else none)

/-- The acceptance probability, H:237-240. -/
def hProb (ex : K → K) (e0 : Dbl K) : Option (Dbl K) → Dbl K
  | none => .fin 0
  | some e => dmin (.fin 1) (dexp ex (Dbl.sub e0 e))

/-- The reduced step length after a divergence, H:245-246. -/
def HOpt.reduce (o : HOpt K) (eps : K) : K := Max.max (eps * o.dec) o.min

/-- `max(min(step, max), min)`, H:127. -/
def HOpt.clip (o : HOpt K) (eps : K) : K := Max.max (Min.min eps o.max) o.min

/-- The adaptation of the step length, H:121-128. `mean` is the mean acceptance probability. -/
def HOpt.adapt (o : HOpt K) (burnIn : Bool) (mean : Dbl K) (eps : K) : K :=
  if burnIn then o.clip (if Dbl.lt (.fin o.target) mean then eps * o.inc else eps * o.dec) else eps

/-- The potential energy and the gradient at the start of a trajectory, H:154-177 (absent: an evaluation throws). In debug builds the cached values are checked; not modelled. -/
def startValues (Q : HProb K X V P) (s : HS K X V) : Option (Dbl K × V) :=
  if s.force || !s.last then
    match Q.dens (Q.obs s.x), Q.grad (Q.obs s.x) with
    | some u, some g => some (u, g)
    | _, _ => none
  else some (s.u, s.g)

/-- How an attempt or a whole step ends. Not code: outcomes of H:114-268. -/
inductive HOut (K X V : Type) where
  | done (s : HS K X V) (prob : Dbl K)
  | exc (s : HS K X V)
  | running (s : HS K X V)

/-- The state of the sampler after an attempt, H:237-259: `saved` are the parameters saved before the step, `u0`, `g0` the values at the start. -/
def decideH (o : HOpt K) (s : HS K X V) (Q : HProb K X V P) (saved : P) (u0 : Dbl K) (g0 : V) (t : Tr X V) (e : Option (Dbl K) × Option (Dbl K)) (prob : Dbl K)
    (r : K) : HS K X V :=
  if Dbl.lt (.fin r) prob then
    { s with x := t.x, u := e.1.getD s.u, g := t.g, eps := if e.2.isNone then o.reduce s.eps else s.eps, last := true }
  else { s with x := Q.restore t.x saved, u := u0, g := g0, eps := if e.2.isNone then o.reduce s.eps else s.eps, last := false }

/-- One attempt, H:145-265, with a momentum `p` and a random number `r`. The half step `half` was computed before the first attempt (H:133). -/
def attempt (ex : K → K) (o : HOpt K) (tol : K) (Q : HProb K X V P) (half : K) (saved : P) (s : HS K X V) (p : V) (r : K) : HOut K X V :=
  match startValues Q s with
  | none => .exc s
  | some (u0, g0) =>
    let t := trajectory Q o.n s.eps half s.x p g0
    let e := energies Q t
    let prob := hProb ex (dadd u0 (Q.kin p)) e.2
    let s1 := decideH o s Q saved u0 g0 t e prob r
    if e.2.isSome || decide (s1.eps - o.min < tol) then .done s1 prob else .running s1

/-- The loop, H:145-266; the list holds the random numbers of the attempts. If it is used up the loop is still running. -/
def attempts (ex : K → K) (o : HOpt K) (tol : K) (Q : HProb K X V P) (half : K) (saved : P) : HS K X V → List (V × K) → HOut K X V
  | s, [] => .running s
  | s, (p, r) :: l =>
    match attempt ex o tol Q half saved s p r with
    | .running s1 => attempts ex o tol Q half saved s1 l
    | out => out

/-- `SamplerHybridMcmc::step`, H:114-268; `tol` is 1e-12. -/
def hStep (ex : K → K) (o : HOpt K) (tol : K) (Q : HProb K X V P) (mean : Dbl K) (s : HS K X V) (l : List (V × K)) : HOut K X V :=
  let s1 := { s with eps := o.adapt s.burnIn mean s.eps }
  attempts ex o tol Q (s1.eps / 2) (Q.obs s.x) s1 l

end Verif.Sampler
