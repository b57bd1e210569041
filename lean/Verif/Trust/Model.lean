import Verif.Optimizer2.Model
import Mathlib.Analysis.InnerProductSpace.Basic
import Mathlib.Algebra.Order.Field.Basic

/-!
Models of the trust-region policies: `aslam_backend/src/TrustRegionPolicy.cpp` (TR below),
`LevenbergMarquardtTrustRegionPolicy.cpp` (LM), `DogLegTrustRegionPolicy.cpp` (DL),
`LineSearchTrustRegionPolicy.cpp` (LS). Finite arithmetic is exact.
-/
namespace Verif.Trust

/-! ### The base class -/

/-- `_J`, `_p_J`, `_isFirstIteration`, TrustRegionPolicy.hpp:52-54. -/
structure Base (K : Type) where
  J : K
  pJ : K
  first : Bool

/-- `optimizationStarting(J)`, TR:29-35. -/
def Base.start {K : Type} (J : K) : Base K := ⟨J, J, true⟩

/-- The bookkeeping of `solveSystem` before the implementation is called, TR:40-44. -/
def Base.call {K : Type} (b : Base K) (J : K) (prevFailed : Bool) : Base K :=
  { b with pJ := if prevFailed then b.pJ else b.J, J := J }

/-- `get_dJ()`, TR:51-54, with the special values of doubles. -/
def Base.gain {K : Type} [LinearOrder K] [CommRing K] (b : Base (Dbl K)) : Dbl K := Dbl.sub b.pJ b.J

/-- After the implementation returned, TR:47. -/
def Base.done {K : Type} (b : Base K) : Base K := { b with first := false }

/-! ### Levenberg-Marquardt -/

/-- `_lambda`, `_gamma`, `_beta`, `_p`, `_mu`, LevenbergMarquardtTrustRegionPolicy.hpp:44-48. -/
structure LM (K : Type) where
  lambda : K
  gamma : K
  beta : K
  p : Int
  mu : K

/-- `getLmRho`, LM:105-111, with `d2 = dx^T (lambda dx + rhs)`. -/
def lmRho {K : Type} [LinearOrder K] [Field K] (gain d2 : K) : Dbl K := Dbl.div gain d2

/-- The update of `_lambda` and `_mu` in `solveSystemImplementation`, LM:53-84. `none` when `_lambda` becomes
NaN (or infinite), which happens for `rho` = NaN. The second component tells whether the system is rebuilt.
`pow` of infinity is infinity (`_p` is positive). -/
def lmUpdate {K : Type} [LinearOrder K] [Field K] (s : LM K) (first prevFailed : Bool) (rho : Dbl K) :
    Option (LM K × Bool) :=
  if first then some (s, true)
  else if prevFailed then
    some ({ s with mu := s.mu * 2, lambda := s.lambda * (s.mu * 2) }, false)
  else if Dbl.le rho (.fin 0) then
    some ({ s with mu := s.mu * 10, lambda := s.lambda * (s.mu * 10) }, false)
  else if s.lambda > 1 / 10 ^ 16 then
    let u1 := 1 / s.gamma
    match rho with
    | .fin r =>
      let u2 := 1 - (s.beta - 1) * (2 * r - 1) ^ s.p
      some ({ s with lambda := s.lambda * (if u1 > u2 then u1 else u2), mu := s.beta }, true)
    | .pinf => if 1 < s.beta then some ({ s with lambda := s.lambda * u1, mu := s.beta }, true) else none
    | _ => none
  else some ({ s with lambda := 1 / 10 ^ 15 }, true)

/-! ### Dog-leg -/

/-- Kind of the last step, `_stepType` (DL:86,113,135; initially the empty string). -/
inductive Step where
  | none | sd | gn | dl
  deriving DecidableEq, Repr

/-- Data members of the dog-leg policy, DogLegTrustRegionPolicy.hpp:32-43 (`_p_delta` and `_beta` are only
printed, not modelled as members). -/
structure DL (V : Type) where
  dx : V
  sd : V
  gn : V
  sdNorm : ℝ
  gnNorm : ℝ
  L0 : ℝ
  scale : ℝ
  delta : ℝ
  step : Step

/-- `optimizationStartingImplementation`, DL:11-22: the vectors and `_stepType` keep their old values. (The
line `std::string _stepType;` declares a local variable.) -/
def DL.start {V : Type} (s : DL V) : DL V :=
  { s with sdNorm := 0, gnNorm := 0, L0 := 0, scale := 0, delta := 0 }

/-- What the linear solver answers: `rhs()`, `rhsJtJrhs()` of the system last built and the solution, `none` if
`solveSystem` fails. LinearSystemSolver.hpp:46, 51, 73. -/
structure Lin (V : Type) where
  rhs : V
  rJJr : ℝ
  sol : Option V

variable {V : Type} [NormedAddCommGroup V] [InnerProductSpace ℝ V]

/-- The update of `_delta`, DL:33-58. -/
noncomputable def dlDelta (s : DL V) (first : Bool) (gain : ℝ) : ℝ :=
  let rho := Dbl.div gain s.L0
  if first then s.delta
  else if Dbl.lt (.fin (3 / 4)) rho then (if s.delta ≤ 3 * ‖s.dx‖ then 3 * ‖s.dx‖ else s.delta)
  else if Dbl.lt (.fin 0) rho && Dbl.lt rho (.fin (1 / 4)) then s.delta / 2
  else if Dbl.le rho (.fin 0) then (if s.step = .gn then s.gnNorm / 2 else s.delta / 2)
  else s.delta

/-- Steepest-descent step after a rebuild, DL:62-79. `none` if the division `rhs^2 / rhsJtJrhs` has denominator
zero. -/
noncomputable def dlRebuild (s : DL V) (l : Lin V) : Option (DL V) :=
  if l.rJJr = 0 then none
  else
    let scale := ‖l.rhs‖ ^ 2 / l.rJJr
    let sd := scale • l.rhs
    some { s with scale := scale, sd := sd, sdNorm := ‖sd‖ }

/-- `_beta`, DL:118-131. -/
noncomputable def dlBeta (sd gn : V) (sdNorm delta : ℝ) : ℝ :=
  let d := gn - sd
  let n := ‖d‖ ^ 2
  let c := inner ℝ sd d
  if c ≤ 0 then (-c + Real.sqrt (c * c + n * (delta * delta - sdNorm * sdNorm))) / n
  else (delta * delta - sdNorm * sdNorm) / (c + Real.sqrt (c * c + n * (delta * delta - sdNorm * sdNorm)))

/-- The choice of the step once steepest-descent and Gauss-Newton step are there, DL:104-136. The factor `1/2` of
line 134 is an integer division, so the first summand of `_L0` vanishes. -/
noncomputable def dlGn (s : DL V) (J : ℝ) : DL V :=
  let delta := if s.delta = 0 then ‖s.sd + (1 / 2 : ℝ) • (s.gn - s.sd)‖ else s.delta
  if s.gnNorm ≤ delta then { s with delta := delta, dx := s.gn, L0 := J, step := .gn }
  else
    let b := dlBeta s.sd s.gn s.sdNorm delta
    { s with delta := delta, dx := s.sd + b • (s.gn - s.sd), L0 := b * (2 - b) * J, step := .dl }

/-- `solveSystemImplementation`, DL:25-142. `none`: not finite. Otherwise the new state and whether a step was
computed (`outDx = _dx`). -/
noncomputable def dlCall (s : DL V) (first prevFailed : Bool) (gain J : ℝ) (l : Lin V) : Option (DL V × Bool) :=
  let s := { s with delta := dlDelta s first gain }
  match (if prevFailed then some s else dlRebuild s l) with
  | none => none
  | some s =>
    if s.sdNorm ≥ s.delta ∧ s.delta ≠ 0 then
      let dx := (s.delta / s.sdNorm) • s.sd
      let L0 := s.delta * (2 * s.sdNorm - s.delta) / (2 * s.scale)
      some ({ s with dx := dx, L0 := L0, step := .sd }, true)
    else if prevFailed then some (dlGn s J, true)
    else match l.sol with
      | none => some (s, false)
      | some g => some (dlGn { s with gn := g, gnNorm := ‖g‖ } J, true)

/-! ### Line search -/

/-- `_scaleStep`, `_resetScaleAfterSuccess`, `_currentScale`, LineSearchTrustRegionPolicy.hpp:35-37. -/
structure LS (K : Type) where
  scaleStep : K
  reset : Bool
  cur : K

/-- Constructor, LS:8-10: throws unless `0 <= scaleStep < 1`. -/
def LS.new {K : Type} [LinearOrder K] [Field K] (scaleStep : K) (reset : Bool) : Res (LS K) :=
  if 0 ≤ scaleStep ∧ scaleStep < 1 then .ok ⟨scaleStep, reset, 1⟩ else .exc

/-- `solveSystemImplementation`, LS:20-40: `sol` is the answer of the linear solver (success and the content of
the output vector), `dx` the content of `outDx`. -/
def LS.call {K V : Type} [LinearOrder K] [Field K] [SMul K V] (s : LS K) (first prevFailed : Bool) (sol : Bool × V) (dx : V) :
    LS K × Bool × V :=
  if first || !prevFailed then
    ({ s with cur := if first || s.reset then 1 else min 1 (s.cur / s.scaleStep) }, sol.1, sol.2)
  else ({ s with cur := s.cur * s.scaleStep }, true, s.scaleStep • dx)

end Verif.Trust
