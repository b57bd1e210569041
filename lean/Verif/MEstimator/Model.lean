import Mathlib.Analysis.SpecialFunctions.Log.Basic
import Mathlib.Analysis.SpecialFunctions.Sqrt

/-!
Model of the M-estimator policies (`aslam_backend/src/MEstimatorPolicies.cpp`, ME below) and of the
probabilistic data association callback (`aslam_backend/src/ProbDataAssocPolicy.cpp`, PDA below).
Simplified: real numbers instead of doubles.
-/
namespace Verif.MEstimator

/-- `NoMEstimator::getWeight`, ME:20-22. -/
def noWeight (_ : ℝ) : ℝ := 1

/-- `GemanMcClureMEstimator::getWeight`, ME:33-36. -/
noncomputable def gemanMcClure (sigma2 error : ℝ) : ℝ :=
  let se := sigma2 + error
  sigma2 / (se * se)

/-- `CauchyMEstimator::getWeight`, ME:49-52. -/
noncomputable def cauchy (sigma2 error : ℝ) : ℝ :=
  let se := error / sigma2
  1 / (1 + se)

/-- `HuberMEstimator::getWeight`, ME:67-69, with `_k2 = k*k` (line 65). -/
noncomputable def huber (k error : ℝ) : ℝ := if error < k * k then 1 else k / Real.sqrt error

/-- `BlakeZissermanMEstimator::getWeight`, ME:105-107. -/
noncomputable def blakeZisserman (epsilon m2 : ℝ) : ℝ := Real.exp (-m2) / (Real.exp (-m2) + epsilon)

/-- `BlakeZissermanMEstimator::computeEpsilon`, ME:117-120. `quantile` is `chi2InvCDF(pCut, df)`
(ME:113-116, boost), a parameter. -/
noncomputable def computeEpsilon (quantile wCut : ℝ) : ℝ := (1 - wCut) / wCut * Real.exp (-quantile)

/-- `FixedWeightMEstimator::getWeight`, ME:129-131. -/
def fixedWeight (w : ℝ) (_ : ℝ) : ℝ := w

/-- The value `ErrorTerm::getWeightedSquaredError()` returns (`ErrorTerm.hpp:122`): weight times raw
squared error. -/
def weighted (w : ℝ → ℝ) (rawSq : ℝ) : ℝ := w rawSq * rawSq

/-- Running maximum of the loop PDA:20-30. -/
noncomputable def maxLog : Option ℝ → List ℝ → ℝ
  | none, [] => 0
  | some m, [] => m
  | none, x :: xs => maxLog (some x) xs
  | some m, x :: xs => maxLog (some (if m < x then x else m)) xs

/-- `log_weight` of a term, PDA:22 with `scaling_factor_ = -lambda/2` (line 10). -/
noncomputable def logWeight (lambda rawSq : ℝ) : ℝ := -lambda / 2 * rawSq

/-- `log_norm_constant`, PDA:33-37. -/
noncomputable def logNorm (ws : List ℝ) : ℝ :=
  Real.log ((ws.map fun w => Real.exp (w - maxLog none ws)).sum) + maxLog none ws

/-- The weights `callback()` sets on the terms of one group, PDA:15-45, from their raw squared errors. -/
noncomputable def pdaGroup (lambda : ℝ) (errs : List ℝ) : List ℝ :=
  let ws := errs.map (logWeight lambda)
  ws.map fun w => w - logNorm ws

/-- `callback()`, PDA:14-46: all groups. -/
noncomputable def pdaCallback (lambda : ℝ) (groups : List (List ℝ)) : List (List ℝ) :=
  groups.map (pdaGroup lambda)

end Verif.MEstimator
