import Verif.Prelude
import Verif.LineSearch.Model
import Verif.Rprop.Model

/-!
Options read from a configuration. "OB" is aslam_backend/src/OptimizerBase.cpp, "O2" is aslam_backend/src/Optimizer2.cpp; headers are in aslam_backend/include/aslam/backend.
`sm::PropertyTree` is not part of the repository; it is modelled as four partial maps from keys to values of the four types, and `getX(key, default)` returns the value of the key if there is one and the
default otherwise. `double`s are any type with the operations of `FloatLike`; the messages are not modelled.
-/
namespace Verif.Config
open FloatLike

/-- A property tree. External class; used at OB:25-35. -/
structure Tree (F : Type) where
  dbl : String → Option F
  int : String → Option Int
  bool : String → Option Bool
  str : String → Option String

variable {F : Type}

/-- `PropertyTree(config, "name")`: the subtree `name`. Used at aslam_backend/src/OptimizerBFGS.cpp:27. -/
def Tree.sub (t : Tree F) (name : String) : Tree F :=
  ⟨fun k => t.dbl (name ++ "/" ++ k), fun k => t.int (name ++ "/" ++ k), fun k => t.bool (name ++ "/" ++ k), fun k => t.str (name ++ "/" ++ k)⟩

/-- `getDouble(key, default)`. External function; used at OB:25-35. -/
def Tree.getDouble (t : Tree F) (k : String) (d : F) : F := (t.dbl k).getD d
/-- `getInt(key, default)`. External function; used at OB:25-35. -/
def Tree.getInt (t : Tree F) (k : String) (d : Int) : Int := (t.int k).getD d
/-- `getBool(key, default)`. External function; used at OB:25-35. -/
def Tree.getBool (t : Tree F) (k : String) (d : Bool) : Bool := (t.bool k).getD d
/-- `getString(key, default)`. External function; used in `BlockCholeskyLinearSystemSolver(config)`, see `blockSolverOfTree`. -/
def Tree.getString (t : Tree F) (k : String) (d : String) : String := (t.str k).getD d

/-- Conversion of an `int` to a `std::size_t` of 64 bits. -/
def sizeT (i : Int) : Nat := (i % 2 ^ 64).toNat

/-- `getInt` assigned to a member of type `std::size_t`. Used at OB:25-35. -/
def Tree.getCount (t : Tree F) (k : String) (d : Nat) : Nat := sizeT (t.getInt k d)

variable [FloatLike F]

/-- `OptimizerOptionsBase`, OptimizerBase.hpp:59-64. -/
structure Base (F : Type) where
  convergenceGradientNorm : F
  convergenceDeltaX : F
  convergenceDeltaError : F
  maxIterations : Int
  numThreadsJacobian : Nat
  numThreadsError : Nat

/-- The initial values, OptimizerBase.hpp:59-64. -/
def Base.dflt : Base F := ⟨lit (1 / 1000), lit 0, lit 0, 100, 4, 1⟩

/-- `OptimizerOptionsBase::check`, OB:37-44. -/
def Base.check (o : Base F) : Bool :=
  le (lit 0) o.convergenceGradientNorm && le (lit 0) o.convergenceDeltaX && le (lit 0) o.convergenceDeltaError &&
  (lt (lit 0) o.convergenceDeltaX || lt (lit 0) o.convergenceGradientNorm || lt (lit 0) o.convergenceDeltaError) && decide (-1 ≤ o.maxIterations)

/-- `OptimizerOptionsBase(config)`, OB:25-35. -/
def Base.ofTree (t : Tree F) : Res (Base F) :=
  let d : Base F := .dflt
  let o : Base F := ⟨t.getDouble "convergenceGradientNorm" d.convergenceGradientNorm, t.getDouble "convergenceDeltaX" d.convergenceDeltaX,
    t.getDouble "convergenceDeltaError" d.convergenceDeltaError, t.getInt "maxIterations" d.maxIterations, t.getCount "numThreadsJacobian" d.numThreadsJacobian,
    t.getCount "numThreadsError" d.numThreadsError⟩
  if o.check then .ok o else .exc

/-- `OptimizerOptionsRprop`, OptimizerRprop.hpp:27-34, without the regularizer. -/
structure RpropOptions (F : Type) extends Base F where
  etaMinus : F
  etaPlus : F
  initialDelta : F
  minDelta : F
  maxDelta : F
  useDenseJacobianContainer : Bool
  method : Rprop.Method

/-- `OptimizerOptionsRprop::check`, aslam_backend/src/OptimizerRprop.cpp:29-37. -/
def RpropOptions.check (o : RpropOptions F) : Bool :=
  lt (lit 0) o.etaMinus && lt o.etaMinus o.etaPlus && lt (lit 0) o.initialDelta && lt (lit 0) o.minDelta && lt o.minDelta o.maxDelta && o.toBase.check

/-- `OptimizerOptionsRprop(config)`, aslam_backend/src/OptimizerRprop.cpp:18-27, with the initial values of OptimizerRprop.hpp:27-34. -/
def RpropOptions.ofTree (t : Tree F) : Res (RpropOptions F) :=
  Base.ofTree t >>= fun b =>
  let o : RpropOptions F := {
    toBase := b, etaMinus := t.getDouble "etaMinus" (lit (1 / 2)), etaPlus := t.getDouble "etaPlus" (lit (6 / 5)),
    initialDelta := t.getDouble "initialDelta" (lit (1 / 10)), minDelta := t.getDouble "minDelta" (lit (1 / 10 ^ 20)), maxDelta := t.getDouble "maxDelta" (lit 1),
    useDenseJacobianContainer := true, method := .rpropPlus }
  if o.check then .ok o else .exc

/-- `LineSearchOptions(config)`, aslam_backend/src/LineSearch.cpp:392-404, with the initial values of LineSearch.hpp:182-190. -/
def lineSearchOfTree (t : Tree F) : Res (LineSearch.Opt F) :=
  let o : LineSearch.Opt F := {
    c1 := t.getDouble "c1WolfeCondition" (lit (1 / 10000)), c2 := t.getDouble "c2WolfeCondition" (lit (9 / 10)),
    maxStep := t.getDouble "maxStepLength" (lit 50), minStep := t.getDouble "minStepLength" (lit (1 / 10 ^ 8)), xtol := t.getDouble "xtol" (lit (1 / 10 ^ 14)),
    initStep := t.getDouble "initialStepLength" (lit 1), nWolfe1 := t.getCount "nMaxIterWolfe1" 30, nWolfe2 := t.getCount "nMaxIterWolfe2" 10, nZoom := t.getCount "nMaxIterZoom" 10 }
  if o.check then .ok o else .exc

/-- `OptimizerOptionsBFGS`, OptimizerBFGS.hpp:23-25, without the regularizer. -/
structure BfgsOptions (F : Type) extends Base F where
  linesearch : LineSearch.Opt F
  useDenseJacobianContainer : Bool

/-- `OptimizerOptionsBFGS(config)`, aslam_backend/src/OptimizerBFGS.cpp:26-32. -/
def BfgsOptions.ofTree (t : Tree F) : Res (BfgsOptions F) :=
  Base.ofTree t >>= fun b =>
  lineSearchOfTree (t.sub "linesearch") >>= fun l =>
  let o : BfgsOptions F := { toBase := b, linesearch := l, useDenseJacobianContainer := t.getBool "useDenseJacobianContainer" true }
  if o.linesearch.check then .ok o else .exc

/-- `SamplerHybridMcmcOptions`, SamplerHybridMcmc.hpp:29-37. -/
structure HmcOptions (F : Type) where
  initialLeapFrogStepSize : F
  minLeapFrogStepSize : F
  maxLeapFrogStepSize : F
  incFactorLeapFrogStepSize : F
  decFactorLeapFrogStepSize : F
  targetAcceptanceRate : F
  standardDeviationMomentum : F
  nLeapFrogSteps : Nat
  nThreads : Nat
  deriving DecidableEq

/-- `SamplerHybridMcmcOptions::check`, aslam_backend/src/SamplerHybridMcmc.cpp:41-53. -/
def HmcOptions.check (o : HmcOptions F) : Bool :=
  lt (lit 0) o.initialLeapFrogStepSize && le o.minLeapFrogStepSize o.initialLeapFrogStepSize && le o.initialLeapFrogStepSize o.maxLeapFrogStepSize && lt (lit 0) o.minLeapFrogStepSize &&
  lt (lit 0) o.maxLeapFrogStepSize && le o.minLeapFrogStepSize o.maxLeapFrogStepSize && le (lit 1) o.incFactorLeapFrogStepSize && lt (lit 0) o.decFactorLeapFrogStepSize &&
  le o.decFactorLeapFrogStepSize (lit 1) && le (lit 0) o.targetAcceptanceRate && le o.targetAcceptanceRate (lit 1)

/-- `SamplerHybridMcmcOptions(config)`, aslam_backend/src/SamplerHybridMcmc.cpp:26-39, with the initial values of SamplerHybridMcmc.hpp:29-37. `nThreads` is read with `getDouble` and converted to
`std::size_t` by `trunc`, which is undefined (`none`) for values the type cannot represent. -/
def HmcOptions.ofTree (trunc : F → Option Nat) (t : Tree F) : Res (HmcOptions F) :=
  match trunc (t.getDouble "nThreads" (lit 2)) with
  | none => .ub
  | some n =>
    let o : HmcOptions F := {
      initialLeapFrogStepSize := t.getDouble "initialLeapFrogStepSize" (lit (1 / 10)), minLeapFrogStepSize := t.getDouble "minLeapFrogStepSize" (lit (1 / 1000)),
      maxLeapFrogStepSize := t.getDouble "maxLeapFrogStepSize" (lit (1 / 2)), incFactorLeapFrogStepSize := t.getDouble "incFactorLeapFrogStepSize" (lit (102 / 100)),
      decFactorLeapFrogStepSize := t.getDouble "decFactorLeapFrogStepSize" (lit (98 / 100)), targetAcceptanceRate := t.getDouble "targetAcceptanceRate" (lit (9 / 10)),
      standardDeviationMomentum := lit 1, nLeapFrogSteps := t.getCount "nLeapFrogSteps" 20, nThreads := n }
    if o.check then .ok o else .exc

/-- `SamplerMetropolisHastingsOptions`, SamplerMetropolisHastings.hpp:21-22. -/
structure MhOptions (F : Type) where
  transitionKernelSigma : F
  nThreadsEvaluateLogDensity : Nat

/-- `SamplerMetropolisHastingsOptions::check`, aslam_backend/src/SamplerMetropolisHastings.cpp:29-31; no constructor calls it. -/
def MhOptions.check (o : MhOptions F) : Bool := lt (lit 0) o.transitionKernelSigma

/-- `SamplerMetropolisHastingsOptions(config)`, aslam_backend/src/SamplerMetropolisHastings.cpp:24-27. -/
def MhOptions.ofTree (trunc : F → Option Nat) (t : Tree F) : Res (MhOptions F) :=
  match trunc (t.getDouble "nThreadsEvaluateLogDensity" (lit 1)) with
  | none => .ub
  | some n => .ok ⟨t.getDouble "transitionKernelSigma" (lit (1 / 10)), n⟩

/-- `SparseQRLinearSolverOptions`, SparseQRLinearSolverOptions.h:55-61. -/
structure QrOptions (F : Type) where
  colNorm : Bool
  qrTol : F
  normTol : F
  verbose : Bool

/-- `SparseQrLinearSystemSolver(config)`, aslam_backend/src/SparseQrLinearSystemSolver.cpp:11-20, with the initial values of aslam_backend/src/SparseQRLinearSolverOptions.cpp:29-34; `tol` is
`SPQR_DEFAULT_TOL`. -/
def QrOptions.ofTree (tol : F) (t : Tree F) : QrOptions F :=
  ⟨t.getBool "colNorm" false, t.getDouble "qrTol" tol, t.getDouble "normTol" (lit (1 / 10 ^ 8)), t.getBool "verbose" false⟩

/-- The parameters of `LevenbergMarquardtTrustRegionPolicy`, LevenbergMarquardtTrustRegionPolicy.hpp:38-42. -/
structure LmOptions (F : Type) where
  lambdaInit : F
  gammaInit : F
  betaInit : F
  pInit : Int
  muInit : F

/-- `LevenbergMarquardtTrustRegionPolicy(config)`, aslam_backend/src/LevenbergMarquardtTrustRegionPolicy.cpp:26-32. -/
def LmOptions.ofTree (t : Tree F) : LmOptions F :=
  ⟨t.getDouble "lambdaInit" (lit (1 / 1000)), t.getDouble "gammaInit" (lit 3), t.getDouble "betaInit" (lit 2), t.getInt "pInit" 3, t.getDouble "muInit" (lit 2)⟩

/-- `getDeprecatedPropertyIfItExists`, O2:21-34. `ne` is the `!=` of the type, `v` and `dep` are the values of the two keys. -/
def deprecated {α : Type} (ne : α → α → Bool) (dep v : Option α) (dflt : α) : Res α :=
  if ne (dep.getD dflt) dflt then (if ne (v.getD dflt) dflt then .exc else .ok (dep.getD dflt)) else .ok (v.getD dflt)

/-- `Optimizer2Options`, Optimizer2Options.hpp:14-36, without the solver and the policy. -/
structure Options2 (F : Type) extends Base F where
  doSchurComplement : Bool
  verbose : Bool
  linearSolverMaximumFails : Int

/-- The default constructor, Optimizer2Options.hpp:15-23. -/
def Options2.dflt : Options2 F :=
  { toBase := { Base.dflt with convergenceDeltaError := lit (1 / 1000), convergenceDeltaX := lit (1 / 1000), maxIterations := 20 },
    doSchurComplement := false, verbose := false, linearSolverMaximumFails := 0 }

/-- `Optimizer2(config, solver, policy)`, O2:49-65: the options it runs with. There is no check. -/
def Options2.ofTree (t : Tree F) : Res (Options2 F) :=
  let d : Options2 F := .dflt
  deprecated (fun a b => !FloatLike.eq a b) (t.dbl "convergenceDeltaJ") (t.dbl "convergenceDeltaError") d.convergenceDeltaError >>= fun ce =>
  deprecated (fun a b => a != b) (t.int "nThreads") (t.int "numThreadsJacobian") (d.numThreadsJacobian : Int) >>= fun nt =>
  .ok { convergenceGradientNorm := d.convergenceGradientNorm, convergenceDeltaX := t.getDouble "convergenceDeltaX" d.convergenceDeltaX, convergenceDeltaError := ce,
        maxIterations := t.getInt "maxIterations" d.maxIterations, numThreadsJacobian := sizeT nt, numThreadsError := t.getCount "numThreadsError" d.numThreadsError,
        doSchurComplement := t.getBool "doSchurComplement" d.doSchurComplement, verbose := t.getBool "verbose" d.verbose,
        linearSolverMaximumFails := t.getInt "linearSolverMaximumFails" d.linearSolverMaximumFails }

/-- The linear solvers on block matrices. aslam_backend/src/BlockCholeskyLinearSystemSolver.cpp:21-28, 38-45; aslam_backend/src/Optimizer.cpp:40-60. -/
inductive BlockSolver
  | cholmod | dense | qr
  deriving DecidableEq

/-- `Optimizer::initializeLinearSolver`, aslam_backend/src/Optimizer.cpp:40-60, built with SPQR. -/
def legacySolver (name : String) : BlockSolver :=
  if name = "cholmod" then .cholmod else if name = "dense" then .dense else if name = "spqr" then .qr else .cholmod

/-- `BlockCholeskyLinearSystemSolver(config)` and `initMatrixStructureImplementation`, aslam_backend/src/BlockCholeskyLinearSystemSolver.cpp:17-28 and 37-44: the solver they create. -/
def blockSolverOfTree (t : Tree F) : BlockSolver :=
  if t.getString "solverType" "cholesky" = "cholesky" then .cholmod else if t.getString "solverType" "cholesky" = "spqr" then .qr else .cholmod

end Verif.Config
