import Verif.Prelude
import Verif.BFGS.Again
import Verif.BFGS.Events
import Verif.BFGS.Model
import Verif.BFGS.Props
import Verif.CCM.Append
import Verif.CCM.Assemble
import Verif.CCM.Build
import Verif.CCM.Lemmas
import Verif.CCM.Model
import Verif.CCM.Ops
import Verif.CCM.Props
import Verif.CCS.Basic
import Verif.Cache.Model
import Verif.Cache.Props
import Verif.Camera.Model
import Verif.Camera.Props
import Verif.CholSolver.Model
import Verif.CholSolver.Pattern
import Verif.CholSolver.Props
import Verif.CholSolver.Spec
import Verif.Config.Archive
import Verif.Config.Model
import Verif.Config.Props
import Verif.Covariance.Model
import Verif.Covariance.Props
import Verif.Dbl
import Verif.DesignVar.DiffJac
import Verif.DesignVar.Lemmas
import Verif.DesignVar.Model
import Verif.DesignVar.Pattern
import Verif.DesignVar.Props
import Verif.Direct.Dense
import Verif.Direct.Lemmas
import Verif.Direct.Model
import Verif.Direct.Perm
import Verif.Direct.Props
import Verif.ErrorTerm.Model
import Verif.ErrorTerm.Props
import Verif.ErrorTerm.Residuals
import Verif.ErrorTerm.Setup
import Verif.Expr.Depend
import Verif.Expr.Deriv
import Verif.Expr.Handle
import Verif.Expr.History
import Verif.Expr.Lemmas
import Verif.Expr.Model
import Verif.Expr.Operators
import Verif.Expr.Parameters
import Verif.Expr.Program
import Verif.Expr.ProgramProps
import Verif.Expr.Props
import Verif.Expr.Scalar
import Verif.Expr.ScalarLemmas
import Verif.Expr.Series
import Verif.Expr.Spec
import Verif.ExprTerm.HessianOut
import Verif.ExprTerm.Lemmas
import Verif.ExprTerm.Model
import Verif.ExprTerm.Props
import Verif.ExprTerm.Robust
import Verif.FiniteDiff.Model
import Verif.FiniteDiff.Props
import Verif.FixedPoint.Model
import Verif.FixedPoint.Props
import Verif.GenExpr.Exp
import Verif.GenExpr.Geodesic
import Verif.GenExpr.Lemmas
import Verif.GenExpr.LogExp
import Verif.GenExpr.Main
import Verif.GenExpr.Model
import Verif.GenExpr.Props
import Verif.GenExpr.Scalar
import Verif.GenExpr.Spec
import Verif.Geo
import Verif.Gradient.Model
import Verif.Gradient.Props
import Verif.Gradient.Scaling
import Verif.Hessian.Lemmas
import Verif.Hessian.Model
import Verif.Hessian.Props
import Verif.Iface.Model
import Verif.Iface.Props
import Verif.Jacobian.Adds
import Verif.Jacobian.Chain
import Verif.Jacobian.Export
import Verif.Jacobian.Finite
import Verif.Jacobian.Lemmas
import Verif.Jacobian.Merge
import Verif.Jacobian.Model
import Verif.Jacobian.Props
import Verif.Jacobian.Spec
import Verif.Kinematic.Model
import Verif.Kinematic.Props
import Verif.Legacy.Events
import Verif.Legacy.Model
import Verif.Legacy.Props
import Verif.LegacyCov.Model
import Verif.LegacyCov.Props
import Verif.LegacyInit.DogLeg
import Verif.LegacyInit.Model
import Verif.LegacyInit.Props
import Verif.LegacyRun.Model
import Verif.LegacyRun.Normal
import Verif.LegacyRun.Props
import Verif.LegacyStep.Definite
import Verif.LegacyStep.DeltaX
import Verif.LegacyStep.Gain
import Verif.LegacyStep.Model
import Verif.LegacyStep.Props
import Verif.LineSearch.Bracket
import Verif.LineSearch.Dcstep
import Verif.LineSearch.First
import Verif.LineSearch.Growth
import Verif.LineSearch.Interp
import Verif.LineSearch.Lemmas
import Verif.LineSearch.Model
import Verif.LineSearch.Props
import Verif.LineSearch.Zoom
import Verif.MEstimator.Model
import Verif.MEstimator.Props
import Verif.MEstimator.Robust
import Verif.Manager.Model
import Verif.Manager.Props
import Verif.Marginal.Chain
import Verif.Marginal.Model
import Verif.Marginal.Props
import Verif.Marginal.Window
import Verif.MatrixStack.Guard
import Verif.MatrixStack.GuardProps
import Verif.MatrixStack.Lemmas
import Verif.MatrixStack.Model
import Verif.MatrixStack.Props
import Verif.MatrixStack.Spec
import Verif.Motion.Descent
import Verif.Motion.Gradient
import Verif.Motion.Lemmas
import Verif.Motion.Model
import Verif.Motion.Optimize
import Verif.Motion.Props
import Verif.Num
import Verif.Opt2Setup.Model
import Verif.Opt2Setup.Props
import Verif.OptObj.Model
import Verif.OptObj.Props
import Verif.Optimizer2.Callbacks
import Verif.Optimizer2.Events
import Verif.Optimizer2.Model
import Verif.Optimizer2.Props
import Verif.Optimizer2.PyCallbacks
import Verif.PCG.Abstract
import Verif.PCG.History
import Verif.PCG.Lemmas
import Verif.PCG.Model
import Verif.PCG.Props
import Verif.PCG.Solve
import Verif.PCG.Spec
import Verif.Policy.DogLeg
import Verif.Policy.DogLegLinear
import Verif.Policy.DogLegNan
import Verif.Policy.Ends
import Verif.Policy.Fresh
import Verif.Policy.Linear
import Verif.Policy.Live
import Verif.Policy.Model
import Verif.Policy.Nan
import Verif.Policy.Rate
import Verif.Policy.Reuse
import Verif.PriorTerm.Model
import Verif.PriorTerm.Props
import Verif.Problem.Model
import Verif.Problem.Props
import Verif.Problem.Spec
import Verif.QrSolver.Lemmas
import Verif.QrSolver.Model
import Verif.QrSolver.Props
import Verif.Quat.Deriv
import Verif.Quat.Lemmas
import Verif.Quat.Model
import Verif.Quat.Props
import Verif.Quat.Spec
import Verif.Rprop.Again
import Verif.Rprop.Converge
import Verif.Rprop.Events
import Verif.Rprop.Model
import Verif.Rprop.Moves
import Verif.Rprop.Props
import Verif.SBM.Algebra
import Verif.SBM.CCSLemmas
import Verif.SBM.CCSModel
import Verif.SBM.CCSProps
import Verif.SBM.Lemmas
import Verif.SBM.Model
import Verif.SBM.Octave
import Verif.SBM.Parallel
import Verif.SBM.Props
import Verif.SBM.Python
import Verif.SBM.Spec
import Verif.SBMOwn.Lemmas
import Verif.SBMOwn.Model
import Verif.SBMOwn.Props
import Verif.SBMOwn.Refine
import Verif.SBMOwn.Spec
import Verif.SBMOwn.View
import Verif.Sampler.Finite
import Verif.Sampler.Hybrid
import Verif.Sampler.Leapfrog
import Verif.Sampler.Model
import Verif.Sampler.Props
import Verif.Schur.Definite
import Verif.Schur.Lemmas
import Verif.Schur.Model
import Verif.Schur.Props
import Verif.Solver.Interchange
import Verif.Solver.Lemmas
import Verif.Solver.Model
import Verif.Solver.Props
import Verif.Solver.Rebuild
import Verif.Solver.RebuildSolve
import Verif.Text.Model
import Verif.Text.Props
import Verif.Threads.Model
import Verif.Threads.Props
import Verif.Trust.BlockRun
import Verif.Trust.Model
import Verif.Trust.Props
import Verif.Trust.Stationary
import Verif.Tutorial.Model
import Verif.Tutorial.Props
