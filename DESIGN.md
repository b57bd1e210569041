# Formal model of aslam_optimizer: design

The model is written in Lean 4 (4.33.0, with single Mathlib modules) under `lean/Verif`.
Source paths below are relative to `/repo`. The C++ is read as text; nothing is compiled or run.

## 1. Trusted base

* Lean's kernel.
* The axioms `propext`, `Classical.choice`, `Quot.sound` (Lean's standard ones). No other axiom,
  no `sorry`, no `native_decide`, no `bv_decide`. Section 6 lists the axioms per theorem.
* The reading of the C++ by which each definition was written. Every definition cites the file and
  lines it models; simplifications are stated in that comment.

## 2. Modelling conventions

* **State machines.** An object is a structure; a method is a function from the old object to the
  new one (and an output). A throwing method returns `none` or `Except.error`; undefined behaviour is
  a distinct outcome (`Res.ub` or an explicit `ub` constructor), never a default value.
* **Assertions.** `SM_ASSERT_*` always throw; `SM_ASSERT_*_DBG` are checks in debug builds only. Where
  the difference matters the model has a `debug : Bool` parameter.
* **Numbers.** Linear algebra is done over an arbitrary commutative ring / field or over `ℝ`
  (exact arithmetic; rounding is not modelled). Control flow that compares doubles uses `Dbl`
  (`nan | -inf | finite r | +inf`), with C++ comparison semantics (every comparison with NaN is false).
* **Matrices.** Entry functions with explicit sizes, or Mathlib `Matrix` for laws that are purely
  algebraic.
* **External code** (Eigen, CHOLMOD, SPQR, random generators, user error terms) is a parameter. Its
  assumed contract is a hypothesis of the theorem and named there.
* **Threads.** A threaded computation is a set of per-thread step lists and the theorem quantifies
  over every interleaving.
* **Findings.** If the property is false of the code, the model follows the code, the negation is
  proved on a concrete witness (`..._counterexample`), and what does hold is proved with suffix
  `_partial`.

## 3. Plan per property

| id | modelled | proof |
|----|----------|-------|
| C01 | `MatrixStack` headers + flat buffer, push/pop/top | refinement to a list of factors, induction over histories |
| C02 | `allocate` with alignment and reallocation | invariant over histories: consecutive disjoint aligned regions |
| C03 | guard objects as owners, scope programs | induction over well-nested programs; witness for move-assign leak |
| C04 | `addImpl`, sparse map, activity flags, scoped programs | induction over scope trees against a sum specification |
| C05 | merge loop of `add(rhs)` over sorted maps | loop invariant on both iterators |
| C06 | dense and prescale containers | simulation between containers |
| C07 | block Hessian loops | induction over block lists; bilinear sum specification |
| C08 | weighted error, chi², invR, ExpressionErrorTerm | matrix identity; witness for the transposed factor |
| C09–C11 | `OptimizationProblem`, `SimpleOptimizationProblem` as state machines | invariant over histories; witnesses for non-squared terms |
| C12–C17 | `CompressedColumnMatrix` arrays | representation invariant, lookup lemma, prefix sums; witness for `clear` |
| C18, C19 | range partition, interleavings of disjoint writers | arithmetic; commutation of independent writes |
| C20–C22 | `ProblemManager` layout, update/revert, save/restore | prefix-sum induction; history induction; witness for flatten |
| C23–C26 | `Optimizer2::optimizeImplementation` as a loop over oracle answers | induction over iterations; witnesses for sticky failure and NaN |
| C27–C30 | trust-region policies as state machines | invariants; witness for the gain after a rejection |
| C31 | legacy `Optimizer` loop | invariant; witness for revert after solver failure |
| C32, C33 | status functions, callback registry | case analysis; induction over lists |
| C34, C35 | Rprop iteration | invariant; witnesses |
| C36 | BFGS update over `ℝ` matrices | matrix identities, quadratic forms |
| C37, C38 | `LineSearch` control flow over an arbitrary objective | loop invariants; witness for the zoom test |
| C39–C41 | samplers over random-number oracles | invariants; witness for NaN |
| C42–C44 | weight functions over `ℝ` | real inequalities; log-sum-exp identity |
| C45–C47 | conditioner handling of the solvers | algebra; witnesses for block Cholesky |
| C48–C50 | Schur complement, QR marginalisation | matrix identities; witness for exception path |
| C51–C53 | `SparseBlockMatrix` over block maps | commutation with dense expansion |
| C54 | recursive covariance recovery | well-founded recursion; triangular system uniqueness |
| C55 | fixed-point arithmetic on integers with C++ conversions | integer division bounds; witness for negative conversion |
| C56 | cache nodes, invalidation, readers | invariant over histories and interleavings; witnesses |
| C57, C58 | expression trees over `ℝ` | structural induction with `HasDerivAt`/`HasFDerivAt` |
| C59, C60 | rotation/Euclidean/transformation trees | structural induction; stale-value witnesses |
| C61, C62 | empty operands; variable sets | case analysis; witnesses |
| C63 | design-variable state machines | history induction; witnesses |
| C64 | quaternion products | ring identities |
| C65 | kinematic chain formulas | derivatives of matrix products; witness for the Coriolis term |
| C66 | L1 term | convexity inequality |
| C67 | `JacobianContainerSparse::reset` | witness; simulation with a new container for an unchanged row count |
| C68 | compressed-column exports | counting lemmas over the column loops |
| C69 | weighted squared error as a function of the raw one | real inequalities; witnesses for redescending weights |
| C70 | `computeGradient`, jobs per thread, both containers | refinement to a sum over error terms; partition of the term list |
| C71, C72 | iteration counters and events of `Optimizer2` | induction over iterations; witnesses |
| C73, C75 | dog-leg predicted reduction and steepest-descent step | inner-product algebra; witnesses |
| C74 | `setInitialLambda` of the legacy optimizer | witnesses; partial for one entry |
| C76, C77 | `LineSearch` step lengths and interpolation | loop invariant; analysis of parabola and cubic |
| C78 | BFGS optimizer loop | loop invariant; witness for failed line searches |
| C79 | leap-frog integrator | reversibility by induction, `MeasurePreserving` shears, exponentials |
| C80 | scaling of design variables in the solvers | change of variables in the normal equations; witness |
| C81 | scalar non-squared error terms | case analysis; witnesses |
| C82 | conjugate gradient solve | abstract preconditioned CG (conjugacy and orthogonality invariants, dimension bound), refinement of the loop to it; witness |
| C83 | conjugate gradient solver over histories | invariant over calls with generation-tagged block pointers; witnesses |
| C84 | cached arrays and analysis of the direct solvers | invariant over calls (arrays hold the pattern the analysis belongs to); pattern-only dependence of the exports; witnesses |
| C85 | block ordering | capacity invariant; permutation algebra on lists |
| C86 | error terms with a prior | derivative of the composed error along curves; members up to date as an invariant of histories; witnesses |
| C87 | finite differences | update and revert loops as functions; Taylor bound by integrating derivative bounds; witnesses |
| C88 | numerical check of Jacobians | soundness from C87; witnesses |
| C89 | matrix implementations are interchangeable | each class refines one specification of scripts of calls; witnesses |
| C90 | dense solution of block systems | the copied upper triangle; uniqueness of solutions; agreement with C82; witnesses |
| C91 | Jacobian of the minimal difference | derivative along every line of updates; explicit derivative of the quaternion logarithm as witness of the laws; counterexamples |
| C92 | camera design variables | contributions to a container (C04) composed with the derivative of the camera; counterexample |
| C93 | tutorial problem | induction along the odometry chain; counterexamples for few steps |
| C94 | steps come from the current linearisation | invariant of the optimizer loop composed with each policy; counterexamples after failed solves |
| C95 | rejections end | descent for strong damping and short steps from differentiability, carried through the loop; counterexample for dog-leg |
| C96 | linear problems | uniqueness of the solution of the normal equations; exact step; comparison of distances in the damped case |
| C97 | update pattern of matrix variables | loop invariant of the constructor (columns filled so far belong to the entries marked so far); induction over histories |
| C98 | marginalising step by step | both priors are minima of the same linearised cost (C49); the prior term reproduces the cost of the calls before; induction over the calls |
| C99 | brackets of the first line search | each step rule of `dcstep` lands between its two points (discriminant of the cubic); invariant of the search on values and slopes at the ends; intermediate value theorem for the contents; counterexample for large `c1` |
| C100 | expression problems end to end | derivative of each term along a motion from C59, calls under the weight factor, sums over the active variables; C70 and C07 for the assembly; counterexample for a non-symmetric root |
| C101 | text of expressions | the stream equals a grammar; prefix lemma for clean names and values, mutual induction over trees and argument lists; counterexamples for unquoted names and for differences |
| C102 | interchangeable solvers | each answer minimises the same cost (C46), midpoint identity gives uniqueness; counterexample with a free direction |
| C103 | order of registration | minimisers satisfy the normal equations, sums over permuted ranges, uniqueness for regular systems; includes the drift of block Cholesky |
| C104 | robust costs | the loss of each estimator has the weight as derivative; mean value theorem with decreasing weights gives the tangent bound; derivatives of frozen and robust cost agree, on top of C100; counterexample for the reported cost |
| C105 | containers as matrices | C04/C06 give the content; the exported matrix is a sparse block matrix with one block row, whose assignments are specified by C09's lemmas; positions by `Layout`; counterexample |
| C106 | finiteness checks | loop over the variables, sums that are only finite if the terms are; history of `ErrorTermDs` as state machine; counterexamples |
| C107 | last step and convergence | invariant of the loop of `Optimizer2` with base class, damping and solver state: the gain seen by the policy is at least the true one, the predicted decrease is positive, so the system is rebuilt exactly when the state has changed; counterexamples |
| C108 | Jacobians and `update` | the curves `s -> update(s δ)` of the design variable classes satisfy the hypothesis `Moves` of the expression theorems (derivative of `quat2r` and `updateQuat`); composed with C59 and C100; invariant: unit quaternions stay unit |
| C109 | rotation from four numbers | derivative of `quat2r` on the unit sphere; refutation for additive updates |
| C110 | transformations in user memory | induction over calls; refutation for assignments by the owner |
| C111 | getters of the sparse QR solver | induction over histories with library results as oracle; refutations for stale rank, stale and rejected triangular factors |
| C112 | objects of the numerical library | heap of live objects, invariant over histories; refutations for exceptions and copies |
| C113 | sparse block matrices as values | refinement: heap with block pointers and ownership flag, against matrices as values; induction over programs without views |
| C114 | owners of blocks, views | invariant over all programs; views: pointers are kept while owner and view stay in place; refutations for assignment to a view and for dangling views |
| C115 | initialisation of the legacy optimizer | all reachable problems (induction over histories through C09); refutations for duplicates, non-squared terms, stale indices |
| C116 | steps of the legacy dog-leg method | induction over passes, reduction to the lemmas on the dog-leg path of C29; bound on the number of rejections; refutation for every problem with a marginalised variable |
| C117 | sparse Cholesky solver over histories | refinement: object with heap and appended diagonal, against a machine with the current matrix; the library is an oracle; refutation: a failed analysis leaves the diagonal appended |
| C118 | how `Optimizer2` gets solver, policy and problem | objects with identity, invariant over all programs, preservation under undisturbing calls; witnesses for the rest |
| C119 | a step of the legacy optimizer | composition of C07 (normal equations), C48 (Schur complement) and C115 (layout): the updates solve the damped normal equations of the whole problem; witness for coupled marginalised variables |
| C120 | predicted reduction of the legacy Levenberg-Marquardt step | quadratic forms over an ordered field: lower and upper bound, equality without marginalised variables; witness otherwise |
| C121 | reported size of a step | maximum of the changes; witness for scalings other than one |
| C122 | options from a configuration | specification of every option by its key and default; equivalence of "constructor returns o" with "the tree describes o and o is valid"; witnesses for unchecked and converted values |
| C123 | archives of options and status | round trip for every object, every target and every rest of the archive; witness for the class that inherits `serialize` |
| C124 | Hessian and covariances of the legacy optimizer | invariant of the loops on the estimate at which `_H` was built; refinement of histories of covariance requests to the user's bookkeeping, on top of C54; scaling by C07; witnesses for the estimate one step back and for scaled variables |
| C125 | damping and termination of the legacy Levenberg-Marquardt method | closed form of the damping after rejected steps; invariant of the loop (cost, damping finite and positive); termination by counting accepted steps and by the growth of the damping; composed with C119, C120, C121 and definiteness of the reduced system (C48); witness for zero damping |
| C126 | the optimizer ends by itself | termination by counting accepted steps and by the geometric decrease of a bound on rejected steps, independent of the budget; witnesses for Gauss-Newton (a cycle) and dog-leg (the run of C95) |
| C127 | geodesics of unit quaternions | `geoLog` and `geoExp` as expressions over C58 and C64; the external logarithm is a parameter with three properties, which a logarithm with arc cosine and arc sine branches is shown to have, together with its derivative |
| C128 | the Hessian an optimizer hands out | `computeHessian` of `Optimizer2` on top of C100: new block solver, conditioner, error evaluation, `buildSystem`, `cloneInto`; quadratic form of the result = squared rate of the whitened errors |
| C129 | text files of sparse matrices | `writeOctave`, `writeCCSMatrix`, `MatrixStructure::write` as lists of lines; a reader's specification of Octave's sparse format (strict order, indices from one, each coefficient once); `std::sort` is any function that permutes and sorts |
| C130 | Optimizer2 on expression error terms | composition of the loop (C24), the policies (C107), the normal equations of expression terms (C100) and the motion of design variables (C108); `applyStateUpdate` and `revertLastStateUpdate` on a world of design variables |
| C131 | Levenberg-Marquardt with block Cholesky | the run of C107 with a solver that has a state: an invariant relates its matrix to the system that was built and to the list of dampings used since; false in general, counterexamples |
| C132 | Formulas with scalar expressions | a formula language with its own meaning over the reals; the expression built by the operators refines it, by induction over formulas |
| C133 | Programs which build expressions | variables holding expressions of all kinds, assignments with every operator and constructor; an independent meaning of each variable; invariant by induction over programs |
| C134 | Parameters of rotations (`toParameters`) | the external `RotationalKinematics` by a contract (local inverse, `S` is the derivative); chain rule through the inverse function; Rodrigues parameters meet the contract; yaw-pitch-roll are singular at pitch 90° |
| C135 | Block-matrix loops under OpenMP | every iteration a thread, load and store separate steps, any schedule; invariant: remaining statements applied to the memory give the sequential result at every address |
| C136 | Policies used before | two runs on different left-overs as related states; Gauss-Newton and Levenberg-Marquardt by a bisimulation through failing solves, the others once the first solve succeeds; witnesses for the rest |
| C137 | Rprop on separable convex costs | invariant per parameter: distance to the minimiser at most D, next step at most (etaPlus-1)(D-r)+etaMinus D; every change of sign replaces D by at most (etaPlus+etaMinus-1) D + minDelta; steps are at least minDelta, so changes of sign keep coming; Archimedean field |
| C138 | speed of Levenberg-Marquardt on linear problems | invariant over passes: the damping stays in an interval that the update with the exact gain ratio maps into itself; the error after a step solves (H + l^2) e' = l^2 e, bounded from both sides by Cauchy-Schwarz |
| C139 | Python sessions on a sparse block matrix | simulation: the object stands for a table of blocks; induction over the calls; negation for blocks of the wrong size |
| C140 | dog-leg at and on the way to a minimum | exact treatment of NaN; the first step of a linear problem is the midpoint of the dog-leg path and triples the radius, invariant over at most three passes; for a remaining residual the radius stays above a multiple of the distance to the minimum, which bounds the decrease of every step from below; refutation for every problem started at a stationary point |
| C141 | events of a run and interrupted runs | an automaton for the order of the events; invariant between passes, one case per event at which a callback may throw; refutation by a concrete run |
| C142 | M-estimators set at RESIDUALS_UPDATED | induction over the terms and over the points evaluated; refutation by one term |
| C143 | callbacks registered from Python | refinement of the C++ registry; induction over the list of events and over the history |
| C144 | BFGS and Rprop on expression problems | C100, C130, C78 and C35 combined over real numbers, Cauchy-Schwarz; refutations by one number and by one rotation |
| C145 | calling optimize() again with BFGS and Rprop | induction over the calls and over the passes of the loop; refutations by one number |
| C146 | setting up an error term | induction over the history of calls |
| C147 | options and problem of a BFGS optimizer | invariant over all programs (objects as a store with references), refutations for copies and unchecked options |
| C148 | events and interruption of Rprop runs | simulation of the run with callbacks by the run without, induction over passes; refutation for one of the events |
| C149 | events and interruption of BFGS runs | simulation of the run with callbacks by the run without, induction over passes; refutation for one of the events |
| C150 | events and interruption of legacy runs | simulation of the run with callbacks by the run without, inductive description of all event histories; refutations on concrete runs |

## 4. What is modelled and what is not

Modules under `lean/Verif` (each has `Model.lean`, mostly `Spec.lean`/`Lemmas.lean`, and `Props.lean` with the property theorems):

| module | source |
|--------|--------|
| `Prelude`, `Dbl`, `Num`, `Geo` | result type with exception and undefined behaviour, doubles with NaN and infinities, operations of a number type, cross products |
| `MatrixStack`, `MatrixStack/Guard` | `aslam_backend/.../MatrixStack.hpp` and its pop guards |
| `Jacobian` (with `Merge`, `Chain`, `Adds`, `Export`, `Finite`) | `JacobianContainer`, `JacobianContainerSparse`, `JacobianContainerDense`, `JacobianContainerPrescale` |
| `ErrorTerm`, `MEstimator` | `ErrorTerm.cpp`, `ErrorTermFs`, `MEstimatorPolicies.cpp`, PDA and L1 utilities |
| `Hessian`, `Solver`, `Schur`, `CCM`, `CCS`, `Threads` | `BlockCholeskyLinearSystemSolver`, `SparseCholesky...`, `SparseQr...`, `DenseQr...`, `DenseMatrix`, `CompressedColumnMatrix`, `CompressedColumnJacobianTransposeBuilder`, `runThreadedFunction`, `sparse_matrix_functions` |
| `Problem`, `Manager`, `Gradient` | `OptimizationProblem`, `SimpleOptimizationProblem`, `OptimizationProblemBase`, `ProblemManager`, `utils` |
| `Optimizer2`, `Optimizer2/Callbacks`, `Trust`, `Legacy` | `Optimizer2.cpp`, `Optimizer.cpp`, `OptimizerCallbackManager`, the trust-region policies |
| `Rprop`, `BFGS`, `LineSearch` | `OptimizerRprop.cpp`, `OptimizerBFGS.cpp`, `LineSearch.cpp` |
| `Sampler` | `SamplerBase.cpp`, `SamplerMetropolisHastings.cpp`, `SamplerHybridMcmc.cpp` |
| `Marginal`, `Covariance` | `Marginalizer.cpp`, `MarginalizationPriorErrorTerm.cpp`, `sparse_block_matrix/.../marginal_covariance_cholesky` |
| `SBM` | `sparse_block_matrix.hpp` and its implementation |
| `PCG` | `linear_solver_pcg.h`, `implementation/linear_solver_pcg.hpp` |
| `Direct` | `linear_solver_cholmod.h`, `linear_solver_csparse.h`, `linear_solver_spqr.h` (state kept between calls), `matrix_structure.cpp`; `linear_solver_dense.h` (`Direct/Dense`) |
| `Iface` | the interface `Matrix.hpp` over `DenseMatrix.cpp`, `SparseBlockMatrixWrapper.cpp` and `CompressedColumnMatrix` |
| `PriorTerm` | `ErrorTermTransformation.cpp`, `ErrorTermEuclidean.cpp` (on top of `Expr`) |
| `FiniteDiff` | `evaluateJacobiansFiniteDifference`, `checkJacobiansNumerical` (`ErrorTerm.cpp`, `ErrorTerm.hpp`, `ErrorTermDs.cpp`, `ScalarNonSquaredErrorTerm.cpp`); `sm::eigen::NumericalDiff` assumed to take central differences |
| `FixedPoint` | `FixedPointNumber.hpp` |
| `DesignVar` | the design variable classes of `aslam_backend_expressions` and `DesignVariable.cpp` |
| `Motion` | the design variables of `DesignVar` under the expressions of `Expr`; `Vector2RotationQuaternionExpressionAdapter.cpp`, `MapTransformation.cpp`; `quat2r`, `updateQuat`, `quatInvS` of `sm_kinematics` by their formulas |
| `QrSolver` | `SparseQrLinearSystemSolver` as an object with a history of calls; `Cholmod` for QR; the heap of CHOLMOD/SuiteSparseQR objects. Results of library calls are arguments of the operations |
| `SBMOwn` | `SparseBlockMatrix` as an object with pointers to blocks on a heap and `_hasStorage`: constructors, copy, move, assignment, `cloneInto`, `slice`, `clear`, `block(r,c,true)`, `scale`, destructor. The maps of the block columns are one association list; moved-from vectors are empty |
| `LegacyInit` | `Optimizer::initialize`, `evaluateError` on the problem of `Problem`; choice of the step and radius in `optimizeDogLeg`, with vector sizes. The set of error terms is a list without duplicates; the linear solve is an arbitrary result; arithmetic is exact |
| `CholSolver` | `SparseCholeskyLinearSystemSolver` as an object: factor, appended diagonal, conditioner; `Cholmod::analyze/factorize/solve/free`. CHOLMOD is an oracle that requires the analysed pattern; `_rhs`, `_e` and the numbers of the solution are not modelled (see `Solver`) |
| `Opt2Setup` | constructor, `setOptions`, `setProblem`, `initialize`, `optimize`, `initializeLinearSolver`, `initializeTrustRegionPolicy` of `Optimizer2`, with `initMatrixStructure` of all solvers reduced to the conditioner flag |
| `Camera` | `CameraDesignVariable`; the camera class itself is external and given by its functions |
| `Policy` | `Optimizer2` (C23 to C26) run with each of the trust-region policies (C27 to C30), for finite costs; the linear solver is a function of the point of the last `buildSystem` and the conditioner |
| `Tutorial` | the error terms, the scalar design variable and the problem of `aslam_backend_tutorial` |
| `ExprTerm` | `ExpressionErrorTerm.hpp`: error terms on scalar and point expressions, their costs, gradients and normal equations, put together from `Expr`, `ErrorTerm`, `Gradient` and `Hessian` |
| `Text` | `ExpressionNodeVisitor.hpp`, `ToTextNodeVisitor.cpp` and the `accept` methods of the nodes; how streams print numbers and type names is a parameter |
| `LegacyStep` | one pass of the loop of `Optimizer::optimize`: `buildGnMatrices`, `applySchurComplement`, `applyStateUpdate` and its result, `getLmRho`; the linear solver is any function that returns a solution of the reduced system |
| `Config` | the constructors from `sm::PropertyTree` of the options of all optimizers, samplers, solvers and policies with their `check()`; `getDeprecatedPropertyIfItExists`; selection of solvers by name; the `serialize` functions. `sm::PropertyTree` and the Boost archives are modelled by their interface |
| `LegacyCov` | `Optimizer.cpp:684-793`: at which estimate `optimize` and `optimizeDogLeg` leave `_H`; `computeCovariances`, `computeDiagonalCovariances`, `computeCovarianceBlocks`, `getCovarianceBlock` over histories. Cholmod's factorisation is a parameter with a specification |
| `LegacyRun` | `Optimizer.cpp:136-159, 472-590`: `_lambda` and `mu` as doubles with NaN and infinities, the whole Levenberg-Marquardt loop, and its instance for the normal equations of `LegacyStep`. The linear solver is a parameter: it solves what it returns and succeeds on positive definite matrices |
| `Verif/ExprTerm/HessianOut` | `Optimizer2::computeHessian` (`Optimizer2.cpp` 368-382), `setConstantConditioner`, `copyHessian`; the callbacks and the error vector of the member solver are left out |
| `Verif/SBM/Octave` | `SparseBlockMatrix::writeOctave` (SBM.hpp 886-927), `writeCCSMatrix` (`implementation/sparse_helper.h` 24-56), `MatrixStructure::write` (`matrix_structure.cpp` 78-116), `TripletColSort`; the text of numbers (nine digits) and failing streams are left out |
| `Verif/Motion/Optimize` | `Optimizer2::applyStateUpdate`, `revertLastStateUpdate` (`Optimizer2.cpp` 276-302) on scalar, point, rotation, homogeneous point and matrix design variables; a whole run on squared expression terms. The linear solver is a parameter which, when it reports success, solves the damped system with a step that is not uphill; block Cholesky is shown to be such a solver if its library is; terms must evaluate at every value of the design variables; what the members of expression nodes and of the solver hold before a build depends on the values only |
| `Verif/Trust/BlockRun` | `LinearSystemSolver::setConstantConditioner` and `BlockCholeskyLinearSystemSolver::solveSystem` (`LinearSystemSolver.cpp` 91-94, `BlockCholeskyLinearSystemSolver.cpp` 76-108) inside a run of `Optimizer2`. The factorisation of the library is a parameter; a new solver object after a failed solve is not modelled |
| `Verif/Expr/Operators` | formulas written with the operators and functions of `ScalarExpression.cpp` 61-212 and `ScalarExpression.hpp` 95-97. Conditions of piecewise formulas are arbitrary functions of the state |
| `Verif/Expr/Parameters` | `RotationExpression::toParameters` and its node. The external class `RotationalKinematics` is any triple of functions; what it must satisfy is stated (`Rk.Chart`) and proved for Rodrigues parameters |
| `Verif/LineSearch/First` | the first trial step of the line searches and the update functions (`LineSearch.cpp:499-546, 660-669`) |
| `Verif/SBM/Parallel` | the two loops of `SparseBlockMatrix` that carry an OpenMP pragma (`clear`, `rightMultiply(double*&, const double*)`) as interleavings of loads and stores; sequentially consistent memory, destination and source do not overlap |
| `Verif/Policy/Rate` | rate of convergence of `Optimizer2` with the Levenberg-Marquardt policy on linear residuals, model of `Verif/Policy` |
| `Verif/SBM/Python` | the Python calls on `SparseBlockMatrixXd` (aslam_backend_python/src/SparseBlockMatrix.cpp:11-92) and the exceptions they raise; the size queries and the counts are left out |
| `Verif/Policy/DogLegNan` | `Optimizer2` with the dog-leg policy, including the NaN steepest-descent step where the gradient vanishes (DogLegTrustRegionPolicy.cpp:25-142). All design variables become NaN together |
| `Verif/Optimizer2/Events` | `Optimizer2::optimizeImplementation` with the points at which events are issued, callbacks that return any instruction or throw (Optimizer2.cpp:152-259, 304-311, 394-398, LinearSystemSolver.cpp:59-72). Callbacks do not change the problem or the registry |
| `Verif/Sampler/Finite`, `Verif/CholSolver/Pattern` | no further code: the check of the total energy of the hybrid sampler (SamplerHybridMcmc.cpp:234-259) and the pattern CHOLMOD has analysed, seen from the calls |
| `Verif/Solver/Rebuild`, `RebuildSolve` | histories of `buildSystem`, `setConditioner`, `solveSystem`, `computeCovarianceBlocks` on one block solver, exceptions caught by the caller (BlockCholeskyLinearSystemSolver.cpp:60-150, LinearSystemSolver.cpp:85-89). Exact arithmetic; a repeated `initMatrixStructure` is not part of a history |
| `Verif/ErrorTerm/Residuals` | `Optimizer::evaluateError` (Optimizer.cpp:669-682), `LinearSystemSolver::evaluateErrors` and `evaluateError` (LinearSystemSolver.cpp:17-28, 59-72) with a callback that changes M-estimators, the right hand side built afterwards. Real numbers, one thread |
| `Verif/Optimizer2/PyCallbacks` | the Python interface of the callback registry (aslam_backend_python/src/OptimizerCallback.cpp:19-89). Objects do not change their length or items during a call |
| `Verif/Motion/Gradient` | the cost function and gradient that `OptimizerBFGS.cpp:53` and `OptimizerRprop.cpp:122` obtain from `ProblemManager`, `applyStateUpdate` (utils.hpp:119-133), on expression terms and design variables of the library. Real numbers; no regularizer; terms that throw end the run |
| `Verif/ErrorTerm/Setup` | design variables and M-estimator policy of `ErrorTerm` (ErrorTerm.cpp:8-12, 32-102; ErrorTerm.hpp:102-116; implementation/ErrorTerm.hpp:13-24) and `ScalarNonSquaredErrorTerm` (ScalarNonSquaredErrorTerm.cpp:9-12, 36-119; implementation/ScalarNonSquaredErrorTerm.hpp:11-22). Pointers are addresses or null; the overloads for one to four pointers are the call with a vector |
| `Verif/OptObj` | construction, `setOptions`, `setProblem`, implicit copy and destruction of `OptimizerBFGS` (OptimizerBFGS.hpp:52-103, OptimizerBFGS.cpp:51-73), the references held by its cost function (ProblemManager.hpp:160-214), the options of its line search (LineSearch.hpp:220, 335, 368; LineSearch.cpp:435-451) and the ownership of the callback registry (OptimizerCallbackManager.cpp:16-22). Options are values of arbitrary types with a check; what a run does with them is in `BFGS` |
| `Verif/Legacy/Events.lean` | the callbacks of `Optimizer::optimize` and `Optimizer::optimizeDogLeg` (Optimizer.cpp:161-165, 198-465, 472-590, 668-682): RESIDUALS_UPDATED, COST_UPDATED, OPTIMIZATION_INITIALIZED, DESIGN_VARIABLES_UPDATED with the costs they carry, and exceptions thrown by them; callbacks that change design variables, options or the registry are not modelled |
| `Verif/BFGS/Events.lean` | the callbacks of the BFGS loop (OptimizerBFGS.cpp:100-168): ITERATION_START, DESIGN_VARIABLES_UPDATED, ITERATION_END, and exceptions thrown by them; callbacks that change design variables, options or the registry are not modelled |
| `Verif/Rprop/Events.lean` | the callbacks of the Rprop loop (OptimizerRprop.cpp:114-267): ITERATION_START, DESIGN_VARIABLE_UPDATE_COMPUTED, DESIGN_VARIABLES_UPDATED, ITERATION_END, and exceptions thrown by them; callbacks that change design variables, options or the registry are not modelled |
| `Verif/BFGS/Again`, `Verif/Rprop/Again` | sequences of calls of `OptimizerBase::optimize` (OptimizerBase.cpp:122-127) on the members the last call left (OptimizerBFGS.cpp:80-175, OptimizerRprop.cpp:103-271). Exact arithmetic, as in `BFGS` and `Rprop` |
| `Verif/Rprop/Converge`, `Verif/Rprop/Moves` | convergence of the model of `Verif/Rprop` (all four methods) on costs whose partial derivatives depend on one parameter each |
| `Verif/Policy/Nan`, `Verif/Policy/Reuse` | a Levenberg-Marquardt damping that is NaN inside a run (infinite damping is treated as NaN); runs of `Optimizer2` with a policy object and a step vector left by earlier runs. The linear solver is taken to have no memory of its own (see C83, C84, C111) |
| `Verif/Expr/Program`, `ProgramProps` | sequences of assignments to variables of the expression classes (scalars, points, rotations, transformations, homogeneous points, matrices), so that nodes are shared and variables overwritten or left default-constructed. Identities of nodes are numbers instead of addresses |
| `Verif/GenExpr/LogExp`, `Verif/GenExpr/Geodesic` | `geoLog`, `geoExp` of `QuaternionExpression.hpp` (355-375); functions that meet what is asked of the external `quat2AxisAngle`, `quatLogJacobian2`, `quatExpJacobian` |
| `Expr`, `GenExpr`, `Quat`, `Cache`, `Kinematic` | the expression classes of `aslam_backend_expressions` |

Not modelled: rounding and overflow of `double` (numbers are reals, elements of a field, or `Dbl` where NaN and infinities steer the control
flow); timing, logging, console output; Python bindings; memory allocation failure; the numerical internals of CHOLMOD, SPQR, Eigen
decompositions and `sm_kinematics` (their contracts are hypotheses of the theorems); boost property trees;
data races other than those of C16, C19 and C56.

## 5. Findings

Behaviour of the code found while modelling that differs from what the properties ask for. Those with a theorem name are proved on the model.

* **Chain-rule stack and containers.** Move-assigning onto a live guard leaks a factor (`C03_move_assign_leaks_counterexample`).
  More columns than the header field holds are truncated (`C01_limit_too_many_columns`). `reset` with another row count keeps the old chain
  rule's rows (`C67_reset_breaks_chain_counterexample`). `applyChainRule` changes the rows but not those of the chain
  (`C05_applyChainRule_counterexample`) and accepts matrices that are not square in `add` (`C05_nonsquare_chain_counterexample`). `add` of a
  container ignores an open chain that `addLargeLhs` applies (`C05_live_chain_counterexample`).
* **Error terms.** `ExpressionErrorTerm` computes `|S e|²` with the transposed factor (C08). The PDA callback sets a logarithm, never positive,
  as weight (C44). Geman-McClure and Blake-Zisserman costs decrease for large residuals (C69). Non-squared terms weight their Jacobian with the
  stored, signed, possibly stale error (C81). `L1Regularizer` keeps a reference to the caller's vector.
* **Problems.** Terms can be listed twice, a failed addition leaves partial state, non-squared terms are not reported per design variable,
  `clear` of the simple problem keeps entries (C09, C10, C11 counterexamples).
* **Compressed-column matrix.** `clear` leaves `rows+1` column pointers and a stale diagonal flag; a repeated design variable in a term throws;
  NaN entries are dropped; an empty term list with several threads divides by zero (C13, C16, C17, C18).
* **Problem manager.** Inactive variables keep indices of an earlier run (`C20_inactive_keeps_index_counterexample`); flattening keeps only the
  first column of matrix-valued parameters (`C22_flatten_counterexample`).
* **Trust-region optimizer.** A linear-solver failure stays set for all later runs (C26); NaN costs are accepted (C24); a rejected step can end the
  run as converged (C25); later calls continue counting and a negative maximum means none (C71); Gauss-Newton events do not carry the lowest cost (C72).
* **Policies.** The gain after a rejection uses the rejected cost (C27); LM's lambda becomes NaN for 0/0 (C28); dog-leg uses a stale Gauss-Newton
  step (C29), halves the predicted reduction for steepest descent and drops a term for interpolated steps by the integer division `1/2` (C73); the
  line-search policy reports a scale it did not apply (C30).
* **Policies inside the loop.** After a failed solve the line-search policy scales and applies the step vector of an earlier call, and LM solves the
  system of an earlier point if the cost happens to be equal (C94 counterexamples). The dog-leg gain is measured against the cost before the last accepted
  step: a rejected step can have a good gain, the region is not reduced and the same step is tried for ever (`C95_dogleg_counterexample`).
* **Legacy optimizer.** A rejected last step reports the rejected cost; a failing solve reverts the last accepted step (C31); the initial
  lambda reads `(i,j)` instead of `(j,j)` (C74); the dog-leg steepest-descent step divides by `|H rhs|²` (C75).
* **Rprop.** `check` does not bound the initial step or the factors; IRPROP reports DX after a zero step; MAX_ITERATIONS is never set (C34, C35).
* **Line search and BFGS.** The zoom phase tests sufficient decrease with the wrong derivative (C37); directions can be set with a stale
  gradient (C38); after a failed search the variables stay at the last trial (C78); `c2 >= 1` is accepted (C36).
* **Samplers.** NaN densities are accepted; an exception leaves the proposal with the old density (C39); a reduction factor of one never
  terminates (C41); the kinetic energy ignores the momentum's standard deviation (C79).
* **Linear solvers.** Block Cholesky adds the squared conditioner and removes the plain one (C45, C46), and what this leaves lasts until the next `buildSystem` (`C45_block_rebuild`); sparse QR ignores the conditioner; dense QR
  reads an uninitialised flag; the block solver's `rhsJtJrhs` uses the upper triangle only (C47); scalings of design variables are used by
  the block solver only (C80).
* **Marginalisation and covariance.** Exceptions leave temporary indices behind (C50); rank deficiency is only warned about (C49); the memo
  key overflows from dimension 46341 (C54).
* **Sparse block matrix.** Transpose and product into an existing destination keep its content (C52); empty blocks defeat the diagonal test of the triangular exports (C53).
* **Conjugate gradient solver.** `solve` always returns true, also after a division by zero (C82). Without `init()` between two matrices it keeps
  the off-diagonal block pointers of the first one: a mixture of both systems is solved, new blocks are ignored, deallocated blocks are read. Under
  default settings half the last residual is the next absolute threshold, so that a small right-hand side after a large one returns zero (C83).
* **Direct solvers.** Once analysed, only the values are refreshed: a block added without `init()` overflows the value array, a moved block is
  written under the old row indices, more columns leave the column pointers uninitialised, and an empty matrix is written through a null
  pointer (C84). `BlockCholeskyLinearSystemSolver` calls `init()` only when it builds the structure, so an error term which starts to depend on another
  variable later (C62) leads there. `MatrixStructure` loses its arrays after an allocation for zero columns (C85).
* **Prior terms.** `ErrorTermTransformation` computes its Jacobian from the error matrix of the last evaluation of the error, whatever the variables are now, and
  from an uninitialised matrix if there was none (C86).
* **Finite differences.** They leave the error stored in the term at moved values; a variable listed twice gets wrong blocks (C87). `checkJacobiansNumerical` uses the
  tolerance as step, throws for inactive variables, and for `ErrorTermDs` compares with a container which is always empty (C88).
* **Matrix interface.** `CompressedColumnMatrix` takes the magnitude of the tolerance, the others do not; the dense class keeps NaN entries, the others
  drop them; loading a compressed matrix keeps an appended diagonal flag; only the compressed class checks vector lengths (C89).
* **Minimal difference Jacobian.** The mapped variables return the identity for a difference that reads the previous value and does not move
  (`C91_mapped_counterexample`); the adapter leaves both outputs empty (C91).
* **Camera.** `evaluateJacobians` without chain rule matrix never adds the shutter (`C92_plain_counterexample`).
* **Tutorial.** `K = 1` leaves the wall unconstrained, `K = 0` writes to an empty vector (`C93_small_counterexample`).
* **Dense block solver.** It always reports success and copies past the end for matrices with more rows than columns (C90).
* **Fixed point.** Conversion between formats is wrong for negative numbers; a round trip through `double` can lose a unit (C55).
* **Expressions.** Empty minus a point returns the point; transforming an empty point fails (C61). Nodes which keep operand values give stale Jacobians
  when a variable changes between evaluation and Jacobian (C60). Quotients of generic scalars have swapped derivatives; `power` at zero (C57).
  Piecewise expressions report the variables of the active branch only (C62). Left-translated unit quaternions contribute no Jacobian, composed
  differentials use the container's row count, `convertIntoMatrix` of a composed matrix differential ignores its successor (C58). Cached expressions do not notice
  activation, direct writes and changes behind piecewise branches, and read their flags outside the lock (C56). Accelerations of kinematic chains
  count the Coriolis term once (C65).
* **Design variables.** The mapped classes compute differences from the previous value, cached rotation matrices become stale after external
  writes, generic vectors do not save the value on `setParameters`, the adapter has no minimal difference (C63).
* **C100** `ExpressionErrorTerm.hpp:112-117`: the cost is `|S e|²` with the root `S` of the inverse covariance, gradient and normal equations are those of `|Sᵀ e|²`.
  For a triangular root with correlations they belong to different functions (`C100_reported_cost_counterexample`).
* **C101** `ScalarExpressionNode.cpp:309-311`: a difference prints as `+(a, b)`; names (`ScalarExpression.cpp:17-32`) and values are written without quotes, so different trees can
  share a text (`C101_delimiters_counterexample`, `C101_difference_counterexample`). `ToTextNodeVisitor` is never cleared (`C101_stream`).
* **C76** `LineSearch.cpp:660-669`: the first trial step is predicted from the previous decrease and then asserted to be at least `minStepLength`; after a search without progress (or with very small progress) the prediction is below it and `lineSearchWolfe1` and `lineSearchWolfe12` throw instead of returning failure (`C76_small_progress`); `OptimizerBFGS` does not catch this
* **C99** `LineSearch.cpp:376-379`: the check that a trial step has reached the end of the bracket compares it with the limits of the options
  (`_minStepLength`, `_maxStepLength`), not with the limits of the bracket (`_stmin`, `_stmax`) computed just before. For large `c1` a trial step
  leaves the bracket, and the next call ends the search with a warning (`C99_outside_counterexample`). For `6*c1 <= c2` it cannot.
* **C104** `ErrorTerm.hpp:122`: with M-estimators the number `evaluateError` returns is weight times squared error, not the robust cost whose gradient the code computes. For
  Geman-McClure it can rise along a step that lowers the robust cost (`C104_reported_cost_counterexample`), and the trust region policies compare this number.
* **C105** `JacobianContainerSparseImpl.hpp:192` and `JacobianContainerDense.hpp:53`: the virtual `asDenseMatrix()` returns the Jacobians of the touched variables only in one and all columns in
  the other container (`C105_width_counterexample`).
* **C106** `ErrorTermDs.cpp:162`: `checkJacobiansFinite` iterates over a member nothing fills and never throws. `ExpressionUtils.hpp:22`: the check throws for an active variable without
  a Jacobian in a sparse container and returns true in a dense one (`C106_missing_counterexample`).
* **C107** `LinearSystemSolver.cpp:26` with `DenseQrLinearSystemSolver.cpp:51`: the errors kept in the solver are those evaluated last. After a rejected step these belong to the rejected
  candidate, and the QR solvers use them in the next step (`C107_rejected_qr_counterexample`). The Cholesky solvers keep the right-hand side and are not affected. For the same reason the
  error terms hold the errors of the rejected candidate when a run ends with a rejected step. `LevenbergMarquardtTrustRegionPolicy.cpp:63`: a step without gain is kept by the optimizer but
  the policy does not rebuild the system; the run ends then unless a linear solve failed before (`C107_stale_counterexample`).
* **C108** `RotationQuaternion.cpp:9-15, 64-71`: the quaternion is not normalised. With length `l` the matrix is `l²` times a rotation, and the Jacobians of inverse rotations and
  transformations are wrong by that factor (`C108_length_counterexample`).
* **C109** `Vector2RotationQuaternionExpressionAdapter.cpp:21-28`: no normalisation either; a `DesignVariableVector<4>` leaves the unit sphere with the first step
  (`C109_leaves_counterexample`, `C109_length_counterexample`).
* **C110** `MappedRotationQuaternion.cpp:9, 38-41` with `MapTransformation.cpp:11`: the rotation matrix is cached, the translation is not: after an assignment to the transformation the
  expression mixes the new translation with the old rotation (`C110_assign_counterexample`).
* **C111** `SparseQrLinearSystemSolver.cpp:130-140`: `getRank()` and `getTol()` after `buildSystem()` answer for the system solved before (`C111_stale_rank_counterexample`).
* **C111** `SparseQrLinearSystemSolver.cpp:30-52, 57-61, 160`: the cached triangular factor is cleared at the end of `buildSystem()` only, so `getR()` is stale after `initMatrixStructure()` and
  after an exception in `buildSystem()` (`C111_stale_r_counterexample`).
* **C111** `CompressedColumnMatrix.hpp:470-477`: `nzmax` entries are copied and checked afterwards; CHOLMOD allocates at least one entry, so `getR()` of a zero Jacobian throws, and the second call
  returns the rejected matrix (`C111_spare_capacity_counterexample`).
* **C112** `Cholmod.hpp:421, 450`, `SparseQrLinearSystemSolver.cpp:166`: exceptions skip the release of matrices (`C112_leak_counterexample`); solvers can be copied and then release their factor
  twice (`C112_copy_counterexample`).
* **C113** `sparse_block_matrix.hpp:167`: copying or assigning from a matrix without block rows or columns (for example a default-constructed one) evaluates `&_rowBlockIndices[0]` on an empty vector.
* **C114** `sparse_block_matrix.hpp:97-112, 166-167, 79`: `clear(true)` on a matrix without storage sets the blocks to zero instead of forgetting them. Assignment to a view therefore zeroes the matrix the view was taken from before the view gets blocks of its own; `view = owner` leaves zeros in both.
* **C114** `sparse_block_matrix.hpp:77-88`: `owner = std::move(view)` deletes the blocks of the owner and then takes the pointers of the view to them.
* **C115** `Optimizer.cpp:97-103`: the legacy optimizer collects squared error terms only. Non-squared terms of the problem are ignored without a message.
* **C115** `Optimizer.cpp:97-103`, `OptimizationProblem.cpp:159-168`: terms are collected in a set, so a term that was added twice counts once, although the problem enumerates it twice.
* **C115** `Optimizer.cpp:67-95`: block indices of variables that are no longer active are not reset; they may equal those of active variables.
* **C115** `SimpleOptimizationProblem` throws "Not implemented" in `getErrors`, so the legacy optimizer cannot be used with it.
* **C116** `Optimizer.cpp:258-263, 306, 346, 358`: `_dx_sd` has the size of the whole Hessian, `_dx_gn` the size of the reduced system. With a marginalised variable their difference is taken between vectors of different sizes.
* **C116** `Optimizer.cpp:374`: `1/2` is an integer division; the first summand of `L0` is always zero.
* **C116** `Optimizer.cpp:440-443`: prints to `std::cout` even if `verbose` is off.
* **C117** `SparseCholeskyLinearSystemSolver.cpp:55-72`: if `Cholmod::analyze` throws while a conditioner is in use, the diagonal block stays appended; every later `solveSystem` throws "Adding a second diagonal is unsupported" until `initMatrixStructure` is called again.
* **C117** `Cholmod.hpp:215-217`: a factor returned with a status other than `CHOLMOD_OK` is not released.
* **C118** `DenseQrLinearSystemSolver.cpp:27-31,43`: `initMatrixStructure` of the dense QR solver ignores its argument and nothing else writes `_useDiagonalConditioner`, which the constructor leaves uninitialised. Every `solveSystem` of this solver reads an indeterminate flag (`C118_dense_qr_undefined`).
* **C118** `Optimizer2.cpp:70-101`: the public `initializeLinearSolver()` (also exposed to Python) and `initializeTrustRegionPolicy()` replace the solver or the policy without making `optimize()` initialise again: the new solver has no matrices, or Levenberg-Marquardt runs without damping.
* **C118** `Optimizer2.cpp:112`: a solver object in the options of two optimizers is re-structured by the initialisation of either; the other one then solves the wrong system without an error.
* **C118** `ProblemManager.cpp:39-89`: `initialize()` clears its lists before its checks throw, and leaves the flag `_isInitialized` as it was. After a failed second initialisation `optimize()` computes steps from the old matrices and updates no variable.
* **C119** `sparse_matrix_functions.cpp:23-53`, `Optimizer.cpp:513-518`: an error term that depends on two marginalised variables is accepted; the block between the two is ignored, so the step does not solve the normal equations.
* **C120** `Optimizer.cpp:127-133`: the predicted reduction uses the reduced system only. With marginalised variables it is smaller than the reduction of the linearised cost, so the gain ratio is too large and λ is lowered too fast.
* **C121** `Optimizer.cpp:632-643`, `Optimizer2.cpp:289`: the size of the step is taken before the scaling for variables that are not marginalised and after it for marginalised ones. With scalings other than one `convergenceDeltaX` is compared with something else than the change of the parameters. A step of length zero, or a marginalised variable of dimension zero, makes `maxCoeff()` undefined.
* **C122** `Optimizer2.cpp:21-34`: "both keys are used together" is only detected if both values differ from the default. A deprecated key that repeats the default is ignored; a new key that repeats the default is overridden.
* **C122** `LineSearch.cpp:400-402`, `OptimizerBase.cpp:31-32`, `SamplerHybridMcmc.cpp:34`: counts are read with `getInt` into `size_t`; a negative value passes the checks as a huge count. `SamplerHybridMcmc.cpp:35`, `SamplerMetropolisHastings.cpp:26`: the number of threads is read as a `double`; converting a negative value to `size_t` is undefined behaviour.
* **C122** `Optimizer2.cpp:49-65`: options from a configuration are not checked (negative thresholds, `maxIterations` below -1), and `convergenceGradientNorm` is not read. `SamplerMetropolisHastings.cpp:29-31`: `check()` is never called. `LineSearch.cpp:406-416`: `maxStepLength < minStepLength` is accepted.
* **C123** `Optimizer2Options.hpp`: no `serialize` of its own; an archive of these options loses `doSchurComplement`, `verbose` and `linearSolverMaximumFails`.
* **C124** `Optimizer.cpp:502-584`: after an accepted last step `H()`, `rhs()` and the covariances of `optimize` belong to the estimate before that step, not to the returned one. (`optimizeDogLeg` rebuilds after every accepted step.) After a failing solve they belong to the estimate that was given up.
* **C124** `Optimizer.cpp:506-511,529-532`: without Levenberg-Marquardt `isLmRegression` is never reset after a failing solve, so the matrices are never built again and the same step is applied in every iteration that follows.
* **C124** `Optimizer.cpp:760-793`: the Hessian is that of the scaled variables, and the scaling is not taken out of the covariance blocks. `_invH` survives `initialize` and further optimisations, and a failed request leaves the old one in place; `computeCovariances` does not fill the blocks below the diagonal (`getCovarianceBlock` returns null).
* **C125** `Optimizer.cpp:535,559`: a damping of zero stays zero after rejected steps, so the same step is tried until `maxIterations`. Together with the wrong index in `setInitialLambda` (C74) this happens with `levenbergMarquardtEstimateLambdaScale > 0` for a Hessian block `diag(1, 2)`.
* **C125** `OptimizerOptions.hpp:43`: `levenbergMarquardtLambdaP` must be odd, nothing checks it; with an even value poor steps lower the damping.
* **C31** `Optimizer.cpp:551-563`: a step to a NaN cost is accepted, because `rho <= 0` is false for NaN.
* **C126** `Optimizer2.cpp:187-243`: once a linear solve has failed only the budget ends the loop (the flag of C26 is never cleared). With dog-leg the rejected step of C95 is repeated until the budget is used up, for all convergence thresholds below the step.
* **C127** `QuaternionExpression.hpp:110-118, 144-152` (implementation): `auto J = f(...) * 0.5` keeps a reference to the matrix returned by `f`, which no longer exists when `J` is read; the model takes the intended product.
* **C128** `Optimizer2.cpp:368-382`: `lambda` is stored as diagonal conditioner but the conditioner is only added in `solveSystem` and `computeCovarianceBlocks`, so the returned matrix is the same for every `lambda` (`C128_lambda_counterexample`); M-estimators are switched off, so it is not the matrix the optimizer works with (`C128_robust_counterexample`); before `initialize` the call takes the first element of an empty vector (`C128_uninitialized_counterexample`).
* **C129** `sparse_block_matrix.hpp:886-927`: with the default `upperTriangle = true` every block off the diagonal is mirrored, so a matrix which also stores a lower block gets two lines for one coefficient (`C129_both_triangles_counterexample`); the name in the header is cut at the last dot of the path, not of the file name (`C129_name_counterexample`). `matrix_structure.cpp:78-116`: `MatrixStructure::write` writes indices from zero, which the format does not allow (`C129_structure_counterexample`).
* **Block Cholesky inside Levenberg-Marquardt (C131).** After a rejected step the policy does not rebuild the system, and the solver adds the square of the damping to the diagonal but takes off the damping itself. With the default damping 0.001 the diagonal is then too small by almost 0.001: if a diagonal entry of the Hessian is below that, the next matrix is not positive definite. A library that refuses such matrices makes the solve fail (`C131_failure_counterexample`); CHOLMOD's simplicial `L D L'` factorisation, which `linear_solver_cholmod.h` allows (`supernodal = CHOLMOD_AUTO`), solves the system, and the step points uphill (`C131_uphill_counterexample`).
* **Null scalar expressions (C132).** `ScalarExpression::isEmpty` always returns false, so a scalar expression made from a null pointer is not noticed by any operator, and every use of the result dereferences the pointer (`C132_null_counterexample`).
* **Sharing is safe (C133).** Every operator makes a new node for its result, so the members cached by nodes never mix up two subexpressions: the hypothesis of C59 and C60 that one identity stands for one node holds for every program using the public operators (`inv_step`).
* **C134** `EuclideanExpressionNode.cpp:294-299`: the inverse of `S` is taken without a check: with yaw, pitch and roll at pitch 90° the value exists and the Jacobian is not finite (`C134_gimbal_lock_counterexample`). `RotationExpression.cpp:95-99`: `toParameters` of a default-constructed rotation dereferences a null pointer (`C134_variables`)
* **C135** `sparse_block_matrix.hpp:377-381`: the pointer version of `multiply` reads `_rowBlockIndices[size - 1]` before looking at the size, out of bounds for a matrix without block rows; `rightMultiply` asks `cols()`, which does look
* **C136** When the first linear solve of a run fails, the line-search policy scales and applies the step vector left by an earlier run, the dog-leg policy applies the Gauss-Newton step of an earlier run in full (`optimizationStarting` sets its norm to zero, so it always fits), and both report success
* **C137** The check of the Rprop options accepts `etaMinus = 1` (and larger), with which RPROP_MINUS jumps between two points around the minimum of a parabola for ever
* **C138** The gain ratio of the Levenberg-Marquardt policy predicts the decrease for the damping lambda (LevenbergMarquardtTrustRegionPolicy.cpp:109) while the solvers add lambda squared to the diagonal; for small lambda the prediction is therefore too large even on exactly linear problems, lambda is not lowered but raised, and with a small Jacobian it never fades out: convergence stays slow where the textbook method becomes as fast as Gauss-Newton
* **C79** A trajectory of the hybrid sampler has one position step fewer than `nLeapFrogSteps` (SamplerHybridMcmc.cpp:184, 189); 1 and 2 give the same, and 0, which the options check accepts, gives 2^64 - 1 steps (the unsigned difference wraps around)
* **C139** `setBlock` of the Python interface does not compare the size of the given matrix with the layout (SparseBlockMatrix.cpp:47, `*blk = mat` resizes the block); the wrong block is stored silently and `at` and `toDense` read outside of it later. `isBlockSet` has no bound checks in builds without debug assertions, unlike `getBlock` and `setBlock`
* **C140** `DogLegTrustRegionPolicy.cpp:69` divides zero by zero where the gradient vanishes. In the first iteration the radius and the step become NaN (lines 104-106, 110, 132), the step is applied to all design variables, and `Optimizer2.cpp:219` does not take it back since the comparison with NaN is false: an optimizer with the dog-leg policy that is started at a minimum replaces the estimate by NaN and reports no failure. In later iterations the zero Gauss-Newton step is taken and nothing happens
* **C141** `Optimizer2.cpp:309` and `394-398` do not use what callbacks return: SUCCEED and FAIL have no effect. A callback that throws after the design variables were updated leaves the candidate in place, even if its cost is larger; the status, the final cost and the flag for linear solver failures keep the values of the time before, and the next call of `optimize()` starts from the candidate
* **C142** `LinearSystemSolver.cpp:59-72` issues RESIDUALS_UPDATED after the M-estimators were applied. `OptimizerCallback.hpp:68` promises the opposite and recommends the event for updating M-estimators. With `Optimizer2` the cost of every point is computed with the weights chosen at the point evaluated before, and the QR and sparse Cholesky solvers combine a Jacobian with the new weights and an error vector with the old ones
* **C143** `aslam_backend_python/src/OptimizerCallback.cpp:31-36`: registering a callback for a list of events is not atomic, an item that is no event throws and the earlier items stay registered; `clear` and `numCallbacks` do not accept lists; Python callbacks cannot return an instruction
* **C144** `OptimizerBFGS.cpp:53` takes the gradient without scaling and without M-estimators, but `applyStateUpdate` multiplies every step by the scalings and `evaluateError` applies the M-estimators. With scalings the line search works with a wrong slope (`C144_scaling_counterexample`); with a Geman-McClure estimator the search direction of BFGS can be a direction of ascent of the cost it minimises (`C144_robust_counterexample`)
* **C144** `OptimizerRprop.cpp:119-122` computes the gradient without evaluating the error first, and `computeGradient` does not evaluate non-squared terms. RPROP_PLUS, RPROP_MINUS and IRPROP_MINUS never evaluate them, so expressions with rotations, matrix products or transformations give the Jacobian of members that were never written (`C144_rprop_unevaluated`) or of the values at the last evaluation (`C144_rprop_stale`, `C144_rprop_stale_counterexample`)
* **C145** `OptimizerBFGS.cpp:88-95` starts a further call from the error and gradient kept by the line search. If the user has changed the design variables since, a run that ended with GRADIENT_NORM returns at once with the old error and leaves the new values alone (`C145_moved`, `C145_moved_counterexample`); `reset()` is needed
* **C145** A further call of Rprop after DX does not keep the result but goes on iterating (`C145_rprop_dx_counterexample`), whereas BFGS returns at once
* **C146** `ErrorTerm::setMEstimatorPolicy` (ErrorTerm.cpp:32-35) stores a null pointer, which is dereferenced by the next `getMEstimatorName`, `getMEstimatorWeight` or weighted evaluation (`C146_null_policy_counterexample`); `ScalarNonSquaredErrorTerm` rejects it (ScalarNonSquaredErrorTerm.cpp:38)
* **C147** `OptimizerBFGS` has an implicit copy constructor. The copy shares the cost function, which refers to the problem manager and the options of the original (ProblemManager.hpp:203-208), and the raw pointer of the callback registry (OptimizerCallbackManager.hpp:47): it optimizes the problem of the original, and destroying both is a double delete (`C147_copy_counterexample`). The registry makes copies of every optimizer fatal
* **C147** `setOptions` of BFGS and Rprop does not check the options (OptimizerBFGS.hpp:67-70), only the constructors do (`C147_setOptions_counterexample`)
* **C148** A callback that throws at DESIGN_VARIABLE_UPDATE_COMPUTED leaves an Rprop optimizer with the step lengths and the remembered gradient of a step that was not applied (OptimizerRprop.cpp:146-238): a further call of `optimize()` compares the gradient with itself, lengthens the step and ends elsewhere than an undisturbed run (`C148_resume_counterexample`). The last pass of a run that converges issues no ITERATION_END
* **C149** A callback that throws at DESIGN_VARIABLES_UPDATED makes BFGS lose the curvature of the pass: the design variables have moved but the inverse Hessian is not updated, and a further call takes other steps than an undisturbed run (`C149_resume_counterexample`). A callback that throws at ITERATION_END only costs the count of that iteration (`C149_resume_partial`)
* **C150** In the legacy `optimize`, DESIGN_VARIABLES_UPDATED and RESIDUALS_UPDATED carry the cost of the last evaluation (Optimizer.cpp:164, 543, 675), which after a rejected step is that of the rejected values (`C150_stale_cost_counterexample`); no event follows a step that is taken back, so a callback that follows the design variables ends with values `optimize()` rejected (`C150_revert_unseen_counterexample`); a callback that throws leaves a step that was not judged, possibly worse than the start (`C150_interrupted_worse_counterexample`). `optimizeDogLeg` issues neither OPTIMIZATION_INITIALIZED nor DESIGN_VARIABLES_UPDATED (`C150_dogleg_completed`)

## 6. Axioms

Every property theorem depends on at most `propext`, `Classical.choice` and `Quot.sound` (as `#print axioms` reports). Those that depend on fewer:

* Quot.sound, propext: `CCM.C17_clear_init_partial`, `Cache.C56_concurrent_exclusive_partial`, `Cache.C56_concurrent_partial`, `Cache.C56_concurrent_progress`, `Cache.C56_jacobian_partial`, `Cache.C56_value_partial`, `Callbacks.C33_counts`, `Callbacks.C33_registry`, `Callbacks.Py.C143_add`, `Callbacks.Py.C143_add_not_atomic`, `Callbacks.Py.C143_clear_num`, `Callbacks.Py.C143_history`, `Callbacks.Py.C143_issue`, `CholSolver.C117_same_positions`, `Config.C123_optimizer2_counterexample`, `Covariance.C54_key_overflow_counterexample`, `ErrorTerm.Setup.C146_design_variables`, `ErrorTerm.Setup.C146_null_policy_counterexample`, `ErrorTerm.Setup.C146_policy`, `FixedPoint.C55_group`, `Iface.C89_block_sizes`, `Legacy.C150_completed`, `Legacy.C150_cost_current`, `Legacy.C150_dogleg_completed`, `Legacy.C150_dogleg_interrupted`, `Legacy.C150_dogleg_undisturbed`, `Legacy.C150_interrupted`, `Legacy.C74_initial_lambda_partial`, `LegacyCov.C124_dogleg`, `LegacyCov.C124_optimize_partial`, `LegacyInit.C115_duplicate_counterexample`, `LegacyInit.C115_nonsquared_counterexample`, `LegacyInit.C115_stale_index_counterexample`, `LegacyRun.C125_rejections`, `LineSearch.C38_initialize`, `LineSearch.C38_update`, `Manager.C22_flatten_columns_partial`, `Manager.C22_save_restore`, `Manager.C22_state_helper_latest`, `Marginal.C50_exception_counterexample`, `Marginal.C50_indices_partial`, `MatrixStack.C02_write_frame`, `Opt2Setup.C118_dense_qr_undefined`, `Opt2Setup.C118_first_run`, `Opt2Setup.C118_no_null`, `Opt2Setup.C118_setup_partial`, `OptObj.C147_constructor`, `OptObj.C147_copy_counterexample`, `OptObj.C147_in_force`, `OptObj.C147_setOptions_counterexample`, `Optimizer2.C141_answers_ignored`, `Optimizer2.C141_interrupted_worse_counterexample`, `Optimizer2.C141_start_cost`, `Optimizer2.C24_nan_accepted_counterexample`, `Optimizer2.C24_state_has_reported_cost`, `Optimizer2.C25_rejected_step_converges_counterexample`, `Optimizer2.C25_status_partial`, `Optimizer2.C26_sticky_flag_counterexample`, `Optimizer2.C71_first_call_budget_partial`, `Optimizer2.C71_second_call_does_nothing_counterexample`, `Optimizer2.C71_unlimited_does_nothing_counterexample`, `Optimizer2.C72_nonreverting_counterexample`, `Policy.C126_failed_solve`, `Policy.C136_gauss_newton`, `Policy.C136_levenberg_marquardt`, `Policy.C136_line_search_partial`, `Policy.C28_infinite_gain_sign`, `Policy.C28_nan_arises`, `Policy.C28_nan_recovery`, `Policy.C28_nonfinite_cost`, `Problem.C09_duplicate_term_counterexample`, `Problem.C09_failed_add_counterexample`, `Problem.C09_readd_rejected`, `Problem.C10_listed_twice_counterexample`, `Problem.C10_nonsquared_counterexample`, `Problem.C11_simple_clear_counterexample`, `Problem.C11_simple_clear_partial`, `Problem.C11_simple_contents`, `QrSolver.C111_spare_capacity_counterexample`, `QrSolver.C111_stale_r_counterexample`, `QrSolver.C111_stale_rank_counterexample`, `QrSolver.C112_copy_counterexample`, `QrSolver.C112_leak_counterexample`, `Quat.C64_norm`, `Quat.C64_product`, `SBM.C129_name`, `SBM.C129_structure_counterexample`, `SBM.C52_transpose_into_existing_counterexample`, `Sampler.C39_cached_density_partial`, `Sampler.C39_nan_counterexample`, `Sampler.C39_rejection`, `Sampler.C41_accepted_finite`, `Text.C101_stream`, `Text.C101_unique_partial`, `Threads.C18_empty_range_counterexample`, `Trust.C27_gain_after_rejection_counterexample`
* none: `Cache.C56_race_counterexample`, `Config.C122_deprecated_counterexample`, `Direct.C85_leak_counterexample`, `Manager.C20_inactive_keeps_index_counterexample`, `PopGuard.C03_move_assign_leaks_counterexample`
* propext: `Cache.C56_activate_counterexample`, `Cache.C56_env`, `Cache.C56_piecewise_counterexample`, `Cache.C56_poke_counterexample`, `Callbacks.C33_issue_order`, `Config.C123_history`, `Config.C123_optimizer2_partial`, `Config.C123_round_trip`, `Config.C123_wrong_kind`, `Direct.C84_empty_counterexample`, `Direct.C84_overflow_counterexample`, `Direct.C84_stale_pattern_counterexample`, `Direct.C84_uninitialised_counterexample`, `Direct.C85_no_leak_partial`, `Gradient.C81_fresh_nonnegative_partial`, `Gradient.C81_no_policy`, `Jacobian.C106_checkDs_counterexample`, `Manager.C22_flatten_counterexample`, `Marginal.C50_duplicates`, `MatrixStack.C01_pop_empty_throws`, `Opt2Setup.C118_failed_initialize_counterexample`, `Opt2Setup.C118_policy_switch_counterexample`, `Opt2Setup.C118_shared_solver_counterexample`, `Opt2Setup.C118_solver_switch_counterexample`, `Optimizer2.C32_trichotomy_and_priority`, `SBM.C52_add_refuses`, `Solver.C45_dense`

All other theorems named in `MANIFEST.json` depend on exactly the three.

## 7. Mutation testing

`seeded/LOG.jsonl` lists edits made to a scratch copy of the model and the theorems whose proofs then failed. Entries whose edit repairs a
defect of the code are checks that the counterexample really depends on the defect.
