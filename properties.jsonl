{"id": "C01", "title": "Chain-rule stack: top is the product of the live factors", "statement": "After any legal sequence of matrix pushes, scalar pushes and pops on a chain-rule stack, the matrix read from the top equals the ordered product of exactly those factors that were pushed and not yet popped, and is the initial empty chain when all were popped; popping an empty stack raises an exception and never corrupts it.", "quantifier": "every history of push(matrix)/push(scalar)/pop calls with conformable sizes, every row count and every column count", "why_tests_cant": "A test fixes one nesting depth and one set of sizes; the claim is about every interleaving of pushes and pops, including pops that expose an older product stored before a later one was written.", "anchors": ["aslam_backend/include/aslam/backend/MatrixStack.hpp: MatrixStack::push, pop, top, matrix"]}
{"id": "C02", "title": "Chain-rule stack: storage of live matrices never overlaps", "statement": "At every point of every push/pop history the buffer regions of the live matrices are pairwise disjoint, start on an aligned element, and lie inside the allocated buffer, so writing a new top never changes an older matrix and never writes out of bounds, also across reallocations.", "quantifier": "every history, every initial reserve (including zero), every alignment, every matrix size", "why_tests_cant": "Overlap needs a particular pattern of sizes, alignment padding and pops; tests only see the patterns they happen to build.", "anchors": ["aslam_backend/include/aslam/backend/MatrixStack.hpp: MatrixStack::allocate, pop, Header"]}
{"id": "C03", "title": "Chain-rule guards release each factor exactly once", "statement": "Whatever way guards returned by apply()/pushWithGuard are moved, popped early or destroyed at scope exit, each pushed factor is popped exactly once and after the outermost scope the chain is what it was before; move-assigning onto a guard that still owns a factor is the one use that leaks it.", "quantifier": "every program of guard creations, moves, early pops and destructions in nested scopes", "why_tests_cant": "Leaks and double pops depend on the order of moves and destructions; a test exercises a few orders.", "anchors": ["aslam_backend/include/aslam/backend/MatrixStack.hpp: MatrixStack::PopGuard", "aslam_backend/include/aslam/backend/JacobianContainer.hpp: apply"]}
{"id": "C04", "title": "Jacobian container accumulates the chain-rule sum", "statement": "For any sequence of scoped chain-rule applications and add(dv, J) calls, the Jacobian reported for an active design variable is the sum over its add calls of (product of the chain factors in scope) times J, and inactive design variables never appear.", "quantifier": "every tree of nested apply scopes, every set of design variables and activity flags, every order of add calls", "why_tests_cant": "Which variables repeat, in which scopes and in which order is unbounded; unit tests use a handful of adds.", "anchors": ["aslam_backend/include/aslam/backend/implementation/JacobianContainerImpl.hpp: addImpl", "aslam_backend/include/aslam/backend/implementation/JacobianContainerSparseImpl.hpp: addJacobian, add"]}
{"id": "C05", "title": "Merging two Jacobian containers is the key-wise sum", "statement": "Adding one sparse Jacobian container to another yields for every design variable the sum of the two Jacobians (premultiplied by the current chain when requested), with the union of the keys and no duplicates or losses.", "quantifier": "every pair of containers over any sets of design variables in any overlap pattern", "why_tests_cant": "The merge walks two sorted sequences; mistakes show only for particular interleavings of keys.", "anchors": ["aslam_backend/include/aslam/backend/implementation/JacobianContainerSparseImpl.hpp: JacobianContainerSparse::add(rhs, applyChainRule), addTo"]}
{"id": "C06", "title": "All Jacobian container kinds report the same Jacobian", "statement": "Feeding the same calls to a sparse container, to a dense container with preassigned columns, or through a prescaling container gives the same matrix blocks (prescaling multiplies each from the left by the prescale matrix).", "quantifier": "every sequence of scoped add calls, every column layout", "why_tests_cant": "Equivalence of three implementations over all call sequences is not a finite set of cases.", "anchors": ["aslam_backend/include/aslam/backend/implementation/JacobianContainerDenseImpl.hpp", "aslam_backend/include/aslam/backend/JacobianContainerPrescale.hpp", "aslam_backend/include/aslam/backend/implementation/JacobianContainerSparseImpl.hpp"]}
{"id": "C07", "title": "Hessian assembly accumulates the weighted normal equations", "statement": "Building the Hessian from an error term adds exactly the upper block triangle of J^T W J to the Hessian and subtracts J^T W e from the right-hand side, leaving blocks of other variables untouched; summed over all terms the result is the Gauss-Newton system irrespective of the order of the terms.", "quantifier": "every set of design variables, block layouts, error terms and orders of terms", "why_tests_cant": "Block position errors (transposed block, lower triangle, missed pair) appear only with particular index orders.", "anchors": ["aslam_backend/include/aslam/backend/implementation/JacobianContainerSparseImpl.hpp: evaluateHessian, buildHessianBlock, buildCorrelatedHessianBlock", "aslam_backend/include/aslam/backend/implementation/ErrorTerm.hpp: buildHessianImplementation"]}
{"id": "C08", "title": "Weighted error vector reproduces the weighted squared error", "statement": "The squared norm of the weighted error vector handed to the linear solver equals M-estimator weight times e^T R^-1 e with the inverse covariance the term reports, and equals the scalar error the optimizer minimises; the same weighting multiplies the Jacobian.", "quantifier": "every error vector, every square-root information matrix, every non-negative weight", "why_tests_cant": "The identity is over all matrices; a diagonal or symmetric test matrix cannot distinguish S from S^T.", "anchors": ["aslam_backend/include/aslam/backend/implementation/ErrorTerm.hpp: getWeightedError, evaluateChiSquaredError, getInvR", "aslam_backend/src/ErrorTerm.cpp", "aslam_backend_expressions/include/aslam/backend/ExpressionErrorTerm.hpp: evaluateErrorImplementation"]}
{"id": "C09", "title": "Optimization problem: indices stay consistent under any edit history", "statement": "After any sequence of adding and removing design variables and error terms, each registered design variable lists exactly the registered error terms that use it, indices are dense, enumeration is in insertion order without duplicates, and re-adding something already present is rejected without change.", "quantifier": "every history of add/remove calls over any design variables and error terms", "why_tests_cant": "Dangling entries appear only after particular add/remove interleavings.", "anchors": ["aslam_backend/src/OptimizationProblem.cpp: addDesignVariable, addErrorTerm, removeErrorTerm, removeDesignVariable, getErrors"]}
{"id": "C10", "title": "Removing a design variable removes every term that uses it", "statement": "After removeDesignVariable no error term left in the problem (squared or not) refers to the removed variable.", "quantifier": "every problem state and every variable, including terms that list a variable twice and non-squared terms", "why_tests_cant": "Requires considering every problem graph and both kinds of terms.", "anchors": ["aslam_backend/src/OptimizationProblem.cpp: removeDesignVariable, removeErrorTerm"]}
{"id": "C11", "title": "Clearing a problem empties it", "statement": "After clear() a problem reports zero design variables and zero error terms of every kind and behaves like a newly constructed one. In a simple problem, the variables and squared terms after a clear() are exactly those added since: each variable once, the terms in the order of adding.", "quantifier": "every problem history before the clear", "why_tests_cant": "Must hold for whichever kinds of terms the history registered.", "anchors": ["aslam_backend/src/OptimizationProblem.cpp: clear", "aslam_backend/src/SimpleOptimizationProblem.cpp: clear"]}
{"id": "C12", "title": "Compressed-column matrix: element access agrees with the dense expansion", "statement": "For a well-formed compressed-column matrix, reading element (r,c) gives the same value as the dense expansion for every in-range index, zero entries included, and out-of-range indices raise an exception.", "quantifier": "every well-formed sparse structure and every index", "why_tests_cant": "Search inside a column has boundary cases at first, last, absent and empty columns for every structure.", "anchors": ["aslam_backend/include/aslam/backend/implementation/CompressedColumnMatrix.hpp: operator(), toDenseInto, value"]}
{"id": "C13", "title": "Compressed-column matrix: dense round trip with tolerance", "statement": "Building from a dense matrix with tolerance t and expanding again gives the dense matrix with exactly the entries of magnitude at most t replaced by zero.", "quantifier": "every dense matrix and tolerance, starting from any previous content of the object", "why_tests_cant": "Depends on every pattern of small entries and on leftovers of the previous content.", "anchors": ["aslam_backend/include/aslam/backend/implementation/CompressedColumnMatrix.hpp: fromDenseTolerance, toDenseInto"]}
{"id": "C14", "title": "Compressed-column matrix: pushing and popping a diagonal block are inverse", "statement": "Appending a diagonal block adds one column per row holding the conditioner value, and popping restores exactly the matrix before; pushing twice or popping without push is rejected.", "quantifier": "every matrix, every diagonal vector, every sequence of push/update/pop", "why_tests_cant": "Sequence property over all sizes and histories.", "anchors": ["aslam_backend/include/aslam/backend/implementation/CompressedColumnMatrix.hpp: pushDiagonalBlock, popDiagonalBlock, updateDiagonalBlock"]}
{"id": "C15", "title": "Compressed-column products equal the dense products", "statement": "rightMultiply and leftMultiply return A x and A^T x of the dense expansion.", "quantifier": "every well-formed matrix without appended diagonal and every vector", "why_tests_cant": "Linear-algebra identity over all sizes and sparsity patterns.", "anchors": ["aslam_backend/include/aslam/backend/implementation/CompressedColumnMatrix.hpp: rightMultiply, leftMultiply"]}
{"id": "C16", "title": "Symbolic setup plus threaded value writing gives J^T", "statement": "After building the structure from the error terms and writing the Jacobians of each term, the compressed-column matrix is the transpose of the stacked weighted Jacobian, regardless of the order or partition in which the terms are written.", "quantifier": "every list of error terms, every set of design variables per term, every write order", "why_tests_cant": "Offsets for each term are prefix sums over all earlier terms; schedules are unbounded.", "anchors": ["aslam_backend/include/aslam/backend/implementation/CompressedColumnMatrix.hpp: appendJacobiansSymbolic, writeJacobians", "aslam_backend/include/aslam/backend/implementation/CompressedColumnJacobianTransposeBuilder.hpp"]}
{"id": "C17", "title": "Matrix objects can be reused after clear()", "statement": "After clear() a compressed-column matrix is a valid empty matrix: all reported dimensions, column pointers and flags agree, so it can be filled again with any content.", "quantifier": "every content before the clear", "why_tests_cant": "Needs the relation between rows and columns of the old content for all sizes.", "anchors": ["aslam_backend/include/aslam/backend/implementation/CompressedColumnMatrix.hpp: clear, init"]}
{"id": "C18", "title": "Threaded range processing covers every index exactly once", "statement": "For every range and every positive number of threads the jobs handed to the threads are consecutive, disjoint, inside the range, and together cover every index exactly once; an exception thrown by any job is reported to the caller after all threads have joined.", "quantifier": "every range size, thread count and set of failing jobs", "why_tests_cant": "Remainder handling has different branches for sizes below, equal to and above the thread count; all sizes matter.", "anchors": ["aslam_backend/src/util/ThreadedRangeProcessor.cpp: runThreadedJob", "aslam_backend/src/LinearSystemSolver.cpp: setupThreadedJob", "aslam_backend/include/aslam/backend/implementation/CompressedColumnJacobianTransposeBuilder.hpp: setupThreadedJob"]}
{"id": "C19", "title": "Threaded evaluation is schedule independent", "statement": "When jobs write to disjoint slices, the final result of a threaded evaluation is the same for every interleaving of the threads' steps and equals the sequential result.", "quantifier": "every interleaving of the per-thread write sequences", "why_tests_cant": "The number of interleavings is exponential; a test observes one.", "anchors": ["aslam_backend/src/LinearSystemSolver.cpp: evaluateErrors, setupThreadedJob", "aslam_backend/src/util/ThreadedRangeProcessor.cpp"]}
{"id": "C20", "title": "Problem manager layout is a bijection", "statement": "initialize() assigns every active design variable a column range of its minimal dimension; the ranges are consecutive, disjoint and exactly cover [0, numOptParameters), inactive variables get index -1, and error-term rows likewise cover the error vector.", "quantifier": "every list of design variables with any dimensions and activity flags", "why_tests_cant": "Prefix-sum layout over all lists.", "anchors": ["aslam_backend/src/util/ProblemManager.cpp: initialize", "aslam_backend/src/LinearSystemSolver.cpp: initMatrixStructure"]}
{"id": "C21", "title": "State update followed by revert restores the state", "statement": "Applying a step to all design variables and reverting it returns each variable to its previous value; only the active variables change, each by its own slice of the step.", "quantifier": "every problem, state and step vector; every history of earlier updates", "why_tests_cant": "All states and histories; one revert level only is promised.", "anchors": ["aslam_backend/src/util/ProblemManager.cpp: applyStateUpdate, revertLastStateUpdate", "aslam_backend/src/Optimizer.cpp: applyStateUpdate, revertLastStateUpdate", "aslam_backend/include/aslam/backend/DesignVariable.hpp"]}
{"id": "C22", "title": "Saving and restoring the design variables is lossless", "statement": "restoreDesignVariables after saveDesignVariables brings back the saved parameters whatever updates happened in between, and the flattened parameter vector contains every parameter of every active design variable.", "quantifier": "every problem and every sequence of updates between save and restore; parameter matrices of any shape", "why_tests_cant": "Shapes and histories are unbounded.", "anchors": ["aslam_backend/src/util/ProblemManager.cpp: saveDesignVariables, restoreDesignVariables, getFlattenedDesignVariableParameters"]}
{"id": "C23", "title": "Optimizer2 terminates within its iteration budget", "statement": "optimize() performs at most maxIterations successful or failed iterations and always returns, also when linear solves fail or costs are not finite.", "quantifier": "every problem, every sequence of costs and solver outcomes, every option value", "why_tests_cant": "Termination is a statement about all executions.", "anchors": ["aslam_backend/src/Optimizer2.cpp: optimizeImplementation"]}
{"id": "C24", "title": "Optimizer2 never ends with a worse cost when the policy reverts", "statement": "With a trust-region policy that reverts failed steps, the final cost reported is not larger than the starting cost and the design variables are at the state that has the reported cost.", "quantifier": "every problem and every sequence of candidate costs (finite or NaN) and solver outcomes", "why_tests_cant": "The loop tracks costs and reverts over arbitrarily long runs.", "anchors": ["aslam_backend/src/Optimizer2.cpp: optimizeImplementation", "aslam_backend/src/TrustRegionPolicy.cpp"]}
{"id": "C25", "title": "Optimizer2 classifies its outcome", "statement": "The convergence status tells truthfully why the run stopped: MAX_ITERATIONS only if the budget was used, a convergence status only if its threshold was met by an accepted iterate, FAILURE only on failure, and never IN_PROGRESS after return.", "quantifier": "every execution", "why_tests_cant": "Needs all combinations of thresholds, NaN costs and failures.", "anchors": ["aslam_backend/src/Optimizer2.cpp: optimizeImplementation, updateStatus", "aslam_backend/src/OptimizerBase.cpp: updateConvergenceStatus"]}
{"id": "C26", "title": "Linear solver failure is reported for the run in which it happened", "statement": "The returned linear-solver-failure flag is set exactly when a linear solve of this run failed in its last iteration, and a failure in an earlier iteration or earlier run does not end a later one.", "quantifier": "every sequence of solver outcomes over iterations and repeated optimize() calls", "why_tests_cant": "History-dependent flag.", "anchors": ["aslam_backend/src/Optimizer2.cpp: optimizeImplementation"]}
{"id": "C27", "title": "Trust-region gain uses the cost of the last accepted iterate", "statement": "The cost decrease a trust-region policy uses to judge a step is the cost at the last accepted state minus the cost at the candidate state, also after rejected steps.", "quantifier": "every sequence of accepted and rejected steps", "why_tests_cant": "The wrong value appears only after particular accept/reject patterns.", "anchors": ["aslam_backend/src/TrustRegionPolicy.cpp: solveSystem, get_dJ", "aslam_backend/src/DogLegTrustRegionPolicy.cpp", "aslam_backend/src/LevenbergMarquardtTrustRegionPolicy.cpp"]}
{"id": "C28", "title": "Levenberg-Marquardt damping stays positive and finite", "statement": "From a positive initial lambda every update keeps lambda strictly positive, increases it after a failed step and never increases it by more than the documented factor after a success. A Levenberg-Marquardt damping that became NaN (gain 0/0 after a zero step) stays NaN while steps are rejected and is the lower bound of the damping again after the next accepted step.", "quantifier": "every sequence of successes, failures and gain ratios", "why_tests_cant": "Unbounded sequences of updates.", "anchors": ["aslam_backend/src/LevenbergMarquardtTrustRegionPolicy.cpp"]}
{"id": "C29", "title": "Dog-leg step stays inside the trust region", "statement": "The dog-leg policy returns a step of norm at most delta whenever it has to truncate: the Gauss-Newton step if it is inside, the scaled steepest-descent step if even that is outside, else the point on the dog-leg path of norm exactly delta; delta stays positive.", "quantifier": "every gradient, Gauss-Newton step, steepest-descent step and radius", "why_tests_cant": "Inequality over all vectors.", "anchors": ["aslam_backend/src/DogLegTrustRegionPolicy.cpp: solveSystemImplementation", "aslam_backend/src/Optimizer.cpp: optimizeDogLeg"]}
{"id": "C30", "title": "Line-search policy scale bookkeeping", "statement": "The line-search policy shrinks the step scale only after failed steps, resets it after success, keeps it in (0,1], and the step it applies is the linear-solver step times the scale it reports.", "quantifier": "every sequence of successes and failures, every valid scale factor", "why_tests_cant": "Sequence property.", "anchors": ["aslam_backend/src/LineSearchTrustRegionPolicy.cpp"]}
{"id": "C31", "title": "Legacy optimizer returns the state belonging to the reported cost", "statement": "On return from the legacy Optimizer the design variables are at a state whose cost is the reported final cost, and this cost is not larger than the starting cost.", "quantifier": "every sequence of candidate costs, solver failures and accept/reject decisions", "why_tests_cant": "Needs all patterns of accepted steps and solver failures.", "anchors": ["aslam_backend/src/Optimizer.cpp: optimize, optimizeDogLeg"]}
{"id": "C32", "title": "Convergence status is a trichotomy with fixed priority", "statement": "Exactly one of isConverged, isFailed, isInProgress holds for each status, and the status chosen from (gradient norm, cost change, step size) is the first threshold met in that order, using strict comparison and ignoring NaN.", "quantifier": "every status value, every triple of doubles including NaN and infinities, every threshold", "why_tests_cant": "All doubles, including NaN.", "anchors": ["aslam_backend/src/OptimizerBase.cpp: updateConvergenceStatus, success, failure", "aslam_backend/include/aslam/backend/implementation/OptimizerBaseImplementation.hpp"]}
{"id": "C33", "title": "Callbacks run in registration order and stop at the first veto", "statement": "issueCallback calls the callbacks registered for the event in registration order, stops at the first that does not return CONTINUE and returns its instruction; adding, removing and clearing affect exactly the named events.", "quantifier": "every history of add/remove/clear and every set of callback results", "why_tests_cant": "Histories are unbounded.", "anchors": ["aslam_backend/src/OptimizerCallbackManager.cpp"]}
{"id": "C34", "title": "Rprop step sizes stay within the configured bounds", "statement": "Every per-parameter step length used by Rprop lies in [minDelta, maxDelta] in every iteration. A parameter whose derivative kept its sign moves on against the derivative by the lengthened step; one whose derivative changed its sign goes back, steps back, stays, or goes back only if the cost increased, according to the method.", "quantifier": "every sequence of gradients and every accepted option set", "why_tests_cant": "Unbounded gradient sequences.", "anchors": ["aslam_backend/src/OptimizerRprop.cpp: optimizeImplementation, OptimizerOptionsRprop::check"]}
{"id": "C35", "title": "Rprop reports convergence only when the iterate has settled", "statement": "Rprop reports the DX criterion only if every active parameter moved by less than the threshold as the result of small step lengths, and reports MAX_ITERATIONS when the budget is exhausted.", "quantifier": "every gradient sequence and method variant", "why_tests_cant": "Depends on sign patterns of consecutive gradients.", "anchors": ["aslam_backend/src/OptimizerRprop.cpp: optimizeImplementation"]}
{"id": "C36", "title": "BFGS keeps a symmetric positive definite inverse Hessian satisfying the secant equation", "statement": "As long as the curvature y^T s is positive, the inverse Hessian after each update is symmetric positive definite and maps y to s, so the next search direction is a descent direction.", "quantifier": "every dimension and every sequence of (s,y) pairs with positive curvature", "why_tests_cant": "Statement over all matrices and run lengths.", "anchors": ["aslam_backend/src/OptimizerBFGS.cpp: optimizeImplementation"]}
{"id": "C37", "title": "Line search success implies the Wolfe conditions", "statement": "When the Wolfe line search reports success, the accepted step length satisfies the sufficient-decrease and curvature conditions with the configured constants relative to the start of the search, and the design variables are at start + step * direction.", "quantifier": "every objective function along the line, every option set", "why_tests_cant": "All functions; the interpolation and bracketing branches are data dependent.", "anchors": ["aslam_backend/src/LineSearch.cpp: lineSearchWolfe1, lineSearchWolfe2, zoom, Dcsrch::updateStepLength"]}
{"id": "C38", "title": "Line search never hands out stale values", "statement": "getError, getErrorDerivative and getGradient return values belonging to the current state or throw; they are never values of an earlier step length.", "quantifier": "every sequence of direction settings, state updates and evaluations", "why_tests_cant": "History property.", "anchors": ["aslam_backend/src/LineSearch.cpp: applyStateUpdate, updateError, updateGradient, updateErrorDerivative, lineSearchWolfe12"]}
{"id": "C39", "title": "Metropolis-Hastings acceptance and rejection", "statement": "A proposal with lower or equal negative log density is always accepted, any other with probability exp(old-new); a rejected proposal leaves every design variable and the stored density as before; the stored density always belongs to the current state.", "quantifier": "every sequence of proposals, densities (also non-finite) and random numbers", "why_tests_cant": "Sequences of random numbers are unbounded.", "anchors": ["aslam_backend/src/SamplerMetropolisHastings.cpp: step"]}
{"id": "C40", "title": "Sampler statistics count correctly", "statement": "The acceptance rate reported after any number of steps is accepted/total, lies in [0,1], and counters over repeated runs and resets refer to the documented period. A smoothing factor is accepted exactly if it is above 0 and at most 1, and the reported mean acceptance probability is then the exponentially weighted mean of the probabilities of the samples since the last reset, with that factor.", "quantifier": "every sequence of steps, runs and resets", "why_tests_cant": "Histories are unbounded.", "anchors": ["aslam_backend/src/SamplerBase.cpp: statistics, run, reset, initialize"]}
{"id": "C41", "title": "Hybrid MCMC restores the state on rejection and keeps its step length in range", "statement": "A rejected leap-frog trajectory restores the design variables, and the adapted step length stays within [min,max].", "quantifier": "every trajectory outcome and every sequence of adaptations", "why_tests_cant": "Histories are unbounded.", "anchors": ["aslam_backend/src/SamplerHybridMcmc.cpp: step"]}
{"id": "C42", "title": "M-estimator weights are valid weights", "statement": "For every non-negative squared error each M-estimator returns a weight in the documented range (non-negative, at most 1 for the normalised ones), is non-increasing in the error, and equals the full weight at zero error.", "quantifier": "every non-negative error and every admissible parameter", "why_tests_cant": "Inequality over all reals.", "anchors": ["aslam_backend/src/MEstimatorPolicies.cpp"]}
{"id": "C43", "title": "Blake-Zisserman weight crosses the configured cut weight", "statement": "The epsilon computed from the requested cut-off makes the Blake-Zisserman weight equal to the requested weight at the requested percentile.", "quantifier": "every degree of freedom, percentile and weight", "why_tests_cant": "Equation over all parameters.", "anchors": ["aslam_backend/src/MEstimatorPolicies.cpp: BlakeZissermanMEstimator::computeEpsilon"]}
{"id": "C44", "title": "Probabilistic data association weights form a distribution", "statement": "After the data-association callback the weights of each group of alternative error terms are the normalised likelihoods: their exponentials sum to one and each is the exponential of minus half its error over the group sum, independent of a common offset.", "quantifier": "every group structure and every set of errors", "why_tests_cant": "Log-sum-exp identity over all reals and list sizes.", "anchors": ["aslam_backend/src/ProbDataAssocPolicy.cpp"]}
{"id": "C45", "title": "Linear solvers leave the system as they found it", "statement": "Solving with a diagonal conditioner augments the system only for the duration of the solve: after the call the stored normal-equation matrix equals the one before, whether the solve succeeded or failed, so repeated solves with different conditioners see the same system.", "quantifier": "every system matrix, conditioner and sequence of solves", "why_tests_cant": "Drift accumulates over a sequence of solves for arbitrary values.", "anchors": ["aslam_backend/src/BlockCholeskyLinearSystemSolver.cpp: solveSystem, computeCovarianceBlocks", "aslam_backend/src/SparseCholeskyLinearSystemSolver.cpp: solveSystem", "aslam_backend/src/SparseQrLinearSystemSolver.cpp: solveSystem"]}
{"id": "C46", "title": "Conditioned solve solves the damped normal equations", "statement": "With conditioner d every solver returns the minimiser of |J dx - e|^2 + |diag(d) dx|^2.", "quantifier": "every Jacobian, error vector and conditioner", "why_tests_cant": "Linear-algebra identity over all sizes.", "anchors": ["aslam_backend/src/SparseQrLinearSystemSolver.cpp", "aslam_backend/src/DenseQrLinearSystemSolver.cpp", "aslam_backend/src/BlockCholeskyLinearSystemSolver.cpp", "aslam_backend/src/SparseCholeskyLinearSystemSolver.cpp"]}
{"id": "C47", "title": "Curvature along the gradient used by dog-leg", "statement": "rhsJtJrhs() returns rhs^T J^T J rhs for every solver.", "quantifier": "every system", "why_tests_cant": "A block-diagonal test system cannot distinguish the full product from the upper triangle.", "anchors": ["aslam_backend/src/BlockCholeskyLinearSystemSolver.cpp: rhsJtJrhs", "aslam_backend/src/SparseQrLinearSystemSolver.cpp: rhsJtJrhs", "aslam_backend/src/SparseCholeskyLinearSystemSolver.cpp: rhsJtJrhs"]}
{"id": "C48", "title": "Schur complement elimination is exact", "statement": "Solving the reduced system and back-substituting gives the solution of the full block system.", "quantifier": "every invertible block system and block sizes", "why_tests_cant": "Identity over all matrices.", "anchors": ["aslam_backend/src/sparse_matrix_functions.cpp: applySchurComplement, buildDsi"]}
{"id": "C49", "title": "Marginalisation prior preserves the marginal cost", "statement": "The prior built by the marginalizer has, for every value of the remaining variables, the cost obtained by minimising the linearised cost over the removed variables, up to a constant.", "quantifier": "every linear system with full column rank for the removed part and every value of the remaining variables", "why_tests_cant": "Statement about all matrices and all states.", "anchors": ["aslam_backend/src/Marginalizer.cpp: marginalize", "aslam_backend/src/MarginalizationPriorErrorTerm.cpp"]}
{"id": "C50", "title": "Marginalisation leaves block indices untouched", "statement": "After marginalize() returns or throws, the block and column indices of all design variables are what they were before.", "quantifier": "every set of design variables and every failure point", "why_tests_cant": "Includes the exceptional exit.", "anchors": ["aslam_backend/src/Marginalizer.cpp: marginalize"]}
{"id": "C51", "title": "Sparse block matrix reads back what was written", "statement": "Element access, dense expansion and block access agree for every block layout: after any sequence of block creations and writes the dense expansion has exactly the written blocks at their offsets and zero elsewhere.", "quantifier": "every block layout and every sequence of block writes", "why_tests_cant": "Layouts and histories are unbounded.", "anchors": ["sparse_block_matrix/include/sparse_block_matrix/implementation/sparse_block_matrix.hpp: block, operator(), toDenseInto"]}
{"id": "C52", "title": "Sparse block matrix algebra equals dense algebra", "statement": "transpose, add, scale, multiply (block and vector), slice and symmetric permutation commute with the dense expansion.", "quantifier": "every conformable pair of block matrices and layouts; destination initially absent, empty or filled", "why_tests_cant": "All sizes, sparsity patterns and destination states.", "anchors": ["sparse_block_matrix/include/sparse_block_matrix/implementation/sparse_block_matrix.hpp: transpose, add, multiply, rightMultiply, scale, slice, symmPermutation"]}
{"id": "C53", "title": "Compressed-column export of a block matrix is faithful", "statement": "fillCCS writes column pointers, row indices and values that form a well-formed compressed-column matrix representing the (upper triangle of the) block matrix, with as many entries as nonZeros() announces.", "quantifier": "every block layout and sparsity pattern", "why_tests_cant": "All layouts.", "anchors": ["sparse_block_matrix/include/sparse_block_matrix/implementation/sparse_block_matrix.hpp: fillCCS, fillUpperTriangleCCS, nonZeros", "sparse_block_matrix/src/matrix_structure.cpp"]}
{"id": "C54", "title": "Recovered marginal covariances are entries of the inverse", "statement": "The marginal covariance entries computed from a Cholesky factor L equal the corresponding entries of (L L^T)^-1, independent of the order in which entries are requested and of the memoisation state.", "quantifier": "every lower-triangular factor with non-zero diagonal, every request order", "why_tests_cant": "Recursive recovery over all sizes and sparsity patterns.", "anchors": ["sparse_block_matrix/src/marginal_covariance_cholesky.cpp: computeEntry, computeCovariance"]}
{"id": "C55", "title": "Fixed-point numbers: exact sums and bounded products", "statement": "Addition and subtraction of fixed-point numbers of the same format are exact and form a commutative group while no overflow occurs, comparison agrees with comparison of represented values, products and quotients are within one unit of the exact result, and conversion between formats preserves representable values.", "quantifier": "every pair of representable numbers", "why_tests_cant": "Ranges of 32/64-bit integers are beyond enumeration; sign cases matter.", "anchors": ["aslam_backend_expressions/include/aslam/backend/FixedPointNumber.hpp"]}
{"id": "C56", "title": "Cached expressions are transparent", "statement": "Wrapping an expression in a cache never changes the value or Jacobian a caller sees, after any history of evaluations, updates, reverts, parameter settings and (de)activations of the design variables, and for any number of concurrent evaluations.", "quantifier": "every history and every interleaving of concurrent readers", "why_tests_cant": "Histories and interleavings are unbounded.", "anchors": ["aslam_backend_expressions/include/aslam/backend/CacheExpression.hpp", "aslam_backend/include/aslam/backend/CacheInterface.hpp", "aslam_backend/src/DesignVariable.cpp: invalidateCache"]}
{"id": "C57", "title": "Scalar expression Jacobians are the true derivatives", "statement": "For every scalar expression built from the library's operations, the Jacobian reported for a design variable is the derivative of the value with respect to that variable wherever the operations are differentiable.", "quantifier": "every expression tree, every assignment in the domain", "why_tests_cant": "Expression trees are unbounded; numerical differentiation only samples points.", "anchors": ["aslam_backend_expressions/src/ScalarExpressionNode.cpp", "aslam_backend_expressions/include/aslam/backend/ScalarExpressionNode.hpp", "aslam_backend_expressions/include/aslam/backend/implementation/ScalarExpressionNode.hpp", "aslam_backend_expressions/include/aslam/backend/implementation/GenericScalarExpression.hpp"]}
{"id": "C58", "title": "Matrix and vector expression differentials are the true derivatives", "statement": "For every generic matrix expression the differential pushed to the leaves is the derivative of the value, through products, sums, transposes, inverses, norms, cross products and any chain of outer differentials.", "quantifier": "every expression tree and assignment", "why_tests_cant": "Unbounded trees.", "anchors": ["aslam_backend_expressions/include/aslam/backend/implementation/GenericMatrixExpression.hpp", "aslam_backend_expressions/include/aslam/backend/Differential.hpp", "aslam_backend_expressions/include/aslam/backend/OperationResultNodes.hpp", "aslam_backend_expressions/include/aslam/backend/implementation/VectorExpressionNode.hpp"]}
{"id": "C59", "title": "Rotation, Euclidean and transformation Jacobians are first-order correct", "statement": "For every expression built from rotations, points and transformations the Jacobian predicts the first-order change of the value under the minimal perturbations of the design variables.", "quantifier": "every expression tree, all rotations and points", "why_tests_cant": "Unbounded trees and continuous rotations.", "anchors": ["aslam_backend_expressions/src/EuclideanExpressionNode.cpp", "aslam_backend_expressions/src/RotationExpressionNode.cpp", "aslam_backend_expressions/src/TransformationExpressionNode.cpp", "aslam_backend_expressions/src/HomogeneousExpressionNode.cpp", "aslam_backend_expressions/src/TransformationBasic.cpp"]}
{"id": "C60", "title": "Jacobians do not depend on when values were evaluated", "statement": "The Jacobian of an expression depends only on the current design variable values, not on whether or when the expression value was evaluated before.", "quantifier": "every history of evaluations and updates", "why_tests_cant": "History property.", "anchors": ["aslam_backend_expressions/src/EuclideanExpressionNode.cpp", "aslam_backend_expressions/src/RotationExpressionNode.cpp", "aslam_backend_expressions/src/TransformationExpressionNode.cpp"]}
{"id": "C61", "title": "Empty expressions are neutral elements", "statement": "Default-constructed vectors behave as zero and default-constructed rotations/transformations as identity in every operation.", "quantifier": "every combination of empty and non-empty operands", "why_tests_cant": "All operator combinations and values.", "anchors": ["aslam_backend_expressions/src/EuclideanExpression.cpp", "aslam_backend_expressions/src/RotationExpression.cpp", "aslam_backend_expressions/src/TransformationExpression.cpp", "aslam_backend_expressions/include/aslam/backend/implementation/VectorExpression.hpp", "aslam_backend_expressions/include/aslam/backend/implementation/GenericScalarExpression.hpp"]}
{"id": "C62", "title": "Expressions report every design variable they depend on", "statement": "getDesignVariables returns a superset of the variables whose change can alter the value, and every variable receiving a Jacobian is reported.", "quantifier": "every expression tree and assignment, including piecewise expressions", "why_tests_cant": "All trees and switching conditions.", "anchors": ["aslam_backend_expressions/include/aslam/backend/implementation/ScalarExpressionNode.hpp: ScalarExpressionPiecewiseExpressionNode", "aslam_backend_expressions/src/ScalarExpressionNode.cpp"]}
{"id": "C63", "title": "Design variable contract: update, revert, set, difference", "statement": "For each design variable type revertUpdate undoes the last change of value, getParameters returns what was set, and minimalDifference is zero exactly at the current value and inverts update.", "quantifier": "every value, step and history", "why_tests_cant": "All values and histories.", "anchors": ["aslam_backend_expressions/src/EuclideanPoint.cpp", "aslam_backend_expressions/src/Scalar.cpp", "aslam_backend_expressions/src/RotationQuaternion.cpp", "aslam_backend_expressions/src/HomogeneousPoint.cpp", "aslam_backend_expressions/include/aslam/backend/implementation/DesignVariableVector.hpp", "aslam_backend_expressions/include/aslam/backend/implementation/DesignVariableMappedVector.hpp", "aslam_backend_expressions/include/aslam/backend/DesignVariableGenericVector.hpp", "aslam_backend/include/aslam/backend/implementation/DesignVariableAdapter.hpp"]}
{"id": "C64", "title": "Quaternion expressions obey the quaternion algebra", "statement": "Quaternion multiplication is associative, the norm is multiplicative, inverse and conjugate are two-sided, both multiplication conventions are related by the mode conversion, rotating vectors composes and preserves length, and the derivative of the inverse is correct.", "quantifier": "all quaternions and vectors", "why_tests_cant": "Polynomial identities over reals.", "anchors": ["aslam_backend_expressions/include/aslam/backend/implementation/QuaternionExpression.hpp"]}
{"id": "C65", "title": "Kinematic chains give true velocities and accelerations", "statement": "Global velocity, angular velocity, angular acceleration and acceleration of a frame equal the time derivatives of the composed motion of its ancestors.", "quantifier": "every chain depth and every smooth motion", "why_tests_cant": "All motions; identities over derivatives.", "anchors": ["aslam_backend_expressions/include/aslam/backend/KinematicChain.hpp", "aslam_backend_expressions/src/KinematicChain.cpp"]}
{"id": "C66", "title": "L1 regulariser gradient is a subgradient", "statement": "The reported value is the weighted sum of absolute parameter values and the reported gradient is a subgradient of it at every point, restricted to active variables.", "quantifier": "every parameter vector", "why_tests_cant": "Inequality over all pairs of points.", "anchors": ["aslam_backend_expressions/src/L1Regularizer.cpp"]}
{"id": "C67", "title": "A reset Jacobian container behaves like a new one", "statement": "After reset(rows) a sparse Jacobian container answers every further sequence of calls like a newly constructed container with that number of rows.", "quantifier": "every history before the reset, every new row count, every history after it", "why_tests_cant": "The state that survives a reset depends on the history; a test resets once in one state.", "anchors": ["aslam_backend/include/aslam/backend/implementation/JacobianContainerSparseImpl.hpp: reset", "aslam_backend/include/aslam/backend/MatrixStack.hpp: numRows"]}
{"id": "C68", "title": "Compressed-column exports fit the solver buffers", "statement": "For every square block matrix without empty blocks, exporting it for the Cholesky solvers writes at most nonZeros() values and row indices and exactly cols()+1 column pointers, and exporting it for the QR solver at most 2*nonZeros() values: the solvers' buffers, allocated from these numbers, are never overrun.", "quantifier": "every legal block matrix with equal row and column layout and non-empty blocks", "why_tests_cant": "An overrun depends on the combination of block sizes and sparsity pattern; a test covers a few patterns.", "anchors": ["sparse_block_matrix/include/sparse_block_matrix/implementation/sparse_block_matrix.hpp: fillCCS, fillUpperTriangleCCS, nonZeros", "sparse_block_matrix/include/sparse_block_matrix/linear_solver_cholmod.h: fillCholmodExt", "sparse_block_matrix/include/sparse_block_matrix/linear_solver_spqr.h: fillCholmodExt"]}
{"id": "C69", "title": "A larger residual never costs less", "statement": "The weighted squared error an error term reports, which the optimizer adds up as its cost, is non-decreasing in the raw squared error for each M-estimator policy.", "quantifier": "every pair of raw squared errors and every admissible parameter", "why_tests_cant": "Monotonicity over all reals; the violating range depends on the policy parameter.", "anchors": ["aslam_backend/src/MEstimatorPolicies.cpp", "aslam_backend/include/aslam/backend/ErrorTerm.hpp: getWeightedSquaredError"]}
{"id": "C70", "title": "The gradient is the derivative of the cost the problem reports", "statement": "computeGradient returns, for every active design variable at its columns, the sum over squared error terms of twice the weighted error times the weighted Jacobian plus the sum of the Jacobians of the non-squared terms, multiplied by the variable's scaling when requested, for every number of threads and for both the sparse and the dense Jacobian container.", "quantifier": "every problem, number of threads and container kind", "why_tests_cant": "The sum must not depend on how the terms are split over threads or on the container that accumulates it; a test sees one split of one problem.", "anchors": ["aslam_backend/src/ProblemManager.cpp: computeGradient, evaluateGradients, addGradientForErrorTerm"]}
{"id": "C71", "title": "Every call of optimize() gets its own iteration budget", "statement": "Each call of optimize() on the trust-region optimizer may use maxIterations iterations, whatever earlier calls did, and a negative maxIterations means no limit as its documentation says.", "quantifier": "every sequence of optimize() calls and every option value", "why_tests_cant": "Depends on the history of calls and on option values; tests call optimize() once with a positive budget.", "anchors": ["aslam_backend/src/Optimizer2.cpp: optimize, optimizeImplementation", "aslam_backend/src/OptimizerBase.cpp: optimize, initialize"]}
{"id": "C72", "title": "Cost events carry the lowest cost so far", "statement": "Every event the trust-region optimizer issues after a cost evaluation reports the current cost and, as previous lowest cost, the lowest cost of the run before this step.", "quantifier": "every problem, policy and run", "why_tests_cant": "Depends on the whole sequence of accepted and rejected steps.", "anchors": ["aslam_backend/src/Optimizer2.cpp: optimizeImplementation", "aslam_backend/include/aslam/backend/OptimizerCallback.hpp"]}
{"id": "C73", "title": "Dog-leg gain ratios use the reduction the linear model predicts", "statement": "For each kind of dog-leg step (steepest descent, Gauss-Newton, interpolated) the predicted reduction the gain ratio divides by is the reduction of the linearised least-squares cost along the step returned.", "quantifier": "every linear system, radius and cost", "why_tests_cant": "An algebraic identity over all systems; a wrong prediction only changes the path of the iteration, not whether a small test converges.", "anchors": ["aslam_backend/src/DogLegTrustRegionPolicy.cpp: solveSystemImplementation"]}
{"id": "C74", "title": "The estimated initial damping is the scaled largest diagonal entry", "statement": "When the legacy optimizer estimates lambda, the result is the configured scale times the largest magnitude on the diagonal of the Hessian, and computing it reads only existing entries.", "quantifier": "every Hessian and block layout", "why_tests_cant": "The wrong entry is only read for particular block numbers and sizes.", "anchors": ["aslam_backend/src/Optimizer.cpp: setInitialLambda"]}
{"id": "C75", "title": "Dog-leg steepest-descent steps minimise the linearised cost along the gradient", "statement": "The steepest-descent step of the dog-leg methods (trust-region policy and legacy optimizer) is the point of largest reduction of the linearised cost along the right-hand side.", "quantifier": "every linear system", "why_tests_cant": "An inequality over all systems and all step lengths.", "anchors": ["aslam_backend/src/DogLegTrustRegionPolicy.cpp: solveSystemImplementation", "aslam_backend/src/Optimizer.cpp: optimizeDogLeg"]}
{"id": "C76", "title": "First line-search method only tries permitted step lengths", "statement": "After the first line-search method returns (with success, failure or by running out of iterations) starting from step length zero, the step length it has applied is either zero or lies between the configured minimum and maximum step length. The first step length it tries is the configured initial one in the first search; later it is 1.01 times the step predicted by a parabola with the previous decrease, cut off at the maximum, or the initial one if the cost has grown. If that prediction is below the minimum step length (no or very small progress in the previous search) the method and the combined method throw without trying anything.", "quantifier": "for every cost function, gradient, search direction, starting point, option values with minStepLength <= maxStepLength, and number of iterations", "why_tests_cant": "The trial step is the output of an interpolation with four cases whose argument depends on the cost function; a test covers only a few of the sequences of cases.", "anchors": ["aslam_backend/src/LineSearch.cpp: Dcsrch::updateStepLength, lineSearchWolfe1", "aslam_backend/src/LineSearch.cpp:660-669, 826-849"]}
{"id": "C77", "title": "Interpolation steps are minimizers and stay inside the bracket", "statement": "The quadratic interpolation step is the minimizer of the unique parabola through the given values, the cubic interpolation step is a local minimizer of the unique cubic through the given values, and the next trial step of the bracketing phase lies inside the current bracket.", "quantifier": "for every set of interpolation data with the stated curvature, and every bracket", "why_tests_cant": "The claim concerns all real interpolation data, including those where the safeguards replace the interpolated step.", "anchors": ["aslam_backend/src/LineSearch.cpp: quadMin, cubicMin, zoom"]}
{"id": "C78", "title": "BFGS optimization never makes the cost worse and reports the state it leaves", "statement": "When optimize() of the BFGS optimizer returns after a reset, the reported error is the cost of the design variables it leaves, no more than the allowed number of iterations were counted, the cost is not larger than at the start, and the reported gradient norm belongs to the design variables it leaves.", "quantifier": "for every cost function and gradient, every starting point, all line-search options accepted by check(), any iteration limit", "why_tests_cant": "The behaviour depends on every sequence of line-search outcomes, and the cost function is arbitrary.", "anchors": ["aslam_backend/src/OptimizerBFGS.cpp: optimizeImplementation, updateStatus", "aslam_backend/src/OptimizerBase.cpp: updateConvergenceStatus"]}
{"id": "C79", "title": "Hybrid Monte Carlo trajectories are reversible, volume preserving and balanced", "statement": "A leap-frog trajectory of the hybrid sampler started from the end of another one with reversed momentum ends at the start of the first with reversed momentum; the map from start to end preserves phase-space volume; and the weight exp(-U-K) of the start times the acceptance probability equals that of the end times the acceptance probability of the reversed trajectory. Under a constant force a trajectory is the exact motion; its number of steps is one less than the option asks for (found to differ from the documented number; 0 wraps around).", "quantifier": "for every gradient, potential energy, dimension, number of steps, step length, starting point and momentum", "why_tests_cant": "The statement is about all trajectories of all densities; a statistical test can only detect gross violations.", "anchors": ["aslam_backend/src/SamplerHybridMcmc.cpp: step"]}
{"id": "C80", "title": "Scalings of design variables change the conditioning, not the solution", "statement": "Setting a nonzero scaling on any design variable does not change where an undamped Gauss-Newton step moves the variables: the step applied to the variables is a least-squares solution of the linearised problem whatever the scalings.", "quantifier": "all Jacobians, errors, scalings and linear solvers", "why_tests_cant": "Tests use the default scaling 1; the claim ranges over all scalings and all four solvers.", "anchors": ["aslam_backend/src/Optimizer2.cpp:275-292", "aslam_backend/include/aslam/backend/implementation/JacobianContainerSparseImpl.hpp:116-133", "aslam_backend/src/CompressedColumnJacobianTransposeBuilder (implementation)", "aslam_backend/src/DenseQrLinearSystemSolver.cpp"]}
{"id": "C81", "title": "The gradient of a non-squared term is weighted like its error", "statement": "For a scalar non-squared error term with weight and M-estimator policy, the factor applied to its Jacobian is the weight times the policy's weight of the current error, i.e. the same factor that the reported error carries.", "quantifier": "all weights, policies, errors and evaluation histories", "why_tests_cant": "Tests evaluate the error right before the Jacobian with positive errors; the claim ranges over signs and histories.", "anchors": ["aslam_backend/src/ScalarNonSquaredErrorTerm.cpp", "aslam_backend/include/aslam/backend/ScalarNonSquaredErrorTerm.hpp", "aslam_backend/src/util/ProblemManager.cpp:140-169"]}
{"id": "C82", "title": "The conjugate gradient solver meets its tolerance", "statement": "For a symmetric positive definite system given by the upper triangle of its blocks, a solve with the block-Jacobi preconditioned conjugate gradient solver, with the default iteration limit or one not below the number of unknowns, returns a vector whose preconditioned residual is at most the tolerance times that of the right-hand side, exactly the solution for tolerance zero; stopped earlier it returns a descent direction, and more iterations never increase the quadratic cost. A solve that did not find a solution reports failure.", "quantifier": "all block layouts, all matrices, right-hand sides, tolerances and iteration limits", "why_tests_cant": "Termination within n steps and the descent property are statements about every positive definite matrix; tests solve a few systems.", "anchors": ["sparse_block_matrix/include/sparse_block_matrix/linear_solver_pcg.h:36-95", "sparse_block_matrix/include/sparse_block_matrix/implementation/linear_solver_pcg.hpp:58-171"]}
{"id": "C83", "title": "A reused conjugate gradient solver answers like a new one", "statement": "Whatever was solved before with the same solver object, a solve returns what a newly built solver with the same settings would return.", "quantifier": "all histories of solves, restarts, setting changes, writes to, clearing and rebuilding of matrices", "why_tests_cant": "The answer depends on pointers and a threshold kept from earlier calls; tests solve once per solver.", "anchors": ["sparse_block_matrix/include/sparse_block_matrix/linear_solver_pcg.h:53-59", "sparse_block_matrix/include/sparse_block_matrix/implementation/linear_solver_pcg.hpp:61-85,100-105,127"]}
{"id": "C84", "title": "A reused direct solver hands the current matrix to the library", "statement": "Whatever was solved before with the same Cholesky (CHOLMOD, CSparse) or QR solver object, each solve or covariance request writes only inside the solver's arrays, gives the library exactly the current matrix (upper triangle for the Cholesky classes, the symmetric matrix for the QR class) with an analysis of the current pattern, and so answers like a new solver.", "quantifier": "all histories of solves, covariance requests and restarts on all matrices, all libraries, all three classes", "why_tests_cant": "The arrays and the symbolic analysis are kept from earlier calls and only the values are refreshed; tests solve a fixed pattern once or twice.", "anchors": ["sparse_block_matrix/include/sparse_block_matrix/linear_solver_cholmod.h:59-206,285-314", "sparse_block_matrix/include/sparse_block_matrix/linear_solver_csparse.h:85-213,287-318", "sparse_block_matrix/include/sparse_block_matrix/linear_solver_spqr.h:60-154,169-202"]}
{"id": "C85", "title": "Block orderings become scalar orderings", "statement": "With block ordering, the buffer for the block structure is large enough after every history of earlier uses and loses no memory; for every order of the block columns the scalar order made from it is a permutation of all columns that keeps the columns of a block together, and the inverted permutation undoes it.", "quantifier": "all histories of allocations, all layouts, all block permutations, all earlier vector sizes", "why_tests_cant": "Buffer reuse depends on the sequence of earlier sizes; permutations cannot be enumerated.", "anchors": ["sparse_block_matrix/src/matrix_structure.cpp:45-76", "sparse_block_matrix/include/sparse_block_matrix/implementation/sparse_block_matrix.hpp:860-884", "sparse_block_matrix/include/sparse_block_matrix/linear_solver_cholmod.h:143-147,219-275", "sparse_block_matrix/include/sparse_block_matrix/linear_solver_csparse.h:228-266"]}
{"id": "C86", "title": "Error terms with a prior: error and Jacobian belong to the current values", "statement": "For a pose or point expression pulled towards a prior value, evaluating the error gives the deviation from the prior (translation and rotation vector of value times inverse prior; difference of points), which is zero exactly when the value is the prior; with two weights the squared error is the translation weight times the squared translation plus the rotation weight times the squared angle; and the Jacobians returned are the derivative of that error at the current values of the design variables along every motion, whatever was evaluated before and whatever else is evaluated in between.", "quantifier": "for all pose and point expressions (possibly sharing nodes), priors, weights, design variable values and motions, and all histories of updates and evaluations of any number of such terms", "why_tests_cant": "Jacobian tests evaluate the error immediately before the Jacobian at one value; they cannot cover all histories in which values kept in members are older than the design variables.", "anchors": ["aslam_backend_expressions/src/ErrorTermTransformation.cpp:42-81", "aslam_backend_expressions/src/ErrorTermEuclidean.cpp:9-63"]}
{"id": "C87", "title": "Jacobians by finite differences", "statement": "Asking an error term for its Jacobians by finite differences leaves all design variables at their values, adds for each design variable of the term one block whose entries are the central differences of the error along that coordinate alone, within a sixth of the squared step times a bound on the third derivative of the true derivative, and leaves the error stored in the term that of the current values.", "quantifier": "for all error terms, lists and kinds of design variables, values and error functions", "why_tests_cant": "Tests compare Jacobians on sample terms with distinct variables; they do not show that values are restored for every kind of variable nor how far differences are from derivatives for every function.", "anchors": ["aslam_backend/src/ErrorTerm.cpp:117-175", "aslam_backend/include/aslam/backend/implementation/ErrorTerm.hpp:60-100", "aslam_backend/src/ErrorTermDs.cpp:40-76", "aslam_backend/src/ScalarNonSquaredErrorTerm.cpp:130-195"]}
{"id": "C88", "title": "Numerical check of Jacobians", "statement": "When the numerical check of the Jacobians of an error term passes, every entry of the Jacobians is within the tolerance, up to a sixth of its square times a bound on the third derivative, of the true derivative, and the design variables have kept their values; a term whose Jacobians are right passes.", "quantifier": "for all error terms, tolerances, values and error functions", "why_tests_cant": "The check itself is what tests rely on; no finite number of terms shows what passing or failing it means.", "anchors": ["aslam_backend/include/aslam/backend/implementation/ErrorTerm.hpp:202-232", "aslam_backend/src/ErrorTermDs.cpp:172-194"]}
{"id": "C89", "title": "Matrix implementations are interchangeable", "statement": "Code that only uses the abstract matrix interface gets the same answers from the dense, the compressed-column and the block matrix implementation: after loading a dense matrix with a tolerance, sizes, entries, dense export and products from both sides are those of the loaded matrix with entries of magnitude at most the tolerance replaced by zero, whatever the object held before.", "quantifier": "for all objects of each implementation, matrices, tolerances, vectors and sequences of calls", "why_tests_cant": "Tests exercise each class on a few matrices; equality of the implementations for all call sequences and previous contents needs a proof for each of them against one specification.", "anchors": ["aslam_backend/include/aslam/backend/Matrix.hpp", "aslam_backend/src/DenseMatrix.cpp", "aslam_backend/src/SparseBlockMatrixWrapper.cpp", "aslam_backend/include/aslam/backend/implementation/CompressedColumnMatrix.hpp:411-436"]}
{"id": "C90", "title": "Dense solution of block systems", "statement": "The dense block solver returns the solution of every symmetric positive definite system given by its upper triangle, whatever is stored below the diagonal and however the entries are split into blocks, and thereby the same step as the other solvers of the interface.", "quantifier": "for all block layouts, block matrices and right-hand sides", "why_tests_cant": "Tests solve a few systems; independence of block layout, lower triangle and solver choice is a statement about all of them.", "anchors": ["sparse_block_matrix/include/sparse_block_matrix/linear_solver_dense.h:46-109", "aslam_backend/src/Optimizer.cpp:48"]}
{"id": "C91", "title": "Jacobian of the minimal difference", "statement": "When a design variable returns its minimal difference to a reference together with a Jacobian, the difference is the one returned by minimalDifference and the Jacobian is its derivative with respect to the update of the variable; the expression of the difference adds exactly that Jacobian for the variable.", "quantifier": "for all design variable classes, states, references and update directions", "why_tests_cant": "A finite-difference test compares single points with a tolerance; exactness at every state and direction, and that the returned pair belongs together, are statements about all of them.", "anchors": ["aslam_backend_expressions/src/RotationQuaternion.cpp:82-89", "aslam_backend_expressions/src/MappedEuclideanPoint.cpp:77-81", "aslam_backend_expressions/include/aslam/backend/DesignVariableMinimalDifferenceExpression.hpp:26-41", "aslam_backend/include/aslam/backend/DesignVariableAdapter.hpp:99-102"]}
{"id": "C92", "title": "Camera design variables", "statement": "The Jacobians a camera design variable adds to a container predict, to first order, the change of the (weighted) reprojection error under every update of its active projection, distortion and shutter parameters, and are added only for variables it reports.", "quantifier": "for all cameras with correct Jacobians, parameter values, points, chain rule matrices, activity flags and steps", "why_tests_cant": "Tests try few activity combinations; a missing Jacobian of one parameter block shows only when that block is active and the overload without chain rule is used.", "anchors": ["aslam_backend_expressions/include/aslam/backend/implementation/CameraDesignVariable.hpp:38-81"]}
{"id": "C93", "title": "Tutorial problem", "statement": "The Jacobians of the tutorial's prior, motion and observation terms are the derivatives of their residuals; the problem of the example has a positive definite Gauss-Newton matrix for every number of steps from two on, with noise-free data its residuals vanish exactly at the truth, and its design variable can undo any change.", "quantifier": "for all numbers of steps, measurements, values with the robot away from the wall, and update histories", "why_tests_cant": "The example runs with one K and random data; solvability for every K and every linearisation point needs induction along the chain.", "anchors": ["aslam_backend_tutorial/src/ErrorTermMotion.cpp:26-40", "aslam_backend_tutorial/src/ErrorTermObservation.cpp:26-44", "aslam_backend_tutorial/src/ErrorTermPrior.cpp:25-41", "aslam_backend_tutorial/src/ScalarDesignVariable.cpp:36-64", "aslam_backend_tutorial/src/example.cpp:50-109"]}
{"id": "C94", "title": "Steps come from the current linearisation", "statement": "Whenever an iteration applies a step to the design variables, that step was computed from the linear system built at exactly the values the design variables had before the step, also after rejected steps and failed solves.", "quantifier": "for all problems, start values, budgets, options and histories of accepted, rejected and failed iterations", "why_tests_cant": "Tests follow runs in which every solve succeeds; a stale system or an unwritten step is applied only after a particular order of failed and rejected iterations.", "anchors": ["aslam_backend/src/Optimizer2.cpp:146-272", "aslam_backend/src/GaussNewtonTrustRegionPolicy.cpp:13-40", "aslam_backend/src/LineSearchTrustRegionPolicy.cpp:14-44", "aslam_backend/src/LevenbergMarquardtTrustRegionPolicy.cpp:38-111"]}
{"id": "C95", "title": "Rejections end", "statement": "At a point where the cost can be decreased, a run of rejected steps is finite: after finitely many shortened or more strongly damped steps one is accepted, and an accepted step does not raise the cost.", "quantifier": "for all differentiable costs, positive definite systems, start values and budgets", "why_tests_cant": "A test sees a bounded number of iterations on a few costs; an optimizer that repeats the same rejected step for ever is seen only as an exhausted budget.", "anchors": ["aslam_backend/src/Optimizer2.cpp:146-272", "aslam_backend/src/LevenbergMarquardtTrustRegionPolicy.cpp:38-111", "aslam_backend/src/LineSearchTrustRegionPolicy.cpp:14-44", "aslam_backend/src/DogLegTrustRegionPolicy.cpp:11-142"]}
{"id": "C96", "title": "Linear problems are solved by one step", "statement": "On a linear least squares problem with a unique minimiser, Gauss-Newton and line search reach the minimiser with the first step and report convergence; Levenberg-Marquardt never has a failed iteration, never raises the cost and gets strictly closer to the minimiser with each accepted step.", "quantifier": "for all linear problems with a unique minimiser, start values and budgets", "why_tests_cant": "Tests try a few linear problems; that the stopping rules fire after the exact step for every problem and threshold needs a proof over the loop.", "anchors": ["aslam_backend/src/Optimizer2.cpp:146-272", "aslam_backend/src/GaussNewtonTrustRegionPolicy.cpp:13-40", "aslam_backend/src/LineSearchTrustRegionPolicy.cpp:14-44", "aslam_backend/src/LevenbergMarquardtTrustRegionPolicy.cpp:38-111"]}
{"id": "C97", "title": "Matrix variables move exactly the entries the pattern marks", "statement": "A matrix design variable built with an update pattern has as many minimal dimensions as the pattern has nonzero entries. A step moves the k-th marked entry, counted row by row, by its k-th component and no other entry; unmarked entries keep their value through every history of updates and reverts; any value that differs in marked entries only is reached by exactly one step; the Jacobian it adds predicts the change exactly, and a variable without marked entries is not reported and adds nothing.", "quantifier": "for all patterns, values, steps, chain rule matrices and histories of updates and reverts", "why_tests_cant": "There are 2^9 zero patterns and the entries are stored by columns but counted by rows; a test tries a few symmetric ones.", "anchors": ["aslam_backend_expressions/src/MatrixBasic.cpp:9-53", "aslam_backend_expressions/src/MatrixBasic.cpp:59-82"]}
{"id": "C98", "title": "Marginalising step by step equals marginalising at once", "statement": "If a window is reduced by any number of calls, each of which removes some variables with the prior of the call before as an ordinary error term, further terms and new variables, then the prior it ends with has, up to a constant, the same cost at every value of the kept variables, and the same information matrix, as the prior returned by one call that removes all of them with all terms.", "quantifier": "for all numbers and dimensions of variables and terms, linear terms, right-hand sides and moves of the variables between the calls, and all numbers of calls", "why_tests_cant": "Agreement has to hold for every window history; a test compares one window numerically.", "anchors": ["aslam_backend/src/Marginalizer.cpp:23-199", "aslam_backend/src/MarginalizationPriorErrorTerm.cpp:44-95"]}
{"id": "C99", "title": "Brackets of the first line-search method contain an acceptable step and all later trial steps", "statement": "With the first line-search method, as long as the search goes on: before there is a bracket, each step length returned is strictly longer than the best one so far and within the limits, by at most four times the last increase and from the third on by at least 1.1 times the last increase, so that the search cannot go on for ever without a bracket; once there is a bracket, every step length returned lies in it and each bracket is part of the one before. In the first stage the bracket contains a step that fulfils the strong Wolfe conditions strictly inside; in the second stage it contains a stationary point that is no worse than the best step so far.", "quantifier": "for all differentiable costs along the direction, first steps, limits, tolerances and numbers of evaluations", "why_tests_cant": "The bracket argument needs the intermediate value theorem over all costs and all histories of cubic, quadratic and secant steps; a test runs a few cost functions.", "anchors": ["aslam_backend/src/LineSearch.cpp:58-217", "aslam_backend/src/LineSearch.cpp:240-385"]}
{"id": "C100", "title": "Gradient and normal equations of a problem built from expressions are the derivatives of its cost", "statement": "Take any problem made of squared error terms on scalar or point expressions (with a square root of the inverse covariance and an M-estimator) and of non-squared error terms on scalar expressions, over any active and inactive design variables. After evaluating the cost, the gradient the problem computes, times any step of the active variables, is the rate at which the weighted cost changes when the variables are moved by that step (times their scaling when scaling is applied). The normal equations built from the same problem have this gradient as right-hand side (times minus one half) and the weighted squared rate of change of the errors as quadratic form, so an exact solution of the damped equations never increases the weighted cost to first order. The reported cost itself has this gradient when the square roots are symmetric and the M-estimators constant.", "quantifier": "all expression trees with shared nodes, all values of variables and node members, all numbers of terms, all active sets, scalings, steps, dampings, thread counts, build modes and containers", "why_tests_cant": "The claim joins the recursive evaluation of arbitrary expression trees, the chain rule stack, the containers, the weights and the assembly; a test only sees single trees at single points and compares with finite differences of limited accuracy.", "anchors": ["aslam_backend_expressions/include/aslam/backend/ExpressionErrorTerm.hpp:92-166", "aslam_backend/src/ProblemManager.cpp:120-169", "aslam_backend/include/aslam/backend/ErrorTerm.hpp:103-116", "aslam_backend/src/BlockCholeskyLinearSystemSolver.cpp:59-75"]}
{"id": "C101", "title": "The text of an expression identifies it", "statement": "Printing an expression with the text visitor writes, for every node that describes itself, its name, its arguments in order and its current value; the text ends with the value of the expression, asking for an argument that does not exist raises an exception, and two expressions with the same text have the same structure and the same value at every node.", "quantifier": "all trees of visited nodes, all names and printed values, all sequences of visits, all expressions and values of the design variables", "why_tests_cant": "That a text can be read back in only one way is a statement about all pairs of trees of any depth; tests compare a few strings.", "anchors": ["aslam_backend_expressions/include/aslam/backend/ExpressionNodeVisitor.hpp:33-135", "aslam_backend_expressions/src/ToTextNodeVisitor.cpp:9-28", "aslam_backend_expressions/src/ScalarExpressionNode.cpp:23-25,297-315", "aslam_backend_expressions/src/ScalarExpression.cpp:17-32,66-69"]}
{"id": "C102", "title": "Linear solvers are interchangeable", "statement": "For one linear problem and conditioner, any two of the linear solvers (block Cholesky, sparse Cholesky, sparse QR, dense QR) that return a step return the same one, provided the problem and the damping leave no direction free.", "quantifier": "all Jacobians, errors and conditioners of any size, all numerical libraries that meet their contracts, all pairs of solvers", "why_tests_cant": "Tests compare solvers on a few random systems up to a tolerance; equality for every system, and the condition under which it holds, need uniqueness of the minimiser.", "anchors": ["aslam_backend/src/BlockCholeskyLinearSystemSolver.cpp:76-108", "aslam_backend/src/SparseCholeskyLinearSystemSolver.cpp", "aslam_backend/src/SparseQrLinearSystemSolver.cpp", "aslam_backend/src/DenseQrLinearSystemSolver.cpp"]}
{"id": "C103", "title": "The step does not depend on the order of registration", "statement": "Renumbering the error terms and the coordinates of the design variables of a problem (adding them in another order) gives each coordinate the same step as before.", "quantifier": "all problems, all pairs of permutations, all solvers for the two orders and all solves they did before", "why_tests_cant": "A test tries a few orders; the claim ranges over all permutations and all problems.", "anchors": ["aslam_backend/src/BlockCholeskyLinearSystemSolver.cpp:76-108", "aslam_backend/src/SparseCholeskyLinearSystemSolver.cpp", "aslam_backend/src/DenseQrLinearSystemSolver.cpp", "aslam_backend/src/util/ProblemManager.cpp"]}
{"id": "C104", "title": "M-estimators minimise their robust cost", "statement": "The weights of every M-estimator (none, fixed, Geman-McClure, Cauchy, Huber, Blake-Zisserman) are the derivative of a robust cost with respect to the squared error, and do not grow with the error. With M-estimators switched on, the gradient is the derivative of the non-squared costs plus the robust costs, a damped Gauss-Newton step does not increase that cost to first order, and any step that lowers the cost with the weights held fixed lowers the robust cost by at least as much. The number evaluateError returns is not this cost and can rise along such a step.", "quantifier": "all parameters of the estimators, all squared errors, any number of terms with any mixture of estimators and expressions, all points, all steps, all dampings", "why_tests_cant": "Tests of the estimators compare a few weights with literals; the relation between weights, gradient and robust cost is a statement about derivatives at every point.", "anchors": ["aslam_backend/src/MEstimatorPolicies.cpp:20-131", "aslam_backend/include/aslam/backend/ErrorTerm.hpp:44-53", "aslam_backend/include/aslam/backend/ErrorTerm.hpp:122", "aslam_backend/include/aslam/backend/ExpressionErrorTerm.hpp:92-133"]}
{"id": "C105", "title": "A Jacobian container exports its Jacobians as one matrix in the right columns", "statement": "After any legal sequence of calls on a sparse Jacobian container, asDenseMatrix() is the Jacobians of exactly the design variables that received one, side by side in the order of their block indices, cols() is its width and designVariable(r) names its r-th block; with column indices, asDenseMatrix(colBlockIndices) has each Jacobian in the block of its variable's block index and zeros elsewhere, and equals the matrix of a dense container that received the same calls. asDenseMatrix() without indices, the function both containers share, does not agree: variables without Jacobian are left out by one and are zero columns in the other.", "quantifier": "for all sequences of adds and nested chain-rule factors, all block orders, dimensions and column indices", "why_tests_cant": "the order of the columns depends on the history and on the block indices; tests use two variables which both receive a Jacobian", "anchors": ["aslam_backend/include/aslam/backend/implementation/JacobianContainerSparseImpl.hpp:192-258", "aslam_backend/include/aslam/backend/JacobianContainerDense.hpp:53", "aslam_backend/include/aslam/backend/implementation/JacobianContainerSparseImpl.hpp:152-171"]}
{"id": "C106", "title": "Finiteness checks of Jacobians find every coefficient that is not finite", "statement": "utils::isFinite(container, expression) is true exactly if all Jacobian coefficients of the active variables of the expression are finite, then no contribution was infinite or not a number; checkJacobiansFinite() of an error term throws exactly if one of its Jacobians has a coefficient that is not finite. The check throws for a sparse container if an active variable has no Jacobian, and the check of ErrorTermDs never throws because it looks at a container nothing fills.", "quantifier": "for all histories of the container, all expressions' variable sets, all number types whose sums are only finite if the terms are", "why_tests_cant": "a check that looks at the wrong place passes every test with finite Jacobians", "anchors": ["aslam_backend_expressions/include/aslam/backend/util/ExpressionUtils.hpp:17-26", "aslam_backend/include/aslam/backend/implementation/JacobianContainerSparseImpl.hpp:135-141", "aslam_backend/include/aslam/backend/implementation/JacobianContainerDenseImpl.hpp:22-27", "aslam_backend/include/aslam/backend/implementation/ErrorTerm.hpp:192-200", "aslam_backend/src/ErrorTermDs.cpp:162-171"]}
{"id": "C107", "title": "The last step of a run is the step of the state it was applied to, and a small one means a small gradient", "statement": "When Optimizer2 with the Levenberg-Marquardt policy returns and no linear solve failed, its last step solves the damped normal equations of the state it was applied to, although the system is only rebuilt when the policy asks for it; if it reports convergence because of a small step, each coordinate of J^T e in that state is at most (row sum of J^T J + damping) times the threshold. With Gauss-Newton the damping is absent and for affine errors the result is a stationary point. It does not hold after a failed linear solve (a step without gain keeps the old system), nor for QR solvers after a rejected step (they use the errors of the rejected candidate), and a large damping makes the bound meaningless.", "quantifier": "for all least-squares problems, solvers, initial dampings, thresholds and iteration limits, all patterns of accepted and rejected steps", "why_tests_cant": "the histories in which system and state part are rare combinations of rejection, zero gain and solver failure", "anchors": ["aslam_backend/src/LevenbergMarquardtTrustRegionPolicy.cpp:48-90", "aslam_backend/src/Optimizer2.cpp:187-258", "aslam_backend/src/LinearSystemSolver.cpp:17-28", "aslam_backend/src/DenseQrLinearSystemSolver.cpp:41-58", "aslam_backend/src/GaussNewtonTrustRegionPolicy.cpp:19-26"]}
{"id": "C108", "title": "Jacobians of expressions are derivatives with respect to update()", "statement": "Take any expression over scalars, points, rotations, homogeneous points and matrices after any number of optimizer steps. Evaluate its Jacobians, then hand s times a direction to update() of the design variables. The Jacobians times the direction are the rate at which the value of the expression changes with s at s = 0. A solution of the normal equations of a problem of expression error terms, scaled down enough and handed to update(), strictly decreases the weighted cost if it changes the errors to first order or is damped.", "quantifier": "all expressions, all values of the design variables reachable by steps from unit quaternions, all directions, all problems of expression error terms, all dampings", "why_tests_cant": "finite differences on sampled expressions check the convention of update() and of the Jacobians only at the sampled points", "anchors": ["aslam_backend_expressions/src/RotationQuaternion.cpp", "aslam_backend_expressions/src/HomogeneousPoint.cpp", "aslam_backend_expressions/src/EuclideanPoint.cpp", "aslam_backend_expressions/src/MatrixBasic.cpp", "aslam_backend_expressions/src/RotationExpressionNode.cpp"]}
{"id": "C109", "title": "A rotation made from four numbers is a rotation and has the right Jacobian", "statement": "Vector2RotationQuaternionExpressionAdapter: where the four numbers are a unit quaternion, the value is a rotation matrix and the Jacobian passed on is the angular velocity for the velocity of the four numbers.", "quantifier": "all motions of the four numbers on the unit sphere; for the refutation all unit quaternions and all steps orthogonal to them", "why_tests_cant": "the unit test drives the adapter with a unit quaternion only; the property fails for additive updates", "anchors": ["aslam_backend_expressions/src/Vector2RotationQuaternionExpressionAdapter.cpp:21-33", "aslam_backend_expressions/include/aslam/backend/implementation/DesignVariableVector.hpp"]}
{"id": "C110", "title": "transformationToExpression keeps the expression and the transformation of the user equal", "statement": "After transformationToExpression, and after any calls of update, revertUpdate and setParameters on the two design variables it returns, the value of the expression is the value of the user's transformation; updates are written to that transformation and reverting restores it.", "quantifier": "all transformations, all sequences of calls to the two design variables", "why_tests_cant": "histories of calls are unbounded; tests use one update", "anchors": ["aslam_backend_expressions/src/MapTransformation.cpp:7-25", "aslam_backend_expressions/src/MappedRotationQuaternion.cpp", "aslam_backend_expressions/src/MappedEuclideanPoint.cpp"]}
{"id": "C111", "title": "The getters of the sparse QR solver describe the current system", "statement": "After solveSystem() of the sparse QR solver returned true, getRank() and getTol() describe the factorisation of the current Jacobian; getR() returns the triangular factor of the current Jacobian, whatever was asked or solved before; without a factorisation since the last initMatrixStructure() the getters throw and change nothing.", "quantifier": "all histories of initMatrixStructure, buildSystem, solveSystem, analyzeSystem, getR, getRank and option changes, all results of the numerical library, all Jacobians", "why_tests_cant": "The triangular factor is cached and the factor object is reused, so a right answer depends on the whole history of calls and exceptions; tests ask once after one solve.", "anchors": ["aslam_backend/src/SparseQrLinearSystemSolver.cpp:30-184", "aslam_backend/include/aslam/backend/implementation/Cholmod.hpp:221-244, 331-453", "aslam_backend/include/aslam/backend/implementation/CompressedColumnMatrix.hpp:461-478"]}
{"id": "C112", "title": "Objects of the numerical library are released exactly once", "statement": "In every history of calls on a sparse QR solver, no matrix or factor of CHOLMOD or SuiteSparseQR is released twice or used after its release, and after the destructor none is left.", "quantifier": "all histories of public calls with exceptions caught by the caller, all results (including failures) of every library call", "why_tests_cant": "Leaks and double releases hide on failure paths of the library, in every combination with earlier calls; tests do not make the library fail.", "anchors": ["aslam_backend/src/SparseQrLinearSystemSolver.cpp:22-184", "aslam_backend/include/aslam/backend/implementation/Cholmod.hpp:221-453"]}
{"id": "C113", "title": "Sparse block matrices are values", "statement": "In every program that constructs, copies, moves, assigns, slices (with allocation), writes, scales, clears and destroys sparse block matrices, a copy is independent of its source, a move transfers the value, no operation changes a matrix it does not name, and no deleted block is accessed.", "quantifier": "all programs (finite sequences of operations on any number of matrices) without views, all layouts and block contents", "why_tests_cant": "Sharing of a block between two matrices shows only after particular sequences of copies, moves, deallocations and writes; tests run a few of them.", "anchors": ["sparse_block_matrix/include/sparse_block_matrix/implementation/sparse_block_matrix.hpp:38-177", "sparse_block_matrix/include/sparse_block_matrix/implementation/sparse_block_matrix.hpp:510-566", "sparse_block_matrix/include/sparse_block_matrix/sparse_block_matrix.h:88-150"]}
{"id": "C114", "title": "Every block has one owner, and views show the blocks of their owner", "statement": "In every program, including those with views (slices without allocation), no block is deleted twice, every allocated block belongs to exactly one matrix with storage, and when all matrices are destroyed no block is left. A block seen through a view is the block of the matrix the view was taken from.", "quantifier": "all programs with any number of matrices and views, all layouts and block contents; for views: all continuations that leave view and owner in place", "why_tests_cant": "Double deletions and leaks depend on the order of moves, assignments and destructions of owners and views.", "anchors": ["sparse_block_matrix/include/sparse_block_matrix/implementation/sparse_block_matrix.hpp:66-118", "sparse_block_matrix/include/sparse_block_matrix/implementation/sparse_block_matrix.hpp:156-177", "sparse_block_matrix/include/sparse_block_matrix/implementation/sparse_block_matrix.hpp:539-566"]}
{"id": "C115", "title": "The legacy optimizer works on the active variables and on every squared error term they occur in", "statement": "After initialize(), the legacy optimizer has every active design variable of the problem exactly once, with block indices equal to their positions and the marginalised ones last, a Hessian layout with the dimensions of the variables, and exactly the squared error terms with an active variable. It throws exactly if no active variable is left outside the Schur complement. The cost it reports changes with the active variables like the sum of all error terms of the problem.", "quantifier": "all histories of an OptimizationProblem (adding and removing variables and terms), all choices of active and marginalised variables, all dimensions, all states", "why_tests_cant": "Layout mistakes show only for particular combinations of inactive, marginalised and removed variables; a term that is missed changes the minimum silently.", "anchors": ["aslam_backend/src/Optimizer.cpp:65-122", "aslam_backend/src/Optimizer.cpp:669-681", "aslam_backend/src/OptimizationProblem.cpp:159-168"]}
{"id": "C116", "title": "Steps of the legacy dog-leg method stay in the trust region", "statement": "Every step the legacy dog-leg method applies has norm at most the trust-region radius and is the Gauss-Newton step, the shortened steepest-descent step or the point of the dog-leg path on the boundary; a rejected step at least halves the radius and the search for an acceptable step ends.", "quantifier": "all sequences of passes, all steepest-descent and Gauss-Newton steps, all gain ratios including infinities and NaN, all radii, all positive convergence thresholds", "why_tests_cant": "The path is chosen from real numbers and from the history of gain ratios; tests see a few trajectories. Size mismatches in release builds go unnoticed.", "anchors": ["aslam_backend/src/Optimizer.cpp:198-465"]}
{"id": "C117", "title": "The sparse Cholesky solver solves with the current Jacobian and conditioner throughout its life", "statement": "In every history of setting up structures, building, setting conditioners and solving, with exceptions caught by the caller and whatever CHOLMOD answers, no released or null object is used, CHOLMOD is never given a matrix with another pattern than it analysed, each solve uses the Jacobian last built followed by the conditioner last set, it reports success exactly if the library succeeded, and all library objects are released once. A solve that throws leaves the solver usable.", "quantifier": "all finite histories of public calls, all matrices, all conditioners, all answers of the library", "why_tests_cant": "The factor is kept across solves and the diagonal block is appended and removed around each one; a mistake shows only after particular sequences with failures of the library.", "anchors": ["aslam_backend/src/SparseCholeskyLinearSystemSolver.cpp:12-93", "aslam_backend/src/LinearSystemSolver.cpp:85-118", "aslam_backend/include/aslam/backend/implementation/Cholmod.hpp:179-399"]}
{"id": "C118", "title": "An initialised Optimizer2 runs on its problem with the solver and the damping its options ask for", "statement": "Consider any program that creates linear solvers, trust-region policies, problems and Optimizer2 objects, passes the former to the latter through options and setProblem, and calls initialize(), optimize(), setOptions(), initializeLinearSolver() and initializeTrustRegionPolicy() in any order. No call ever uses a missing solver, policy or problem. If initialize() of an optimizer returns, or optimize() initialises it, then optimize() works with a linear system made for exactly the active design variables and error terms of its problem, updates exactly those variables, uses the solver and the policy named in the options at that time (sparse Cholesky and Levenberg-Marquardt by default; dog-leg instead of Levenberg-Marquardt for sparse_qr), and adds the damping term to the system exactly if the policy is Levenberg-Marquardt.", "quantifier": "every program (any number of solvers, policies, problems and optimizers, in any sharing, any order of calls), every optimizer", "why_tests_cant": "Tests build one optimizer and run it. The guarantees concern objects shared between optimizers and arbitrary orders of set-up calls, and a missing damping term shows only as slow or failed convergence.", "anchors": ["aslam_backend/src/Optimizer2.cpp:42-115", "aslam_backend/src/OptimizerBase.cpp:122-133", "aslam_backend/src/util/ProblemManager.cpp:32-95", "aslam_backend/src/LinearSystemSolver.cpp:10-118", "aslam_backend/src/DenseQrLinearSystemSolver.cpp:27-58", "aslam_backend/include/aslam/backend/LinearSystemSolver.hpp:110"]}
{"id": "C119", "title": "A step of the legacy optimizer solves the normal equations of the whole problem, marginalised variables included", "statement": "After any history of an optimization problem and a successful initialize() of Optimizer, with or without Schur complement, with Gauss-Newton or Levenberg-Marquardt steps: if the linear solver returns a solution of the system it is given, every active design variable is updated exactly once, by its scaling times its part of a vector that solves (sum of J^T W J + lambda I) z = - sum of J^T W e over all error terms collected and all active variables, with Jacobians multiplied by the scalings. Required: no error term depends on two marginalised variables, and the blocks of the marginalised variables are invertible. What the matrices contained before has no influence.", "quantifier": "every problem, every order of variables and terms, every split into marginalised and other variables, all dimensions, Jacobians, errors, weights, scalings and lambda", "why_tests_cant": "A test compares one step of one problem with a reference. That elimination and back-substitution give the same step as the full system is an identity over all block structures and values.", "anchors": ["aslam_backend/src/Optimizer.cpp:505-525", "aslam_backend/src/Optimizer.cpp:614-647", "aslam_backend/src/Optimizer.cpp:684-705", "aslam_backend/src/sparse_matrix_functions.cpp:8-82"]}
{"id": "C120", "title": "The gain ratio of the legacy Levenberg-Marquardt steps compares with the reduction that the linearised problem predicts", "statement": "In a Levenberg-Marquardt step of Optimizer the actual reduction of the cost is divided by the reduction of the cost of the linearised problem for the applied step. This number is positive whenever the step is not zero and lambda is positive, so the ratio has the sign of the actual reduction.", "quantifier": "every problem, every split into marginalised and other variables, all Jacobians, errors, weights and scalings, every lambda >= 0", "why_tests_cant": "Wrong predictions only change how fast lambda adapts; tests that check convergence pass with them.", "anchors": ["aslam_backend/src/Optimizer.cpp:127-133", "aslam_backend/src/Optimizer.cpp:547-577"]}
{"id": "C121", "title": "The reported size of a step is the largest change of a parameter", "statement": "The step size that Optimizer and Optimizer2 compare with convergenceDeltaX and report as dXFinal is the largest magnitude of a coordinate of an update applied to an active design variable in that step.", "quantifier": "every problem, every step, every split into marginalised and other variables, all scalings", "why_tests_cant": "Test problems use scaling one, where all definitions agree; which coordinate is the largest depends on the data.", "anchors": ["aslam_backend/src/Optimizer.cpp:614-647", "aslam_backend/src/Optimizer2.cpp:276-291", "aslam_backend/src/Optimizer2.cpp:189", "aslam_backend/src/Optimizer.cpp:503"]}
{"id": "C122", "title": "Options read from a configuration are the configured ones", "statement": "Options constructed from a property tree have the value stored under the name of the option, and the documented default if there is none. The constructor succeeds exactly if the values described in this way are valid (non-negative thresholds with one of them positive, maxIterations -1 or more, ordered step bounds, Wolfe constants, counts and rates in range) and throws otherwise; values that are not numbers are refused. The options of the line search of BFGS are taken from the subtree 'linesearch'. A solver name selects the solver of that name. A deprecated name of an option is honoured, and using both names is refused.", "quantifier": "every property tree: every set of keys with every value", "why_tests_cant": "Tests read one configuration file. That no key is swapped with another, that no value slips through the checks and that keys which are absent give the default is a statement about all trees.", "anchors": ["aslam_backend/src/OptimizerBase.cpp:25-44", "aslam_backend/src/OptimizerRprop.cpp:18-37", "aslam_backend/src/OptimizerBFGS.cpp:26-38", "aslam_backend/src/LineSearch.cpp:392-416", "aslam_backend/src/SamplerHybridMcmc.cpp:26-53", "aslam_backend/src/SamplerMetropolisHastings.cpp:24-31", "aslam_backend/src/Optimizer2.cpp:21-65", "aslam_backend/src/LevenbergMarquardtTrustRegionPolicy.cpp:26-32", "aslam_backend/src/SparseQrLinearSystemSolver.cpp:11-20", "aslam_backend/src/BlockCholeskyLinearSystemSolver.cpp:17-28", "aslam_backend/src/Optimizer.cpp:40-60"]}
{"id": "C123", "title": "Options and status objects survive an archive", "statement": "Saving an OptimizerStatus, OptimizerOptionsBase, LineSearchOptions, OptimizerOptionsRprop, OptimizerOptionsBFGS or Optimizer2Options to an archive and loading it into any object of the same class gives an equal object and leaves the archive behind the object, so that sequences of objects can be stored. Loading an archive of another kind is refused.", "quantifier": "every object, every target of the load, every content of the rest of the archive, every number of objects", "why_tests_cant": "A member that is left out or stored twice is only noticed if the test changes exactly that member from its default.", "anchors": ["aslam_backend/include/aslam/backend/implementation/OptimizerBaseImplementation.hpp:20-40", "aslam_backend/include/aslam/backend/implementation/OptimizerRpropImpl.hpp:16-27", "aslam_backend/include/aslam/backend/implementation/LineSearchImpl.hpp:16-27", "aslam_backend/include/aslam/backend/implementation/OptimizerBFGSImpl.hpp:16-22", "aslam_backend/include/aslam/backend/Optimizer2Options.hpp:14-36"]}
{"id": "C124", "title": "Hessian and covariances of the legacy optimizer", "statement": "After optimize or optimizeDogLeg, H() is the Gauss-Newton Hessian at the returned estimate. After any sequence of optimisations and covariance requests, a covariance block is the block of the inverse of the Hessian held at the last successful request, for the positions that request asked for (all (i,i), or all (i,j) with i <= j, or the given ones), and null for all others; damping does not enter; in the units of the design variables the blocks are those of the inverse of the sum of J^T W J. If the Hessian cannot be factorised an exception is thrown.", "quantifier": "every objective, every run, every history of calls with every list of block positions, every scaling", "why_tests_cant": "Tests look at one converged run, where the last step is too small to see that the Hessian is one step old, with variables that have scaling one.", "anchors": ["aslam_backend/src/Optimizer.cpp:395-404", "aslam_backend/src/Optimizer.cpp:502-584", "aslam_backend/src/Optimizer.cpp:684-793", "sparse_block_matrix/include/sparse_block_matrix/linear_solver_cholmod.h:164-206", "sparse_block_matrix/src/marginal_covariance_cholesky.cpp:204-270"]}
{"id": "C125", "title": "The legacy Levenberg-Marquardt method adapts its damping as documented, descends and ends", "statement": "After k rejected steps in a row lambda has grown by mu^k 2^(k(k-1)/2); an accepted step divides it by at most gamma and multiplies it by at most beta, lowering it only for gain ratios of at least 1/2. The optimization never increases the cost and ends after finitely many iterations however large maxIterations is, also if the error terms do not determine the variables.", "quantifier": "every problem, every split into marginalised and other variables, all Jacobians, errors, weights and non-zero scalings, all options with gamma, mu > 0 and beta > 1, every starting point", "why_tests_cant": "Tests stop after maxIterations and look at problems where the first steps are accepted.", "anchors": ["aslam_backend/src/Optimizer.cpp:136-159", "aslam_backend/src/Optimizer.cpp:472-590", "aslam_backend/include/aslam/backend/OptimizerOptions.hpp:38-47"]}
{"id": "C126", "title": "The optimizer ends by itself", "statement": "With positive convergence thresholds and solvable linear systems, optimize() ends because steps or changes of the cost have become small: the result is the same for all sufficiently large maxIterations, reports convergence, is not worse than the start, and carries the cost of the returned values.", "quantifier": "every cost function with finite non-negative values, every start, every history of the optimizer, all Jacobians (rank-deficient ones included), all Levenberg-Marquardt parameters of the documented kind, all line-search scale steps accepted by the constructor", "why_tests_cant": "Tests run with one budget and a handful of problems; whether a loop ends for every budget is a statement about infinitely many runs.", "anchors": ["aslam_backend/src/Optimizer2.cpp:152-259", "aslam_backend/src/LevenbergMarquardtTrustRegionPolicy.cpp:50-87", "aslam_backend/src/LineSearchTrustRegionPolicy.cpp:14-44", "aslam_backend/src/GaussNewtonTrustRegionPolicy.cpp:13-40", "aslam_backend/src/DogLegTrustRegionPolicy.cpp:25-142"]}
{"id": "C127", "title": "geoLog and geoExp of unit quaternions invert each other", "statement": "Moving from p by geoExp along geoLog(p, q) reaches the rotation of q; geoLog(p, geoExp(p, v)) is v for v shorter than a right angle and geoLog(p, p) is zero; geoLog(q, p) is the negative of geoLog(p, q); consecutive steps along one direction add; the left (right) geometry does not change under multiplication from the left (right); geoExp is what update() of the design variable of that geometry does; and Jacobians of both expressions are derivatives with respect to update().", "quantifier": "all four quaternion modes, both geometries, all unit quaternions and tangent vectors, all assignments of the design variables", "why_tests_cant": "Unit quaternions and tangent vectors form continua, and the formulas differ per mode and geometry.", "anchors": ["aslam_backend_expressions/include/aslam/backend/implementation/QuaternionExpression.hpp:106-152", "aslam_backend_expressions/include/aslam/backend/implementation/QuaternionExpression.hpp:307-375", "aslam_backend_expressions/include/aslam/backend/QuaternionExpression.hpp:110-172"]}
{"id": "C128", "title": "computeHessian returns the Gauss-Newton matrix at the current estimate", "statement": "computeHessian returns the upper blocks of the sum of J^T R^-1 J over all error terms at the current values of the design variables, zero below the block diagonal, positive semi-definite, whatever lambda is, whatever the output matrix held before, whatever values expressions have cached and whatever M-estimators the terms have; the status then holds the cost at the current values and counts one error and one Jacobian evaluation more. It does not return the damped matrix for lambda, nor the robustified one of the optimizer.", "quantifier": "all problems of squared expression error terms, all values of design variables, all lambda, all previous contents of the output matrix, all caches", "why_tests_cant": "The matrix is compared with derivatives of arbitrary expressions at arbitrary estimates, and has to be independent of everything called before.", "anchors": ["aslam_backend/src/Optimizer2.cpp:368-382", "aslam_backend/src/Optimizer2.cpp:304-311", "aslam_backend/src/BlockCholeskyLinearSystemSolver.cpp:36-75", "aslam_backend/src/BlockCholeskyLinearSystemSolver.cpp:152-155", "aslam_backend/src/LinearSystemSolver.cpp:91-118"]}
{"id": "C129", "title": "Sparse matrices written as text are the matrices in memory", "statement": "The file which a block matrix or compressed-column arrays are written to in Octave's sparse format is legal: lines strictly ordered by column and row, indices from one within the announced size, as many lines as announced. Reading it gives the dense expansion of the block matrix, respectively the matrix the arrays mean; with the mirroring flag and an upper triangle only, the symmetric matrix. Both exports of the same matrix mean the same.", "quantifier": "all legal block matrices and all well-formed compressed-column arrays, all file names, every sorting function", "why_tests_cant": "Layouts, fill patterns and the order in which an unstable sort leaves entries are unbounded.", "anchors": ["sparse_block_matrix/include/sparse_block_matrix/implementation/sparse_block_matrix.hpp:886-927", "sparse_block_matrix/include/sparse_block_matrix/implementation/sparse_helper.h:24-56", "sparse_block_matrix/include/sparse_block_matrix/sparse_helper.h:34-47", "sparse_block_matrix/src/matrix_structure.cpp:78-116"]}
{"id": "C130", "title": "A run on expression error terms ends at nearly stationary values and reports their cost", "statement": "Optimizer2 with the Levenberg-Marquardt policy on any problem of squared expression error terms reports the cost of the values which the design variables have when it returns, and that cost is never larger than at the start. If it reports convergence because of a small step, then the design variables are at, or one step below the threshold away from, values where every directional derivative (where it exists) of the cost with the robust weights of those values, along the active design variables, is bounded by the threshold times the curvature of the normal equations plus the damping. With Gauss-Newton the same holds without damping, and without the guarantee on the cost. Undoing a step restores every value the terms read, and applying a step moves the active design variables along one scaled direction and no others.", "quantifier": "all expressions, all design variables and scalings, all active subsets, all options, all linear solvers that solve the system when they report success", "why_tests_cant": "The numbers of terms, of design variables and of iterations are unbounded, and so is the shape of the expressions.", "anchors": ["aslam_backend/src/Optimizer2.cpp:103-302", "aslam_backend/src/LevenbergMarquardtTrustRegionPolicy.cpp:36-110", "aslam_backend/src/GaussNewtonTrustRegionPolicy.cpp:16-40", "aslam_backend/src/BlockCholeskyLinearSystemSolver.cpp:55-75"]}
{"id": "C131", "title": "Levenberg-Marquardt with the block Cholesky solver takes damped Gauss-Newton steps", "statement": "In every run of Optimizer2 with the Levenberg-Marquardt policy and the block Cholesky solver, the last step solves the normal equations of the state it was applied to with the squared damping added to the diagonal, whether or not steps were rejected before. If the reported status is that the step was small, the right-hand side of the normal equations in that state is bounded by the threshold times the row sums of the matrix plus the squared damping. With the Gauss-Newton policy nothing is added to the diagonal.", "quantifier": "all problems, initial dampings, options and numbers of iterations", "why_tests_cant": "The matrix of the solver depends on the whole history of accepted and rejected steps.", "anchors": ["aslam_backend/src/BlockCholeskyLinearSystemSolver.cpp:76-108", "aslam_backend/src/LevenbergMarquardtTrustRegionPolicy.cpp:37-90", "aslam_backend/src/LinearSystemSolver.cpp:91-94", "aslam_backend/src/Optimizer2.cpp:103-230"]}
{"id": "C132", "title": "A formula written with scalar expressions means what it says", "statement": "An expression built from design variables, components of points and constants with the operators and functions on scalar expressions (including the overloads with numbers on either side, integer powers, atan2, the inverse sigmoid and piecewise definitions) evaluates to the value of the formula wherever the formula is defined and to nothing elsewhere; its Jacobians are the derivatives of the formula; exactly the variables of the formula are reported.", "quantifier": "all formulas, all values of the design variables, all directions", "why_tests_cant": "There are infinitely many formulas, and each operator has several overloads building different trees.", "anchors": ["aslam_backend_expressions/src/ScalarExpression.cpp:61-212", "aslam_backend_expressions/include/aslam/backend/ScalarExpression.hpp:42-97", "aslam_backend_expressions/include/aslam/backend/implementation/ScalarExpressionNode.hpp"]}
{"id": "C133", "title": "Programs which build expressions step by step", "statement": "After any sequence of assignments to scalar, point, rotation, transformation, homogeneous and matrix expressions using the public operators, functions and constructors - with subexpressions shared between several expressions, variables overwritten, and default-constructed points, rotations and transformations as operands - every variable evaluates to what the sequence of assignments says, and its Jacobians are the derivative of that.", "quantifier": "all programs of assignments, all values of the design variables, all directions, all histories of evaluations", "why_tests_cant": "Nodes cache values in members; whether shared nodes interfere depends on the whole program and on the history of evaluations.", "anchors": ["aslam_backend_expressions/src/EuclideanExpression.cpp", "aslam_backend_expressions/src/RotationExpression.cpp", "aslam_backend_expressions/src/TransformationExpression.cpp", "aslam_backend_expressions/src/HomogeneousExpression.cpp", "aslam_backend_expressions/src/MatrixExpression.cpp", "aslam_backend_expressions/src/ScalarExpression.cpp:61-212"]}
{"id": "C134", "title": "Parameters of a rotation expression", "statement": "The three parameters of a rotation expression in any rotation parametrisation evaluate to the parameters of its rotation matrix, and their Jacobians are the derivative of the parameters with respect to the design variables of the rotation, after any history of evaluations; the reported design variables are those of the rotation.", "quantifier": "all rotation expressions, all parametrisations meeting the contract of the external class, all values of the design variables, all directions, all histories", "why_tests_cant": "The Jacobian goes through the inverse of the matrix S of an exchangeable external class; whether it is the derivative must hold for every parametrisation and every rotation, and it fails only at isolated singular rotations.", "anchors": ["aslam_backend_expressions/src/EuclideanExpressionNode.cpp:280-303", "aslam_backend_expressions/src/RotationExpression.cpp:95-99"]}
{"id": "C135", "title": "Block-matrix loops give the same result under every parallel schedule", "statement": "With OpenMP enabled, multiplying the transpose of a block matrix with a vector through pointers and clearing a block matrix give exactly the result of the sequential loops, however the threads are interleaved, including rounding; in exact arithmetic the product A^T x is added to what the destination holds (zeros when the library allocates it) and nothing behind the destination is touched. The loop ends once every iteration has been given its steps.", "quantifier": "all legal block matrices, all sources and destinations, all additions and inner products (rounded or exact), all interleavings of the loads and stores of all iterations", "why_tests_cant": "A race shows only under particular schedules; a test run sees a few of the exponentially many interleavings and usually has OpenMP switched off.", "anchors": ["sparse_block_matrix/include/sparse_block_matrix/implementation/sparse_block_matrix.hpp:96-112", "sparse_block_matrix/include/sparse_block_matrix/implementation/sparse_block_matrix.hpp:484-508"]}
{"id": "C136", "title": "A policy object that has been used gives the same results as a new one", "statement": "An optimizer run gives the same design variables, the same report and the same cost events whatever earlier runs left in the trust-region policy (same parameters) and in the step vector.", "quantifier": "all problems and linear solvers, all options, all left-over policy states and step vectors, all four policies", "why_tests_cant": "What an earlier run leaves behind depends on its whole history: dampings, NaN, trust regions, rejected and failed last steps.", "anchors": ["aslam_backend/src/TrustRegionPolicy.cpp:29-49", "aslam_backend/src/LevenbergMarquardtTrustRegionPolicy.cpp:36-47", "aslam_backend/src/LineSearchTrustRegionPolicy.cpp:14-41", "aslam_backend/src/DogLegTrustRegionPolicy.cpp:11-142"]}
{"id": "C137", "title": "Rprop closes in on the minimiser of a separable convex cost and ends", "statement": "With etaMinus <= 1 <= etaPlus, etaPlus + etaMinus < 2 (defaults 0.5 and 1.2) and an initial step length within the bounds, each of the four Rprop methods brings every parameter of a separable convex cost within any distance larger than minDelta / (2 - etaPlus - etaMinus) of its minimiser (or to a point with zero derivative) and keeps it there; if convergenceDeltaX is larger than this bound the run ends by itself, even with an unlimited number of iterations.", "quantifier": "all separable convex costs (derivatives may jump), all starting points, all four methods, all options as stated", "why_tests_cant": "Convergence from every start for every such cost is a statement about infinitely many runs of unbounded length.", "anchors": ["aslam_backend/src/OptimizerRprop.cpp:103-271", "aslam_backend/src/OptimizerRprop.cpp:29-37"]}
{"id": "C138", "title": "Speed of Levenberg-Marquardt on linear problems", "statement": "If the residual is linear in the design variables and its Jacobian stretches every vector by at least sqrt(sigma), an optimizer with the Levenberg-Marquardt policy shortens the distance to the point of least cost in every iteration by at least the factor L^2/(sigma+L^2), where L is the larger of the initial damping and betaInit/3; so the number of iterations until convergence is reported is bounded explicitly, from every start, and no iteration fails. The damping is expected to fade out on such problems; it does not: with the default parameters and a Jacobian that stretches no vector by more than sqrt(lo/8), it never falls below lo, and every iteration keeps at least the part lo^2/(tau+lo^2) of the distance.", "quantifier": "all linear residuals, all starts, all policy parameters as stated, all runs and histories", "why_tests_cant": "A rate is a bound over all iterations of all runs on all linear problems; a test sees one sequence of costs.", "anchors": ["aslam_backend/src/LevenbergMarquardtTrustRegionPolicy.cpp:50-111", "aslam_backend/src/LinearSystemSolver.cpp:91-95", "aslam_backend/src/BlockCholeskyLinearSystemSolver.cpp:79-83", "aslam_backend/src/Optimizer2.cpp:187-258"]}
{"id": "C139", "title": "Python sessions on a sparse block matrix", "statement": "For every pair of nondecreasing layouts and every sequence of getBlock, setBlock, at, isBlockSet, clear, toDense and toDenseSymmetric calls from Python, the results are those of a plain table of blocks: getBlock returns the last block stored in that place since the last clearing or zeros, at and toDense the coefficients at the offsets given by the layout, toDenseSymmetric the upper triangle mirrored, and every index outside raises an exception and changes nothing; no call reads or writes outside of a block. This needs blocks of the right size: setBlock accepts a matrix with too few rows without complaint, and then at raises (debug) or is undefined behaviour (release) on an index inside the matrix, and toDense is undefined behaviour.", "quantifier": "for all layouts, owning and non-owning matrices, debug and release builds, all sequences of calls with all integer indices and all blocks", "why_tests_cant": "a test runs a few sequences of calls on a few layouts; the statement is about every history and every index, including negative ones", "anchors": ["aslam_backend_python/src/SparseBlockMatrix.cpp:11-62", "aslam_backend_python/src/SparseBlockMatrix.cpp:66-92", "sparse_block_matrix/include/sparse_block_matrix/implementation/sparse_block_matrix.hpp:120-155", "sparse_block_matrix/include/sparse_block_matrix/implementation/sparse_block_matrix.hpp:178-236"]}
{"id": "C140", "title": "Dog-leg at and on the way to a minimum", "statement": "Optimizing with the dog-leg policy from values that already minimise the cost is expected to leave them alone. It does not: for every problem whose gradient vanishes at the start, with a working linear solver and any options that allow an iteration, the first step is NaN, all design variables become NaN, the run ends with a NaN cost, no failed iteration and no linear solver failure are reported and the status is IN_PROGRESS (MAX_ITERATIONS with a budget of one). From every other start of a linear problem with full column rank and a zero residual at m, the run has no failed iteration, never holds a NaN, reaches m exactly in the second iteration at the latest, takes at most three, and ends at m unless a convergence criterion is met after the first step or the budget is one. From every other start of a linear problem with full column rank, also when the residual at the minimum is not zero, no iteration fails, nothing becomes NaN, the distance of the cost from its minimum shrinks by the factor 1 - (mu/L)^2/2 per iteration (mu and L bound the squared singular values), the number of iterations after the first is at most that distance divided by the threshold for the change of the cost, and convergence is reported unless the budget is used up. For any cost, the run ends with NaN variables and a NaN cost or with finite ones whose cost is the reported one and not larger than at the start.", "quantifier": "for all cost functions and stationary starts; for all linear residuals of full column rank in inner product spaces, consistent or not, all starts, all thresholds and budgets, whatever state earlier runs left in the policy", "why_tests_cant": "a test starts at a few values away from the minimum, where nothing is NaN; the number of iterations until the exact solution is a statement about all linear problems and starts", "anchors": ["aslam_backend/src/DogLegTrustRegionPolicy.cpp:11-142", "aslam_backend/src/Optimizer2.cpp:152-259", "aslam_backend/src/Optimizer2.cpp:276-291"]}
{"id": "C141", "title": "Events of a run and interrupted runs", "statement": "The events of every run of Optimizer2 come in a fixed order: RESIDUALS_UPDATED and COST_UPDATED for the start, OPTIMIZATION_INITIALIZED, then for every pass LINEAR_SYSTEM_SOLVED and, if the system could be solved, DESIGN_VARIABLES_UPDATED, RESIDUALS_UPDATED, COST_UPDATED; there is one COST_UPDATED per counted evaluation of the error and one LINEAR_SYSTEM_SOLVED per counted evaluation of the Jacobian. Callbacks which do not throw have no influence on the run, whatever instruction they return. If a callback throws, at any event, the design variables are at the best values so far, or at these values updated by the last step if the event is one of the three after the step was applied; in that case one revertUpdate() of each goes back. It is not true that an interrupted run never makes things worse when the policy reverts.", "quantifier": "all problems, policies, solvers and options, all callbacks (any answer or exception as a function of the events so far), all events of all runs as points of interruption", "why_tests_cant": "A callback may throw at any event of any run; a test interrupts a few runs at a few events.", "anchors": ["aslam_backend/src/Optimizer2.cpp:152-259", "aslam_backend/src/Optimizer2.cpp:304-311", "aslam_backend/src/Optimizer2.cpp:394-398", "aslam_backend/src/LinearSystemSolver.cpp:59-72", "aslam_backend/src/OptimizerCallbackManager.cpp:48-56"]}
{"id": "C142", "title": "M-estimators set at RESIDUALS_UPDATED", "statement": "A callback of RESIDUALS_UPDATED that sets the M-estimators sees the raw squared errors of all error terms at the new point, and the cost returned for this point is the cost under the weights it has chosen. This holds for every run of the legacy optimizer. It is false for Optimizer2: there the cost and the error vector are computed before the event, so the callback has no influence on them; in every run the cost of a point is the cost under the weights chosen at the point evaluated before, and the right hand side of the QR and sparse Cholesky solvers weights every term with the geometric mean of the old and the new weight.", "quantifier": "for all numbers of error terms, error vectors, square root information matrices, M-estimators, callbacks and sequences of points", "why_tests_cant": "A test runs a few callbacks on a few problems; the order of evaluation matters only for callbacks that change weights, and the effect depends on the whole history of points.", "anchors": ["aslam_backend/src/LinearSystemSolver.cpp:59-72", "aslam_backend/src/Optimizer.cpp:669-682", "aslam_backend/include/aslam/backend/OptimizerCallback.hpp:68"]}
{"id": "C143", "title": "Callbacks registered from Python", "statement": "Adding a callback from Python registers it at the end of the callbacks of the event given, or once per mention for a list of events; a callback that is not callable and an argument that is no event throw without any effect. If an item of a list is no event the call throws and the callback stays registered for the items before it. Clearing and counting need a single event. After every history of calls, including those that threw, the registered callbacks are those of the additions made. Python callbacks are called in the order of registration; their return values have no effect, and the first exception ends the event.", "quantifier": "for all registries, Python objects given as events and callbacks, histories of calls and behaviours of the callables", "why_tests_cant": "Histories, lists of events with wrong items and the points at which callables raise are unbounded.", "anchors": ["aslam_backend_python/src/OptimizerCallback.cpp:19-89", "aslam_backend/src/OptimizerCallbackManager.cpp:48-56"]}
{"id": "C144", "title": "BFGS and Rprop on expression problems", "statement": "On a problem made of expression error terms over the design variables of the library, a BFGS run reports the cost of the values it leaves; unless it ends with FAILURE this is not above the initial cost, and the reported gradient norm bounds the derivative of the cost along every direction per unit of length. If BFGS or Rprop ends because of the gradient norm, the threshold bounds it. The slope used by the line search is the derivative of the cost with respect to the step length.", "quantifier": "for all expression terms, squared and non-squared, all design variables, active or not, all scalings, options, budgets, thread numbers and containers, and all directions", "why_tests_cant": "A test sees single runs and single directions; the statement relates the final state to all directions in a manifold of values and holds for every expression tree.", "anchors": ["aslam_backend/src/OptimizerBFGS.cpp:47-175", "aslam_backend/src/OptimizerRprop.cpp:103-271", "aslam_backend/src/util/ProblemManager.cpp:120-184", "aslam_backend/include/aslam/backend/util/utils.hpp:119-133"]}
{"id": "C145", "title": "Calling optimize() again with BFGS and Rprop", "statement": "As long as only the optimizer moves the design variables, a further call of optimize() without a reset() continues where the last one ended: cutting a run in two by the iteration limit changes neither the design variables nor the status. A BFGS call has its own budget, reports the cost of the values it leaves and, unless it fails, never ends above the cost before the call; a Rprop call after GRADIENT_NORM changes nothing.", "quantifier": "for all problems, options, limits and all sequences of calls", "why_tests_cant": "Depends on the history of calls and on the point at which each of them was cut; tests call optimize() once.", "anchors": ["aslam_backend/src/OptimizerBase.cpp: optimize", "aslam_backend/src/OptimizerBFGS.cpp: optimizeImplementation", "aslam_backend/src/OptimizerRprop.cpp: optimizeImplementation"]}
{"id": "C146", "title": "Setting up an error term", "statement": "After any history of calls of setDesignVariables in all its forms, with exceptions caught, the design variables of an error term are those of the first call that named at least one and no null pointer, in that order; every later call throws and changes nothing, and so does every call with a null pointer. designVariable(i) returns the i-th for a valid index; getDesignVariables adds exactly them to the set. The M-estimator in force is that of the last accepted setMEstimatorPolicy or clearMEstimatorPolicy, and it is never null for a non-squared term.", "quantifier": "all histories of calls, all lists with and without null pointers and duplicates, all policies, both classes of terms, debug and release builds", "why_tests_cant": "the order, number and contents of the calls, accepted and rejected, are unbounded", "anchors": ["aslam_backend/src/ErrorTerm.cpp:32-102", "aslam_backend/include/aslam/backend/ErrorTerm.hpp:102-116", "aslam_backend/include/aslam/backend/implementation/ErrorTerm.hpp:13-24", "aslam_backend/src/ScalarNonSquaredErrorTerm.cpp:36-119"]}
{"id": "C147", "title": "The options and the problem set last are those a BFGS optimizer works with", "statement": "In any program that creates and destroys BFGS optimizers, sets their options (all of them, or only those common to all optimizers) and their problems in any order, and copies none of them, nothing is undefined, and each optimizer runs with the options and the problem last asked for: convergence limits, line search options, and the threads and the Jacobian container of every evaluation of the cost and the gradient. Calls for one optimizer do not affect another. Setting only the common options keeps the options of the line search. A constructor throws exactly for options that fail their checks.", "quantifier": "all programs of calls over any number of optimizers, all options", "why_tests_cant": "the interleavings of calls on several optimizers are unbounded, and a reference to a wrong or destroyed object often shows no effect", "anchors": ["aslam_backend/include/aslam/backend/OptimizerBFGS.hpp:52-103", "aslam_backend/src/OptimizerBFGS.cpp:51-73", "aslam_backend/include/aslam/backend/util/ProblemManager.hpp:160-214", "aslam_backend/src/OptimizerCallbackManager.cpp:16-22"]}
{"id": "C148", "title": "Callbacks do not disturb an Rprop run, and what an interrupted one leaves", "statement": "A run of the Rprop optimizer whose callbacks do not throw ends as without callbacks, whatever they return. They see one sequence ITERATION_START, DESIGN_VARIABLE_UPDATE_COMPUTED, DESIGN_VARIABLES_UPDATED, ITERATION_END for each counted iteration, in this order, and behind them the beginning of the pass in which the run converged, which has no ITERATION_END. If a callback throws, the passes before were made and counted as without callbacks; the design variables are those before the pass if the exception came with one of the first two events and those behind it otherwise, and the pass is not counted. After an exception at ITERATION_START a further call of optimize() ends as if nothing had happened; after one at ITERATION_END it ends as a run with one iteration more, except that this iteration is not counted.", "quantifier": "for all problems, options, states, callbacks and points of interruption", "why_tests_cant": "A test sees one callback that throws at one event of one run; the claim is about all callbacks, all histories of events and all points of interruption.", "anchors": ["aslam_backend/src/OptimizerRprop.cpp:96-271", "aslam_backend/include/aslam/backend/OptimizerCallbackManager.hpp"]}
{"id": "C149", "title": "Callbacks do not disturb a BFGS run, and what an interrupted one leaves", "statement": "A run of the BFGS optimizer whose callbacks do not throw ends as without callbacks, whatever they return. They see one sequence ITERATION_START, DESIGN_VARIABLES_UPDATED, ITERATION_END for each counted iteration, and behind them ITERATION_START, DESIGN_VARIABLES_UPDATED of the pass in which the run converged or failed. If a callback throws, the passes before were made and counted as without callbacks, and the design variables are those before the pass if the exception came with ITERATION_START and those behind its line search otherwise. After an exception at ITERATION_START a further call of optimize() ends as an undisturbed run with the passes of both calls; after one at ITERATION_END too, except that one iteration is not counted.", "quantifier": "for all cost functions, options, states, callbacks, limits and points of interruption", "why_tests_cant": "A test sees one callback that throws at one event of one run; the claim is about all callbacks, all histories of events and all points of interruption.", "anchors": ["aslam_backend/src/OptimizerBFGS.cpp:80-175", "aslam_backend/include/aslam/backend/OptimizerCallbackManager.hpp"]}
{"id": "C150", "title": "What callbacks of the legacy optimizer see, and what an interrupted run leaves", "statement": "A run of Optimizer::optimize() that returns has the result of a run without callbacks, and it returns if no callback throws. The callbacks see RESIDUALS_UPDATED, COST_UPDATED, OPTIMIZATION_INITIALIZED, and then DESIGN_VARIABLES_UPDATED, RESIDUALS_UPDATED, COST_UPDATED for every pass in which the linear system was solved. Every COST_UPDATED and OPTIMIZATION_INITIALIZED carries the cost of the design variables at that time, and the last event carries the final cost the run reports. A callback that throws leaves the design variables as it saw them: those of the start, or those of an undisturbed run after some passes moved by one step that was not judged yet. optimizeDogLeg() issues RESIDUALS_UPDATED and COST_UPDATED only; again every COST_UPDATED carries the cost of the design variables, a run that returns is one without callbacks and its last event was seen with the design variables it leaves, and one that is interrupted leaves the design variables the callback saw.", "quantifier": "for all problems, solvers, options, states, callbacks and points of interruption", "why_tests_cant": "A test sees the events of one run; the claim is about every history of accepted, rejected and failed steps and every callback.", "anchors": ["aslam_backend/src/Optimizer.cpp:161-165", "aslam_backend/src/Optimizer.cpp:198-465", "aslam_backend/src/Optimizer.cpp:472-590", "aslam_backend/src/Optimizer.cpp:668-682"]}
