{"id": "C01", "title": "Active set counters always agree with the statuses", "statement": "After any sequence of resize, reset, activate and deactivate calls that respect the documented preconditions, each counter of ActiveSet (nbActiveCstr, nbActiveEquality, nbActiveInequality, nbActiveLower/UpperInequality, nbActiveBound, nbActiveLower/UpperBound, nbFixedVariable) equals the number of indices whose activationStatus has the corresponding value, and nbActiveCstr equals the number of entries readable through operator[].", "quantifier": "every finite sequence of operations, every number of constraints and bounds", "why_tests_cant": "operation histories are unbounded; a test checks a handful of them", "anchors": ["src/internal/ActiveSet.cpp: activate, deactivate, resize, reset", "include/jrl-qp/internal/ActiveSet.h"]}
{"id": "C02", "title": "The ordered active list and the status vector describe the same set", "statement": "After any legal operation history, operator[] enumerates each index with a non-INACTIVE status exactly once and nothing else, and every active index has a status of the right kind (LOWER/UPPER/EQUALITY for general constraints, LOWER_BOUND/UPPER_BOUND/FIXED for bounds).", "quantifier": "every finite legal history", "why_tests_cant": "same: unbounded histories", "anchors": ["src/internal/ActiveSet.cpp: activate, deactivate", "include/jrl-qp/internal/ActiveSet.h: operator[]"]}
{"id": "C03", "title": "activate appends, deactivate erases and keeps order", "statement": "ActiveSet implements an ordered list of (index,status) pairs: activate(i,s) appends (i,s) at the end; deactivate(k) removes exactly the k-th pair and shifts later ones down by one, all other statuses being unchanged.", "quantifier": "every reachable state, every legal argument", "why_tests_cant": "a solver that permutes multipliers relies on this at every call, not at sampled ones", "anchors": ["src/internal/ActiveSet.cpp: activate, deactivate"]}
{"id": "C04", "title": "Building an active set from a status vector gives the statuses back", "statement": "ActiveSet(as, nBnd) on a status vector with statuses compatible with their index gives activationStatus() == as, with the active indices listed in increasing order.", "quantifier": "every status vector of every length and every nBnd", "why_tests_cant": "infinitely many vectors", "anchors": ["src/internal/ActiveSet.cpp: ActiveSet(const std::vector<ActivationStatus>&, int)"]}
{"id": "C05", "title": "solve always returns, with a known status, within maxIter iterations", "statement": "For every input of consistent dimensions (any floating-point values, including NaN and infinities), GoldfarbIdnaniSolver::solve returns after at most maxIter iterations of the main loop; iterations() is at most maxIter; the returned status is one of SUCCESS, NON_POS_HESSIAN, INFEASIBLE, MAX_ITER_REACHED; and it is MAX_ITER_REACHED exactly when iterations()==maxIter was hit without another exit.", "quantifier": "every problem, every solver history, any scalar arithmetic", "why_tests_cant": "quantifies over all problem data and all rounding behaviours", "anchors": ["src/DualSolver.cpp: solve, terminate", "src/GoldfarbIdnaniSolver.cpp: init_"]}
{"id": "C06", "title": "multipliers() expansion", "statement": "After solve, multipliers() returns one value per constraint then per bound; it is zero for each constraint whose reported status is INACTIVE; for active ones it is the internal multiplier with sign + for UPPER/UPPER_BOUND and - otherwise; calling it again gives the same vector.", "quantifier": "every final state", "why_tests_cant": "all active sets and orders", "anchors": ["src/DualSolver.cpp: multipliers"]}
{"id": "C07", "title": "SUCCESS means global optimum", "statement": "If solve returns SUCCESS then, in exact arithmetic, solution() satisfies every constraint and bound, solution() and multipliers() satisfy the KKT conditions, and solution() is the unique global minimiser of 1/2 x'Gx + a'x over the feasible set.", "quantifier": "all strictly convex problems, all numbers of variables/constraints", "why_tests_cant": "optimality is a statement over all feasible points of all problems", "anchors": ["src/DualSolver.cpp: solve", "src/GoldfarbIdnaniSolver.cpp: selectViolatedConstraint_, computeStep_, computeStepLength_, addConstraint_, removeConstraint_"]}
{"id": "C08", "title": "objectiveValue is the objective at solution()", "statement": "Whenever solve returns SUCCESS or MAX_ITER_REACHED, objectiveValue() equals 1/2 x'Gx + a'x at x = solution() (exact arithmetic).", "quantifier": "all problems and all iteration counts", "why_tests_cant": "the value is updated incrementally, correctness is an inductive invariant", "anchors": ["src/DualSolver.cpp: solve (f_ update)", "src/GoldfarbIdnaniSolver.cpp: init_, addInitialConstraint"]}
{"id": "C09", "title": "INFEASIBLE is only reported for infeasible problems", "statement": "If solve returns INFEASIBLE then no point satisfies all constraints and bounds (exact arithmetic).", "quantifier": "all problems", "why_tests_cant": "a claim about non-existence of any feasible point", "anchors": ["src/DualSolver.cpp: solve", "src/GoldfarbIdnaniSolver.cpp: computeStepLength_"]}
{"id": "C10", "title": "NON_POS_HESSIAN exactly for non positive definite Hessians", "statement": "In exact arithmetic, solve returns NON_POS_HESSIAN if and only if the symmetric matrix given by the lower triangle of G is not positive definite.", "quantifier": "all matrices of all sizes", "why_tests_cant": "all matrices", "anchors": ["src/GoldfarbIdnaniSolver.cpp: init_"]}
{"id": "C11", "title": "Feasible unconstrained minimum is returned at once", "statement": "If -G^{-1}a satisfies all constraints and there is no equality constraint nor fixed variable, solve returns SUCCESS after 0 iterations with that point, all statuses INACTIVE, all multipliers zero and objective 1/2 a'x (provided maxIter>0).", "quantifier": "all problems", "why_tests_cant": "all problems", "anchors": ["src/DualSolver.cpp: solve", "src/GoldfarbIdnaniSolver.cpp: init_, selectViolatedConstraint_"]}
{"id": "C12", "title": "No out-of-bounds access, over any history of problems", "statement": "Over any sequence of solver constructions, resizes, option changes and solves with dimension-consistent data, no internal buffer is accessed outside its allocated size and no 'unreachable' branch is reached.", "quantifier": "all call histories, all data (any floating-point values)", "why_tests_cant": "memory safety over unbounded histories", "anchors": ["src/DualSolver.cpp: resize_p, solve", "src/GoldfarbIdnaniSolver.cpp: resize_, computeStep_, addConstraint_, removeConstraint_, addInitialConstraint", "include/jrl-qp/internal/Workspace.h"]}
{"id": "C13", "title": "Cold-started solves do not depend on the solver's past", "statement": "With warmStart disabled, status, solution, multipliers, objective, iteration count and active set of a solve depend only on the problem and the options: reusing a solver object after any history gives bitwise the same results as a fresh object.", "quantifier": "all pairs of histories, all problems, any scalar arithmetic", "why_tests_cant": "requires comparing all histories; stale buffers could leak in only some of them", "anchors": ["src/DualSolver.cpp: init, resize_p", "src/GoldfarbIdnaniSolver.cpp: init_, resize_"]}
{"id": "C14", "title": "Debug and release builds compute the same thing", "statement": "The JRLQP_DEBUG_ONLY writes (zeroing of workspaces and of eliminated entries) never change any observable result.", "quantifier": "all problems and histories, any scalar arithmetic", "why_tests_cant": "two builds would have to be compared on all inputs", "anchors": ["include/jrl-qp/utils/debug.h", "src/DualSolver.cpp: init, removeConstraint", "src/GoldfarbIdnaniSolver.cpp: init_, addConstraint_, removeConstraint_"]}
{"id": "C15", "title": "Equality constraints and fixed variables stay active", "statement": "On SUCCESS of a problem, every general constraint with bl==bu is reported EQUALITY and every variable with xl==xu is reported FIXED in activeSet(); no other constraint has such a status.", "quantifier": "all problems", "why_tests_cant": "all executions of the active-set loop", "anchors": ["src/GoldfarbIdnaniSolver.cpp: initActiveSet, computeStepLength_"]}
{"id": "C16", "title": "The most violated constraint is selected", "statement": "At each selection the chosen constraint is inactive, is violated with the reported side, and no inactive constraint or bound is more violated; INACTIVE is returned only if no inactive constraint is violated.", "quantifier": "all points and problems", "why_tests_cant": "all data", "anchors": ["src/GoldfarbIdnaniSolver.cpp: selectViolatedConstraint_"]}
{"id": "C17", "title": "Dual ascent: the objective never decreases and bounds the optimum from below", "statement": "In exact arithmetic the objective value is non-decreasing along iterations, strictly increases with each constraint addition, and whenever the solver stops on MAX_ITER_REACHED objectiveValue() is a lower bound of the optimal value.", "quantifier": "all problems and iterations", "why_tests_cant": "inductive over iterations", "anchors": ["src/DualSolver.cpp: solve"]}
{"id": "C18", "title": "Exact-arithmetic termination", "statement": "For every problem there is an iteration limit beyond which the solver (in exact arithmetic) does not return MAX_ITER_REACHED: feasible problems give SUCCESS and infeasible ones INFEASIBLE.", "quantifier": "all problems", "why_tests_cant": "termination for all problems, including degenerate ones", "anchors": ["src/DualSolver.cpp: solve"]}
{"id": "C19", "title": "Only the lower triangle of G is used", "statement": "Two matrices with equal lower triangles give bitwise equal results; the strict upper triangle of the user's G is left unchanged by solve.", "quantifier": "all matrices, any scalar arithmetic", "why_tests_cant": "all matrices", "anchors": ["src/GoldfarbIdnaniSolver.cpp: init_"]}
{"id": "C20", "title": "Log flags and options", "statement": "addLogFlag/removeLogFlag change only the given bits; options(o) makes the solver use all of o's fields for the next solve; in particular log flags removed from the options stop being logged.", "quantifier": "all flag sets and option histories", "why_tests_cant": "all histories of option changes", "anchors": ["include/jrl-qp/SolverOptions.h", "src/DualSolver.cpp: options", "include/jrl-qp/utils/Logger.h: setFlag"]}
{"id": "C21", "title": "Initial active set of the warm-started solver", "statement": "experimental::GoldfarbIdnaniSolver starts from an active set that contains all equalities and fixed variables, at most nbVar constraints, otherwise a subset of the warm-start statuses; OVERCONSTRAINED_PROBLEM is returned iff there are more equality constraints plus fixed variables than variables.", "quantifier": "all problems and all warm-start status vectors", "why_tests_cant": "all vectors of statuses", "anchors": ["src/experimental/GoldfarbIdnaniSolver.cpp: processInitialActiveSet"]}
{"id": "C22", "title": "Initial primal-dual pair of the warm-started solver", "statement": "When the gradients of the initial active set are linearly independent, the starting point is the unique minimiser on the manifold defined by the active constraints, the multipliers satisfy stationarity and the starting objective value is the objective at that point.", "quantifier": "all problems, all initial active sets", "why_tests_cant": "all data", "anchors": ["src/experimental/GoldfarbIdnaniSolver.cpp: initializeComputationData, initializePrimalDualPoints"]}
{"id": "C23", "title": "Warm start drops constraints with negative multipliers and terminates", "statement": "Initialisation of the warm-started solver removes at most as many constraints as were initially active and ends with non-negative (up to 1e-14) multipliers on all active inequality constraints, never removing an equality constraint or fixed variable.", "quantifier": "all problems, all initial active sets", "why_tests_cant": "loop over unbounded active sets", "anchors": ["src/experimental/GoldfarbIdnaniSolver.cpp: init_"]}
{"id": "C24", "title": "Wrong warm-start statuses do not change the answer", "statement": "Whatever warm-start status vector is given, a SUCCESS result satisfies the constraints of the problem and is optimal; in particular EQUALITY/FIXED given for a non-equality constraint is ignored.", "quantifier": "all warm-start vectors", "why_tests_cant": "all vectors", "anchors": ["src/experimental/GoldfarbIdnaniSolver.cpp: processInitialActiveSet"]}
{"id": "C25", "title": "Box-and-single-constraint solver starts at the projection", "statement": "BoxAndSingleConstraintSolver starts at the Euclidean projection of x0 on the box, with consistent multipliers and factorisation, and on SUCCESS returns the projection of x0 on the intersection of the box and the half space.", "quantifier": "all x0, boxes, half-spaces, all sizes", "why_tests_cant": "all data", "anchors": ["src/experimental/BoxAndSingleConstraintSolver.cpp: init_"]}
{"id": "C26", "title": "Workspace buffers", "statement": "Workspace::resize never shrinks a buffer; changeLd moves a rows x cols matrix stored with one leading dimension to another without losing any coefficient.", "quantifier": "all sizes, all leading dimensions", "why_tests_cant": "all sizes", "anchors": ["include/jrl-qp/internal/Workspace.h"]}
{"id": "C27", "title": "Block tridiagonal Cholesky", "statement": "triBlockDiagLLT returns true iff the block-tridiagonal matrix is positive definite and then the blocks hold its Cholesky factor; the L and L^T solves (with start/end hints) solve the corresponding triangular systems.", "quantifier": "all block sizes, numbers of blocks and values", "why_tests_cant": "all data", "anchors": ["src/decomposition/triBlockDiagLLT.cpp"]}
{"id": "C28", "title": "Block arrow Cholesky", "statement": "blockArrowLLT (both orientations) returns true iff the block-arrow matrix is positive definite and then the blocks hold its Cholesky factor; the associated solves solve the corresponding triangular systems.", "quantifier": "all block sizes, numbers of blocks and values", "why_tests_cant": "all data", "anchors": ["src/decomposition/blockArrowLLT.cpp"]}
{"id": "C29", "title": "OrthonormalSequence", "statement": "applying a sequence of Householder/Givens transformations (permutations are declared but not implemented) then its transpose gives the vector back, norms and inner products are kept, and the single-nonzero-segment variants agree with the dense ones.", "quantifier": "all sequences, sizes and vectors", "why_tests_cant": "all sequences", "anchors": ["src/internal/OrthonormalSequence.cpp", "include/jrl-qp/internal/OrthonormalSequence.h"]}
{"id": "C30", "title": "ConstraintNormal", "statement": "dot(v) and preMultiplyByMt(M) of a ConstraintNormal agree with the dense signed normal (c, -c, e_i, -e_i according to the status).", "quantifier": "all constraints, statuses and vectors", "why_tests_cant": "all data", "anchors": ["include/jrl-qp/internal/ConstraintNormal.h"]}
{"id": "C31", "title": "SingleNZSegmentVector", "statement": "A vector with a single non-zero segment behaves as the dense vector it denotes.", "quantifier": "all segments", "why_tests_cant": "all data", "anchors": ["include/jrl-qp/internal/SingleNZSegmentVector.h"]}
{"id": "C32", "title": "KKT checker", "statement": "On a problem with symmetric G and bounds that do not cross, testKKT with zero tolerances accepts (x,u) iff the pair satisfies the KKT conditions of the problem, hence (positive semidefinite G) x is then a global optimum; for any tolerances an accepted point violates no constraint by more than the primal tolerance and its objective exceeds that of any feasible point by at most a term proportional to the tolerances; a larger tolerance never rejects what a smaller one accepts; with consistent sizes the checker always answers, the same in debug and release builds.", "quantifier": "all points, multipliers, problems", "why_tests_cant": "all data", "anchors": ["src/test/kkt.cpp", "include/jrl-qp/test/kkt.h"]}
{"id": "C33", "title": "Problem conversions", "statement": "Conversions between least-squares and quadratic form, and between constraint representations, keep the feasible set and the objective (up to the stored constant).", "quantifier": "all problems", "why_tests_cant": "all data", "anchors": ["include/jrl-qp/test/problems.h", "src/test/problems.cpp"]}
{"id": "C34", "title": "Tight multipliers: no violated complementary pair", "statement": "In exact arithmetic, whatever the 1e-14 and bigBnd thresholds do during the iterations, for bounds that do not cross and equality constraints whose step directions exceed the 1e-14 threshold when the initialisation adds them one after the other: at the beginning of each iteration every active constraint is satisfied with equality on its active side at the current point; if moreover the equality constraints are listed first, the multipliers of the active inequality constraints are non-negative.", "quantifier": "all problems, all thresholds, all iterations, all previous uses of the solver", "why_tests_cant": "inductive invariant", "anchors": ["src/DualSolver.cpp: solve", "src/GoldfarbIdnaniSolver.cpp"]}
{"id": "C35", "title": "Incremental factorisation", "statement": "Adding and removing constraints keeps J'GJ=I and J'N=[R;0] with R upper triangular (exact arithmetic), for any order of additions and removals.", "quantifier": "all histories of updates", "why_tests_cant": "unbounded update histories", "anchors": ["src/GoldfarbIdnaniSolver.cpp: addConstraint_, removeConstraint_"]}
{"id": "C36", "title": "Step direction", "statement": "In exact arithmetic, if the step directions of the equality constraints exceed the 1e-14 threshold when the initialisation adds them one after the other, in every iteration the primal step direction z is orthogonal to all active normals, the dual step r satisfies n+ = N r + G z, and the slope n+'z is non-negative and zero only if z=0.", "quantifier": "all problems, all thresholds, all iterations", "why_tests_cant": "all data", "anchors": ["src/GoldfarbIdnaniSolver.cpp: computeStep_"]}
{"id": "C37", "title": "Experimental solver: no fault on legal call sequences", "statement": "Any sequence of calls to experimental::GoldfarbIdnaniSolver (constructions, resets with resize, options, solve with or without warm start and initial active set of matching sizes) runs without reading or writing outside a workspace and without reaching an unreachable branch, whatever the numerical values.", "quantifier": "all finite sequences of legal calls, all sizes, all scalar values (also NaN)", "why_tests_cant": "histories and values are unbounded", "anchors": ["src/experimental/GoldfarbIdnaniSolver.cpp", "src/DualSolver.cpp"]}
{"id": "C38", "title": "Experimental solver: result independent of history", "statement": "When the warm start is disabled, or an initial active set is given explicitly, what solve returns (status, solution, multipliers, objective, active set, iterations) depends on its arguments and the options only, not on earlier calls nor on the state of the workspaces; a debug build gives the same result as a release build when neither asserts.", "quantifier": "all histories, all problems", "why_tests_cant": "all histories", "anchors": ["src/experimental/GoldfarbIdnaniSolver.cpp", "src/DualSolver.cpp"]}
{"id": "C39", "title": "Box solver: no fault, result independent of history", "statement": "Any sequence of calls of BoxAndSingleConstraintSolver::solve (any sizes, any values, also NaN and crossed bounds) runs without reading or writing outside a workspace, and what solve returns (status, solution, multipliers, objective, active set, iterations) depends on its arguments, maxIter and bigBnd only: not on earlier calls, nor on the warm start option, nor on the build type.", "quantifier": "all finite sequences of calls, all sizes, all scalar values", "why_tests_cant": "histories and values are unbounded", "anchors": ["src/experimental/BoxAndSingleConstraintSolver.cpp", "src/DualSolver.cpp"]}
{"id": "C40", "title": "Structured solver gives the same answer as the dense solver", "statement": "For a problem whose Hessian is block tri-diagonal or block arrow and positive definite, whose constraint matrix is block diagonal, and that has no equality constraint and no fixed variable, experimental::BlockGISolver::solve returns what the dense solver returns on the assembled matrices: same status, iterations, active set, multipliers, solution and objective. Hence it returns the unique minimiser when the problem is feasible and INFEASIBLE otherwise, for small enough thresholds.", "quantifier": "all block sizes and numbers, all data, all histories of both solvers, all options without warm start", "why_tests_cant": "all data and histories; the two implementations share nothing but the loop", "anchors": ["src/experimental/BlockGISolver.cpp", "src/structured/StructuredG.cpp", "src/structured/StructuredC.cpp", "src/structured/StructuredJ.cpp", "src/structured/StructuredQR.cpp", "src/internal/OrthonormalSequence.cpp"]}
{"id": "C41", "title": "Structured solver: equalities and warm starts are refused, never answered wrongly", "statement": "A problem with an equality constraint or a fixed variable, or a warm start asking for an active constraint, makes experimental::BlockGISolver::solve stop on an assertion (debug build) whatever the data and the history: no such call returns an answer.", "quantifier": "all problems with such a constraint, all histories", "why_tests_cant": "all data and histories", "anchors": ["src/experimental/BlockGISolver.cpp: initActiveSet_, init_, addInitialConstraint_", "src/structured/StructuredQR.cpp"]}
{"id": "C42", "title": "Structured solver: solve touches only the matrices of its arguments", "statement": "A call of experimental::BlockGISolver::solve reads and writes only the matrices its arguments refer to, not those given to an earlier call (which may have been modified or destroyed since).", "quantifier": "all sequences of calls, all aliasing between the arguments of successive calls", "why_tests_cant": "all histories", "anchors": ["src/experimental/BlockGISolver.cpp: solve", "include/jrl-qp/structured/StructuredG.h", "include/jrl-qp/structured/StructuredC.h"]}
{"id": "C43", "title": "Box problem generator: the constraint is active when asked for, and only then", "statement": "generateBoxAndSingleConstraintProblem(nbVar, act, actLevel) returns a meaningful box problem; with act, the problem is feasible, its solution satisfies c'x = b, actLevel says where the plane cuts the segment from the box-only solution to the farthest vertex; without act, the constraint removes no point of the box. The returned problem passes its own wellFormed().", "quantifier": "all sizes, all random draws, all levels in (0,1)", "why_tests_cant": "all random draws", "anchors": ["src/experimental/BoxAndSingleConstraintSolver.cpp: generateBoxAndSingleConstraintProblem", "include/jrl-qp/experimental/BoxAndSingleConstraintSolver.h"]}
{"id": "C44", "title": "Random problem generator: the advertised solution is the solution", "statement": "For every characteristics accepted by check(), the x, lambdaEq, lambdaIneq, lambdaBnd of the problem returned by randomProblem satisfy the Karush-Kuhn-Tucker conditions of that problem; hence x is a global minimiser.", "quantifier": "all characteristics, all random draws, all shuffles", "why_tests_cant": "all random draws", "anchors": ["src/test/randomProblems.cpp: randomProblem, ProblemCharacteristics::check", "include/jrl-qp/test/randomProblems.h"]}
{"id": "C45", "title": "Backward error of the thresholds", "statement": "In exact arithmetic, whatever the values of the 1e-14 threshold and of bigBnd: if solve returns SUCCESS (bounds not crossed, equality constraints first, with step directions that exceed the threshold when the initialisation adds them), solution() satisfies all constraints of the given problem and, with multipliers(), is the exact and unique solution of the problem whose linear term is a + delta, where delta is a sum of at most iterations() terms t G z, each with 0 <= t < bigBnd and z a direction that a threshold neglected (norm at most 1e-14, or step to the violated constraint at least bigBnd); hence it is suboptimal by at most delta'(y-x) with respect to any feasible y.", "quantifier": "all problems, all thresholds, all numbers of iterations, all previous uses of the solver", "why_tests_cant": "all inputs and all lengths of runs; quantifies over the minimiser of a perturbed problem", "anchors": ["src/GoldfarbIdnaniSolver.cpp", "src/DualSolver.cpp: solve"]}
{"id": "C46", "title": "What INFEASIBLE means for any thresholds", "statement": "In exact arithmetic, whatever the values of the 1e-14 threshold and of bigBnd: if solve returns INFEASIBLE (bounds not crossed, equality constraints first, with step directions that exceed the threshold when the initialisation adds them), some constraint is violated by v > 0 at the final point x and every point y that satisfies all constraints is far from x: v <= max(1e-14 |G(y-x)|, sqrt(v (y-x)'G(y-x) / bigBnd)) + sum(u_k slack_k(y)) / bigBnd, the sum over the active inequality constraints with their multipliers.", "quantifier": "all problems, all thresholds, all numbers of iterations, all feasible points, all previous uses of the solver", "why_tests_cant": "universally quantified over feasible points and over inputs", "anchors": ["src/GoldfarbIdnaniSolver.cpp", "src/DualSolver.cpp: solve"]}
{"id": "C47", "title": "randOrtho returns an orthogonal matrix", "statement": "In exact arithmetic, for every size and every sequence of random draws (including zero draws), randOrtho(size, special) returns a matrix Q with Q'Q = I; its determinant is 1 or -1, and it is 1 whenever special is true.", "quantifier": "all sizes, both values of special, all random draws", "why_tests_cant": "a test samples some draws and sizes", "anchors": ["include/jrl-qp/test/randomMatrices.h: randOrtho, randUnitVec"]}
{"id": "C48", "title": "Ranks of the random matrices", "statement": "In exact arithmetic, for every draw: randn(rows, cols, rank) fails its assertion exactly when rank > rows or rank > cols; otherwise the result has rank at most rank, exactly rank when rank < min(rows, cols) and no uniform draw is zero, and is the plain normal draw when rank is min(rows, cols) or negative. The matrices A and B of randDependent have ranks at most rankA and rankB (exactly those of the two blocks of rows of the common matrix) and [A;B] has rank at most rankAB, exactly rankAB when it is less than rankA + rankB and cols and no uniform draw is zero.", "quantifier": "all sizes, ranks and random draws", "why_tests_cant": "a test samples some draws and sizes", "anchors": ["include/jrl-qp/test/randomMatrices.h: randn, randDependent"]}
{"id": "C49", "title": "SUCCESS in floating-point arithmetic: nothing inactive is found violated", "statement": "In any arithmetic, floating point with rounding errors, infinities and NaN included, and after any history of the solver object: when solve of GoldfarbIdnaniSolver, experimental::GoldfarbIdnaniSolver (any warm start) or BoxAndSingleConstraintSolver returns SUCCESS, for no constraint or bound reported INACTIVE does the computed slack at solution() compare less than zero; and activeSet() has one status per constraint and bound, at most nbVar of them different from INACTIVE, for SUCCESS, INFEASIBLE and MAX_ITER_REACHED alike.", "quantifier": "all data, all arithmetics, all histories, all iteration counts", "why_tests_cant": "rounding errors and NaN cannot be enumerated by tests", "anchors": ["src/GoldfarbIdnaniSolver.cpp", "src/DualSolver.cpp: solve", "src/experimental/GoldfarbIdnaniSolver.cpp", "src/experimental/BoxAndSingleConstraintSolver.cpp"]}
{"id": "C50", "title": "The KKT checker accepts what the solver returns", "statement": "In exact arithmetic, for symmetric positive definite G, bounds that do not cross, equality constraints first and linearly independent, small enough 1e-14 threshold, large enough bigBnd and maxIter, after any history: if the problem is feasible, solve returns SUCCESS and testKKT(solution(), multipliers(), problem) is true for all non-negative tolerances, in debug and release builds; if solve does not return SUCCESS, testKKT with zero tolerances is false for every pair of vectors.", "quantifier": "all problems, all tolerances, all histories", "why_tests_cant": "universally quantified over problems and, when infeasible, over candidate solutions", "anchors": ["src/GoldfarbIdnaniSolver.cpp", "src/test/kkt.cpp: testKKT"]}
{"id": "C51", "title": "Starting from the optimal active set costs no iteration", "statement": "In exact arithmetic, for a positive definite Hessian and any KKT pair (x, lam): if the warm-start vector names, for the inequalities, the sides at which the multipliers live (INACTIVE where they are zero), these sides are not beyond bigBnd and the gradients of the equalities and named constraints are linearly independent, then solve of the warm-started solver returns SUCCESS with iterations() = 0, solution() = x, multipliers() = lam, the objective at x and that active set, after any history. In particular solving the same problem again with warm start, or handing the active set of a successful solve to another solver, returns the same answer after zero iterations. Without warm start the same holds when no inequality is active at the solution, and when all constraints are equalities.", "quantifier": "all problems, KKT pairs, warm-start vectors, histories and thresholds", "why_tests_cant": "universally quantified over problems and KKT pairs, exact arithmetic", "anchors": ["src/experimental/GoldfarbIdnaniSolver.cpp: init_, processInitialActiveSet, initializePrimalDualPoints", "src/GoldfarbIdnaniSolver.cpp", "src/DualSolver.cpp"]}
{"id": "C52", "title": "The box solver needs at most 2n iterations", "statement": "In exact arithmetic, for bounds that do not cross, a small enough 1e-14 threshold and a large enough bigBnd, after any history of the solver object and for all other options: solve of BoxAndSingleConstraintSolver on n variables ends with iterations() <= 2n, never returns MAX_ITER_REACHED when maxIter >= 2n+1, and then returns the projection of x0 or correctly reports that the feasible set is empty.", "quantifier": "all sizes, all data with bounds that do not cross, all histories and options", "why_tests_cant": "a worst-case bound over all inputs of all sizes", "anchors": ["src/experimental/BoxAndSingleConstraintSolver.cpp: solve, init_", "src/DualSolver.cpp: solve"]}
{"id": "C53", "title": "Structured solver: no crash, documented statuses, in any arithmetic", "statement": "In any arithmetic satisfying a few laws about zero, the infinite bound and the 1e-14 threshold (rounding errors, infinities and NaN allowed), for all block sizes, and for any sequence of legal calls (resize, solve, multipliers, resetActiveSet) on a BlockGISolver object, with problems without equality constraint or fixed variable and warm starts without active constraint: no access outside of a buffer or block and no failed assertion; solve returns SUCCESS, INFEASIBLE, MAX_ITER_REACHED or NON_POS_HESSIAN, the last exactly when the block Cholesky factorisation fails, with iterations() <= maxIter, and = maxIter for MAX_ITER_REACHED.", "quantifier": "all arithmetics, block structures, data and call sequences", "why_tests_cant": "call histories and rounding errors cannot be enumerated by tests", "anchors": ["src/experimental/BlockGISolver.cpp: solve, init_, computeStep, addConstraint, removeConstraint", "src/structured/*.cpp", "src/internal/*.cpp"]}
{"id": "C54", "title": "Structured solver: what solve returns depends on the problem only", "statement": "In any arithmetic as in C53: status, iterations(), activeSet(), multipliers() and, unless the status is NON_POS_HESSIAN, solution() and objectiveValue() after BlockGISolver::solve do not depend on the earlier calls made on the object, on the content of the memory, on the build type, or on giving a warm start without active constraint.", "quantifier": "all pairs of legal histories, memory contents and build types", "why_tests_cant": "relates all pairs of histories", "anchors": ["src/experimental/BlockGISolver.cpp: solve, init_, resize_", "src/DualSolver.cpp: solve"]}
{"id": "C55", "title": "All solvers are safe and reproducible in IEEE-754 arithmetic", "statement": "With IEEE-754 numbers of any binary format (binary64 in the code), rounding to nearest even, gradual underflow, signed zeros, infinities and NaN, bigBnd not NaN and a non-negative 1e-14 threshold: no sequence of legal calls on any of the four solvers accesses memory out of bounds or fails an assertion, and what solve returns does not depend on the earlier calls.", "quantifier": "all formats, all data (NaN and infinities included), all pairs of call histories", "why_tests_cant": "floating-point data and call histories cannot be enumerated", "anchors": ["src/GoldfarbIdnaniSolver.cpp", "src/DualSolver.cpp", "src/experimental/*.cpp"]}
{"id": "C56", "title": "What SUCCESS guarantees in IEEE-754 arithmetic", "statement": "In IEEE-754 arithmetic, after any history, when solve of the base, experimental or box solver returns SUCCESS: every bound reported INACTIVE is satisfied exactly by solution() (no rounding error at all), and every general constraint reported INACTIVE whose computed value is finite is satisfied up to the rounding error of a dot product: bl - E <= c'x <= bu + E with E = ((1+u)^(n+1)-1) sum |c_i||x_i| + n eta (1+u)^n, u = 2^-53, eta = 2^-1075 for double, whatever the order in which the linear algebra library adds the terms.", "quantifier": "all formats, data, histories and iteration counts", "why_tests_cant": "rounding errors cannot be enumerated", "anchors": ["src/GoldfarbIdnaniSolver.cpp", "src/DualSolver.cpp: solve", "src/experimental/GoldfarbIdnaniSolver.cpp", "src/experimental/BoxAndSingleConstraintSolver.cpp"]}
{"id": "C57", "title": "A NaN in the objective is reported as SUCCESS", "statement": "In IEEE-754 arithmetic, if the vector a contains a NaN, then whatever the constraints and the history, solve returns NON_POS_HESSIAN if the Cholesky factorisation fails, and otherwise (maxIter > 0) SUCCESS with iterations() = 0, all entries of solution() and objectiveValue() being NaN.", "quantifier": "all problems with a NaN in a, all histories", "why_tests_cant": "universally quantified over problems", "anchors": ["src/GoldfarbIdnaniSolver.cpp: init_, selectViolatedConstraint_", "src/DualSolver.cpp: solve"]}
{"id": "C58", "title": "A constraint with a NaN is silently ignored", "statement": "In IEEE-754 arithmetic, if an inequality constraint has a NaN in its normal, or has bounds that are NaN (or infinite), then after any history solve returns exactly what it returns for the problem where that constraint has any other normal and infinite bounds, and the constraint is reported INACTIVE (unless the status is NON_POS_HESSIAN).", "quantifier": "all problems with such a constraint, all replacement normals, all histories", "why_tests_cant": "universally quantified over problems; relates two runs", "anchors": ["src/GoldfarbIdnaniSolver.cpp: selectViolatedConstraint_", "src/DualSolver.cpp: solve"]}
{"id": "C59", "title": "Multipliers are shadow prices", "statement": "In exact arithmetic, when a problem is solved again with other right-hand sides and bounds only, the new objectiveValue() is at least the old one plus the change predicted by the old multipliers(): -lambda_i times the change of the lower side for lambda_i<0, of the upper side for lambda_i>0.", "quantifier": "all pairs of standard problems (positive definite, uncrossed, equalities first and independent) differing by their sides, all histories of both solvers, all fine enough thresholds", "why_tests_cant": "relates two runs, over a continuum of problems", "anchors": ["src/DualSolver.cpp: multipliers, objectiveValue", "src/GoldfarbIdnaniSolver.cpp: solve"]}
{"id": "C60", "title": "The solution is Lipschitz in the objective vector", "statement": "In exact arithmetic, for two problems with the same Hessian H and feasible set and vectors a, a', the solutions x, x' satisfy (x'-x)^T H (x'-x) <= (a-a')^T (x'-x), hence mu |x'-x| <= |a'-a| for all mu>0 with H >= mu I.", "quantifier": "all pairs of standard problems, all histories, all fine enough thresholds", "why_tests_cant": "relates two runs, over a continuum of problems", "anchors": ["src/GoldfarbIdnaniSolver.cpp: solve", "src/DualSolver.cpp: solution"]}
{"id": "C61", "title": "Equivalent formulations give the same answer", "statement": "In exact arithmetic, two formulations with the same variables, the same feasible set, and objectives equal up to a positive factor and a constant (permuted or rescaled constraints, redundant ones, bounds written as constraints, rescaled objective) give the same status, the same solution and related objective values.", "quantifier": "all pairs of standard formulations, all histories, all fine enough thresholds", "why_tests_cant": "relates two runs, over all reformulations", "anchors": ["src/GoldfarbIdnaniSolver.cpp: solve", "src/DualSolver.cpp: solution, objectiveValue"]}
{"id": "C62", "title": "Adding constraints is monotone", "statement": "In exact arithmetic, adding constraints never makes an infeasible problem solvable and never lowers objectiveValue(); if the first solution satisfies the added constraints the answer is unchanged.", "quantifier": "all pairs of standard problems with nested feasible sets and the same objective, all histories, all fine enough thresholds", "why_tests_cant": "relates two runs", "anchors": ["src/GoldfarbIdnaniSolver.cpp: solve", "src/DualSolver.cpp: solution, objectiveValue"]}
{"id": "C63", "title": "SUCCESS of the structured solver means that no constraint was found violated, whatever the arithmetic", "statement": "Whatever the arithmetic (IEEE, exact, ...) and after any sequence of earlier calls, when BlockGISolver::solve returns SUCCESS on a supported problem, no constraint that is not in activeSet() is violated by solution() as evaluated by the solver block by block; at most nbVar constraints are active. With IEEE operations, the evaluation error is bounded by a function of the sizes of the blocks only, so each inactive constraint holds up to that rounding error.", "quantifier": "all arithmetics, all structured problems without equality constraints, all histories of the solver object", "why_tests_cant": "ranges over all floating point inputs, formats and histories", "anchors": ["include/jrl-qp/experimental/BlockGISolver.h", "src/experimental/BlockGISolver.cpp: solve, selectViolatedConstraint_"]}
{"id": "C64", "title": "INFEASIBLE and SUCCESS of the other solvers, whatever the thresholds", "statement": "In exact arithmetic, for arbitrary values of the threshold 1e-14 and of bigBnd: when the warm-started, the structured or the box solver returns INFEASIBLE at x, some constraint is violated at x by viol>0, and every feasible y satisfies viol <= max(tiny |G(y-x)|, sqrt(viol (y-x)^T G (y-x)/bigBnd)) + (sum of multiplier times slack)/bigBnd: INFEASIBLE is never returned when a feasible point is near. SUCCESS of the structured solver means a feasible point that is the exact solution for a linear term perturbed by the neglected directions only.", "quantifier": "all problems with bounds that do not cross, all histories, all thresholds; warm-started solver: equalities first, independent initial active set, no initial multiplier in [-tiny,0)", "why_tests_cant": "ranges over all real problems, thresholds and histories", "anchors": ["src/experimental/GoldfarbIdnaniSolver.cpp: solve, init_", "src/experimental/BlockGISolver.cpp: solve", "src/experimental/BoxAndSingleConstraintSolver.cpp: solve"]}
{"id": "C65", "title": "The adaptors to other solvers' formats keep the problem", "statement": "Converting a well formed separated QP to the formats of eigen-quadprog, eiquadprog, QLD, LSSOL or to the arguments of GoldfarbIdnaniSolver::solve gives fields of consistent sizes, the same objective (up to its constant) and exactly the same feasible points, whatever mixture of finite and infinite sides and whichever storage; exceptions proved: LSSOL adds |x_i| <= 1e30 when there are no bounds, the quadprog formats drop bounds that are all contradictory infinities (lower bounds all +inf), and GIPb does not update transposedMat. solve on the converted problem then returns the minimiser of the separated problem, or INFEASIBLE if it has none.", "quantifier": "all separated problems (sizes, coefficients, infinities, storage), all points, all histories of the solver", "why_tests_cant": "ranges over all problems and all points", "anchors": ["benchmarks/problemAdaptors.cpp", "benchmarks/problemAdaptors.h", "benchmarks/Solvers.cpp: check, Signature"]}
{"id": "C66", "title": "Random problem, conversion and solver agree end to end", "statement": "In exact arithmetic, for every problem that randomProblem generates under the conditions of C44 with a full column rank objective, independent equalities and non-zero offsets: the solver called as in the benchmarks (QPProblem<true>, GIPb, solve), after any history, returns SUCCESS with exactly the advertised solution x, and the check of the benchmarks passes.", "quantifier": "all characteristics, all random draws, all histories, all fine enough thresholds", "why_tests_cant": "ranges over all random draws and histories", "anchors": ["src/test/randomProblems.cpp: randomProblem", "benchmarks/Solvers.cpp: generateSingleProblem, checkSolution", "benchmarks/problemAdaptors.cpp: GIPb"]}
{"id": "C67", "title": "Reading a QPS file gives the problem it describes", "statement": "A new QPSReader, given any layout (one or two values per line, comments, empty lines, optional sections, type letter touching the name, any case of the headers) of a description without duplicates whose names are declared and whose quadratic part is lower triangular, returns without exception a problem with one variable per column name in order of first appearance, one constraint per row other than the objective, whose feasible set is that of the description (row types, ranges with their sign rules, default bounds 0 <= x, last bound line wins) and whose objective is that of the description, constant included (with fullObjMat, or using the lower triangle of G only). The properties it reports (numbers of variables, constraints, rows E, use of bounds, fixed variables) are those of the description.", "quantifier": "all descriptions (sizes, names, values), all their layouts, all points, both values of fullObjMat", "why_tests_cant": "ranges over all files", "anchors": ["tests/QPSReader.cpp: read, processLine, readRow, readColumn, readRHS, readRanges, readBounds, readQuadObj", "tests/QPSReader.h"]}
{"id": "C68", "title": "Reading any file never indexes outside the problem", "statement": "Whatever the contents of the file, well formed or not, a new QPSReader either throws or returns a problem such that all the coefficients it has written are inside the vectors and matrices it has allocated: an undeclared row or column is never used. The only access outside of an array is the one that builds the message of an exception, for a line that only contains spaces and starts with one, after the tenth line (proved to happen).", "quantifier": "all files", "why_tests_cant": "ranges over all files", "anchors": ["tests/QPSReader.cpp: read, parseValueLine, addValueToColumn, addValueToRHS, addValueToRanges, readBounds, readQuadObj"]}
{"id": "C69", "title": "A QPSReader reads one file", "statement": "Reading a second file that has an objective row with a reader that has already read one throws, whatever the two files: data of two problems are not mixed (the reader is never reset).", "quantifier": "all pairs of files with an objective row", "why_tests_cant": "ranges over all pairs of files", "anchors": ["tests/QPSReader.cpp: readRow", "tests/QPSReader.h: reset, objWasRead"]}
{"id": "C70", "title": "The warm-started solver only uses the lower triangle of the Hessian", "statement": "After any history and with any admissible warm start, two calls of the experimental solver that differ only in the strict upper triangle of G give the same status, iteration count, active set, multipliers, solution and objective value; the strict upper triangle of the caller's matrix is left unchanged.", "quantifier": "all arithmetics, histories, options, problems, warm starts and matrices with the same lower triangle", "why_tests_cant": "ranges over all matrices, histories and warm starts", "anchors": ["src/experimental/GoldfarbIdnaniSolver.cpp: solve, init_, initializeComputationData"]}
{"id": "C71", "title": "The log is a readable Matlab script", "statement": "Whatever is logged with a Logger (matrices, vectors, numbers, integers, Booleans, active sets, vectors of enumerators, comments), in whatever order, with whatever flags, the text written is read by a Matlab reader as exactly one comment or assignment for each value whose flags pass the filter, in order; a value goes to the field `name(it+1).field` of the current iteration, or to `nameData.field` with NO_ITER; a matrix is read with the same number of rows, columns and coefficient texts; the logger returned by subLog writes inside the member of the current iteration.", "quantifier": "all values, sizes, names, flags and sequences of calls", "why_tests_cant": "ranges over all matrices and call sequences", "anchors": ["include/jrl-qp/utils/toMatlab.h: operator<<", "include/jrl-qp/utils/Logger.h: log, comment, logIter, logVal_", "src/utils/Logger.cpp: startIter, subLog"]}
{"id": "C72", "title": "The log of a solve only uses valid Matlab indices in release builds", "statement": "For every problem, option, flag and state, what GoldfarbIdnaniSolver::solve logs is a script all of whose indices are at least 1, in release builds, or when there is no equality constraint and no fixed variable. Otherwise, in debug builds with ITERATION_ADVANCE_DETAILS, and always in the box solver with ACTIVE_SET_DETAILS, it contains assignments to index 0, which Matlab rejects.", "quantifier": "all problems, options, flags, states and arithmetics", "why_tests_cant": "ranges over all problems and runs", "anchors": ["src/DualSolver.cpp: solve, terminate", "src/GoldfarbIdnaniSolver.cpp: solve, computeStep_, addInitialConstraint", "src/experimental/BoxAndSingleConstraintSolver.cpp: init_", "include/jrl-qp/utils/debug.h"]}
{"id": "C73", "title": "The log shows the iterates, the solution and the status", "statement": "When solve does not reject the Hessian, for each k <= iterations(), k < maxIter, the values assigned to x, f_ and A_ at index k+1 of the script are solution(), objectiveValue() and the active constraints that the same solve returns with maxIter = k; x is assigned at no other index; after SUCCESS or INFEASIBLE the last ones are the solution(), objectiveValue() and active set that the user gets; with ACTIVE_SET, the constraint shown as selected at index k+1 is violated by that iterate on the side shown, is not active, and is the most violated of the constraints that are not active; with TERMINATION, the last line of the log is the comment of the returned status, different for each status.", "quantifier": "all problems, options, flags, states, iterations and arithmetics", "why_tests_cant": "ranges over all runs and iterations", "anchors": ["src/DualSolver.cpp: solve, terminate", "include/jrl-qp/utils/Logger.h"]}
{"id": "C74", "title": "The log of the warm-started solver is a valid script and explains the discarded statuses", "statement": "For every problem, option, flag, warm start and state, in debug and release builds, what experimental::GoldfarbIdnaniSolver::solve logs is a script all of whose indices are at least 1. With ACTIVE_SET, it has a comment 'Ignoring activation status...' for exactly the statuses of the warm start that are discarded because the sides are not equal or the side is infinite; every status of the warm start is in the initial active set, or belongs to an equality, or is so reported, or there are more equalities and statuses than variables; the latter is not reported.", "quantifier": "all problems, options, flags, warm starts, states and arithmetics", "why_tests_cant": "ranges over all warm starts and runs", "anchors": ["src/experimental/GoldfarbIdnaniSolver.cpp: solve, init_, processInitialActiveSetWithEqualityOnly, processMatrixG, initializeComputationData, initializePrimalDualPoints", "include/jrl-qp/utils/debug.h"]}
{"id": "C75", "title": "The log of the warm-started solver shows its initial point, iterates, solution and status", "statement": "When solve does not reject the Hessian or the equalities, the script leaves in the members x, u, f_ of the data the initial point (what the same call returns with maxIter = 0), its multipliers and its objective value, and, if no constraint of the initial active set is removed, in N, J, b_act the matrices R and J and the right-hand sides with which the iterations start; for each iteration k from the first to iterations(), k < maxIter, the values assigned to x, f_, u and A_ at index k+1 are those the same call returns with maxIter = k; x is assigned at no other index; after SUCCESS or INFEASIBLE the last ones are what the user gets; with TERMINATION the last line is the comment of the returned status, except for OVERCONSTRAINED_PROBLEM, which the log does not mention.", "quantifier": "all problems, options, flags, warm starts, states, iterations and arithmetics", "why_tests_cant": "ranges over all runs and iterations", "anchors": ["src/experimental/GoldfarbIdnaniSolver.cpp: solve, init_, initializePrimalDualPoints", "src/DualSolver.cpp: solve, terminate"]}
{"id": "C76", "title": "Buffers have the size of the largest problem so far; no reallocation for smaller ones", "statement": "After any history of calls (constructor with sizes, resize, solve, multipliers, resetActiveSet) of GoldfarbIdnaniSolver, experimental::GoldfarbIdnaniSolver or BlockGISolver, each workspace has exactly the size needed by the largest number of variables, resp. constraints and bounds (and constraints, for BlockGISolver), asked for so far; so a call for no more variables than some earlier call, no more constraints and bounds than some earlier call (and, for BlockGISolver, no more constraints than some earlier call) reallocates no workspace.", "quantifier": "all histories of calls, all problems and sizes", "why_tests_cant": "ranges over all histories and sizes", "anchors": ["include/jrl-qp/internal/Workspace.h: resize", "src/DualSolver.cpp: resize, resize_p", "src/GoldfarbIdnaniSolver.cpp: resize_", "src/experimental/GoldfarbIdnaniSolver.cpp: resize_"]}
{"id": "C77", "title": "The sizes computed with int are right up to 46340 variables, and no further", "statement": "For every implementation of 32-bit int, every history of calls with at most 46340 variables and less than 2^31 constraints and bounds goes through the states computed with unbounded integers. With more variables nbVar*nbVar overflows: in builds that trap, the call stops; in builds that wrap around, after any history, GoldfarbIdnaniSolver::solve with a factorisable Hessian writes outside of its buffer, and the warm-started solver never returns a point; the matrix of a new BlockGISolver with 46341 to 65536 variables is empty, and it returns SUCCESS only if no constraint is active.", "quantifier": "all histories of calls, all sizes, all behaviours on overflow", "why_tests_cant": "ranges over sizes that no test allocates and over all histories", "anchors": ["include/jrl-qp/internal/Workspace.h: resize(int, int)", "src/DualSolver.cpp: resize_p", "include/jrl-qp/internal/ActiveSet.h: nbAll", "src/GoldfarbIdnaniSolver.cpp: solve, resize_"]}
{"id": "C78", "title": "An accepted Hessian is, up to rounding errors, positive definite (IEEE arithmetic)", "statement": "In IEEE-754 arithmetic with round to nearest (any format, any order of the additions), after any history: if solve does not return NON_POS_HESSIAN (nor OVERCONSTRAINED_PROBLEM) and the lower triangle L it leaves in the caller's matrix is finite, then L has a positive diagonal and H = L L^T is a positive definite matrix such that |H_ij - G_ij| <= e sqrt(H_ii H_jj) + (1+e) eta (n + 2 sqrt(H_jj) + eta), with e = (1-u)^-(n+2) - 1 about (n+2) u.", "quantifier": "all IEEE formats, orders of additions, histories, options, problems and warm starts", "why_tests_cant": "ranges over all matrices and histories", "anchors": ["src/GoldfarbIdnaniSolver.cpp: init_ (Eigen::internal::llt_inplace)", "src/experimental/GoldfarbIdnaniSolver.cpp: processMatrixG"]}
{"id": "C79", "title": "A SUCCESS without iteration returns a stationary point up to rounding errors (IEEE arithmetic)", "statement": "In IEEE arithmetic, after any history: if solve returns SUCCESS with iterations() = 0 on a problem without equality constraint or fixed variable, and the solution and factor are finite, then the gradient G x + a of the objective given by the caller is bounded in each coordinate i by (3e + e^2) sqrt(H_ii) sum_j sqrt(H_jj)|x_j| plus a multiple of the smallest positive number.", "quantifier": "all IEEE formats, orders of additions, histories, options and problems without equality", "why_tests_cant": "ranges over all problems and histories", "anchors": ["src/GoldfarbIdnaniSolver.cpp: init_", "src/DualSolver.cpp: solve"]}
{"id": "C80", "title": "A Hessian positive definite beyond the rounding errors is accepted (IEEE arithmetic)", "statement": "In IEEE arithmetic, after any history: if v^T G v >= lam v^T diag(G) v for every v with lam > 24 n (n+2) u, and the diagonal of G is between 8 eta/u and a quarter of the overflow threshold, then solve does not return NON_POS_HESSIAN, no overflow occurs in the factorisation, and the factor left in the caller's matrix is finite and as in C78.", "quantifier": "all IEEE formats, orders of additions, histories, options, problems and warm starts", "why_tests_cant": "ranges over all matrices and histories", "anchors": ["src/GoldfarbIdnaniSolver.cpp: init_ (Eigen::internal::llt_inplace)", "src/experimental/GoldfarbIdnaniSolver.cpp: processMatrixG"]}
{"id": "C81", "title": "An unconstrained problem is solved to within rounding errors of its exact minimiser (IEEE arithmetic)", "statement": "In IEEE arithmetic, after any history: on a problem without constraints and bounds whose Hessian is as in C80, solve returns SUCCESS with 0 iterations, and the point returned, if finite (it is when the gradient is not too large: |a_i| <= alpha sqrt(G_ii) with 25 alpha (n/lam)^3 at most the square root of the range, in formats with the range of the IEEE ones), is at a distance at most 48 n (n+2) u / lam times the norm of the exact minimiser from it, plus a multiple of the smallest positive number, in the norm weighted by the diagonal of G.", "quantifier": "all IEEE formats, orders of additions, histories, options and unconstrained problems", "why_tests_cant": "ranges over all problems and histories", "anchors": ["src/GoldfarbIdnaniSolver.cpp: init_", "src/DualSolver.cpp: solve"]}
{"id": "C82", "title": "The objective value of an unconstrained problem is accurate to within rounding errors (IEEE arithmetic)", "statement": "In IEEE arithmetic, after any history: on a problem without constraints and bounds whose Hessian and gradient are as in C81, objectiveValue() is finite and differs from the exact minimum f* of the objective by at most 54 n^2 (n+2) u / lam^2 times |f*| plus a multiple of the smallest positive number; more generally, after a SUCCESS without iteration on a problem without equality, a finite objectiveValue() is half of the product of the gradient at the origin and of the solution, up to the rounding errors of that product.", "quantifier": "all IEEE formats, orders of additions, histories, options and problems", "why_tests_cant": "ranges over all problems and histories", "anchors": ["src/GoldfarbIdnaniSolver.cpp: init_", "src/DualSolver.cpp: solve, objectiveValue"]}
{"id": "C83", "title": "Reading an inverse kinematics problem gives the problem that the file describes", "statement": "readIKPbFile applied to a file that describes a problem (titles '==== name ====', sizes, then the rows of Q, c, A, b, C, d, x_min, x_max with any spacing) returns the matrices and vectors of that problem, provided there is at least one variable. On any file whatsoever, what is returned has the numbers of rows written in the file and rectangular matrices; the numbers of columns and the ends of the titles are not checked.", "quantifier": "all files, all problems, all spacings, any text notation of the numbers", "why_tests_cant": "ranges over all texts", "anchors": ["tests/IKmatReader.cpp: readIKPbFile, readMat, readDataNameLine, isDataName, readVecLine", "tests/IKmatReader.h"]}
{"id": "C84", "title": "The log of the structured solver shows what it did, unless its input is logged", "statement": "Without the flags INPUT and NO_ITER, the log of any call of BlockGISolver::solve is a Matlab script with valid indices; what it assigns to x, f_, u and A_ at the index k+1 is the solution, objective value, multipliers and active set that the same call returns when it is stopped after k iterations; the last iterate is the result when the status is SUCCESS or INFEASIBLE, no other iterate is shown, and with TERMINATION the last line is the comment of the returned status (OVERCONSTRAINED_PROBLEM has none). With INPUT or NO_ITER the log is never a Matlab script: the assignments of G and C have no right-hand side, because the printing of StructuredG and StructuredC is not written.", "quantifier": "all structured problems, warm starts, options, flags, histories, number formats, in any arithmetic", "why_tests_cant": "the text depends on every number of every iteration", "anchors": ["src/experimental/BlockGISolver.cpp: solve, processInitialActiveSet", "src/DualSolver.cpp: solve", "include/jrl-qp/utils/Logger.h: logVal_", "include/jrl-qp/structured/StructuredG.h: operator<<", "include/jrl-qp/structured/StructuredC.h: operator<<"]}
{"id": "C85", "title": "The log shows the steps", "statement": "In the log of a call of any of the three solvers, the members z, r, t, Activate and l logged at the index k+1 (and, for the constraint, the last sc logged) explain the difference between the iterate k and the iterate k+1: the point moves by t z (it does not move in a pure dual step), the multipliers of the active constraints move by -t r and that of the entering constraint by t, and then the constraint sc becomes active in the last position, or the l-th constraint leaves the active set.", "quantifier": "all problems, warm starts, options, flags, histories, number formats, in any arithmetic", "why_tests_cant": "the text depends on every number of every iteration", "anchors": ["src/DualSolver.cpp: solve", "src/GoldfarbIdnaniSolver.cpp: computeStep_", "src/experimental/GoldfarbIdnaniSolver.cpp: solve", "src/experimental/BlockGISolver.cpp: solve", "include/jrl-qp/utils/Logger.h: log"]}
{"id": "C86", "title": "The warm-started solver too solves an unconstrained problem to within rounding errors (IEEE arithmetic)", "statement": "In IEEE arithmetic, after any history of the warm-started solver: on a problem whose Hessian is as in C80 and none of whose constraints is active at the start (no equality, no constraint asked for by the warm start), if solve returns SUCCESS with 0 iterations and a finite point, this point is at a distance at most 42 n sqrt(n) (n+2) u / lam times the norm of the exact unconstrained minimiser from it, plus a multiple of the smallest positive number, in the norm weighted by the diagonal of G. Without constraints and bounds solve always returns SUCCESS with 0 iterations, and the point is finite when the gradient is not too large, as in C81.", "quantifier": "all IEEE formats, orders of additions, histories, options and problems", "why_tests_cant": "ranges over all problems and histories", "anchors": ["src/experimental/GoldfarbIdnaniSolver.cpp: init_", "src/DualSolver.cpp: solve"]}
{"id": "C87", "title": "The objective value of the warm-started solver without active constraint is accurate to within rounding errors (IEEE arithmetic)", "statement": "In IEEE arithmetic, in the situation of C86 (no constraint active at the start, SUCCESS with 0 iterations, finite point): a finite objectiveValue() differs from the exact unconstrained minimum f* by at most 88 n^2 (n+2) u / lam^(3/2) times |f*| plus a multiple of the smallest positive number. Without constraints and bounds and with a gradient not too large, the value is finite.", "quantifier": "all IEEE formats, orders of additions, histories, options and problems", "why_tests_cant": "ranges over all problems and histories", "anchors": ["src/experimental/GoldfarbIdnaniSolver.cpp: init_", "src/DualSolver.cpp: solve, objectiveValue"]}
{"id": "C88", "title": "A minimum strictly inside the constraints is returned at once (IEEE arithmetic)", "statement": "In IEEE arithmetic, after any history of the base or of the warm-started solver: on a problem without equality constraint and fixed variable (and, for the warm start, without constraint asked for), whose Hessian and gradient are as in C81, if the exact unconstrained minimiser satisfies all the constraints and bounds with a margin of the size of the error bound of C81 (resp. C86) and of the rounding errors of the value of the constraint, solve returns SUCCESS with 0 iterations and a finite point within that error bound of the minimiser.", "quantifier": "all IEEE formats, orders of additions, histories, options, problems and warm starts", "why_tests_cant": "ranges over all problems and histories", "anchors": ["src/GoldfarbIdnaniSolver.cpp: init_, selectViolatedConstraint_", "src/experimental/GoldfarbIdnaniSolver.cpp: init_", "src/DualSolver.cpp: solve"]}
{"id": "C89", "title": "The log contains the problem", "statement": "With INPUT enabled, the script logged by any call of the base or warm-started solver assigns to the members G, a, C, bl, bu, xl, xu (and as) of the data exactly the matrices and vectors given by the caller, with their sizes, and the box solver its arguments, whether the call succeeds or not; if two calls write the same text, they were given the same problem (when the precision of the stream distinguishes the numbers).", "quantifier": "all problems, warm starts, options, flags, histories, number formats", "why_tests_cant": "the text depends on every number of the problem", "anchors": ["src/GoldfarbIdnaniSolver.cpp: solve", "src/experimental/GoldfarbIdnaniSolver.cpp: solve", "src/experimental/BoxAndSingleConstraintSolver.cpp: solve", "include/jrl-qp/utils/Logger.h: log", "include/jrl-qp/utils/toMatlab.h: operator<<"]}
{"id": "C90", "title": "The optimal value is convex in the bounds and concave in the objective vector", "statement": "Solve three problems of the documented class (exact arithmetic, each with its own solver, history and options whose thresholds are fine enough for the three problems). If the problems differ only by their right-hand sides and bounds, those of the third being the points at t (0 <= t <= 1) between those of the two first ones, and the first two solves return SUCCESS, then the third returns SUCCESS and its objectiveValue() is at most t f + (1-t) f' (less t(1-t)/2 times the squared distance of the solutions in the metric of the Hessian). If they differ only by their objective vectors, the third being at t between the two first ones, the third returns SUCCESS and its objectiveValue() is at least t f + (1-t) f'.", "quantifier": "every t in [0,1], every triple of such problems (all sizes, infinite bounds included), every history of the three solvers and every fine enough options", "why_tests_cant": "A test compares a few triples; convexity is about every point between two problems, and about the success of the solver for the intermediate problems.", "anchors": ["include/jrl-qp/GoldfarbIdnaniSolver.h:GoldfarbIdnaniSolver::solve", "src/DualSolver.cpp:DualSolver::solve, objectiveValue"]}
{"id": "C91", "title": "A change of variables changes the solution accordingly", "statement": "In exact arithmetic, with any histories and options with fine enough thresholds: if the points of two standard problems correspond to each other (feasible to feasible both ways, objectives related by a positive factor and a constant), the two solves return the same status, and after SUCCESS solution() corresponds to solution() both ways and the objective values are related. In particular when the variables are permuted, scaled by positive factors and translated, and the constraints permuted; and when a variable fixed by its bounds is removed from the problem (its contribution moved to the vectors).", "quantifier": "all pairs of standard problems related by such a change, of any sizes; all histories and fine enough options", "why_tests_cant": "relates two runs on different problems, for every change of variables", "anchors": ["include/jrl-qp/GoldfarbIdnaniSolver.h: solve", "src/DualSolver.cpp: solution, objectiveValue"]}
{"id": "C92", "title": "Relaxing or removing sides without multiplier changes nothing", "statement": "In exact arithmetic, with any histories and options with fine enough thresholds: after SUCCESS, solving again a standard problem in which only sides that carry no multiplier (multipliers() not negative for a lower side, not positive for an upper side) were relaxed, possibly to infinity, or from which a general constraint with a zero multiplier was deleted (the constraints after it being renumbered), returns SUCCESS, the same solution() and the same objectiveValue().", "quantifier": "all pairs of such problems, all histories and fine enough options", "why_tests_cant": "relates two runs, for every relaxation", "anchors": ["include/jrl-qp/GoldfarbIdnaniSolver.h: solve", "src/DualSolver.cpp: multipliers, solution"]}
{"id": "C93", "title": "solution() and multipliers() solve the dual problem, without gap", "statement": "In exact arithmetic, after any history and SUCCESS (standard problem, fine enough thresholds): solution() and multipliers() satisfy the constraints of the dual problem (the gradient of the Lagrangian vanishes, only finite sides have a multiplier), the dual objective -1/2 x'Gx - sum of multiplier times side equals objectiveValue(), no point of the dual problem has a larger dual objective and no feasible point has a smaller objective.", "quantifier": "all standard problems, all histories, all fine enough options, all points of the dual and primal problems", "why_tests_cant": "optimality of the certificate is about every dual point", "anchors": ["include/jrl-qp/GoldfarbIdnaniSolver.h: solve", "src/DualSolver.cpp: multipliers, objectiveValue"]}
{"id": "C94", "title": "The three solvers agree", "statement": "On a problem which several solvers accept, they return the same answer: the warm-started experimental solver, with any warm start of the documented form, and the cold-started solver return the same status, the same solution() and the same objectiveValue(); the box solver, given the point x0 to project, returns the same status and solution() as the general solver given the identity as Hessian and -x0 as vector, and objective values that differ by the constant norm(x0)^2/2.", "quantifier": "all standard problems (Hessian positive definite, equality constraints first and independent), all warm starts of the documented form, all histories of the solver objects, all options with fine enough thresholds and enough iterations; exact arithmetic", "why_tests_cant": "Tests compare solvers on random problems up to a tolerance and always from one history.", "anchors": ["include/jrl-qp/GoldfarbIdnaniSolver.h:solve", "include/jrl-qp/experimental/GoldfarbIdnaniSolver.h:solve", "include/jrl-qp/experimental/BoxAndSingleConstraintSolver.h:solve"]}
{"id": "C95", "title": "Independent parts of a problem are solved independently", "statement": "When the variables and constraints of a problem are those of two problems put side by side, with nothing linking them (block-diagonal Hessian and constraint matrix), solving it returns SUCCESS exactly when both parts do, solution() is the two solutions one after the other and objectiveValue() is the sum of the two.", "quantifier": "all pairs of standard problems of any sizes whose union is standard, all histories of the three solver objects, all options with fine enough thresholds and enough iterations; exact arithmetic", "why_tests_cant": "The path of the solver on the joint problem interleaves the two in an order that depends on the data; equality at the end is about every pair of problems.", "anchors": ["include/jrl-qp/GoldfarbIdnaniSolver.h: solve", "src/DualSolver.cpp: solve, objectiveValue, solution"]}
{"id": "C96", "title": "A feasible point loses at least half its squared distance to the solution", "statement": "After SUCCESS no feasible direction descends from solution(), and every feasible point y satisfies objective(y) >= objectiveValue() + (y-x)'G(y-x)/2 with x = solution(): with a Hessian at least mu times the identity, the squared distance of y to x is at most 2 (objective(y) - objectiveValue())/mu. So a nearly optimal point is near the one returned, and there is no other optimum.", "quantifier": "all standard problems, all feasible points, all histories, all options with fine enough thresholds; exact arithmetic", "why_tests_cant": "It is about every feasible point.", "anchors": ["include/jrl-qp/GoldfarbIdnaniSolver.h: solve", "src/DualSolver.cpp: solve, objectiveValue, solution"]}
{"id": "C97", "title": "The text printed for a termination status identifies it", "statement": "operator<< prints different texts for different values of TerminationStatus, also for values outside the declaration (which print their number); success, infeasible, maximum iteration reached and non positive hessian matrix are printed for the statuses of these names only; after GoldfarbIdnaniSolver::solve, in any arithmetic, one of these four texts is printed, never an unknown failure.", "quantifier": "all int values of the enumeration, all problems, options and states of the solver", "why_tests_cant": "Injectivity is about every int; what is printed after a solve is about every solve.", "anchors": ["src/utils/enumsIO.cpp: operator<<", "include/jrl-qp/enums.h: TerminationStatus", "include/jrl-qp/GoldfarbIdnaniSolver.h: solve"]}
{"id": "C98", "title": "Multipliers and solutions of warm-started solves: certificates, prices, stability", "statement": "In a sequence of warm-started solves, whatever statuses each solve starts from (of the documented form): a feasible problem always ends with SUCCESS; then multipliers() is a certificate of optimality (a solution of the dual problem, without gap) and predicts the change of objectiveValue() when right-hand sides and bounds change (objective' >= objective + predicted change); and when only the objective vector changes, the distance between two solutions is at most the distance between the vectors divided by the smallest eigenvalue of the Hessian.", "quantifier": "all pairs of standard problems, all warm starts of the documented form, all histories of the solver objects, all options with fine enough thresholds and enough iterations; exact arithmetic", "why_tests_cant": "A test follows one sequence of problems and warm starts; the statements are about all of them.", "anchors": ["include/jrl-qp/experimental/GoldfarbIdnaniSolver.h: solve", "src/experimental/GoldfarbIdnaniSolver.cpp: solve, init_", "src/DualSolver.cpp: multipliers, objectiveValue, solution"]}
{"id": "C99", "title": "Small changes of the right-hand sides and bounds change the answer little", "statement": "When a problem is solved again with every right-hand side and bound moved by at most delta (infinite sides staying infinite) and both solves return SUCCESS, objectiveValue() decreases by at most delta times the sum of the absolute values of the first multipliers and increases by at most delta times that of the second ones, and the two solutions x, x' satisfy (x'-x)'G(x'-x) <= delta times the sum of both; for cold and for warm-started solves.", "quantifier": "all pairs of standard problems that differ by their sides, all delta, all warm starts of the documented form, all histories, all options with fine enough thresholds and enough iterations; exact arithmetic", "why_tests_cant": "It is about every perturbation; the active set may change between the two solves.", "anchors": ["include/jrl-qp/GoldfarbIdnaniSolver.h: solve", "include/jrl-qp/experimental/GoldfarbIdnaniSolver.h: solve", "src/DualSolver.cpp: multipliers, objectiveValue, solution"]}
{"id": "C100", "title": "A least-squares problem goes end to end", "statement": "Given a least-squares problem (minimise half the squared norm of A x - b under equalities, inequalities and bounds) whose matrix A has full column rank, whose equalities are independent and with no fixed variable, converting it with QPProblem and GIPb and calling solve with fine thresholds and enough iterations returns SUCCESS whenever some point satisfies the constraints, with the one constrained least-squares solution, and the minimum is objectiveValue() plus half the squared norm of b; it returns INFEASIBLE when no point does. If the data are exact (a feasible point satisfies A x = b), that point is returned.", "quantifier": "all separated least-squares problems of full column rank with well formed constraints, both storages, all options with small thresholds, all legal previous histories of the solver", "why_tests_cant": "a test compares a few random problems with a reference within a tolerance; uniqueness and the answer on every feasible and infeasible problem range over all real data", "anchors": ["include/jrl-qp/test/problems.h: LeastSquareProblem, QPProblem", "src/test/problems.cpp: SeparatedFeasibilityConstraints::wellFormed", "benchmarks/problemAdaptors.cpp: GIPb", "src/GoldfarbIdnaniSolver.cpp: solve"]}
{"id": "C101", "title": "The box solver behaves as a projection", "statement": "With fine thresholds and at least 2n+1 iterations allowed, after any history: BoxAndSingleConstraintSolver::solve returns SUCCESS with objectiveValue() 0 exactly when x0 satisfies the constraints, and then solution() is x0; when some point y satisfies the constraints the status is SUCCESS, the lines from solution() to x0 and to y make an obtuse angle and |y-x0|^2 >= |y-solution()|^2 + 2 objectiveValue(); for two points x0 and x0' with the same constraints, the statuses are equal and the distance of the solutions is at most the distance of the points (and the projection is firmly nonexpansive).", "quantifier": "all numbers of variables, half-spaces, boxes that do not cross (infinite bounds included), all points, all feasible points, all pairs of points, all histories, all options with small thresholds", "why_tests_cant": "a test compares with another solver on a few random problems; the inequalities are over all pairs of points and all feasible points", "anchors": ["include/jrl-qp/experimental/BoxAndSingleConstraintSolver.h: solve", "src/experimental/BoxAndSingleConstraintSolver.cpp: init_", "src/DualSolver.cpp: solution, objectiveValue"]}
{"id": "C102", "title": "Small changes of the Hessian and of the vector change the answer little", "statement": "Two problems with the same variables and the same feasible set and any strictly convex objectives get the same status. On SUCCESS the change of objectiveValue() is at most the change of the objective at the first solution and at least its change at the second; and mu |x'-x| is at most the norm of the change of the gradient of the objective at x', for every positive lower bound mu of the first Hessian. The optimal value is a concave function of the Hessian and of the vector together. For cold and warm-started solves (concavity: cold).", "quantifier": "all pairs of standard problems with the same feasible set, all objectives, all warm starts of the documented form, all histories, all options with fine enough thresholds and enough iterations; exact arithmetic", "why_tests_cant": "It is about every perturbation of the data; the active set may change between the two solves.", "anchors": ["include/jrl-qp/GoldfarbIdnaniSolver.h: solve", "include/jrl-qp/experimental/GoldfarbIdnaniSolver.h: solve", "src/DualSolver.cpp: objectiveValue, solution"]}
{"id": "C103", "title": "Multipliers are unique when the tight constraints are independent", "statement": "If x and lambda satisfy the Karush-Kuhn-Tucker conditions and the gradients of the constraints and bounds with a tight side at x are linearly independent, then solve, cold or warm-started, after any history, returns SUCCESS with solution x, and multipliers() returns lambda: the multipliers do not depend on the path of the solver.", "quantifier": "all standard problems, all points and multipliers satisfying the KKT conditions with independent tight gradients, all warm starts of the documented form, all histories, all options with fine enough thresholds and enough iterations; exact arithmetic", "why_tests_cant": "Uniqueness is a statement about all multipliers and all paths of the solver; a test sees one of them.", "anchors": ["include/jrl-qp/GoldfarbIdnaniSolver.h: solve", "include/jrl-qp/experimental/GoldfarbIdnaniSolver.h: solve", "src/DualSolver.cpp: multipliers, solution"]}
{"id": "C104", "title": "INFEASIBLE exactly when a combination of the constraints is contradictory", "statement": "A strictly convex problem of the documented form either has a feasible point or admits nonnegative weights on its finite constraint and bound sides whose combination reads 0 >= b with b > 0, never both. solve, cold or warm-started, after any history, returns INFEASIBLE exactly in the second case, and SUCCESS exactly when its solution is feasible: each of the two answers has a certificate in terms of the problem data.", "quantifier": "all standard problems, all warm starts of the documented form, all histories, all options with fine enough thresholds and enough iterations; exact arithmetic", "why_tests_cant": "The absence of a feasible point and the existence of a contradictory combination are statements about all points and about a certificate the solver does not return.", "anchors": ["include/jrl-qp/GoldfarbIdnaniSolver.h: solve", "include/jrl-qp/experimental/GoldfarbIdnaniSolver.h: solve", "src/DualSolver.cpp: solve"]}
