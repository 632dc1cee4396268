# Formal model of jrl-qp in Lean 4 — design

## 1. Trusted base

* Lean 4.33.0's kernel (plus Mathlib's statements of standard notions such as `Matrix.PosDef`).
* Axioms used by the theorems: only `propext`, `Classical.choice`, `Quot.sound` (checked with `#print axioms`
  during development). No axiom is added, no compiled-code tactic is used.
* The correspondence between the Lean definitions and the C++ text, which is by reading: every definition cites
  the file and lines it models.
* Eigen is not part of /repo. The model contains its own transcription of the Eigen operations used
  (`makeGivens`, `applyOnTheLeft/Right`, unblocked `llt_inplace`, triangular solves, Householder), following
  Eigen 3.4 semantics. The order in which the terms of a product are added is left open (class `SumOps`: any
  parenthesised sum, any permutation, one or several accumulators, subtraction term by term, at once or by groups; chosen for each
  place and coefficient, independently of the values), which covers vectorised reductions and the blocked Cholesky and triangular
  solves. Two calls of the same Eigen routine for the same coefficient use the same order.

## 2. Arithmetic

The solver model is one program, generic in a *lawless* scalar type `K` and bound type `B`
(class `NumOps`: +,-,*,/,sqrt,abs, Boolean comparisons, no laws).

* `K = B = Float` is the executable instance: what the C++ does, terms being added from the left.
* `K = B = Fl F` (`Ieee.lean`) is IEEE-754 arithmetic of any format `F` (binary64, binary32, ...) defined on the reals:
  round to nearest even, subnormals, infinities, NaN, signed zeros. Theorems about it are proofs, unlike runs of `Float`.
* `K = ℝ`, `B = EReal` is the exact instance: `±∞` bounds are admitted (one-sided constraints).
* Theorems called *lawless* hold for every instance, hence also for IEEE doubles with NaN, overflow, rounding.
* Theorems called *exact* are about the ℝ instance. They say nothing about rounding errors.

Undefined behaviour (access outside of a workspace, the `__builtin_unreachable` branch) is an explicit outcome
(`Except Fault`), and buffer sizes are part of the state.

## 3. What is modelled and how each property is proved

| id | model | proof |
|----|-------|-------|
| C01-C04 | `ActiveSet` state with every counter as `Int`; operations as functions, histories as lists of operations | invariant by induction on histories; refinement to a list of pairs |
| C05 | generic solver loop, fuel = maxIter - it | lawless, induction on the loop |
| C06 | `multipliers` on the final state | lawless, from the active set invariant |
| C07,C08,C17,C34,C35,C36 | exact instance, invariant `J'GJ=1`, `J'N=[R;0]`, `Gx+a=Nu+u_q n`, activity, signs | induction on the loop; KKT implies optimality from convexity. C07 is false in general (see Findings): negation by witness and `_partial` theorem |
| C09 | exact instance | Farkas certificate at exit; negation by witness because of the 1e-14 / bigBnd thresholds |
| C10 | Cholesky of the lower triangle | induction; equivalence with `Matrix.PosDef` |
| C11 | exact instance | direct evaluation with C10's factorisation |
| C12 | buffer sizes and `Except Fault` | lawless, invariant over call histories; negation for over-determined equalities |
| C13,C14,C19 | simulation relation "equal on live entries" | lawless, one simulation theorem |
| C15 | active set part of the loop | negation by witness, partial theorem when equalities come first |
| C16 | `select` | lawless part (index inactive, status kind) and exact part (maximality) |
| C18 | exact instance; `ExecFrame.lean`, `PropsCycle.lean` for the counterexample | active sets cannot repeat after a full step; for a fixed threshold a run of period ten is followed symbolically |
| C20 | flags as `BitVec 32`, logger | direct + negation for flag removal |
| C21-C24 | experimental solver | invariants, exact linear algebra; negation for EQUALITY warm start |
| C37,C38 | experimental solver, sequences of calls, `Except Fault` | lawless, invariant and simulation relation over call histories |
| C25, C39 | box solver (`Box.lean`): its `init_`, then the main loop of the base class | C25 exact arithmetic, C39 lawless |
| C26 | workspace as a function on indices | induction on columns |
| C27,C28 | block Cholesky | induction on blocks; negation for the `ret > 0` test |
| C29-C31 | transformations | induction on sequences |
| C32 | `testKKT*` (`Problems.lean`), sizes included | exact; equivalence with `Spec.KKT`, duality gap estimate by convexity; counterexample for crossed bounds |
| C33 | conversions of `problems.h/.cpp` (`Problems.lean`), sizes included | exact; equality of feasible sets, objectives; negations for the lost constants and the faulting conversion |
| C40,C41 | `BlockGISolver`, `StructuredG/C/J/QR`, `OrthonormalSequence` (`Structured.lean`) | exact; step-by-step simulation of the dense solver (`StructSim`), an orthogonal change of the last columns of `J` being allowed; reachable states by induction |
| C42 | the vectors of `Eigen::Ref` of `StructuredG/C` over a heap of matrices (`BlockAlias.lean`) | lawless; frame property by induction on the blocks, negation for later calls |
| C43 | `generateBoxAndSingleConstraintProblem` (`BoxGen.lean`), random vectors as arguments | exact; convexity |
| C44 | `randomProblem` (`RandomPb.lean`), random draws and the factors of the rank-revealing QR as arguments | exact; null vector of the stacked matrix, invariance under the shuffles by induction; negations by witness ; `PropsRandomShuffle.lean`: each order from exactly one sequence of draws (Fisher-Yates), announced active constraints |
| C45 | `ExactBackward.lean`: the loop on `pb` is the loop on `pb` with linear term `a + delta` (the linear term is read by the initialisation only), and a neglected direction changes `delta` by `t G z` | exact; the invariants of C07 hold for the perturbed problem, by induction on the loop |
| C46 | `ExactCert.lean`, same model | exact; Farkas certificate up to the neglected terms, Cauchy-Schwarz |
| C47 | `RandomMat.lean`: `randOrtho` as the loop of Householder updates | exact; invariant "the bottom-right block is orthogonal with determinant given by the flag" |
| C48 | `PropsRandomMat.lean`: `randn`, `randDependent` | exact; factors with orthonormal columns keep the rank |
| C49 | `PropsFloat.lean`: the three dual solvers | lawless; the selection returns INACTIVE only if no test succeeded, induction on the loop |
| C50 | `PropsPipeline.lean`: solver and `testKKT` together | exact; C07/C18 with harmless thresholds, then C32 |
| C51 | `PropsWarm.lean`: initial pair of the experimental solver, selection at a feasible point | exact; the KKT pair is the unique solution of the saddle-point system of the active set (`Alg.point`), so no removal and no violated constraint; the final active set of a `SUCCESS` is such a start (`success_start`) |
| C52 | `BoxTerm.lean`: main loop on the problem of the box solver | exact; the multiplier of the half-space never decreases along a step (sign of the coefficients of the candidate normal on the active ones); each bound is left at most once and reached at most once: measure `boxMu`, `1 ≤ boxMu ≤ 2n+1`, strictly decreasing |
| C53 | `StructHist.lean`, `PropsStructAny.lean`: `bsolve`, `bresize`, call sequences | any arithmetic (`FpLaws`, `NulLaws`); invariant `BInv` (buffer sizes, leading dimensions, active set); every call preserves it and returns `.ok` |
| C54 | same | two runs related by `StSim` (equal on the initialised parts only: first `q` columns of R, the first q multipliers, `n` entries of x); lock-step induction over the loop |
| C55 | `Ieee.lean` (formats, rounding to nearest even, operations, comparisons as a `NumOps` instance), `PropsIeee.lean` | `rnd` is shown to be the rounding of the standard (`rnd_rep`, `rnd_nearest`, `rne_tie`); the laws `FpLaws`, `NulLaws` hold, hence C12/C13/C38/C39/C54 |
| C56 | `IeeeErr.lean`, `PropsIeee.lean` | `a - b < 0` is exactly `a < b` (gradual underflow, `sub_lt_zero`); induction on the size for the error of a dot product; C49 |
| C57 | `PropsNan.lean` | NaN propagates through the two triangular solves to all of `x`; the selection then finds nothing |
| C58 | `Skip.lean`, `PropsNan.lean` | a constraint that is never selected can be replaced: equality of the two runs by induction |
| C59-C62 | `PropsMeta.lean`: two solves, each with its own history and options | exact; consequences of C07/C08/C18 by convexity (KKT expansion of the objective, variational inequality) |
| C63 | `PropsStructSuccess.lean`: the structured solver in any arithmetic | invariant of the loop (`bselect_clean`), then the rounding bound of C50/C51 for each block |
| C64 | `PropsCert.lean`: warm-started, structured, box solvers | exact; the invariant of C45/C46 from the start of each main loop (`NearCert.far`), C40 for the structured one |
| C65 | `Adaptors.lean` (benchmarks/problemAdaptors.cpp), `PropsAdaptors.lean`, `PropsAdaptorsGI.lean` | exact; each target format has its own specification of feasibility (`Holds`), rows are split by segment; `SepQp.Std.std` + C18 for solving |
| C66 | `PropsAdaptorsGI.lean` | exact; C44 (advertised point is a minimiser) + C65 (the solver returns the only minimiser) |
| C67 | `QpsReader.lean`, `QpsSpec.lean`, `QpsRead.lean`, `QpsSem.lean`, `PropsQps.lean` | files as lists of lines made of words; description by names, its meaning, its layouts; state of the reader after each section by induction on the lines; loops that write with distinct keys |
| C68 | `PropsQps.lean` | invariant of the reader over all lines, well formed or not |
| C69 | `PropsQps.lean` | the flag of the objective row is never cleared |
| C70 | `PropsExpLower.lean` | simulation of two runs whose Cholesky factors agree on the lower triangle: QR of the initial active set, `J`, removal loop, main loop |
| C71 | `LogText.lean`, `MatlabSpec.lean`, `LogRead.lean`, `PropsLogText.lean` | text of `toMatlab` and `Logger`; independent reader of Matlab scripts; reading inverts writing, by induction on the calls |
| C72 | `SolveLog.lean`, `PropsSolveLog.lean`, `PropsSolveLogEx.lean` | calls to the logger made by `solve`, in order; index of each call along the run; index 0 in debug builds and in the box solver |
| C73 | `PropsSolveLog.lean` | members assigned at the start of each iteration, induction on the main loop; the run with `maxIter = k` is the prefix; the selected constraint (`PropsSolveLogSel.lean`) from the invariant of the selection loop |
| C74 | `PropsXSolveLog.lean`, `PropsXSolveLogEx.lean` | model of what the warm-started solver logs (`XSolveLog.lean`), membership of each entry; C21 for the initial active set; counterexample for the silent trimming |
| C75 | `PropsXSolveLog2.lean`, `PropsBlockLogStep.lean`, `PropsXDataLog.lean` | as C73, after the removals of the initialisation; last assignment to a member of the data by `valueFrom` |
| C76 | `Sizes.lean`, `PropsSizes.lean`, `PropsSizesX.lean`, `PropsSizesB.lean` | frame lemmas: only `resize` changes sizes; induction on the history (capacities of the `std::vector`s of `ActiveSet` and allocations inside Eigen: not modelled) |
| C77 | `Machine.lean`, `PropsSizesX.lean`, `PropsSizesB.lean` | `resize` again with an arbitrary 32-bit `int`; equality with the model for small sizes; `nbVar²` wraps below `2^31`, so the range check of `J` fails |
| C78 | `IeeeChol.lean`, `PropsIeeeChol.lean` | backward errors of the sums, products, quotients and square roots; induction on the columns of the factorisation |
| C79 | `IeeeSubst.lean`, `PropsIeeeMin.lean` | backward errors of the two triangular solves, combined with C78 |
| C80 | `IeeeCholOk.lean`, `IeeeCholRun.lean`, `PropsIeeeCholOk.lean` | induction on the columns: the part already computed factorises a matrix close to `G`, the margin `lam` makes the next pivot positive, and nothing overflows |
| C81 | `PropsIeeeMinOk.lean`, `IeeeSubstOk.lean`, `PropsIeeeSolve.lean` | C79 with C80; the margin `lam` turns the residual into a distance; the rows of the factor and its inverse are bounded by the margin, so that the substitutions do not overflow when the gradient is not too large |
| C82 | `IeeeSubst.lean` (`solve_first_both`), `PropsIeeeObj.lean` | the value computed is half of the product of the gradient at the origin and of the point; rounding error of a scalar product, the distance of C81, and `|aᵀv| ≤ n ‖y‖ ‖v‖` in the norm weighted by the diagonal |
| C83 | `IkReader.lean`, `PropsIk.lean` | the file is a list of lines, `operator>>` is an argument; induction on the text of a row and on the rows; inversion of each step for the sizes; concrete files for what is not checked |
| C84 | `BlockLog.lean`, `PropsBlockLog.lean`, `PropsBlockLog2.lean`, `PropsBlockLogEx.lean`, `PropsBlockLogStep.lean` | the calls of the logger mirror `Structured.lean`; same method as C73: the state after k iterations, induction on the iterations; a line `G = ;` is refused by the reader |
| C85 | `LogStep.lean`, `PropsLogStep.lean`, `PropsBlockLogStep.lean`, `PropsLogStepEx.lean` | the states along the loop and the members logged between two iterates; one iteration gives the relation `StepShown`, stated on the texts of the two iterates |
| C86 | `InvErr.lean`, `PropsIeeeWarm.lean` | the point is `-J (Jᵀ a)` with `J` the computed inverse of the transposed factor: error analysis of the inverse by columns, of the two products, and the margin `lam` of C80 |
| C87 | `InvErrObj.lean`, `PropsIeeeWarmObj.lean` | the value is minus half of the squared norm of `Jᵀ a`; the analysis of C86 bounds its distance to `-Lᵀ y`, and C78 that of `L Lᵀ` to the Hessian |
| C88 | `PropsIeeeInside.lean` | C81/C86 bound the distance to the minimiser; Cauchy-Schwarz in the norm of C81 and the dot product analysis keep all computed constraint values inside, so `selectViolatedConstraint_` finds nothing |
| C89 | `PropsInputLog.lean` | the statements of the reader of C71 that assign a member of the data come from the first log call; the texts of a column or of a matrix determine its size and coefficients |
| C90 | `PropsConvex.lean` | three answers of C07-C09; the combination of the solutions is feasible for the problem in between (bounds), the middle solution is feasible for both (vector); Taylor expansion of the objective |
| C91 | `PropsChange.lean` | C07-C09 for both problems and uniqueness of the minimisers; sums reindexed by the permutation, Taylor expansion at the translation |
| C92 | `PropsChange.lean`, `PropsRemove.lean` | the KKT conditions still hold for the relaxed problem, and are sufficient |
| C93 | `PropsChange.lean` | the objective written with the dual point (completion of squares); weak duality side by side; complementarity for equality |
| C94 | `PropsAgree.lean` | two solves of the same problem by different solvers: soundness of each (C18, C24, C25) and uniqueness of the optimum; `boxSpec` links the two formulations of the box problem |
| C95 | `PropsSplit.lean` | feasible sets and objectives of the joint problem split (sums over two ranges); uniqueness of the optimum |
| C96 | `PropsSplit.lean` | Taylor expansion at the optimum, first-order condition (`grad_step`) |
| C97 | `EnumsIO.lean`, `PropsEnumsIO.lean` | cases; decimal texts are injective (`decInt_inj`); C05 for the statuses of a solve |
| C98 | `PropsWarmMeta.lean` | a warm-started success gives the same `Answer` as a cold one (C24); the lemmas of C59, C60, C93 are about answers |
| C99 | `PropsBoundsStab.lean` | C59 both ways, keeping the quadratic term; each predicted change is at most delta times the multiplier |
| C100 | `PropsLeastSquares.lean` | full column rank gives a positive definite matrix; C65 for the solver, C33 for the objective and its constant |
| C101 | `PropsProject.lean` | C52 gives the projection; the feasible set is convex, first-order condition along a segment, sums of squares |
| C102 | `PropsObjStab.lean` | first-order conditions at both solutions, summed; the value is a minimum of functions affine in the objective |
| C103 | `PropsUnique.lean` | the difference of two multipliers is supported by the tight sides and cancels in the stationarity conditions |
| C104 | `PropsFarkas.lean` | the step that answers INFEASIBLE writes the violated normal as a combination of active ones; combinations add up; C18 for the converse |

## 4. Findings (properties that are false of the code as written)

1. `computeStepLength_` reads `activationStatus(k)` with the position `k` in the active list instead of the index
   `A_[k]` (GoldfarbIdnaniSolver.cpp:162, same in the experimental solvers). With an equality after an inequality this
   gives a `SUCCESS` that is not optimal (`C07_order_false`), an `INFEASIBLE` for a feasible problem (`C09_order_false`), an
   equality constraint reported `UPPER` (`C15_equality_dropped`).
2. experimental warm start: status EQUALITY given for a non-equality general constraint is not ignored.
3. base solver: more equalities + fixed variables than variables writes out of the workspaces.
4. `terminate` asserts on OVERCONSTRAINED_PROBLEM.
5. thresholds 1e-14 / bigBnd make a feasible problem be reported INFEASIBLE (`C09_threshold_false`), or
   a non-optimal point be reported SUCCESS, with an objective value that is not the one of the point (`C07_threshold_false`,
   `C08_threshold_false`, `C17_threshold_false`; C45 bounds the damage: exact solution of a perturbed linear term); crossed
   bounds are not detected (`C07_crossed_false`, `C16_crossed_false`).
6. block LLTs test `ret > 0`.
7. `blockArrowLSolve` orientation bug when first and last block sizes differ.
8. `options()` only ORs log flags.
9. problem conversions read empty members, lose the constant of the objective; `QPProblem::wellFormed` rejects transposed
   problems and does not check the rows of `G`.
10. `Logger::startIter` records the iteration number outside of the iteration (its flag contains `NO_ITER`).
11. `testKKT` accepts infeasible points of problems whose bounds cross.
12. `BlockGISolver::solve`: `pb_.G = G` assigns `Eigen::Ref`s: from the second call on, coefficients are copied into the
    matrices of the *previous* problem, which are then factorised in place (`C42_second_solve_overwrites_first`).
13. `BlockGISolver` cannot take equality constraints nor warm starts (assertion, C41).
14. `generateBoxAndSingleConstraintProblem` stores `C` transposed without setting `transposedMat`.
15. `randomProblem`: the lower side of a flipped weakly active constraint is not negated (`C44_flip_false`); `Q.rightCols(nVar -
    rankTot)` should be `colsTot - rankTot` (`C44_rightCols_false`); the product of the `strictlyFeasible` case has mismatched sizes
    (`C44_strict_asserts`). `RandomLeastSquare::computeKKTValues/checkKKT/testKKT/dispKKT` are declared but not defined.
16. A NaN in the objective vector gives `SUCCESS` after 0 iterations with a solution made of NaN (`C57_nan_objective`).
17. An inequality with a NaN in its normal or with NaN bounds is ignored silently (`C58_nan_constraint`).
18. `problemAdaptors`: `hasFiniteElements` drops contradictory bounds that are all infinite; `LssolPb` adds a box of `1e30`; `GIPb`
    leaves `transposedMat` unset (C65).
19. With the fixed threshold `1e-14` on the norm of the direction, the iterations of the base solver can cycle: a feasible, strictly
    convex problem with 3 variables and 5 inequalities on which active set and point repeat every ten iterations while the
    multipliers grow by a factor 12, so that `solve` returns `MAX_ITER_REACHED` (`C18_threshold_false`, `C18_default_false`).
20. `QPSReader`: a blank line that starts with a space indexes `lineName` with the line number (`C68_message_false`); the reader cannot be
    used twice (`reset` is declared, not defined, C69); lines `MI`/`PL` without value throw; a second name that ends the line is
    ignored; entries of `QUADOBJ` above the diagonal are overwritten (`fullObjMat`) or never read by the solvers.
21. The log assigns members of index 0, which is not a Matlab index: in debug builds with an equality constraint or a fixed variable
    (`computeStep_` is called by `addInitialConstraint` before the first iteration; `C72_debug`), and in the box solver, whose
    `init_` logs without `NO_ITER` (`C72_box`).
22. The log of the warm-started solver does not say that statuses of the warm start were dropped because there are more of them
    than variables (`C74_silent`), nor that it stopped with `OVERCONSTRAINED_PROBLEM` (`C75_status`).
23. `Workspace::resize(rows, cols)` multiplies `int`s: from 46341 variables on the product overflows, the buffers of `J` and `R` are
    too small and are used out of bounds (`C77_wrap`).
24. `IKmatReader` compares titles as prefixes only, does not check the number of columns, throws `std::out_of_range` on a short title and
    asserts when there is no variable (C83).
25. `BlockGISolver` with `INPUT`: `operator<<` of `StructuredG` and `StructuredC` writes nothing, so the log contains `G = ;` and is not a
    Matlab script (`C84_input`).
26. Numbers are printed with the precision of the stream (`Eigen::StreamPrecision`), 6 digits by default: the log then does not determine the
    problem (hypothesis of `C89_replay`).
27. The matrix logged as `N` by the warm-started solver (src/experimental/GoldfarbIdnaniSolver.cpp:457) is not the normals: the QR was done in
    place, `N` contains `R` above the Householder vectors (`C75_factors`).

## 5. Modelled and not modelled, by file

Modelled function by function: `include/jrl-qp/{DualSolver,GoldfarbIdnaniSolver,SolverOptions,enums}.h`,
`src/{DualSolver,GoldfarbIdnaniSolver,SolverOptions}.cpp`, `internal/{ActiveSet,ConstraintNormal,SelectedConstraint,Workspace,
SingleNZSegmentVector,OrthonormalSequence}.*`, `experimental/{GoldfarbIdnaniSolver,BoxAndSingleConstraintSolver,BlockGISolver}.*`,
`structured/Structured{G,C,J,QR}.*`, `decomposition/{triBlockDiagLLT,blockArrowLLT}.*`, `test/{kkt,problems,randomProblems,
randomMatrices}.*`, `tests/QPSReader.*` (reading of numbers: an argument), `utils/Logger.*`, `utils/enumsIO.*` and `utils/toMatlab.h` (text
of a floating-point number: an argument; Eigen's `IOFormat` with flags 0 is part of the trusted model).

Not modelled:
* `utils/debug.h`, `internal/{meta,memoryChecks}.*`, `api.h`, `defs.h` (macros, formatting);
* `benchmarks/` except `problemAdaptors` and `checkSolution` (C65, C66) (readers, timing), `3rd-party/`;
* the random number generator: the random draws are arguments of the model, quantified universally;
* Eigen's memory layout, vectorisation, blocked algorithms and fused multiply-add: sums are evaluated in an arbitrary order that is a function of the
  place and of the sizes (not of the alignment of the buffers), with one rounding per operation; the shortcut of Eigen's triangular
  solves that skips a zero entry of the right-hand side is not modelled (same value unless the factor contains NaN or infinities, or
  for the sign of a zero);
* `int` overflow is modelled for the sizes of the buffers and of the active set of the three solvers (C76, C77, `Sizes.lean`, `Machine.lean`, `PropsSizesB.lean`) and
  nowhere else (elsewhere sizes are naturals); allocation failure, exceptions, timing. C++ object lifetime is modelled only where it matters (`BlockAlias.lean`).
