import Verif.Box
import Verif.LogText

/-!
# What a solve logs

The calls to the logger made by `GoldfarbIdnaniSolver::solve`, in order. The numbers of a log are values of type `K`, or bounds
of type `B`. The macros of include/jrl-qp/utils/debug.h:38-77 are modelled for `NO_LOG_ = false`; `Opts.dbg` is `DEBUG_OUTPUT`.
-/

namespace JrlQp
namespace Log

open NumOps

variable {K B : Type} [Zero K] [One K] [Add K] [Sub K] [Neg K] [Mul K] [Div K] [NumOps K B] [SumOps K]

/-- A vector of size `n` (a matrix with one column). -/
def lvec (n : Nat) (v : Nat → K) : LVal (K ⊕ B) := .mat n 1 fun i _ => .inl (v i)

/-- A vector of bounds. -/
def lbnd (n : Nat) (v : Nat → B) : LVal (K ⊕ B) := .mat n 1 fun i _ => .inr (v i)

/-- A matrix. -/
def lmat (r c : Nat) (M : Nat → Nat → K) : LVal (K ⊕ B) := .mat r c fun i j => .inl (M i j)

/-- Calls logging members of the iteration. -/
abbrev Calls (K B : Type) := List (LogCall (K ⊕ B))

/-- `JRLQP_DBG(log_, LogFlags::ITERATION_ADVANCE_DETAILS, J, R, d)` at the end of `computeStep_`,
src/GoldfarbIdnaniSolver.cpp:147; `s` is the state after the computation. `R` is a triangular view: the entries under the
diagonal are written as zeros. -/
def stepDbg (o : Opts K) (s : State K) : Calls K B :=
  if o.dbg then
    [.log LogFlags.iterationAdvanceDetails.bits
      [(['J'], lmat s.nbVar s.nbVar s.J), (['R'], lmat s.A.q s.A.q fun i j => if i ≤ j then s.R i j else 0), (['d'], lvec s.nbVar s.d)]]
  else []

/-- Logs of step 2 of an iteration, src/DualSolver.cpp:124-165. -/
def bodyLog (o : Opts K) (pb : Pb K B) (s : State K) (sc : SC) : Calls K B :=
  let s := computeStep pb s sc
  let sl := computeStepLength o pb s sc
  let t := stdMin sl.t1 sl.t2
  stepDbg o s ++
    [.comment LogFlags.iterationBasicDetails.bits "Step computation".toList,
      .log LogFlags.iterationBasicDetails.bits
        [(['z'], lvec s.nbVar s.z), (['r'], lvec s.A.q s.r), (['t'], .num (.inl t))]] ++
    if leb o.bigBnd t then []
    else [.log LogFlags.activeSet.bits [("Activate".toList, .bool (!leb o.bigBnd sl.t2 && eqb t sl.t2)), (['l'], .int sl.l)]]

/-- Logs of an iteration, src/DualSolver.cpp:105-165. The vector `u` has one more element when the previous iteration removed
a constraint (lines 139-141, 161-163). -/
def iterLog (o : Opts K) (pb : Pb K B) (s : State K) (sc : SC) (skip : Bool) : Calls K B :=
  [.startIter s.it,
    .log LogFlags.activeSetDetails.bits [(['A', '_'], .active ((List.range s.A.q).map fun k => (s.A.get k : Int)))],
    .log LogFlags.iterationBasicDetails.bits
      [(['x'], lvec s.nbVar s.x), (['u'], lvec (if skip then s.A.q + 1 else s.A.q) s.u), (['f', '_'], .num (.inl s.f))]] ++
    if skip then bodyLog o pb s sc
    else
      let sc := select pb s.nbVar s.A s.x
      if sc.status = .inactive then []
      else .log LogFlags.activeSet.bits [(['s', 'c'], .sel sc.p (sc.status.toNat))] :: bodyLog o pb { s with u := upd s.u s.A.q 0 } sc

/-- Logs of the main loop, src/DualSolver.cpp:103-167. -/
def loopLog (o : Opts K) (pb : Pb K B) : Nat → State K → SC → Bool → Calls K B
  | 0, _, _, _ => []
  | fuel + 1, s, sc, skip =>
    iterLog o pb s sc skip ++
      match iterate o pb s sc skip with
      | .ok (.cont s sc skip) => loopLog o pb fuel { s with it := s.it + 1 } sc skip
      | _ => []

/-- The comment written by `terminate`, src/DualSolver.cpp:170-198. -/
def termText : Term → Option String
  | .success => some "Optimum reached."
  | .inconsistentInput => some "Inconsistent inputs."
  | .nonPosHessian =>
    some "This version of the solver requires the quadratic matrix to be positive definite.The input matrix is not (at least numerically)"
  | .infeasible => some "Infeasible problem."
  | .maxIterReached => some "Maximum number of iteration reached."
  | .linearDependencyDetected => some "Attempting to add a linearly dependent constraint."
  | .overconstrainedProblem | .unknown => none

/-- Logs of `terminate`. -/
def termLog (t : Term) : Calls K B :=
  match termText t with
  | some c => [.comment LogFlags.termination.bits c.toList]
  | none => []

/-- Logs of successive calls to `addInitialConstraint`, src/GoldfarbIdnaniSolver.cpp:295-338 (`addConstraint` always returns
`true`: the comment of line 335 is never written). -/
def addInitialsLog (o : Opts K) (pb : Pb K B) : List SC → State K → Calls K B
  | [], _ => []
  | sc :: rest, s =>
    stepDbg o (computeStep pb { s with u := upd s.u s.A.q 0 } sc) ++
      match addInitialConstraint o pb s sc with
      | .error _ => []
      | .ok s => addInitialsLog o pb rest s

/-- Logs of `init_`, src/GoldfarbIdnaniSolver.cpp:56-82. -/
def initLog (o : Opts K) (pb : Pb K B) (s : State K) : Calls K B :=
  let c := chol s.nbVar pb.G s.nbVar
  if c.2.isSome then []
  else
    let s := initPoint o pb { s with G := c.1 }
    addInitialsLog o pb (eqList pb s.A) s

/-- Logs of `DualSolver::solve`, src/DualSolver.cpp:91-168, for given logs of `init_` and a given `init_`. -/
def dualSolveLog (iniLog : State K → Calls K B) (ini : State K → Except Fault (Term × State K)) (o : Opts K) (pb : Pb K B) (s : State K) :
    Calls K B :=
  iniLog (preInit o s) ++
    match ini (preInit o s) with
    | .error _ => []
    | .ok (t, s) =>
      if t ≠ .success then termLog t
      else
        loopLog o pb (o.maxIter - s.it) s ⟨0, .inactive⟩ false ++
          match loop o pb (o.maxIter - s.it) s ⟨0, .inactive⟩ false with
          | .error _ => []
          | .ok (t, _) => termLog t

/-- The input of the solver, src/GoldfarbIdnaniSolver.cpp:31. -/
def inputLog (pb : Pb K B) : List (Word × LVal (K ⊕ B)) :=
  [(['G'], lmat pb.n pb.n pb.G), (['a'], lvec pb.n pb.a), (['C'], lmat pb.n pb.m pb.C), (['b', 'l'], lbnd pb.m pb.bl),
    (['b', 'u'], lbnd pb.m pb.bu), (['x', 'l'], lbnd pb.nb pb.xl), (['x', 'u'], lbnd pb.nb pb.xu)]

/-- Logs of `GoldfarbIdnaniSolver::solve`, src/GoldfarbIdnaniSolver.cpp:18-54. -/
def solveLog (o : Opts K) (pb : Pb K B) (s : State K) : Calls K B :=
  [.startIter (-1), .log (LogFlags.input.bits ||| LogFlags.noIter.bits) (inputLog pb)] ++
    dualSolveLog (initLog o pb) (init_ o pb) o pb (resize s pb.n pb.m pb.useBnd)

/-- Logs of the `init_` of the box solver, src/experimental/BoxAndSingleConstraintSolver.cpp:91. -/
def boxInitLog (o : Opts K) (pb : Pb K B) (s : State K) : Calls K B :=
  match boxInit o pb s with
  | .error _ => []
  | .ok (_, s) =>
    [.log LogFlags.activeSetDetails.bits
      [(['x'], lvec s.nbVar s.x), (['u'], lvec s.nbVar s.u), (['J'], lmat s.nbVar s.nbVar s.J), (['R'], lmat s.nbVar s.nbVar s.R)]]

/-- Logs of `BoxAndSingleConstraintSolver::solve`, src/experimental/BoxAndSingleConstraintSolver.cpp:11-44. The test
`z.norm() > 1e-14` and the other steps are those of the base solver: see `boxSolve`. -/
def boxSolveLog (o : Opts K) (n : Nat) (x0 c : Nat → K) (bl inf : B) (xl xu : Nat → B) (s : State K) : Calls K B :=
  let pb := boxPb n x0 c bl inf xl xu
  [.startIter (-1), .log (LogFlags.input.bits ||| LogFlags.noIter.bits)
    [(['x', '0'], lvec n x0), (['c'], lvec n c), (['b', 'l'], .num (.inr bl)), (['x', 'l'], lbnd n xl), (['x', 'u'], lbnd n xu)]] ++
    dualSolveLog (boxInitLog o pb) (boxInit o pb) o pb (resize s n 1 (decide (0 < n)))

end Log
end JrlQp
