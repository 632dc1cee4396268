import Verif.Structured
import Verif.XSolveLog

/-!
# What a solve of the structured solver logs

The text written by `BlockGISolver::solve`. The conventions are those of `Verif.SolveLog`.
-/

namespace JrlQp
namespace Log

open NumOps

variable {K B : Type} [Zero K] [One K] [Add K] [Sub K] [Neg K] [Mul K] [Div K] [NumOps K B] [SumOps K]

/-- Logs of step 2 of an iteration, src/DualSolver.cpp:124-165; `BlockGISolver::computeStep_`
(src/experimental/BlockGISolver.cpp:170-178) logs nothing. -/
def bbodyLog (o : Opts K) (pb : BPb K B) (bs : BState K) (sc : SC) : Calls K B :=
  match bComputeStep pb bs sc with
  | none => []
  | some bs =>
    let sl := bComputeStepLength o pb bs.s sc
    let t := stdMin sl.t1 sl.t2
    [.comment LogFlags.iterationBasicDetails.bits "Step computation".toList,
      .log LogFlags.iterationBasicDetails.bits
        [(['z'], lvec bs.s.nbVar bs.s.z), (['r'], lvec bs.s.A.q bs.s.r), (['t'], .num (.inl t))]] ++
    if leb o.bigBnd t then []
    else [.log LogFlags.activeSet.bits [("Activate".toList, .bool (!leb o.bigBnd sl.t2 && eqb t sl.t2)), (['l'], .int sl.l)]]

/-- Logs of an iteration, src/DualSolver.cpp:105-165 (see `iterLog`). -/
def biterLog (o : Opts K) (pb : BPb K B) (bs : BState K) (sc : SC) (skip : Bool) : Calls K B :=
  [.startIter bs.s.it,
    .log LogFlags.activeSetDetails.bits [(['A', '_'], .active ((List.range bs.s.A.q).map fun k => (bs.s.A.get k : Int)))],
    .log LogFlags.iterationBasicDetails.bits
      [(['x'], lvec bs.s.nbVar bs.s.x), (['u'], lvec (if skip then bs.s.A.q + 1 else bs.s.A.q) bs.s.u), (['f', '_'], .num (.inl bs.s.f))]] ++
    if skip then bbodyLog o pb bs sc
    else
      let c := bselect pb bs.s.A bs.s.x bs.cx
      if c.1.status = .inactive then []
      else .log LogFlags.activeSet.bits [(['s', 'c'], .sel c.1.p (c.1.status.toNat))] ::
        bbodyLog o pb { bs with cx := c.2, s := { bs.s with u := upd bs.s.u bs.s.A.q 0 } } c.1

/-- Logs of the main loop, src/DualSolver.cpp:103-167. -/
def bloopLog (o : Opts K) (pb : BPb K B) : Nat → BState K → SC → Bool → Calls K B
  | 0, _, _, _ => []
  | fuel + 1, bs, sc, skip =>
    biterLog o pb bs sc skip ++
      match biterate o pb bs sc skip with
      | .ok (.cont bs sc skip) => bloopLog o pb fuel { bs with s := { bs.s with it := bs.s.it + 1 } } sc skip
      | _ => []

/-- Logs of `DualSolver::solve`, src/DualSolver.cpp:91-168, with the virtual functions of `BlockGISolver`. `init_` logs the
comments of `processInitialActiveSet` only (src/experimental/BlockGISolver.cpp:298-352; the logs of lines 443 and 472 are
commented out). -/
def bdualSolveLog (o : Opts K) (pb : BPb K B) (bs : BState K) : Calls K B :=
  processLog o pb.sides bs.as bs.s.A ++
    match bInit o pb { bs with s := preInit o bs.s } with
    | .error _ => []
    | .ok (t, bs) =>
      if t ≠ .success then termLog t
      else
        bloopLog o pb (o.maxIter - bs.s.it) bs ⟨0, .inactive⟩ false ++
          match bloop o pb (o.maxIter - bs.s.it) bs ⟨0, .inactive⟩ false with
          | .error _ => []
          | .ok (t, _) => termLog t

/-- Logs of `BlockGISolver::solve` after the log of its input, src/experimental/BlockGISolver.cpp:33-61. -/
def bsolveLog (o : Opts K) (pb : BPb K B) (as : List Status) (fresh : Nat → K) (bs : BState K) : Calls K B :=
  if pb.C.nbVar = pb.n ∧ (as.length = pb.m + pb.nb ∨ as = []) ∧ (o.warmStart = true ∨ as = []) then
    let bs := bresize { bs with g := pb.G } pb.n pb.m pb.useBnd fresh
    let bs := if o.warmStart then { bs with as := if as = [] then bs.s.A.status else as } else bs
    bdualSolveLog o pb bs
  else []

/-- `logVal_` (include/jrl-qp/utils/Logger.h:160-164) of a value for which `operator<<` writes nothing: `StructuredG`
(include/jrl-qp/structured/StructuredG.h:62-66) and `StructuredC` (include/jrl-qp/structured/StructuredC.h:39-43). -/
def logBlank (g : Logger) (b : Bool) (name : Word) : Word := logIter g b ++ '.' :: name ++ [' ', '=', ' '] ++ [';', '\n']

/-- The log of the input, src/experimental/BlockGISolver.cpp:31. -/
def blockInputText (shw : K ⊕ B → Word) (g : Logger) (pb : BPb K B) (as : List Status) : Word :=
  if (LogFlags.input.bits ||| LogFlags.noIter.bits) &&& g.flags ≠ 0 then
    logBlank g false ['G'] ++ logVal shw g false ['a'] (lvec pb.n pb.a) ++ logBlank g false ['C'] ++
      ([(['b', 'l'], lbnd pb.m pb.bl), (['b', 'u'], lbnd pb.m pb.bu), (['x', 'l'], lbnd pb.nb pb.xl), (['x', 'u'], lbnd pb.nb pb.xu),
        (['a', 's'], .vec (as.map fun s => (s.toNat : Int)))].flatMap fun v => logVal shw g false v.1 v.2)
  else []

/-- The text logged by `BlockGISolver::solve`, src/experimental/BlockGISolver.cpp:18-61. -/
def blockText (shw : K ⊕ B → Word) (g : Logger) (o : Opts K) (pb : BPb K B) (as : List Status) (fresh : Nat → K) (bs : BState K) : Word :=
  let w := write shw g (.startIter (-1))
  w.2 ++ blockInputText shw w.1 pb as ++ script shw w.1 (bsolveLog o pb as fresh bs)

end Log
end JrlQp
