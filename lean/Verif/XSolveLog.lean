import Verif.SolveLog
import Verif.Experimental

/-!
# What a solve of the experimental (warm-started) solver logs

The calls to the logger made by `experimental::GoldfarbIdnaniSolver::solve`, in order. The conventions are those of
`Verif.SolveLog`.
-/

namespace JrlQp
namespace Log

open NumOps

variable {K B : Type} [Zero K] [One K] [Add K] [Sub K] [Neg K] [Mul K] [Div K] [NumOps K B] [SumOps K]

/-- Comment of the first loop of `processInitialActiveSet` for the bound `i`,
src/experimental/GoldfarbIdnaniSolver.cpp:315-341 (comments of lines 328 and 335). -/
def bndNote (o : Opts K) (pb : Pb K B) (as : List Status) (nbCstr i : Nat) : Calls K B :=
  let s := as.getD (nbCstr + i) .inactive
  if bEq K (pb.xl i) (pb.xu i) then []
  else if as ≠ [] ∧ o.warmStart = true ∧ s ≠ .inactive then
    if s = .fixed then
      [.comment LogFlags.activeSet.bits ("Ignoring activation status for bound ".toList ++ dec i ++ " (bounds not equal)".toList)]
    else if (s = .lowerBound ∧ bLt K (pb.xl i) (ofK (-o.bigBnd)) = true)
        ∨ (s = .upperBound ∧ bLt K (ofK o.bigBnd) (pb.xu i) = true) then
      [.comment LogFlags.activeSet.bits ("Ignoring activation status for bound ".toList ++ dec i ++ " (infinite bound)".toList)]
    else []
  else []

/-- Comment of the second loop of `processInitialActiveSet` for the general constraint `i`,
src/experimental/GoldfarbIdnaniSolver.cpp:342-366 (comments of lines 354 and 360). -/
def genNote (o : Opts K) (pb : Pb K B) (as : List Status) (i : Nat) : Calls K B :=
  let s := as.getD i .inactive
  if bEq K (pb.bl i) (pb.bu i) then []
  else if as ≠ [] ∧ o.warmStart = true ∧ s ≠ .inactive then
    if s = .fixed then
      [.comment LogFlags.activeSet.bits ("Ignoring activation status for constraint ".toList ++ dec i)]
    else if (s = .lower ∧ bLt K (pb.bl i) (ofK (-o.bigBnd)) = true)
        ∨ (s = .upper ∧ bLt K (ofK o.bigBnd) (pb.bu i) = true) then
      [.comment LogFlags.activeSet.bits ("Ignoring activation status for constraint ".toList ++ dec i ++ " (infinite bound)".toList)]
    else []
  else []

/-- Logs of `processInitialActiveSet`, src/experimental/GoldfarbIdnaniSolver.cpp:306-390. -/
def processLog (o : Opts K) (pb : Pb K B) (as : List Status) (A : ActiveSet) : Calls K B :=
  (List.range A.nbBnd).flatMap (bndNote o pb as A.nbCstr) ++ (List.range A.nbCstr).flatMap (genNote o pb as)

/-- Flags of the logs of the initialisation. -/
def initFlags : BitVec 32 := LogFlags.init.bits ||| LogFlags.noIter.bits

/-- Log of `initializeComputationData`, src/experimental/GoldfarbIdnaniSolver.cpp:457; `xs` is the state after the
computation. `N` is the view of the buffer of `R` with `nbVar` rows. -/
def dataLog (xs : XState K) : Calls K B :=
  [.log initFlags [(['N'], lmat xs.s.nbVar xs.s.A.q xs.s.R), (['J'], lmat xs.s.nbVar xs.s.nbVar xs.s.J),
    ("b_act".toList, lvec xs.s.A.q xs.bact)]]

/-- Log of `initializePrimalDualPoints`, src/experimental/GoldfarbIdnaniSolver.cpp:483; `xs` is the state before the
computation. -/
def pointsLog (pb : Pb K B) (xs : XState K) : Calls K B :=
  let n := xs.s.nbVar
  let q := xs.s.A.q
  let ys := initPoints pb xs
  [.log initFlags [("alpha".toList, lvec n fun j => esum (.init 0 j) (fun a => xs.s.J a j * pb.a a) n), ("beta".toList, lvec q ys.s.r),
    (['x'], lvec n ys.s.x), (['u'], lvec q ys.s.u), (['f', '_'], .num (.inl ys.s.f))]]

/-- Logs of the loop of `init_`, src/experimental/GoldfarbIdnaniSolver.cpp:82-109. -/
def dropLog (o : Opts K) (pb : Pb K B) : Nat → XState K → Calls K B
  | 0, _ => []
  | fuel + 1, xs =>
    match dropPos o xs with
    | none => []
    | some l => pointsLog pb (dropAt o xs l) ++ dropLog o pb fuel (initPoints pb (dropAt o xs l))

/-- Logs of `init_`, src/experimental/GoldfarbIdnaniSolver.cpp:66-111. -/
def xinitLog (o : Opts K) (pb : Pb K B) (xs : XState K) : Calls K B :=
  let s := xs.s
  let s := { s with R := if o.dbg then fun _ _ => 0 else s.R }
  processLog o pb xs.as s.A ++
    match processInitial o pb s.nbVar xs.as s.A with
    | .error _ => []
    | .ok (t, A) =>
      let s := { s with A := A }
      if t ≠ .success then []
      else
        let c := chol s.nbVar pb.G s.nbVar
        let s := { s with G := c.1 }
        if c.2.isSome then []
        else
          let xs := initData o pb { xs with s := s }
          dataLog xs ++ pointsLog pb xs ++ dropLog o pb xs.s.A.q (initPoints pb xs)

/-- Logs of `DualSolver::solve`, src/DualSolver.cpp:91-168, with the virtual functions of the experimental solver. -/
def xdualSolveLog (o : Opts K) (pb : Pb K B) (xs : XState K) : Calls K B :=
  xinitLog o pb { xs with s := preInit o xs.s } ++
    match xinit o pb { xs with s := preInit o xs.s } with
    | .error _ => []
    | .ok (t, xs) =>
      if t ≠ .success then termLog t
      else
        loopLog o pb (o.maxIter - xs.s.it) xs.s ⟨0, .inactive⟩ false ++
          match loop o pb (o.maxIter - xs.s.it) xs.s ⟨0, .inactive⟩ false with
          | .error _ => []
          | .ok (t, _) => termLog t

/-- Logs of `experimental::GoldfarbIdnaniSolver::solve`, src/experimental/GoldfarbIdnaniSolver.cpp:20-64. -/
def xsolveLog (o : Opts K) (pb : Pb K B) (as : List Status) (xs : XState K) : Calls K B :=
  [.startIter (-1), .log (LogFlags.input.bits ||| LogFlags.noIter.bits)
      (inputLog pb ++ [(['a', 's'], .vec (as.map fun s => (s.toNat : Int)))])] ++
    let xs := xresize xs pb.n pb.m pb.useBnd
    let xs := if o.warmStart then { xs with as := if as = [] then xs.s.A.status else as } else xs
    xdualSolveLog o pb xs

end Log
end JrlQp
