import Verif.Solver
import Verif.Internal

/-!
# The experimental (warm-started) Goldfarb-Idnani solver

Model of `src/experimental/GoldfarbIdnaniSolver.cpp` and `include/jrl-qp/experimental/GoldfarbIdnaniSolver.h`, generic in
the scalar type. `selectViolatedConstraint_`, `computeStep_`, `computeStepLength_`, `addConstraint_`, `removeConstraint_`
and `dot_` (lines 113-289) are the same text as in the base solver, up to the commented test of `computeStepLength_`; the
definitions of `Verif.Solver` are reused for them.
-/

namespace JrlQp

open NumOps

/-- Data members of `experimental::GoldfarbIdnaniSolver` (include/jrl-qp/experimental/GoldfarbIdnaniSolver.h:58-82): those
of the base solver, the warm-start vector `pb_.as` and the buffer `work_bact_`. Of the scratch buffers `work_tmp_` and
`work_hCoeffs_`, always written before being read, only the sizes are modelled. -/
structure XState (K : Type) where
  s : State K
  as : List Status
  bact : Nat → K
  szB : Nat
  szT : Nat
  szH : Nat

variable {K B : Type} [Zero K] [One K] [Add K] [Sub K] [Neg K] [Mul K] [Div K] [NumOps K B] [SumOps K]

/-! ## The initial active set -/

/-- Status given to bound `i` by the first loop of `processInitialActiveSet`,
src/experimental/GoldfarbIdnaniSolver.cpp:315-341; `inactive` when it is not activated. A warm-start status of the wrong
kind violates the assert of line 325 (without asserts, the code goes on and reads outside of `C`). -/
def initBnd (o : Opts K) (pb : Pb K B) (as : List Status) (nbCstr i : Nat) : Except Fault Status :=
  let s := as.getD (nbCstr + i) .inactive
  if bEq K (pb.xl i) (pb.xu i) then .ok .fixed
  else if as ≠ [] ∧ o.warmStart = true ∧ s ≠ .inactive then
    if s.isBound then
      if s = .fixed then .ok .inactive
      else if (s = .lowerBound ∧ bLt K (pb.xl i) (ofK (-o.bigBnd)) = true)
          ∨ (s = .upperBound ∧ bLt K (ofK o.bigBnd) (pb.xu i) = true) then .ok .inactive
      else .ok s
    else .error .assertFailed
  else .ok .inactive

/-- Status given to the general constraint `i` by the second loop of `processInitialActiveSet`,
src/experimental/GoldfarbIdnaniSolver.cpp:342-366. The test of line 352 is on `FIXED`, as in the code: it never holds after
the assert of line 351. -/
def initGen (o : Opts K) (pb : Pb K B) (as : List Status) (i : Nat) : Except Fault Status :=
  let s := as.getD i .inactive
  if bEq K (pb.bl i) (pb.bu i) then .ok .equality
  else if as ≠ [] ∧ o.warmStart = true ∧ s ≠ .inactive then
    if s.isGeneral then
      if s = .fixed then .ok .inactive
      else if (s = .lower ∧ bLt K (pb.bl i) (ofK (-o.bigBnd)) = true)
          ∨ (s = .upper ∧ bLt K (ofK o.bigBnd) (pb.bu i) = true) then .ok .inactive
      else .ok s
    else .error .assertFailed
  else .ok .inactive

/-- The two loops, src/experimental/GoldfarbIdnaniSolver.cpp:315-366: activate each constraint `st` gives a status to, in
the order of the list. -/
def activateBy (st : Nat → Except Fault Status) : List Nat → ActiveSet → Except Fault ActiveSet
  | [], A => .ok A
  | i :: l, A =>
    match st i with
    | .error e => .error e
    | .ok .inactive => activateBy st l A
    | .ok s => if A.activatePre i s then activateBy st l (A.activate i s) else .error .assertFailed

/-- Lambda `isEqualityOrFixed`, src/experimental/GoldfarbIdnaniSolver.cpp:374-378. -/
def isEqPos (A : ActiveSet) (k : Nat) : Bool := (A.statusAt (A.get k)).isEq

/-- The backward loop, src/experimental/GoldfarbIdnaniSolver.cpp:380-386; `i` is the value of the variable `i` before
`--i`. Reading position -1 is a fault. -/
def trim (n : Nat) : Nat → ActiveSet → Except Fault ActiveSet
  | 0, A => if A.q ≤ n then .ok A else .error .outOfBounds
  | i + 1, A =>
    if A.q ≤ n then .ok A
    else if isEqPos A i then trim n i A
    else trim n i (A.deactivate i)

/-- `processInitialActiveSet`, src/experimental/GoldfarbIdnaniSolver.cpp:306-390. -/
def processInitial (o : Opts K) (pb : Pb K B) (n : Nat) (as : List Status) (A0 : ActiveSet) : Except Fault (Term × ActiveSet) :=
  let A := A0.reset
  match activateBy (fun p => initBnd o pb as A.nbCstr (p - A.nbCstr)) ((List.range A.nbBnd).map (A.nbCstr + ·)) A with
  | .error e => .error e
  | .ok A =>
    match activateBy (initGen o pb as) (List.range A.nbCstr) A with
    | .error e => .error e
    | .ok A =>
      if n < A.q then
        if (n : Int) < A.me + A.mbe then .ok (.overconstrainedProblem, A)
        else
          match trim n A.q A with
          | .error e => .error e
          | .ok A => .ok (.success, A)
      else .ok (.success, A)

/-! ## Factorisation of the initial active set -/

/-- Column of `N` for an active constraint, src/experimental/GoldfarbIdnaniSolver.cpp:399-427. -/
def initNormal (pb : Pb K B) (nbCstr : Nat) (sc : SC) : Nat → K :=
  match sc.status with
  | .lower | .equality => fun a => pb.C a sc.p
  | .upper => fun a => -pb.C a sc.p
  | .lowerBound | .fixed => fun a => if a = sc.p - nbCstr then 1 else 0
  | .upperBound => fun a => if a = sc.p - nbCstr then -1 else 0
  | .inactive => fun _ => 0

/-- Entry of `b_act` for an active constraint, src/experimental/GoldfarbIdnaniSolver.cpp:399-427. -/
def initRhs (pb : Pb K B) (nbCstr : Nat) (sc : SC) : K :=
  match sc.status with
  | .lower | .equality => toK (pb.bl sc.p)
  | .upper => -toK (pb.bu sc.p)
  | .lowerBound | .fixed => toK (pb.xl (sc.p - nbCstr))
  | .upperBound => -toK (pb.xu (sc.p - nbCstr))
  | .inactive => 0

/-- The `k`-th active constraint with its status. -/
def actSC (A : ActiveSet) (k : Nat) : SC := ⟨A.get k, A.statusAt (A.get k)⟩

/-- Eigen's `makeHouseholder` on a vector of size `len`: essential part, `tau`, `beta`. Called by
`householder_qr_inplace_blocked`, src/experimental/GoldfarbIdnaniSolver.cpp:448. The test `tailSqNorm <= DBL_MIN` is
simplified to `tailSqNorm <= 0`. -/
structure House (K : Type) where
  ess : Nat → K
  tau : K
  beta : K

/-- See `House`. -/
def mkHouse (len : Nat) (v : Nat → K) : House K :=
  let t2 := esum (.house len) (fun i => v (i + 1) * v (i + 1)) (len - 1)
  if leb t2 0 then ⟨fun _ => 0, 0, v 0⟩
  else
    let b := sqrt (v 0 * v 0 + t2)
    let beta := if leb 0 (v 0) then -b else b
    ⟨fun i => v (i + 1) / (v 0 - beta), (beta - v 0) / beta, beta⟩

/-- One step of the in-place QR factorisation of the `n x q` matrix `M` (Eigen's `householder_qr_inplace_unblocked`; the
blocked version computes the same factors up to rounding), src/experimental/GoldfarbIdnaniSolver.cpp:448. -/
def qrStep (n q : Nat) (M : Nat → Nat → K) (tau : Nat → K) (k : Nat) : (Nat → Nat → K) × (Nat → K) :=
  let h := mkHouse (n - k) (fun i => M (k + i) k)
  (fun i j =>
    if i < n ∧ k ≤ i then
      if j = k then if i = k then h.beta else h.ess (i - k - 1)
      else if k < j ∧ j < q then applyHouse (n - k) h.ess h.tau (fun i => M (k + i) j) (i - k)
      else M i j
    else M i j, upd tau k h.tau)

/-- The first `k` steps. -/
def qr (n q : Nat) (M : Nat → Nat → K) : Nat → (Nat → Nat → K) × (Nat → K)
  | 0 => (M, fun _ => 0)
  | k + 1 => qrStep n q (qr n q M k).1 (qr n q M k).2 k

/-- `Q.applyThisOnTheRight(J)`, src/experimental/GoldfarbIdnaniSolver.cpp:451-452, first `k` reflectors; reflector `j` has
its essential part below the diagonal of column `j` of `M`. -/
def applyQ (n : Nat) (M : Nat → Nat → K) (tau : Nat → K) (J : Nat → Nat → K) : Nat → Nat → Nat → K
  | 0 => J
  | k + 1 => fun r c =>
    if r < n ∧ k ≤ c ∧ c < n then
      applyHouse (n - k) (fun i => M (k + 1 + i) k) (tau k) (fun i => applyQ n M tau J k r (k + i)) (c - k)
    else applyQ n M tau J k r c

/-- `initializeComputationData`, src/experimental/GoldfarbIdnaniSolver.cpp:392-460; `s.G` holds the Cholesky factor. -/
def initData (o : Opts K) (pb : Pb K B) (xs : XState K) : XState K :=
  let s := xs.s
  let n := s.nbVar
  let q := s.A.q
  let N : Nat → Nat → K := fun i k => fwdSub s.G (initNormal pb s.A.nbCstr (actSC s.A k)) n i
  let F := qr n q N q
  let J := applyQ n F.1 F.2 (invLt n s.G) q
  { xs with
    s := { s with
      J := fun i j => if i < n ∧ j < n then J i j else s.J i j
      R := fun i j => if i < n ∧ j < q then (if o.dbg && decide (j < i) then 0 else F.1 i j) else s.R i j }
    bact := wr q (fun k => initRhs pb s.A.nbCstr (actSC s.A k)) xs.bact }

/-- Ranges needed by `initializeComputationData`: views of the workspaces, columns of `C`, entries of the bounds. -/
def initDataOk (pb : Pb K B) (xs : XState K) : Bool :=
  decide (xs.s.A.q ≤ xs.s.nbVar) && decide (xs.s.nbVar ≤ pb.n) && decide (xs.s.nbVar * xs.s.A.q ≤ xs.s.szRm)
    && decide (xs.s.nbVar * xs.s.nbVar ≤ xs.s.szJ) && decide (xs.s.A.q ≤ xs.szB) && decide (xs.s.A.q ≤ xs.szH)
    && decide (xs.s.nbVar ≤ xs.szT) && (List.range xs.s.A.q).all (fun k => scOk pb (actSC xs.s.A k))

/-! ## Initial points -/

/-- `initializePrimalDualPoints`, src/experimental/GoldfarbIdnaniSolver.cpp:462-486. -/
def initPoints (pb : Pb K B) (xs : XState K) : XState K :=
  let s := xs.s
  let n := s.nbVar
  let q := s.A.q
  let alpha : Nat → K := fun j => esum (.init 0 j) (fun a => s.J a j * pb.a a) n
  let beta := fwdSub (fun i j => s.R j i) xs.bact q
  let u := backSub s.R q (fun k => alpha k + beta k)
  { xs with s := { s with
      r := wr q beta s.r
      x := wr n (fun i => esum (.init 1 i) (fun k => s.J i k * beta k) q - esum (.init 2 i) (fun k => s.J i (q + k) * alpha (q + k)) (n - q)) s.x
      u := wr q u s.u
      f := esum (.init 3 0) (fun k => beta k * (half * beta k + alpha k)) q
        - half * esum (.init 4 0) (fun k => alpha (q + k) * alpha (q + k)) (n - q) } }

/-- Ranges needed by `initializePrimalDualPoints`. -/
def initPointsOk (pb : Pb K B) (xs : XState K) : Bool :=
  decide (xs.s.A.q ≤ xs.s.nbVar) && decide (xs.s.nbVar ≤ pb.n) && decide (xs.s.nbVar * xs.s.A.q ≤ xs.s.szRm)
    && decide (xs.s.nbVar * xs.s.nbVar ≤ xs.s.szJ) && decide (xs.s.A.q ≤ xs.szB) && decide (xs.s.nbVar ≤ xs.szT)
    && decide (xs.s.A.q ≤ xs.s.szR) && decide (xs.s.nbVar ≤ xs.s.szX) && decide (xs.s.A.q ≤ xs.s.szU)

/-! ## Removal of the constraints with a negative multiplier -/

/-- Search of the most negative multiplier, src/experimental/GoldfarbIdnaniSolver.cpp:88-99; `-1e-14` is `-o.tiny`, the
position is `none` for -1. -/
def minMult (A : ActiveSet) (u : Nat → K) (acc : K × Option Nat) (l : Nat) : K × Option Nat :=
  if ltb (u l) acc.1 = true ∧ A.statusAt (A.get l) ≠ .fixed ∧ A.statusAt (A.get l) ≠ .equality then (u l, some l) else acc

/-- One removal, src/experimental/GoldfarbIdnaniSolver.cpp:102-107 (`deactivate` then `removeConstraint_`, without the
recomputation of the points). -/
def dropAt (o : Opts K) (xs : XState K) (l : Nat) : XState K :=
  let s := xs.s
  let q := s.A.q
  let A := s.A.deactivate l
  let RJ := remRots o.dbg s.nbVar A.q l s.R s.J (A.q - l)
  { xs with
    s := { s with it := s.it + 1, u := if o.dbg then upd s.u (q - 1) 0 else s.u, A := A, R := RJ.1, J := RJ.2 }
    bact := fun j => if l ≤ j ∧ j < q - 1 then xs.bact (j + 1) else xs.bact j }

/-- Ranges needed by one removal. -/
def dropOk (xs : XState K) (l : Nat) : Bool :=
  xs.s.A.deactivatePre l && decide (l < xs.s.A.q) && decide (xs.s.A.q ≤ xs.szB) && decide (xs.s.A.q ≤ xs.s.szU)
    && decide (xs.s.A.q ≤ xs.s.nbVar) && decide (xs.s.nbVar * xs.s.nbVar ≤ xs.s.szJ)
    && decide (xs.s.nbVar * xs.s.A.q ≤ xs.s.szRm)

/-- Position of the constraint to drop. -/
def dropPos (o : Opts K) (xs : XState K) : Option Nat :=
  ((List.range xs.s.A.q).foldl (minMult xs.s.A xs.s.u) (-o.tiny, none)).2

/-- The loop `while(true)` of `init_`, src/experimental/GoldfarbIdnaniSolver.cpp:82-109. The first argument bounds the
number of removals; running out of it is the fault `diverges`, proved not to happen. -/
def dropLoop (o : Opts K) (pb : Pb K B) : Nat → XState K → Except Fault (XState K)
  | 0, xs => if (dropPos o xs).isNone then .ok xs else .error .diverges
  | fuel + 1, xs =>
    match dropPos o xs with
    | none => .ok xs
    | some l =>
      if dropOk xs l then
        let xs := dropAt o xs l
        if initPointsOk pb xs then dropLoop o pb fuel (initPoints pb xs) else .error .outOfBounds
      else .error .outOfBounds

/-- `init_`, src/experimental/GoldfarbIdnaniSolver.cpp:66-111. -/
def xinit (o : Opts K) (pb : Pb K B) (xs : XState K) : Except Fault (Term × XState K) :=
  let s := xs.s
  let s := { s with R := if o.dbg then fun _ _ => 0 else s.R }
  if decide (s.nbVar ≤ pb.n) && decide (s.A.nbCstr ≤ pb.m) && decide (s.A.nbBnd ≤ pb.nb)
      && decide (s.A.status.length = s.A.nbCstr + s.A.nbBnd) && (!o.warmStart || xs.as.isEmpty || decide (xs.as.length = s.A.nbAll)) then
    match processInitial o pb s.nbVar xs.as s.A with
    | .error e => .error e
    | .ok (t, A) =>
      let s := { s with A := A }
      if t ≠ .success then .ok (t, { xs with s := s })
      else
        let c := chol s.nbVar pb.G s.nbVar
        let s := { s with G := c.1 }
        if c.2.isSome then .ok (.nonPosHessian, { xs with s := s })
        else
          let xs := { xs with s := s }
          if initDataOk pb xs then
            let xs := initData o pb xs
            if initPointsOk pb xs then
              match dropLoop o pb xs.s.A.q (initPoints pb xs) with
              | .error e => .error e
              | .ok xs => .ok (.success, xs)
            else .error .outOfBounds
          else .error .outOfBounds
  else .error .outOfBounds

/-- `DualSolver::solve`, src/DualSolver.cpp:91-168, with the virtual functions of the experimental solver. -/
def xdualSolve (o : Opts K) (pb : Pb K B) (xs : XState K) : Except Fault (Term × XState K) :=
  match xinit o pb { xs with s := preInit o xs.s } with
  | .error e => .error e
  | .ok (t, xs) =>
    if t ≠ .success then
      match terminate o t xs.s with
      | .error e => .error e
      | .ok (t, s) => .ok (t, { xs with s := s })
    else
      match loop o pb (o.maxIter - xs.s.it) xs.s ⟨0, .inactive⟩ false with
      | .error e => .error e
      | .ok (t, s) =>
        match terminate o t s with
        | .error e => .error e
        | .ok (t, s) => .ok (t, { xs with s := s })

/-- `resize_`, src/experimental/GoldfarbIdnaniSolver.cpp:291-304, and `DualSolver::resize`, src/DualSolver.cpp:18-24. -/
def xresize (xs : XState K) (nbVar nbCstr : Nat) (useBounds : Bool) : XState K :=
  let xs' := if nbVar ≠ xs.s.nbVar then
      { xs with szT := wsResize xs.szT nbVar, szH := wsResize xs.szH nbVar, szB := wsResize xs.szB nbVar } else xs
  { xs' with s := resize xs.s nbVar nbCstr useBounds }

/-- `experimental::GoldfarbIdnaniSolver::solve`, src/experimental/GoldfarbIdnaniSolver.cpp:20-64. The last two asserts on
the input are checked. -/
def xsolve (o : Opts K) (pb : Pb K B) (as : List Status) (xs : XState K) : Except Fault (Term × XState K) :=
  if (as.length = pb.m + pb.nb ∨ as = []) ∧ (o.warmStart = true ∨ as = []) then
    let xs := xresize xs pb.n pb.m pb.useBnd
    let xs := if o.warmStart then { xs with as := if as = [] then xs.s.A.status else as } else xs
    xdualSolve o pb xs
  else .error .assertFailed

/-- A default constructed solver, src/experimental/GoldfarbIdnaniSolver.cpp:13. -/
def XState.empty : XState K := ⟨State.empty, [], fun _ => 0, 0, 0, 0⟩

end JrlQp
