import Verif.ActiveSet
import Verif.Eigen

/-!
# The dual active-set solver

Model of `src/DualSolver.cpp` and `src/GoldfarbIdnaniSolver.cpp`, generic in the scalar type.
The functions `select`, `computeStep`, `computeStepLength`, `addConstraint_`, `removeConstraint_` are textually
duplicated in `src/experimental/GoldfarbIdnaniSolver.cpp`; the experimental model reuses these definitions.

Accesses outside of the allocated workspaces, of the user's data, or reaching `__builtin_unreachable()` produce an
explicit `Fault`. Logging is not part of this model.
-/

namespace JrlQp

open NumOps

/-- Undefined behaviours the model distinguishes. -/
inductive Fault
  | outOfBounds
  | unreachable
  | assertFailed
  | diverges
  deriving DecidableEq, Repr

/-- The problem `min ½ xᵀGx + aᵀx  s.t.  bl ≤ Cᵀx ≤ bu, xl ≤ x ≤ xu`: arguments of
`GoldfarbIdnaniSolver::solve`, src/GoldfarbIdnaniSolver.cpp:18-28. Constraints are the columns of `C`;
`useBnd` is `xl.size() > 0`. -/
structure Pb (K B : Type) where
  n : Nat
  m : Nat
  useBnd : Bool
  G : Nat → Nat → K
  a : Nat → K
  C : Nat → Nat → K
  bl : Nat → B
  bu : Nat → B
  xl : Nat → B
  xu : Nat → B

/-- Number of bounds: src/DualSolver.cpp:259. -/
def Pb.nb {K B : Type} (pb : Pb K B) : Nat := if pb.useBnd then pb.n else 0

/-- `SolverOptions` (include/jrl-qp/SolverOptions.h) fields read by the solver, plus `tiny`, the literal `1e-14` of
src/GoldfarbIdnaniSolver.cpp:174, :309 and `dbg`, the build type (`DEBUG_OUTPUT`, include/jrl-qp/utils/debug.h:79-86).
`maxIter` is a natural number: a negative one behaves as 0. -/
structure Opts (K : Type) where
  maxIter : Nat
  bigBnd : K
  warmStart : Bool
  tiny : K
  dbg : Bool

/-- `SelectedConstraint`, include/jrl-qp/internal/SelectedConstraint.h. The index is irrelevant (−1 in the code) when
the status is `inactive`. -/
structure SC where
  p : Nat
  status : Status
  deriving DecidableEq, Repr, Inhabited

/-- The data members of `DualSolver` (include/jrl-qp/DualSolver.h) and `GoldfarbIdnaniSolver`
(include/jrl-qp/GoldfarbIdnaniSolver.h). Buffers are given by their content and allocated size. `G` is the user's
matrix, overwritten in place. -/
structure State (K : Type) where
  nbVar : Nat
  A : ActiveSet
  x : Nat → K
  z : Nat → K
  u : Nat → K
  r : Nat → K
  d : Nat → K
  J : Nat → Nat → K
  R : Nat → Nat → K
  G : Nat → Nat → K
  f : K
  it : Nat
  needToExpand : Bool
  szX : Nat
  szZ : Nat
  szU : Nat
  szR : Nat
  szD : Nat
  szJ : Nat
  szRm : Nat

/-- `A_.nbActiveCstr()` used as a size (include/jrl-qp/internal/ActiveSet.h:113-116). -/
def ActiveSet.q (A : ActiveSet) : Nat := A.nbActiveCstr.toNat

variable {K B : Type} [Zero K] [One K] [Add K] [Sub K] [Neg K] [Mul K] [Div K] [NumOps K B] [SumOps K]

/-! ## Constraint normals -/

/-- `ConstraintNormal::preMultiplyByMt`, include/jrl-qp/internal/ConstraintNormal.h:81-102: entry `j` of `Mᵀ n`.
`m` is `C.cols()`. -/
def preMult (n m : Nat) (C : Nat → Nat → K) (sc : SC) (M : Nat → Nat → K) (j : Nat) : K :=
  match sc.status with
  | .equality | .lower => esum (.normalMul n j) (fun a => M a j * C a sc.p) n
  | .upper => esum (.normalMul n j) (fun a => -M a j * C a sc.p) n
  | .fixed | .lowerBound => M (sc.p - m) j
  | .upperBound => -M (sc.p - m) j
  | .inactive => 0

/-- `ConstraintNormal::dot`, include/jrl-qp/internal/ConstraintNormal.h:105-123. -/
def normalDot (n m : Nat) (C : Nat → Nat → K) (sc : SC) (v : Nat → K) : K :=
  match sc.status with
  | .equality | .lower => esum (.normalDot n) (fun a => v a * C a sc.p) n
  | .upper => -esum (.normalDot n) (fun a => v a * C a sc.p) n
  | .fixed | .lowerBound => v (sc.p - m)
  | .upperBound => -v (sc.p - m)
  | .inactive => 0

/-- The index/status pair designates an existing constraint of the right kind (assertion of
include/jrl-qp/internal/ConstraintNormal.h:40-41 and range of the accesses to `C` and to the bounds). -/
def scOk (pb : Pb K B) (sc : SC) : Bool :=
  match sc.status with
  | .equality | .lower | .upper => decide (sc.p < pb.m)
  | .fixed | .lowerBound | .upperBound => decide (pb.m ≤ sc.p) && decide (sc.p - pb.m < pb.nb)
  | .inactive => false

/-! ## Step 1: selection of a violated constraint -/

/-- Accumulator of `selectViolatedConstraint_`. -/
structure Sel (B : Type) where
  smin : B
  sc : SC

/-- `pb_.C.col(i).dot(x)`. -/
def colDot (pb : Pb K B) (n i : Nat) (x : Nat → K) : K := esum (.slack n i) (fun a => pb.C a i * x a) n

/-- Body of the loop over general constraints, src/GoldfarbIdnaniSolver.cpp:95-110. -/
def selGen (pb : Pb K B) (n : Nat) (A : ActiveSet) (x : Nat → K) (acc : Sel B) (i : Nat) : Sel B :=
  if A.isActive i then acc
  else
    let cx := colDot pb n i x
    if bLt K (slackLow cx (pb.bl i)) acc.smin then ⟨slackLow cx (pb.bl i), ⟨i, .lower⟩⟩
    else if bLt K (slackUp (pb.bu i) cx) acc.smin then ⟨slackUp (pb.bu i) cx, ⟨i, .upper⟩⟩
    else acc

/-- Body of the loop over bounds, src/GoldfarbIdnaniSolver.cpp:116-130. -/
def selBnd (pb : Pb K B) (A : ActiveSet) (x : Nat → K) (acc : Sel B) (i : Nat) : Sel B :=
  if A.isActiveBnd i then acc
  else if bLt K (slackLow (x i) (pb.xl i)) acc.smin then
    ⟨slackLow (x i) (pb.xl i), ⟨A.nbCstr + i, .lowerBound⟩⟩
  else if bLt K (slackUp (pb.xu i) (x i)) acc.smin then
    ⟨slackUp (pb.xu i) (x i), ⟨A.nbCstr + i, .upperBound⟩⟩
  else acc

/-- `GoldfarbIdnaniSolver::selectViolatedConstraint_`, src/GoldfarbIdnaniSolver.cpp:84-134. -/
def select (pb : Pb K B) (n : Nat) (A : ActiveSet) (x : Nat → K) : SC :=
  let acc0 : Sel B := ⟨bZero K, ⟨0, .inactive⟩⟩
  let acc1 := (List.range A.nbCstr).foldl (selGen pb n A x) acc0
  ((List.range A.nbBnd).foldl (selBnd pb A x) acc1).sc

/-! ## Step 2: direction and length -/

/-- Ranges needed by `computeStep_` (src/GoldfarbIdnaniSolver.cpp:138-146): views of the workspaces, `rightCols`,
`tail` and the constraint's column. -/
def computeStepOk (pb : Pb K B) (s : State K) (sc : SC) : Bool :=
  decide (s.A.q ≤ s.nbVar) && decide (s.nbVar ≤ s.szD) && decide (s.nbVar * s.nbVar ≤ s.szJ)
    && decide (s.nbVar * s.A.q ≤ s.szRm) && decide (s.nbVar ≤ s.szZ) && decide (s.A.q ≤ s.szR)
    && decide (s.nbVar ≤ pb.n) && scOk pb sc

/-- `GoldfarbIdnaniSolver::computeStep_`, src/GoldfarbIdnaniSolver.cpp:136-148:
`d = Jᵀ n⁺`, `z = J₂ d₂`, `r = R⁻¹ d₁`. -/
def computeStep (pb : Pb K B) (s : State K) (sc : SC) : State K :=
  let n := s.nbVar
  let q := s.A.q
  let d := wr n (fun j => preMult n pb.m pb.C sc s.J j) s.d
  let z := wr n (fun i => esum (.primalStep n i) (fun k => s.J i (q + k) * d (q + k)) (n - q)) s.z
  let r := wr q (backSub s.R q d) s.r
  { s with d := d, z := z, r := r }

/-- `StepLength`, include/jrl-qp/DualSolver.h. -/
structure StepLen (K : Type) where
  t1 : K
  t2 : K
  l : Nat

/-- Body of the loop on the active constraints, src/GoldfarbIdnaniSolver.cpp:162-170. Note that the status is read
at index `k` (the *position* in the active set), as in the code. -/
def ratioStep (A : ActiveSet) (u r : Nat → K) (acc : K × Nat) (k : Nat) : K × Nat :=
  if A.statusAt k ≠ .equality ∧ A.statusAt k ≠ .fixed ∧ ltb (0 : K) (r k) = true then
    if ltb (u k / r k) acc.1 then (u k / r k, k) else acc
  else acc

/-- Numerator and denominator of `t2`, src/GoldfarbIdnaniSolver.cpp:178-215. -/
def fullStep (pb : Pb K B) (n : Nat) (x z : Nat → K) (sc : SC) : K :=
  match sc.status with
  | .lower => (toK (pb.bl sc.p) - colDot pb n sc.p x) / colDot pb n sc.p z
  | .upper => (toK (pb.bu sc.p) - colDot pb n sc.p x) / colDot pb n sc.p z
  | .lowerBound => (toK (pb.xl (sc.p - pb.m)) - x (sc.p - pb.m)) / z (sc.p - pb.m)
  | .upperBound => (toK (pb.xu (sc.p - pb.m)) - x (sc.p - pb.m)) / z (sc.p - pb.m)
  | _ => 0

/-- The branch of src/GoldfarbIdnaniSolver.cpp:204-214 (`__builtin_unreachable`) is not taken. -/
def stepLenOk (o : Opts K) (s : State K) (sc : SC) : Bool :=
  !(ltb o.tiny (normn s.nbVar s.z)) || (!sc.status.isEq && decide (sc.status ≠ .inactive))

/-- `GoldfarbIdnaniSolver::computeStepLength_`, src/GoldfarbIdnaniSolver.cpp:150-219. -/
def computeStepLength (o : Opts K) (pb : Pb K B) (s : State K) (sc : SC) : StepLen K :=
  let t1l := (List.range s.A.q).foldl (ratioStep s.A s.u s.r) (o.bigBnd, 0)
  let t2 := if ltb o.tiny (normn s.nbVar s.z) then fullStep pb s.nbVar s.x s.z sc else o.bigBnd
  ⟨t1l.1, t2, t1l.2⟩

/-! ## Active set updates -/

/-- One rotation of `addConstraint_`, src/GoldfarbIdnaniSolver.cpp:228-231. -/
def addRot (dbg : Bool) (n : Nat) (dJ : (Nat → K) × (Nat → Nat → K)) (i : Nat) : (Nat → K) × (Nat → Nat → K) :=
  let g := makeGivens (dJ.1 i) (dJ.1 (i + 1))
  let d := upd dJ.1 i g.r
  (if dbg then upd d (i + 1) 0 else d, rotCols n dJ.2 i g)

/-- The loop `for(int i = n - 2; i >= q - 1; --i)` of src/GoldfarbIdnaniSolver.cpp:226-232, first `k` iterations. -/
def addRots (dbg : Bool) (n : Nat) (d : Nat → K) (J : Nat → Nat → K) : Nat → (Nat → K) × (Nat → Nat → K)
  | 0 => (d, J)
  | k + 1 => addRot dbg n (addRots dbg n d J k) (n - 2 - k)

/-- Ranges needed by `addConstraint` and `addConstraint_`: src/DualSolver.cpp:233 (asserts of `activate`),
src/GoldfarbIdnaniSolver.cpp:223-234 (`q` counts the new constraint). -/
def addOk (s : State K) (sc : SC) : Bool :=
  s.A.activatePre sc.p sc.status && decide (s.A.q + 1 ≤ s.nbVar) && decide (s.nbVar ≤ s.szD)
    && decide (s.nbVar * s.nbVar ≤ s.szJ) && decide (s.nbVar * (s.A.q + 1) ≤ s.szRm)

/-- `DualSolver::addConstraint`, src/DualSolver.cpp:231-235, with
`GoldfarbIdnaniSolver::addConstraint_`, src/GoldfarbIdnaniSolver.cpp:221-237 (which always returns `true`). -/
def addConstraint (o : Opts K) (s : State K) (sc : SC) : State K :=
  let A := s.A.activate sc.p sc.status
  let q := A.q
  let dJ := addRots o.dbg s.nbVar s.d s.J (s.nbVar - q)
  { s with A := A, d := dJ.1, J := dJ.2, R := fun i j => if j = q - 1 ∧ i < q then dJ.1 i else s.R i j }

/-- One iteration of the loop of `removeConstraint_`, src/GoldfarbIdnaniSolver.cpp:247-252; `q` is the number of
active constraints after the removal, `R` is `(q+1) x (q+1)`. -/
def remRot (dbg : Bool) (n q : Nat) (RJ : (Nat → Nat → K) × (Nat → Nat → K)) (i : Nat) :
    (Nat → Nat → K) × (Nat → Nat → K) :=
  let R0 : Nat → Nat → K := fun r c => if c = i ∧ r < i then RJ.1 r (i + 1) else RJ.1 r c
  let g := makeGivens (R0 i (i + 1)) (R0 (i + 1) (i + 1))
  let R1 := upd2 R0 i i g.r
  let R2 := if dbg then upd2 R1 (i + 1) (i + 1) 0 else R1
  (rotRows (i + 2) (q + 1) R2 i g, rotCols n RJ.2 i g)

/-- The loop `for(int i = l; i < q; ++i)`, src/GoldfarbIdnaniSolver.cpp:245-253, first `k` iterations. -/
def remRots (dbg : Bool) (n q l : Nat) (R J : Nat → Nat → K) : Nat → (Nat → Nat → K) × (Nat → Nat → K)
  | 0 => (R, J)
  | k + 1 => remRot dbg n q (remRots dbg n q l R J k) (l + k)

/-- Ranges needed by `removeConstraint(l, u)` (u has size `q + 1`) and `removeConstraint_`. -/
def removeOk (s : State K) (l : Nat) : Bool :=
  decide (l < s.A.q) && s.A.deactivatePre l && decide (s.A.q + 1 ≤ s.szU) && decide (s.nbVar * s.nbVar ≤ s.szJ)
    && decide (s.nbVar * s.A.q ≤ s.szRm) && decide (s.A.q ≤ s.nbVar)

/-- `DualSolver::removeConstraint`, src/DualSolver.cpp:237-244, with
`GoldfarbIdnaniSolver::removeConstraint_`, src/GoldfarbIdnaniSolver.cpp:239-256. -/
def removeConstraint (o : Opts K) (s : State K) (l : Nat) : State K :=
  let q := s.A.q
  let u : Nat → K := fun j => if l ≤ j ∧ j < q then s.u (j + 1) else s.u j
  let u := if o.dbg then upd u q 0 else u
  let A := s.A.deactivate l
  let q' := A.q
  let RJ := remRots o.dbg s.nbVar q' l s.R s.J (q' - l)
  { s with u := u, A := A, R := RJ.1, J := RJ.2 }

/-! ## Main loop -/

/-- `u.head(q) -= t * r; u[q] += t;`, src/DualSolver.cpp:136-137 and 149-150. -/
def dualStep (q : Nat) (t : K) (u r : Nat → K) : Nat → K :=
  fun j => if j < q then u j - t * r j else if j = q then u q + t else u j

/-- `x += t * z; f_ += t * dot(sc, z) * (.5 * t + u[q]);`, src/DualSolver.cpp:146-147. -/
def primalStep (pb : Pb K B) (s : State K) (sc : SC) (t : K) : State K :=
  { s with x := wr s.nbVar (fun i => s.x i + t * s.z i) s.x,
           f := s.f + t * normalDot s.nbVar pb.m pb.C sc s.z * (half * t + s.u s.A.q) }

/-- Update of the multipliers only, src/DualSolver.cpp:136-137. -/
def dualUpdate (s : State K) (t : K) : State K := { s with u := dualStep s.A.q t s.u s.r }

/-- Update of the primal point, the objective value and the multipliers, src/DualSolver.cpp:146-150 and
src/GoldfarbIdnaniSolver.cpp:328-332. -/
def fullUpdate (pb : Pb K B) (s : State K) (sc : SC) (t : K) : State K := dualUpdate (primalStep pb s sc t) t

/-- Outcome of one iteration of the main loop: return from `solve`, or go on with a selected constraint and the
`skipStep1` flag. -/
inductive Iter (K : Type)
  | done (t : Term) (s : State K)
  | cont (s : State K) (sc : SC) (skip : Bool)

/-- `std::min(t1, t2)`. -/
def stdMin (t1 t2 : K) : K := if ltb t2 t1 then t2 else t1

/-- Step 2 of the main loop, src/DualSolver.cpp:124-165. -/
def iterBody (o : Opts K) (pb : Pb K B) (s : State K) (sc : SC) : Except Fault (Iter K) :=
  if computeStepOk pb s sc && decide (s.A.q < s.szU) && decide (s.nbVar ≤ s.szX) then
    let s := computeStep pb s sc
    if stepLenOk o s sc then
      let sl := computeStepLength o pb s sc
      let t := stdMin sl.t1 sl.t2
      if leb o.bigBnd t then .ok (.done .infeasible s)
      else if leb o.bigBnd sl.t2 then
        let s := dualUpdate s t
        if removeOk s sl.l then .ok (.cont (removeConstraint o s sl.l) sc true)
        else .error .outOfBounds
      else
        let s := fullUpdate pb s sc t
        if eqb t sl.t2 then
          if addOk s sc then .ok (.cont (addConstraint o s sc) sc false)
          else .error .outOfBounds
        else if removeOk s sl.l then .ok (.cont (removeConstraint o s sl.l) sc true)
        else .error .outOfBounds
    else .error .unreachable
  else .error .outOfBounds

/-- Ranges needed by `selectViolatedConstraint_`. -/
def selectOk (pb : Pb K B) (s : State K) : Bool :=
  decide (s.A.nbCstr ≤ pb.m) && decide (s.A.nbBnd ≤ pb.nb) && decide (s.nbVar ≤ pb.n)
    && decide (s.nbVar ≤ s.szX) && decide (s.A.status.length = s.A.nbCstr + s.A.nbBnd)

/-- One iteration of the main loop, src/DualSolver.cpp:105-165. -/
def iterate (o : Opts K) (pb : Pb K B) (s : State K) (sc : SC) (skip : Bool) : Except Fault (Iter K) :=
  if skip then iterBody o pb s sc
  else if selectOk pb s then
    let sc := select pb s.nbVar s.A s.x
    if sc.status = .inactive then .ok (.done .success s)
    else if decide (s.A.q < s.szU) && decide (s.A.q ≤ s.szR) then
      iterBody o pb { s with u := upd s.u s.A.q 0 } sc
    else .error .outOfBounds
  else .error .outOfBounds

/-- `for(; it_ < maxIter; ++it_)`, src/DualSolver.cpp:103-167. The first argument is `maxIter - it_`. -/
def loop (o : Opts K) (pb : Pb K B) : Nat → State K → SC → Bool → Except Fault (Term × State K)
  | 0, s, _, _ => .ok (.maxIterReached, s)
  | fuel + 1, s, sc, skip =>
    match iterate o pb s sc skip with
    | .error e => .error e
    | .ok (.done t s) => .ok (t, s)
    | .ok (.cont s sc skip) => loop o pb fuel { s with it := s.it + 1 } sc skip

/-! ## Initialisation -/

/-- Value of `t` in `addInitialConstraint`, src/GoldfarbIdnaniSolver.cpp:307-326. -/
def initStep (o : Opts K) (pb : Pb K B) (s : State K) (sc : SC) : K :=
  if ltb o.tiny (normn s.nbVar s.z) then
    if sc.status = .equality then
      (toK (pb.bl sc.p) - colDot pb s.nbVar sc.p s.x) / colDot pb s.nbVar sc.p s.z
    else (toK (pb.xl (sc.p - pb.m)) - s.x (sc.p - pb.m)) / s.z (sc.p - pb.m)
  else 0

/-- `GoldfarbIdnaniSolver::addInitialConstraint`, src/GoldfarbIdnaniSolver.cpp:295-338. -/
def addInitialConstraint (o : Opts K) (pb : Pb K B) (s : State K) (sc : SC) : Except Fault (State K) :=
  let q := s.A.q
  if decide (q < s.szU) && decide (s.nbVar ≤ s.szX) && computeStepOk pb s sc then
    let s := computeStep pb { s with u := upd s.u q 0 } sc
    let t := initStep o pb s sc
    let s := fullUpdate pb s sc t
    if addOk s sc then .ok (addConstraint o s sc) else .error .outOfBounds
  else .error .outOfBounds

/-- The constraints `initActiveSet` adds, in order: src/GoldfarbIdnaniSolver.cpp:268-287. -/
def eqList (pb : Pb K B) (A : ActiveSet) : List SC :=
  ((List.range A.nbCstr).filter (fun i => bEq K (pb.bl i) (pb.bu i))).map (fun i => ⟨i, .equality⟩)
    ++ ((List.range A.nbBnd).filter (fun i => bEq K (pb.xl i) (pb.xu i))).map (fun i => ⟨A.nbCstr + i, .fixed⟩)

/-- Successive calls to `addInitialConstraint`. -/
def addInitials (o : Opts K) (pb : Pb K B) : List SC → State K → Except Fault (State K)
  | [], s => .ok s
  | sc :: rest, s =>
    match addInitialConstraint o pb s sc with
    | .error e => .error e
    | .ok s => addInitials o pb rest s

/-- `GoldfarbIdnaniSolver::initActiveSet`, src/GoldfarbIdnaniSolver.cpp:268-287. The tests `bl[i] == bu[i]` do not
depend on the state, so the constraints are listed first. -/
def initActiveSet (o : Opts K) (pb : Pb K B) (s : State K) : Except Fault (State K) :=
  if selectOk pb s then addInitials o pb (eqList pb s.A) s else .error .outOfBounds

/-- `J = L⁻ᵀ`, src/GoldfarbIdnaniSolver.cpp:64-66 (`L` is the lower triangle of `G` after factorisation). -/
def invLt (n : Nat) (L : Nat → Nat → K) : Nat → Nat → K :=
  fun i j => backSub (fun i j => L j i) n (fun k => if k = j then 1 else 0) i

/-- `x = -L⁻ᵀ L⁻¹ a`, src/GoldfarbIdnaniSolver.cpp:69-72. -/
def unconstrMin (n : Nat) (L : Nat → Nat → K) (a : Nat → K) : Nat → K :=
  fun i => -backSub (fun i j => L j i) n (fwdSub L a n) i

/-- `init_` of the base solver up to the active set initialisation, src/GoldfarbIdnaniSolver.cpp:63-76. -/
def initPoint (o : Opts K) (pb : Pb K B) (s : State K) : State K :=
  let n := s.nbVar
  let x := wr n (unconstrMin n s.G pb.a) s.x
  { s with J := fun i j => if i < n ∧ j < n then invLt n s.G i j else s.J i j,
           x := x,
           f := half * esum (.objective n) (fun i => pb.a i * x i) n,
           A := s.A.reset,
           R := if o.dbg then fun _ _ => 0 else s.R }

/-- `GoldfarbIdnaniSolver::init_`, src/GoldfarbIdnaniSolver.cpp:56-82. -/
def init_ (o : Opts K) (pb : Pb K B) (s : State K) : Except Fault (Term × State K) :=
  if decide (s.nbVar ≤ pb.n) then
    let c := chol s.nbVar pb.G s.nbVar
    let s := { s with G := c.1 }
    if c.2.isSome then .ok (.nonPosHessian, s)
    else if decide (s.nbVar * s.nbVar ≤ s.szJ) && decide (s.nbVar ≤ s.szX) then
      match initActiveSet o pb (initPoint o pb s) with
      | .error e => .error e
      | .ok s => .ok (.success, s)
    else .error .outOfBounds
  else .error .outOfBounds

/-- `DualSolver::init` before the call to `init_`, src/DualSolver.cpp:202-207. -/
def preInit (o : Opts K) (s : State K) : State K :=
  { s with u := if o.dbg then fun _ => 0 else s.u,
           r := if o.dbg then fun _ => 0 else s.r,
           needToExpand := true,
           A := if o.warmStart then s.A else s.A.reset,
           it := 0 }

/-- `DualSolver::terminate`, src/DualSolver.cpp:170-198: identity, but asserts on the statuses without a case. -/
def terminate (o : Opts K) (t : Term) (s : State K) : Except Fault (Term × State K) :=
  match t with
  | .success | .inconsistentInput | .nonPosHessian | .infeasible | .maxIterReached
  | .linearDependencyDetected => .ok (t, s)
  | .overconstrainedProblem | .unknown => if o.dbg then .error .assertFailed else .ok (t, s)

/-- `DualSolver::solve`, src/DualSolver.cpp:91-168, for a given virtual `init_`. -/
def dualSolve (ini : State K → Except Fault (Term × State K)) (o : Opts K) (pb : Pb K B) (s : State K) :
    Except Fault (Term × State K) :=
  match ini (preInit o s) with
  | .error e => .error e
  | .ok (t, s) =>
    if t ≠ .success then terminate o t s
    else
      match loop o pb (o.maxIter - s.it) s ⟨0, .inactive⟩ false with
      | .error e => .error e
      | .ok (t, s) => terminate o t s

/-! ## Public interface -/

/-- `Workspace::resize(size)` with `fit = false`, include/jrl-qp/internal/Workspace.h:37-43: never shrinks.
(The content after a reallocation is unspecified; theorems quantify over it.) -/
def wsResize (size want : Nat) : Nat := if want > size then want else size

/-- `GoldfarbIdnaniSolver::resize_`, src/GoldfarbIdnaniSolver.cpp:258-266. -/
def resize_ (s : State K) (nbVar : Nat) : State K :=
  if nbVar ≠ s.nbVar then
    { s with szD := wsResize s.szD nbVar, szJ := wsResize s.szJ (nbVar * nbVar),
             szRm := wsResize s.szRm (nbVar * nbVar) }
  else s

/-- `DualSolver::resize_p`, src/DualSolver.cpp:251-274. -/
def resizeP (s : State K) (nbVar nbCstr : Nat) (useBounds : Bool) : State K :=
  let s := if nbVar ≠ s.nbVar then
      { s with nbVar := nbVar, szX := wsResize s.szX nbVar, szZ := wsResize s.szZ nbVar } else s
  let nbBnd := if useBounds then nbVar else 0
  let s := if nbCstr + nbBnd ≠ s.A.nbAll then
      { s with szU := wsResize s.szU (nbCstr + nbBnd), szR := wsResize s.szR (nbCstr + nbBnd) } else s
  if nbCstr ≠ s.A.nbCstr ∨ nbBnd ≠ s.A.nbBnd then { s with A := s.A.resize nbCstr nbBnd } else s

/-- `DualSolver::resize`, src/DualSolver.cpp:18-24. -/
def resize (s : State K) (nbVar nbCstr : Nat) (useBounds : Bool) : State K :=
  resizeP (resize_ s nbVar) nbVar nbCstr useBounds

/-- `GoldfarbIdnaniSolver::solve`, src/GoldfarbIdnaniSolver.cpp:18-54. The asserts on the sizes of the arguments are
true by construction of `Pb`. -/
def solve (o : Opts K) (pb : Pb K B) (s : State K) : Except Fault (Term × State K) :=
  dualSolve (init_ o pb) o pb (resize s pb.n pb.m pb.useBnd)

/-- A default constructed solver, src/DualSolver.cpp:7-11 and src/GoldfarbIdnaniSolver.cpp:11. -/
def State.empty : State K :=
  { nbVar := 0, A := ActiveSet.mk' 0 0, x := fun _ => 0, z := fun _ => 0, u := fun _ => 0, r := fun _ => 0,
    d := fun _ => 0, J := fun _ _ => 0, R := fun _ _ => 0, G := fun _ _ => 0, f := 0, it := 0,
    needToExpand := false, szX := 0, szZ := 0, szU := 0, szR := 0, szD := 0, szJ := 0, szRm := 0 }

/-- The expansion loop of `multipliers`, src/DualSolver.cpp:55-66, first `k` active constraints. -/
def expandK (A : ActiveSet) (r : Nat → K) (u : Nat → K) : Nat → (Nat → K)
  | 0 => u
  | k + 1 =>
    let i := A.get k
    upd (expandK A r u k) i
      (if A.statusAt i = .upper ∨ A.statusAt i = .upperBound then r k else -r k)

/-- `DualSolver::multipliers`, src/DualSolver.cpp:38-69: the returned vector has size `A_.nbAll()` and is the new
content of `work_u_`. -/
def multipliers (s : State K) : State K :=
  if s.needToExpand then
    let r := wr s.A.q s.u s.r
    { s with needToExpand := false, r := r, u := expandK s.A r (fun _ => 0) s.A.q }
  else s

/-- `DualSolver::resetActiveSet`, src/DualSolver.cpp:86-89. -/
def resetActiveSet (s : State K) : State K := { s with A := s.A.reset }

end JrlQp
