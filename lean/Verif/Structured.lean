import Verif.Experimental
import Verif.BlockChol

/-!
# The structured solver `BlockGISolver`

Model of `src/structured/StructuredG.cpp`, `src/structured/StructuredC.cpp`, `src/structured/StructuredQR.cpp`,
`src/structured/StructuredJ.cpp` and `src/experimental/BlockGISolver.cpp`, generic in the scalar type. Its class derives
from `DualSolver`, whose main loop (`src/DualSolver.cpp`) is written again below because it calls other virtual functions.

Blocks are values here: that `pb_.G = G` may write to the matrices of the previous problem is modelled separately, in
`Verif.BlockAlias`. Failed asserts (of the code or of Eigen on sizes) are faults.
-/

namespace JrlQp

open NumOps

variable {K B : Type} [Zero K] [One K] [Add K] [Sub K] [Neg K] [Mul K] [Div K] [NumOps K B] [SumOps K]

/-! ## `StructuredG` -/

/-- `StructuredG::Type`, include/jrl-qp/structured/StructuredG.h:18-23. -/
inductive GType
  | tri
  | arrowUp
  | arrowDown
  deriving DecidableEq, Repr

/-- `StructuredG`, include/jrl-qp/structured/StructuredG.h:69-76: `b` is `diag_.size()`, `sz i` the size of `diag_[i]`. -/
structure SG (K : Type) where
  type : GType
  b : Nat
  sz : Nat → Nat
  D : Blocks K
  S : Blocks K
  decomposed : Bool

/-- `nbVar_`, src/structured/StructuredG.cpp:9-18. -/
def SG.nbVar (g : SG K) : Nat := off g.sz g.b

/-- `StructuredG::lltInPlace`, src/structured/StructuredG.cpp:22-45; the returned boolean is the new `decomposed_`. -/
def SG.llt (g : SG K) : SG K :=
  match g.type with
  | .tri => let c := triLLT g.b g.sz g.D g.S; { g with D := c.2.1, S := c.2.2, decomposed := c.1 }
  | .arrowUp => let c := arrowLLT true g.b g.sz g.D g.S; { g with D := c.2.1, S := c.2.2, decomposed := c.1 }
  | .arrowDown => let c := arrowLLT false g.b g.sz g.D g.S; { g with D := c.2.1, S := c.2.2, decomposed := c.1 }

/-- The `switch` of the two `solveL`, with the hints given by the segment, src/structured/StructuredG.cpp:76-90, :99-113.
`triBlockDiagLSolve` has no `end` hint. `none`: Eigen size mismatch. -/
def SG.solveLHint (g : SG K) (v : Nat → K) (start : Nat) (stop : Option Nat) : Option (Nat → K) :=
  match g.type with
  | .tri => some (triLSolve g.b g.sz g.D g.S v start)
  | .arrowUp => arrowLSolve true g.b g.sz g.D g.S v start stop
  | .arrowDown => arrowLSolve false g.b g.sz g.D g.S v start stop

/-- `StructuredG::solveL(out, in)` for a vector, src/structured/StructuredG.cpp:69-91. -/
def SG.solveL (g : SG K) (inp : Nat → K) : Option (Nat → K) :=
  if g.decomposed then g.solveLHint inp 0 none else none

/-- `StructuredG::solveL(out, in)` for a segment, src/structured/StructuredG.cpp:92-114; `out` is the previous content. -/
def SG.solveLSeg (g : SG K) (out : Nat → K) (inp : SegVec K) : Option (Nat → K) :=
  if g.decomposed ∧ inp.size = g.nbVar then g.solveLHint (inp.toFull out) inp.start (some inp.fin) else none

/-- `StructuredG::solveInPlaceLTranspose`, src/structured/StructuredG.cpp:47-67. -/
def SG.solveLT (g : SG K) (v : Nat → K) : Option (Nat → K) :=
  if g.decomposed then
    match g.type with
    | .tri => some (triLTSolve g.b g.sz g.D g.S v none)
    | .arrowUp => some (arrowLTSolve true g.b g.sz g.D g.S v 0 none)
    | .arrowDown => some (arrowLTSolve false g.b g.sz g.D g.S v 0 none)
  else none

/-! ## `StructuredC` -/

/-- `StructuredC`, include/jrl-qp/structured/StructuredC.h:42-53: `nb` is `diag_.size()`, block `i` is
`rows i x cols i`. -/
structure StrC (K : Type) where
  nb : Nat
  rows : Nat → Nat
  cols : Nat → Nat
  blk : Blocks K

/-- `nbVar_`, src/structured/StructuredC.cpp:9-25. -/
def StrC.nbVar (c : StrC K) : Nat := off c.rows c.nb

/-- `nbCstr_`, src/structured/StructuredC.cpp:9-25. -/
def StrC.nbCstr (c : StrC K) : Nat := off c.cols c.nb

/-- `toBlock_`, src/structured/StructuredC.cpp:17. -/
def StrC.toBlock (c : StrC K) : List Nat := (List.range c.nb).flatMap fun i => List.replicate (c.cols i) i

/-- `StructuredC::col`, src/structured/StructuredC.cpp:57-62 (the assert `i < nbCstr_` is checked by the callers' `scOk`). -/
def StrC.col (c : StrC K) (i : Nat) : SegVec K :=
  let bi := c.toBlock.getD i 0
  ⟨off c.rows bi, c.rows bi, c.nbVar, fun a => c.blk bi a (i - off c.cols bi)⟩

/-- Body of the loop of `StructuredC::transposeMult`, src/structured/StructuredC.cpp:69-73. -/
def StrC.multStep (c : StrC K) (inp : Nat → K) (out : Nat → K) (i : Nat) : Nat → K := fun k =>
  if off c.cols i ≤ k ∧ k < off c.cols i + c.cols i then
    esum (.slack (c.rows i) k) (fun a => c.blk i a (k - off c.cols i) * inp (off c.rows i + a)) (c.rows i)
  else out k

/-- `StructuredC::transposeMult`, src/structured/StructuredC.cpp:64-74; `out` is the previous content. -/
def StrC.transposeMult (c : StrC K) (out inp : Nat → K) : Nat → K := (List.range c.nb).foldl (c.multStep inp) out

/-! ## `StructuredQR` -/

/-- `StructuredQR`, include/jrl-qp/structured/StructuredQR.h:38-45; `szE` is the size of `work_essential_` (always written
before being read), `work_tmp_` is never used. -/
structure SQR (K : Type) where
  q : Nat
  nbVar : Nat
  ldR : Nat
  R : WS K
  Q : OSeq K
  szE : Nat

/-- `getR(k)` with `adjustLdR(k)`, src/structured/StructuredQR.cpp:10-32, up to the view itself: the coefficients are
`R.mat ldR`. `none`: failed assert. -/
def SQR.getR (s : SQR K) (k : Nat) : Option (SQR K) :=
  if k ≤ s.nbVar then
    (if s.ldR < k then
      (s.R.changeLd true s.q s.q s.ldR (min (2 * s.ldR) s.nbVar)).map
        fun w => { s with R := w, ldR := min (2 * s.ldR) s.nbVar }
    else some s).bind fun s => if s.R.matOk k k s.ldR then some s else none
  else none

/-- Write the `k x k` matrix `M` in the buffer, with leading dimension `ld`. -/
def WS.store (w : WS K) (ld k : Nat) (M : Nat → Nat → K) : WS K :=
  { w with buf := fun p => if p / ld < k ∧ p % ld < k then M (p % ld) (p / ld) else w.buf p }

/-- `StructuredQR::reset`, src/structured/StructuredQR.cpp:39-43. -/
def SQR.reset (s : SQR K) : SQR K := { s with q := 0, Q := [] }

/-- `StructuredQR::resize`, src/structured/StructuredQR.cpp:45-53; `fresh` is the content of newly allocated memory.
`static_cast<int>(std::sqrt(nbVar))` is the integer square root. -/
def SQR.resize (s : SQR K) (nbVar : Nat) (fresh : Nat → K) : SQR K :=
  { s with R := s.R.resize (nbVar * nbVar) false fresh, szE := wsResize s.szE nbVar, nbVar := nbVar,
           ldR := min 10 (Nat.sqrt nbVar) }

/-- `StructuredQR::RSolve`, src/structured/StructuredQR.cpp:65-70; `k` is the size of `in`. -/
def SQR.RSolve (s : SQR K) (k : Nat) (inp : Nat → K) : Option (SQR K × (Nat → K)) :=
  if k = s.q then (s.getR s.q).map fun s => (s, backSub (s.R.mat s.ldR) s.q inp) else none

/-- `StructuredQR::add`, src/structured/StructuredQR.cpp:72-88 (always returns `true`). -/
def SQR.add (s : SQR K) (d : Nat → K) : Option (SQR K) :=
  if s.q < s.nbVar ∧ s.nbVar - s.q - 1 ≤ s.szE then
    let h := mkHouse (s.nbVar - s.q) (fun i => d (s.q + i))
    (s.getR (s.q + 1)).bind fun s =>
      ((s.Q.prepare (.house (s.nbVar - s.q) [])).addWith
          (fun e => e.addHouse (s.nbVar - s.q - 1) h.ess h.tau) s.q).map fun Q =>
        { s with R := s.R.store s.ldR (s.q + 1)
                   (fun i j => if j = s.q then (if i = s.q then h.beta else d i) else s.R.mat s.ldR i j),
                 Q := Q, q := s.q + 1 }
  else none

/-- One iteration of the loop of `remove` on `R`, src/structured/StructuredQR.cpp:97-101: new matrix and rotation. -/
def remRotR (dbg : Bool) (q : Nat) (R : Nat → Nat → K) (i : Nat) : (Nat → Nat → K) × Givens K :=
  let R0 : Nat → Nat → K := fun r c => if c = i ∧ r < i then R r (i + 1) else R r c
  let g := makeGivens (R0 i (i + 1)) (R0 (i + 1) (i + 1))
  let R1 := upd2 R0 i i g.r
  let R2 := if dbg then upd2 R1 (i + 1) (i + 1) 0 else R1
  (rotRows (i + 2) (q + 1) R2 i g, g)

/-- The loop of `remove`, first `k` iterations, src/structured/StructuredQR.cpp:95-103; `q` is already decremented. -/
def remRotsQ (dbg : Bool) (q l : Nat) (R : Nat → Nat → K) (Q : OSeq K) : Nat → Option ((Nat → Nat → K) × OSeq K)
  | 0 => some (R, Q)
  | k + 1 => (remRotsQ dbg q l R Q k).bind fun RQ =>
    let h := remRotR dbg q RQ.1 (l + k)
    (RQ.2.addWith (fun e => e.addGivens h.2.c h.2.s) (l + k)).map fun Q => (h.1, Q)

/-- `StructuredQR::remove`, src/structured/StructuredQR.cpp:90-104 (the returned value is not used). -/
def SQR.remove (dbg : Bool) (s : SQR K) (l : Nat) : Option (SQR K) :=
  if l < s.q then
    (SQR.getR { s with q := s.q - 1 } (s.q - 1 + 1)).bind fun s =>
      (remRotsQ dbg s.q l (s.R.mat s.ldR) (s.Q.prepare (.givens (s.q - l + 1) [])) (s.q - l)).map
        fun (RQ : (Nat → Nat → K) × OSeq K) => { s with R := s.R.store s.ldR (s.q + 1) RQ.1, Q := RQ.2 }
  else none

/-! ## `StructuredJ` -/

/-- `StructuredJ::premultByJ2`, src/structured/StructuredJ.cpp:30-40: `k` is the size of `in`, `out` the previous content
of `out`. `Q_` refers to the members `Q_` and `q_` of `StructuredQR`. -/
def premultByJ2 (g : SG K) (s : SQR K) (nbVar k : Nat) (out inp : Nat → K) : Option (Nat → K) :=
  if k = s.nbVar - s.q then
    g.solveLT (s.Q.apply fun i => if i < s.q then 0 else if i < nbVar then inp (i - s.q) else out i)
  else none

/-- `StructuredJ::premultByJt`, src/structured/StructuredJ.cpp:42-56. `status <= EQUALITY` is `!isBound`. -/
def premultByJt (g : SG K) (s : SQR K) (c : StrC K) (nbVar : Nat) (sc : SC) (out : Nat → K) : Option (Nat → K) :=
  (if sc.status.isBound then
    g.solveLSeg out ⟨sc.p - c.nbCstr, 1, nbVar, fun _ => if sc.status = .upperBound then -1 else 1⟩
  else
    (g.solveLSeg out (c.col sc.p)).map fun v => if sc.status = .upper then (fun i => if i < nbVar then v i * -1 else v i) else v).map
    s.Q.applyT

/-! ## `BlockGISolver` -/

/-- Arguments of `BlockGISolver::solve`, src/experimental/BlockGISolver.cpp:18-25. -/
structure BPb (K B : Type) where
  G : SG K
  a : Nat → K
  C : StrC K
  bl : Nat → B
  bu : Nat → B
  useBnd : Bool
  xl : Nat → B
  xu : Nat → B

/-- Number of variables, src/experimental/BlockGISolver.cpp:27. -/
def BPb.n (pb : BPb K B) : Nat := pb.G.nbVar

/-- Number of general constraints, src/experimental/BlockGISolver.cpp:28. -/
def BPb.m (pb : BPb K B) : Nat := pb.C.nbCstr

/-- Number of bounds. -/
def BPb.nb (pb : BPb K B) : Nat := if pb.useBnd then pb.n else 0

/-- The sides of the constraints as a problem of the dense solvers (the matrices are not used): used to share the
definitions of the code duplicated from `src/experimental/GoldfarbIdnaniSolver.cpp` which reads the sides only. -/
def BPb.sides (pb : BPb K B) : Pb K B :=
  ⟨pb.n, pb.m, pb.useBnd, fun _ _ => 0, pb.a, fun _ _ => 0, pb.bl, pb.bu, pb.xl, pb.xu⟩

/-- Members of `BlockGISolver` (include/jrl-qp/experimental/BlockGISolver.h:84-92) and `DualSolver`: `s` holds those of
`DualSolver` and `work_d_` (its other fields are not used), `g` is `pb_.G`. -/
structure BState (K : Type) where
  s : State K
  g : SG K
  qr : SQR K
  as : List Status
  cx : Nat → K
  szCx : Nat
  szB : Nat

/-- Body of the loop over general constraints, src/experimental/BlockGISolver.cpp:127-145. -/
def selGenCx (pb : BPb K B) (A : ActiveSet) (cx : Nat → K) (acc : Sel B) (i : Nat) : Sel B :=
  if A.isActive i then acc
  else if bLt K (slackLow (cx i) (pb.bl i)) acc.smin then ⟨slackLow (cx i) (pb.bl i), ⟨i, .lower⟩⟩
  else if bLt K (slackUp (pb.bu i) (cx i)) acc.smin then ⟨slackUp (pb.bu i) (cx i), ⟨i, .upper⟩⟩
  else acc

/-- `BlockGISolver::selectViolatedConstraint_`, src/experimental/BlockGISolver.cpp:115-168: selected constraint and new
content of `work_cx_`. The loop on the bounds is the one of the dense solver. -/
def bselect (pb : BPb K B) (A : ActiveSet) (x cx0 : Nat → K) : SC × (Nat → K) :=
  let cx := pb.C.transposeMult cx0 x
  let acc0 : Sel B := ⟨bZero K, ⟨0, .inactive⟩⟩
  let acc1 := (List.range A.nbCstr).foldl (selGenCx pb A cx) acc0
  (((List.range A.nbBnd).foldl (selBnd pb.sides A x) acc1).sc, cx)

/-- The index/status pair designates an existing constraint (ranges of the accesses to `C` and to the bounds). -/
def bscOk (pb : BPb K B) (sc : SC) : Bool := scOk pb.sides sc

/-- Ranges needed by `computeStep_`, src/experimental/BlockGISolver.cpp:170-178. -/
def bComputeStepOk (pb : BPb K B) (bs : BState K) (sc : SC) : Bool :=
  decide (bs.s.A.q ≤ bs.s.nbVar) && decide (bs.s.nbVar ≤ bs.s.szD) && decide (bs.s.nbVar ≤ bs.s.szZ)
    && decide (bs.s.A.q ≤ bs.s.szR) && bscOk pb sc

/-- `BlockGISolver::computeStep_`, src/experimental/BlockGISolver.cpp:170-178. -/
def bComputeStep (pb : BPb K B) (bs : BState K) (sc : SC) : Option (BState K) :=
  let n := bs.s.nbVar
  let q := bs.s.A.q
  (premultByJt bs.g bs.qr pb.C n sc bs.s.d).bind fun d =>
    (premultByJ2 bs.g bs.qr n (n - q) bs.s.z (fun i => d (q + i))).bind fun z =>
      (bs.qr.RSolve q d).map fun Rr =>
        { bs with qr := Rr.1, s := { bs.s with d := d, z := z, r := wr q Rr.2 bs.s.r } }

/-- `t2`, src/experimental/BlockGISolver.cpp:205-247. -/
def bFullStep (pb : BPb K B) (x z : Nat → K) (sc : SC) : K :=
  match sc.status with
  | .lower => (toK (pb.bl sc.p) - (pb.C.col sc.p).dot x) / (pb.C.col sc.p).dot z
  | .upper => (toK (pb.bu sc.p) - (pb.C.col sc.p).dot x) / (pb.C.col sc.p).dot z
  | .lowerBound => (toK (pb.xl (sc.p - pb.m)) - x (sc.p - pb.m)) / z (sc.p - pb.m)
  | .upperBound => (toK (pb.xu (sc.p - pb.m)) - x (sc.p - pb.m)) / z (sc.p - pb.m)
  | _ => 0

/-- `BlockGISolver::computeStepLength_`, src/experimental/BlockGISolver.cpp:180-250: the ratio test is the text of the
dense solver. -/
def bComputeStepLength (o : Opts K) (pb : BPb K B) (s : State K) (sc : SC) : StepLen K :=
  let t1l := (List.range s.A.q).foldl (ratioStep s.A s.u s.r) (o.bigBnd, 0)
  let t2 := if ltb o.tiny (normn s.nbVar s.z) then bFullStep pb s.x s.z sc else o.bigBnd
  ⟨t1l.1, t2, t1l.2⟩

/-- `BlockGISolver::dot_`, src/experimental/BlockGISolver.cpp:263-281. -/
def bDot (pb : BPb K B) (sc : SC) (z : Nat → K) : K :=
  match sc.status with
  | .equality | .lower => (pb.C.col sc.p).dot z
  | .upper => -(pb.C.col sc.p).dot z
  | .fixed | .lowerBound => z (sc.p - pb.m)
  | .upperBound => -z (sc.p - pb.m)
  | .inactive => 0

/-- `x += t * z; f_ += t * dot(sc, z) * (.5 * t + u[q]);` and the update of the multipliers, src/DualSolver.cpp:146-150. -/
def bFullUpdate (pb : BPb K B) (s : State K) (sc : SC) (t : K) : State K :=
  dualUpdate { s with x := wr s.nbVar (fun i => s.x i + t * s.z i) s.x,
                      f := s.f + t * bDot pb sc s.z * (half * t + s.u s.A.q) } t

/-- `DualSolver::addConstraint` (src/DualSolver.cpp:231-235) with `BlockGISolver::addConstraint_`,
src/experimental/BlockGISolver.cpp:252-256. -/
def bAdd (bs : BState K) (sc : SC) : Option (BState K) :=
  if bs.s.A.activatePre sc.p sc.status && decide (bs.s.nbVar ≤ bs.s.szD) then
    (bs.qr.add bs.s.d).map fun qr => { bs with qr := qr, s := { bs.s with A := bs.s.A.activate sc.p sc.status } }
  else none

/-- `DualSolver::removeConstraint` (src/DualSolver.cpp:237-244) with `BlockGISolver::removeConstraint_`,
src/experimental/BlockGISolver.cpp:258-261. -/
def bRemove (o : Opts K) (bs : BState K) (l : Nat) : Option (BState K) :=
  let q := bs.s.A.q
  if decide (l < q) && bs.s.A.deactivatePre l && decide (q + 1 ≤ bs.s.szU) then
    (bs.qr.remove o.dbg l).map fun qr =>
      let u : Nat → K := fun j => if l ≤ j ∧ j < q then bs.s.u (j + 1) else bs.s.u j
      { bs with qr := qr, s := { bs.s with u := if o.dbg then upd u q 0 else u, A := bs.s.A.deactivate l } }
  else none

/-- Outcome of one iteration of the main loop. -/
inductive BIter (K : Type)
  | done (t : Term) (s : BState K)
  | cont (s : BState K) (sc : SC) (skip : Bool)

/-- Step 2 of the main loop, src/DualSolver.cpp:124-165, with the virtual functions of `BlockGISolver`. -/
def biterBody (o : Opts K) (pb : BPb K B) (bs : BState K) (sc : SC) : Except Fault (BIter K) :=
  if bComputeStepOk pb bs sc && decide (bs.s.A.q < bs.s.szU) && decide (bs.s.nbVar ≤ bs.s.szX) then
    match bComputeStep pb bs sc with
    | none => .error .assertFailed
    | some bs =>
      if stepLenOk o bs.s sc then
        let sl := bComputeStepLength o pb bs.s sc
        let t := stdMin sl.t1 sl.t2
        if leb o.bigBnd t then .ok (.done .infeasible bs)
        else if leb o.bigBnd sl.t2 then
          match bRemove o { bs with s := dualUpdate bs.s t } sl.l with
          | none => .error .assertFailed
          | some bs => .ok (.cont bs sc true)
        else if eqb t sl.t2 then
          match bAdd { bs with s := bFullUpdate pb bs.s sc t } sc with
          | none => .error .assertFailed
          | some bs => .ok (.cont bs sc false)
        else
          match bRemove o { bs with s := bFullUpdate pb bs.s sc t } sl.l with
          | none => .error .assertFailed
          | some bs => .ok (.cont bs sc true)
      else .error .unreachable
  else .error .outOfBounds

/-- Ranges needed by `selectViolatedConstraint_` and `transposeMult`. -/
def bselectOk (pb : BPb K B) (bs : BState K) : Bool :=
  decide (bs.s.A.nbCstr ≤ pb.m) && decide (bs.s.A.nbBnd ≤ pb.nb) && decide (pb.C.nbVar = bs.s.nbVar)
    && decide (bs.s.nbVar ≤ bs.s.szX) && decide (pb.m ≤ bs.szCx)
    && decide (bs.s.A.status.length = bs.s.A.nbCstr + bs.s.A.nbBnd)

/-- One iteration of the main loop, src/DualSolver.cpp:105-165, with the virtual functions of `BlockGISolver`. -/
def biterate (o : Opts K) (pb : BPb K B) (bs : BState K) (sc : SC) (skip : Bool) : Except Fault (BIter K) :=
  if skip then biterBody o pb bs sc
  else if bselectOk pb bs then
    let c := bselect pb bs.s.A bs.s.x bs.cx
    let bs := { bs with cx := c.2 }
    if c.1.status = .inactive then .ok (.done .success bs)
    else if decide (bs.s.A.q < bs.s.szU) && decide (bs.s.A.q ≤ bs.s.szR) then
      biterBody o pb { bs with s := { bs.s with u := upd bs.s.u bs.s.A.q 0 } } c.1
    else .error .outOfBounds
  else .error .outOfBounds

/-- `for(; it_ < maxIter; ++it_)`, src/DualSolver.cpp:103-167. The first argument is `maxIter - it_`. -/
def bloop (o : Opts K) (pb : BPb K B) : Nat → BState K → SC → Bool → Except Fault (Term × BState K)
  | 0, bs, _, _ => .ok (.maxIterReached, bs)
  | fuel + 1, bs, sc, skip =>
    match biterate o pb bs sc skip with
    | .error e => .error e
    | .ok (.done t bs) => .ok (t, bs)
    | .ok (.cont bs sc skip) => bloop o pb fuel { bs with s := { bs.s with it := bs.s.it + 1 } } sc skip

/-- `initializeComputationData` and `initializePrimalDualPoints`, src/experimental/BlockGISolver.cpp:383-483: `J_`
refers to `pb_.G` and to `QR_`, which is reset; the starting point is the unconstrained minimum. Only the case without active
constraint is implemented: the assert of line 472 (without it, the sizes of `QR_` and of the active set differ). -/
def bInitPoint (pb : BPb K B) (bs : BState K) : Option (BState K) :=
  if bs.s.A.q = 0 ∧ bs.s.nbVar ≤ bs.s.szX then
    (bs.g.solveL (wr bs.s.nbVar pb.a bs.s.x)).bind fun y => (bs.g.solveLT y).map fun w =>
      let x : Nat → K := wr bs.s.nbVar (fun i => -w i) bs.s.x
      { bs with qr := bs.qr.reset,
                s := { bs.s with x := x, f := half * esum (.objective bs.s.nbVar) (fun i => pb.a i * x i) bs.s.nbVar } }
  else none

/-- `BlockGISolver::init_`, src/experimental/BlockGISolver.cpp:63-113. `processInitialActiveSet` (lines 298-381) is the text of
the experimental solver. With no active constraint the loop of lines 81-110 stops at once. -/
def bInit (o : Opts K) (pb : BPb K B) (bs : BState K) : Except Fault (Term × BState K) :=
  let bs := { bs with qr := { bs.qr with R := if o.dbg then ⟨bs.qr.R.size, fun _ => 0⟩ else bs.qr.R } }
  if decide (bs.s.nbVar ≤ pb.n) && decide (bs.s.A.nbCstr ≤ pb.m) && decide (bs.s.A.nbBnd ≤ pb.nb)
      && decide (bs.s.A.status.length = bs.s.A.nbCstr + bs.s.A.nbBnd)
      && (!o.warmStart || bs.as.isEmpty || decide (bs.as.length = bs.s.A.nbAll)) then
    match processInitial o pb.sides bs.s.nbVar bs.as bs.s.A with
    | .error e => .error e
    | .ok (t, A) =>
      let bs := { bs with s := { bs.s with A := A } }
      if t ≠ .success then .ok (t, bs)
      else
        let bs := { bs with g := bs.g.llt }
        if bs.g.decomposed = false then .ok (.nonPosHessian, bs)
        else
          match bInitPoint pb bs with
          | none => .error .assertFailed
          | some bs => .ok (.success, bs)
  else .error .outOfBounds

/-- `DualSolver::solve`, src/DualSolver.cpp:91-168, with the virtual functions of `BlockGISolver`. -/
def bdualSolve (o : Opts K) (pb : BPb K B) (bs : BState K) : Except Fault (Term × BState K) :=
  match bInit o pb { bs with s := preInit o bs.s } with
  | .error e => .error e
  | .ok (t, bs) =>
    if t ≠ .success then (terminate o t bs.s).map fun ts => (ts.1, bs)
    else
      match bloop o pb (o.maxIter - bs.s.it) bs ⟨0, .inactive⟩ false with
      | .error e => .error e
      | .ok (t, bs) => (terminate o t bs.s).map fun ts => (ts.1, bs)

/-- `DualSolver::resize` (src/DualSolver.cpp:18-24) with `BlockGISolver::resize_`,
src/experimental/BlockGISolver.cpp:283-296. `fresh` is the content of newly allocated memory. -/
def bresize (bs : BState K) (nbVar nbCstr : Nat) (useBounds : Bool) (fresh : Nat → K) : BState K :=
  let bs' := if nbVar ≠ bs.s.nbVar then
      { bs with s := { bs.s with szD := wsResize bs.s.szD nbVar }, qr := bs.qr.resize nbVar fresh,
                szB := wsResize bs.szB nbVar } else bs
  let bs' := if nbCstr ≠ bs.s.A.nbCstr then { bs' with szCx := wsResize bs'.szCx nbCstr } else bs'
  { bs' with s := resizeP bs'.s nbVar nbCstr useBounds }

/-- `BlockGISolver::solve`, src/experimental/BlockGISolver.cpp:18-61. The asserts on the sizes of the arguments that are not
true by construction are checked. -/
def bsolve (o : Opts K) (pb : BPb K B) (as : List Status) (fresh : Nat → K) (bs : BState K) :
    Except Fault (Term × BState K) :=
  if pb.C.nbVar = pb.n ∧ (as.length = pb.m + pb.nb ∨ as = []) ∧ (o.warmStart = true ∨ as = []) then
    let bs := bresize { bs with g := pb.G } pb.n pb.m pb.useBnd fresh
    let bs := if o.warmStart then { bs with as := if as = [] then bs.s.A.status else as } else bs
    bdualSolve o pb bs
  else .error .assertFailed

/-- A default constructed solver, src/experimental/BlockGISolver.cpp:10. `Type type_` of `StructuredG` is not initialised: any
value will do. -/
def BState.empty : BState K :=
  ⟨State.empty, ⟨.tri, 0, fun _ => 0, fun _ _ _ => 0, fun _ _ _ => 0, false⟩, ⟨0, 0, 1, ⟨0, fun _ => 0⟩, [], 0⟩, [],
   fun _ => 0, 0, 0⟩

end JrlQp
