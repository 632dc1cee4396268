import Verif.Eigen

/-!
# Internal containers

Models of `include/jrl-qp/internal/Workspace.h`, `include/jrl-qp/internal/SingleNZSegmentVector.h`,
`include/jrl-qp/internal/OrthonormalSequence.h` and `src/internal/OrthonormalSequence.cpp`.
-/

namespace JrlQp

open NumOps

/-! ## Workspace -/

/-- `Workspace`: allocated size and content of `buffer_`, include/jrl-qp/internal/Workspace.h:141. -/
structure WS (K : Type) where
  size : Nat
  buf : Nat → K

/-- `Workspace::resize(size, fit)`, include/jrl-qp/internal/Workspace.h:37-43. `fresh` is the (unspecified) content of
newly allocated memory: `VectorXd::resize` does not keep the coefficients when the size changes. -/
def WS.resize {K : Type} (w : WS K) (want : Nat) (fit : Bool) (fresh : Nat → K) : WS K :=
  if want > w.size ∨ (want < w.size ∧ fit = true) then ⟨want, fresh⟩ else w

/-- `Workspace::asMatrix(rows, cols, ld)(r, c)`, include/jrl-qp/internal/Workspace.h:114-132. -/
def WS.mat {K : Type} (w : WS K) (ld r c : Nat) : K := w.buf (c * ld + r)

/-- The asserts of `asMatrix`, include/jrl-qp/internal/Workspace.h:116-117, :128-129. -/
def WS.matOk {K : Type} (w : WS K) (rows cols ld : Nat) : Bool := decide (ld * cols ≤ w.size) && decide (rows ≤ ld)

/-- `memmove(&buffer_[dst], &buffer_[src], rows * sizeof(double))`: overlapping ranges are allowed.
include/jrl-qp/internal/Workspace.h:69-71, :78-80. `none` if a range is not inside the buffer. -/
def WS.memmove {K : Type} (w : WS K) (dst src rows : Nat) : Option (WS K) :=
  if src < w.size ∧ dst < w.size ∧ src + rows ≤ w.size ∧ dst + rows ≤ w.size then
    some { w with buf := fun k => if dst ≤ k ∧ k < dst + rows then w.buf (src + (k - dst)) else w.buf k }
  else none

/-- Loop of `changeLd` when the leading dimension grows: columns `k, k-1, …, 1`,
include/jrl-qp/internal/Workspace.h:67-72. -/
def WS.growLd {K : Type} (rows oldLd newLd : Nat) : Nat → WS K → Option (WS K)
  | 0, w => some w
  | k + 1, w => (w.memmove ((k + 1) * newLd) ((k + 1) * oldLd) rows).bind (WS.growLd rows oldLd newLd k)

/-- Loop of `changeLd` when the leading dimension shrinks: columns `1, …, k`,
include/jrl-qp/internal/Workspace.h:76-81. -/
def WS.shrinkLd {K : Type} (rows oldLd newLd : Nat) (w : WS K) : Nat → Option (WS K)
  | 0 => some w
  | k + 1 => (WS.shrinkLd rows oldLd newLd w k).bind fun w => w.memmove ((k + 1) * newLd) ((k + 1) * oldLd) rows

/-- `Workspace::changeLd`, include/jrl-qp/internal/Workspace.h:62-83. `dbg`: asserts enabled. `none`: failed assert or
access outside of the buffer. -/
def WS.changeLd {K : Type} (dbg : Bool) (w : WS K) (rows cols oldLd newLd : Nat) : Option (WS K) :=
  if oldLd < newLd then
    if dbg = true ∧ ¬ cols * newLd < w.size then none
    else WS.growLd rows oldLd newLd (cols - 1) w
  else if newLd < oldLd then WS.shrinkLd rows oldLd newLd w (cols - 1)
  else some w

/-! ## Vectors with a single non-zero segment -/

/-- `SingleNZSegmentVector`, include/jrl-qp/internal/SingleNZSegmentVector.h:10-61: `len` is `v_.size()`. -/
structure SegVec (K : Type) where
  start : Nat
  len : Nat
  size : Nat
  v : Nat → K

variable {K B : Type} [Zero K] [One K] [Add K] [Sub K] [Neg K] [Mul K] [Div K] [NumOps K B] [SumOps K]

/-- `SingleNZSegmentVector::toFullVector(u)`, include/jrl-qp/internal/SingleNZSegmentVector.h:41-47: new content of the
vector `u`. The tail has size `size_ - len - start_`. -/
def SegVec.toFull (s : SegVec K) (u : Nat → K) : Nat → K := fun i =>
  if s.size - (s.size - s.len - s.start) ≤ i ∧ i < s.size then 0
  else if s.start ≤ i ∧ i < s.start + s.len then s.v (i - s.start)
  else if i < s.start then 0
  else u i

/-- `SingleNZSegmentVector::dot(u)`, include/jrl-qp/internal/SingleNZSegmentVector.h:49-53. -/
def SegVec.dot (s : SegVec K) (u : Nat → K) : K := esum (.normalDot s.len) (fun i => s.v i * u (s.start + i)) s.len

/-- `SingleNZSegmentVector::end()`, include/jrl-qp/internal/SingleNZSegmentVector.h:26-29. -/
def SegVec.fin (s : SegVec K) : Nat := s.start + s.len

/-! ## Sequences of elementary orthonormal matrices -/

/-- Content of an `ElemOrthonormalSequence` (include/jrl-qp/internal/OrthonormalSequence.h:26-76): its size `n_` and the
elementary transformations added so far. A Householder reflector is given by its essential part and `tau`, a Givens
rotation by `c`, `s`. -/
inductive Elem (K : Type)
  | house (n : Nat) (hs : List ((Nat → K) × K))
  | givens (n : Nat) (gs : List (K × K))

/-- `ElemOrthonormalSequence::n`, include/jrl-qp/internal/OrthonormalSequence.h:49-52. -/
def Elem.n : Elem K → Nat
  | .house n _ => n
  | .givens n _ => n

/-- Apply `f` to `v.tail` from `o` on. -/
def segApply (o : Nat) (f : (Nat → K) → Nat → K) (v : Nat → K) : Nat → K :=
  fun k => if o ≤ k then f (fun i => v (o + i)) (k - o) else v k

/-- Eigen's `applyHouseholderOnTheLeft(essential, tau)` on a vector of size `r`, called by
`HouseholderSequence::applyThisOnTheLeft`, src/internal/OrthonormalSequence.cpp:68-69, :107-108. -/
def applyHouse (r : Nat) (ess : Nat → K) (tau : K) (v : Nat → K) : Nat → K :=
  if r = 1 then fun i => if i = 0 then v 0 * (1 - tau) else v i
  else if eqb tau 0 then v
  else
    let t := esum (.house r) (fun k => ess k * v (k + 1)) (r - 1) + v 0
    fun i => if i = 0 then v 0 - tau * t else if i < r then v i - tau * ess (i - 1) * t else v i

/-- `HouseholderSequence(E, h).applyThisOnTheLeft(v)` for the reflectors from index `j` on: the last one is applied
first. src/internal/OrthonormalSequence.cpp:68-69. -/
def houseSeq (n : Nat) : Nat → List ((Nat → K) × K) → (Nat → K) → Nat → K
  | _, [], v => v
  | j, h :: t, v => segApply j (applyHouse (n - j) h.1 h.2) (houseSeq n (j + 1) t v)

/-- `HouseholderSequence(E, h).transpose().applyThisOnTheLeft(v)`, src/internal/OrthonormalSequence.cpp:107-108. -/
def houseSeqT (n : Nat) : Nat → List ((Nat → K) × K) → (Nat → K) → Nat → K
  | _, [], v => v
  | j, h :: t, v => houseSeqT n (j + 1) t (segApply j (applyHouse (n - j) h.1 h.2) v)

/-- Single reflector: `v -= h[0] * d * E.col(0)` with `d` computed on the rows `start, …, start + size - 1` only,
src/internal/OrthonormalSequence.cpp:60-64, :99-103. `E.col(0) = [1; essential]` (`add`, :44-45). -/
def houseOne (n : Nat) (ess : Nat → K) (tau : K) (start size : Nat) (v : Nat → K) : Nat → K :=
  let col : Nat → K := fun i => if i = 0 then 1 else ess (i - 1)
  let d := esum (.house size) (fun i => col (start + i) * v (start + i)) size
  fun i => if i < n then v i - tau * d * col i else v i

/-- `v.applyOnTheLeft(i, i+1, Givens(c, s))`: Eigen's `apply_rotation_in_the_plane` returns at once for the identity.
src/internal/OrthonormalSequence.cpp:78, :117. -/
def givRot (i : Nat) (c s : K) (v : Nat → K) : Nat → K :=
  if eqb c 1 && eqb s 0 then v
  else fun k => if k = i then c * v i + s * v (i + 1) else if k = i + 1 then -s * v i + c * v (i + 1) else v k

/-- Rotations `k-1, …, 0` applied in that order, src/internal/OrthonormalSequence.cpp:77-78. -/
def givSeq (gs : Nat → K × K) : Nat → (Nat → K) → Nat → K
  | 0, v => v
  | k + 1, v => givSeq gs k (givRot k (gs k).1 (gs k).2 v)

/-- Transposed rotations `b, …, b + k - 1` applied in that order, src/internal/OrthonormalSequence.cpp:116-117. -/
def givSeqT (gs : Nat → K × K) (b : Nat) (v : Nat → K) : Nat → Nat → K
  | 0 => v
  | k + 1 => givRot (b + k) (gs (b + k)).1 (-(gs (b + k)).2) (givSeqT gs b v k)

/-- The rotations as a function of their index. -/
def gsFn (gs : List (K × K)) : Nat → K × K := fun i => gs.getD i (1, 0)

/-- `ElemOrthonormalSequence::applyToTheLeft(v, start, size)`, src/internal/OrthonormalSequence.cpp:50-87. -/
def Elem.apply (e : Elem K) (start size : Nat) (v : Nat → K) : Nat → K :=
  match e with
  | .house n [h] => houseOne n h.1 h.2 start size v
  | .house n hs => houseSeq n 0 hs v
  | .givens _ gs => givSeq (gsFn gs) (min gs.length (start + size)) v

/-- `ElemOrthonormalSequence::applyTransposeToTheLeft(v, start, size)`, src/internal/OrthonormalSequence.cpp:89-126. -/
def Elem.applyT (e : Elem K) (start size : Nat) (v : Nat → K) : Nat → K :=
  match e with
  | .house n [h] => houseOne n h.1 h.2 start size v
  | .house n hs => houseSeqT n 0 hs v
  | .givens _ gs => givSeqT (gsFn gs) (start - 1) v (gs.length - (start - 1))

/-- `OrthonormalSequence`: embedded sequences with their first row,
include/jrl-qp/internal/OrthonormalSequence.h:102-110. -/
abbrev OSeq (K : Type) := List (Nat × Elem K)

/-- `OrthonormalSequence::applyToTheLeft(v)`, src/internal/OrthonormalSequence.cpp:189-197: last one first. -/
def OSeq.apply : OSeq K → (Nat → K) → Nat → K
  | [], v => v
  | h :: t, v => segApply h.1 (h.2.apply 0 h.2.n) (OSeq.apply t v)

/-- `OrthonormalSequence::applyTransposeToTheLeft(v)`, src/internal/OrthonormalSequence.cpp:199-207. -/
def OSeq.applyT : OSeq K → (Nat → K) → Nat → K
  | [], v => v
  | h :: t, v => OSeq.applyT t (segApply h.1 (h.2.applyT 0 h.2.n) v)

/-- A vector and the range outside of which it is known to be zero (variables `out`, `start`, `end` of
src/internal/OrthonormalSequence.cpp:214-215, :233-234). -/
structure SegSt (K : Type) where
  v : Nat → K
  start : Nat
  fin : Nat

/-- Body of the loop of src/internal/OrthonormalSequence.cpp:218-224. -/
def segStep (h : Nat × Elem K) (st : SegSt K) : SegSt K :=
  if st.fin ≤ h.1 ∨ h.1 + h.2.n < st.start then st
  else
    let s := st.start - h.1
    let n := min h.2.n (st.fin - h.1)
    ⟨segApply h.1 (h.2.apply s (n - s)) st.v, min st.start h.1, max st.fin (h.1 + h.2.n)⟩

/-- Body of the loop of src/internal/OrthonormalSequence.cpp:237-243. -/
def segStepT (h : Nat × Elem K) (st : SegSt K) : SegSt K :=
  if st.fin ≤ h.1 ∨ h.1 + h.2.n < st.start then st
  else
    let s := st.start - h.1
    let n := min h.2.n (st.fin - h.1)
    ⟨segApply h.1 (h.2.applyT s (n - s)) st.v, min st.start h.1, max st.fin (h.1 + h.2.n)⟩

/-- `OrthonormalSequence::applyToTheLeft(out, in)`, src/internal/OrthonormalSequence.cpp:209-226. `u` is the previous content
of `out`. -/
def OSeq.applySeg (q : OSeq K) (u : Nat → K) (inp : SegVec K) : Nat → K :=
  (q.foldr segStep ⟨inp.toFull u, inp.start, inp.fin⟩).v

/-- `OrthonormalSequence::applyTransposeToTheLeft(out, in)`, src/internal/OrthonormalSequence.cpp:228-245. -/
def OSeq.applySegT (q : OSeq K) (u : Nat → K) (inp : SegVec K) : Nat → K :=
  (q.foldl (fun st h => segStepT h st) ⟨inp.toFull u, inp.start, inp.fin⟩).v

/-! ### Building a sequence -/

/-- `OrthonormalSequence::prepare`, src/internal/OrthonormalSequence.cpp:169-172. The capacity of the new sequence is not
modelled (`Workspace` asserts). -/
def OSeq.prepare (q : OSeq K) (e : Elem K) : OSeq K := q ++ [(0, e)]

/-- Number of elementary transformations, `size_`. -/
def Elem.count : Elem K → Nat
  | .house _ hs => hs.length
  | .givens _ gs => gs.length

/-- `ElemOrthonormalSequence::add(Givens)`, src/internal/OrthonormalSequence.cpp:28-36; `none`: assert on the type. -/
def Elem.addGivens (e : Elem K) (c s : K) : Option (Elem K) :=
  match e with
  | .givens n gs => some (.givens n (gs ++ [(c, s)]))
  | .house _ _ => none

/-- `ElemOrthonormalSequence::add(essential, tau)`, src/internal/OrthonormalSequence.cpp:38-48; `len` is
`essential.size()`. `none`: failed assert. -/
def Elem.addHouse (e : Elem K) (len : Nat) (ess : Nat → K) (tau : K) : Option (Elem K) :=
  match e with
  | .house n hs => if len + hs.length + 1 = n then some (.house n (hs ++ [(ess, tau)])) else none
  | .givens _ _ => none

/-- `OrthonormalSequence::add(start, …)`, src/internal/OrthonormalSequence.cpp:139-167, for a given way to add to the
last sequence. -/
def OSeq.addWith (add : Elem K → Option (Elem K)) (start : Nat) : OSeq K → Option (OSeq K)
  | [] => none
  | [(s, e)] =>
    if e.count = 0 then (add e).map fun e => [(start, e)]
    else if s + e.count = start then (add e).map fun e => [(s, e)]
    else none
  | h :: t => (OSeq.addWith add start t).map fun t => h :: t

end JrlQp
