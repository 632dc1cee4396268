import Verif.Eigen

/-!
# Block Cholesky factorisations

Model of `src/decomposition/triBlockDiagLLT.cpp` and `src/decomposition/blockArrowLLT.cpp`. A sequence of blocks
(`std::vector<MatrixRef>`) is a function of the block index; `sz i` is `diag[i].rows()`. The blocks are assumed not to
overlap in memory. `llt_inplace<double, Lower>::blocked` is modelled by the unblocked factorisation `chol`, which
returns the same index (`none` for `-1`). Right-hand sides are one column: the triangular kernels treat the columns of
`M` independently.
-/

namespace JrlQp

variable {K B : Type} [Zero K] [One K] [Add K] [Sub K] [Neg K] [Mul K] [Div K] [NumOps K B] [SumOps K]

/-- A sequence of blocks. -/
abbrev Blocks (K : Type) := Nat → Nat → Nat → K

/-- Overwrite block `i`. -/
def setBlk (D : Blocks K) (i : Nat) (M : Nat → Nat → K) : Blocks K := fun k => if k = i then M else D k

/-- The test `ret > 0` of src/decomposition/triBlockDiagLLT.cpp:19, :32 and src/decomposition/blockArrowLLT.cpp:65, :80
(`ret` is `-1` on success and the index of the failing column otherwise, which may be 0). -/
def retPos : Option Nat → Bool
  | none => false
  | some c => decide (0 < c)

/-- `L.transpose().solveInPlace<OnTheRight>(S)`: `S ← S L⁻ᵀ` for an `nr x n` matrix,
src/decomposition/triBlockDiagLLT.cpp:23, src/decomposition/blockArrowLLT.cpp:72. -/
def solveRight (n nr : Nat) (L S : Nat → Nat → K) : Nat → Nat → K :=
  fun a c => if a < nr ∧ c < n then fwdSub L (S a) n c else S a c

/-- `D.selfadjointView<Lower>().rankUpdate(S, -1.)` with `S` of size `nr x nc`: `D ← D - S Sᵀ` on the lower triangle,
src/decomposition/triBlockDiagLLT.cpp:27, src/decomposition/blockArrowLLT.cpp:75. -/
def rankUpdate (nr nc : Nat) (D S : Nat → Nat → K) : Nat → Nat → K :=
  fun a c => if c ≤ a ∧ a < nr then esub (.rank a c) (D a c) (fun l => S a l * S c l) nc else D a c

/-- `triBlockDiagLLT` from block `i`, with `rem` blocks after it, src/decomposition/triBlockDiagLLT.cpp:9-35:
returned value and new content of `diag` and `subDiag`. -/
def triLLTFrom (sz : Nat → Nat) : Nat → Nat → Blocks K → Blocks K → Bool × Blocks K × Blocks K
  | 0, i, D, S =>
    let c := chol (sz i) (D i) (sz i)
    (!retPos c.2, setBlk D i c.1, S)
  | rem + 1, i, D, S =>
    let c := chol (sz i) (D i) (sz i)
    let D := setBlk D i c.1
    if retPos c.2 then (false, D, S)
    else
      let Si := solveRight (sz i) (sz (i + 1)) c.1 (S i)
      triLLTFrom sz rem (i + 1) (setBlk D (i + 1) (rankUpdate (sz (i + 1)) (sz i) (D (i + 1)) Si)) (setBlk S i Si)

/-- `triBlockDiagLLT(diag, subDiag)` with `b` diagonal blocks (`b ≥ 1`), src/decomposition/triBlockDiagLLT.cpp:9-35. -/
def triLLT (b : Nat) (sz : Nat → Nat) (D S : Blocks K) : Bool × Blocks K × Blocks K := triLLTFrom sz (b - 1) 0 D S

/-- `get<Up>::D` index, src/decomposition/blockArrowLLT.cpp:16-47. -/
def arrowIdx (up : Bool) (b i : Nat) : Nat := if up then (i + 1) % b else i

/-- Transpose if the arrow points up: `get<Up>::B`, src/decomposition/blockArrowLLT.cpp:16-47. -/
def trIf (up : Bool) (S : Nat → Nat → K) : Nat → Nat → K := if up then fun a c => S c a else S

/-- `L.solveInPlace<OnTheLeft>(S)`: `S ← L⁻¹ S` for an `n x nc` matrix, src/decomposition/blockArrowLLT.cpp:70. -/
def solveLeft (n nc : Nat) (L S : Nat → Nat → K) : Nat → Nat → K :=
  fun a c => if a < n ∧ c < nc then fwdSub L (fun k => S k c) n a else S a c

/-- Loop of `blockArrowLLT_`, first `k` iterations, src/decomposition/blockArrowLLT.cpp:60-76: `false` as first
component if the function has returned `false`. -/
def arrowLLTK (up : Bool) (b : Nat) (sz : Nat → Nat) (D S : Blocks K) : Nat → Bool × Blocks K × Blocks K
  | 0 => (true, D, S)
  | i + 1 =>
    match arrowLLTK up b sz D S i with
    | (false, D, S) => (false, D, S)
    | (true, D, S) =>
      let di := arrowIdx up b i
      let hub := arrowIdx up b (b - 1)
      let c := chol (sz di) (D di) (sz di)
      let D := setBlk D di c.1
      if retPos c.2 then (false, D, S)
      else
        let Si := if up then solveLeft (sz di) (sz hub) c.1 (S i) else solveRight (sz di) (sz hub) c.1 (S i)
        (true, setBlk D hub (rankUpdate (sz hub) (sz di) (D hub) (trIf up Si)), setBlk S i Si)

/-- `blockArrowLLT(diag, side, up)` with `b` diagonal blocks, src/decomposition/blockArrowLLT.cpp:52-89. -/
def arrowLLT (up : Bool) (b : Nat) (sz : Nat → Nat) (D S : Blocks K) : Bool × Blocks K × Blocks K :=
  match arrowLLTK up b sz D S (b - 1) with
  | (false, D, S) => (false, D, S)
  | (true, D, S) =>
    let hub := arrowIdx up b (b - 1)
    let c := chol (sz hub) (D hub) (sz hub)
    (!retPos c.2, setBlk D hub c.1, S)

/-! ## Triangular solves -/

/-- Forward substitution with the `r x r` bottom right corner of the `ni x ni` matrix `L` on the rows
`lo, …, lo + r - 1` of `M` (`Li.solveInPlace(M.middleRows(lo, r))`),
src/decomposition/triBlockDiagLLT.cpp:74-77, :82-87, src/decomposition/blockArrowLLT.cpp:136-139, :148-151. -/
def solveRows (L : Nat → Nat → K) (sh lo r : Nat) (M : Nat → K) : Nat → K :=
  fun k => if lo ≤ k ∧ k < lo + r then fwdSub (fun a c => L (sh + a) (sh + c)) (fun a => M (lo + a)) r (k - lo) else M k

/-- Backward substitution with the transpose of the `r x r` top left corner of `L` on the rows `lo, …, lo + r - 1` of `M`,
src/decomposition/triBlockDiagLLT.cpp:136-139, :144-149, src/decomposition/blockArrowLLT.cpp:209-211, :240-248. -/
def solveRowsT (L : Nat → Nat → K) (lo r : Nat) (M : Nat → K) : Nat → K :=
  fun k => if lo ≤ k ∧ k < lo + r then backSub (fun a c => L c a) r (fun a => M (lo + a)) (k - lo) else M k

/-- `M.middleRows(lo, nr) -= S * M.middleRows(l, nc)`, src/decomposition/triBlockDiagLLT.cpp:85, :147,
src/decomposition/blockArrowLLT.cpp:141, :234. -/
def subProd (nr nc : Nat) (S : Nat → Nat → K) (lo l : Nat) (M : Nat → K) : Nat → K :=
  fun k => if lo ≤ k ∧ k < lo + nr then esub (.blockSub k) (M k) (fun c => S (k - lo) c * M (l + c)) nc else M k

/-- State of the loop of `triBlockDiagLSolve`: first row of the block, of the previous block, flag, right-hand side. -/
structure TriSt (K : Type) where
  n : Nat
  l : Nat
  li : Nat
  zero : Bool
  M : Nat → K

/-- One iteration of `triBlockDiagLSolve`, src/decomposition/triBlockDiagLLT.cpp:61-94. -/
def triLStep (sz : Nat → Nat) (D S : Blocks K) (start : Nat) (st : TriSt K) (i : Nat) : TriSt K :=
  let ni := sz i
  let st' : TriSt K :=
    if start ≤ st.n + ni then
      if st.zero then
        let r := st.n + ni - start
        { st with M := solveRows (D i) (ni - r) start r st.M, zero := false }
      else
        { st with M := solveRows (D i) 0 st.n ni (subProd ni st.li (S (i - 1)) st.n st.l st.M) }
    else st
  { st' with l := st.n, li := ni, n := st.n + ni }

/-- `triBlockDiagLSolve(diag, subDiag, M, start)`, src/decomposition/triBlockDiagLLT.cpp:37-96. -/
def triLSolve (b : Nat) (sz : Nat → Nat) (D S : Blocks K) (M : Nat → K) (start : Nat) : Nat → K :=
  ((List.range b).foldl (triLStep sz D S start) ⟨0, 0, 0, true, M⟩).M

/-- One iteration of `triBlockDiagLTransposeSolve`, src/decomposition/triBlockDiagLLT.cpp:123-156. Here `n` is the end of
block `i`, `l` the end and `li` the size of the previously treated block `i + 1`. -/
def triLTStep (sz : Nat → Nat) (D S : Blocks K) (stop : Nat) (st : TriSt K) (i : Nat) : TriSt K :=
  let ni := sz i
  let st' : TriSt K :=
    if st.n - ni < stop then
      if st.zero then
        { st with M := solveRowsT (D i) (st.n - ni) (stop + ni - st.n) st.M, zero := false }
      else
        let M := subProd ni st.li (fun a c => S i c a) (st.n - ni) (st.l - st.li) st.M
        { st with M := solveRowsT (D i) (st.n - ni) ni M }
    else st
  { st' with l := st.n, li := ni, n := st.n - ni }

/-- First row of block `i`. -/
def off (sz : Nat → Nat) : Nat → Nat
  | 0 => 0
  | i + 1 => off sz i + sz i

/-- Blocks `k-1, …, 0` treated in that order. -/
def triLTFrom (sz : Nat → Nat) (D S : Blocks K) (stop : Nat) : Nat → TriSt K → TriSt K
  | 0, st => st
  | k + 1, st => triLTFrom sz D S stop k (triLTStep sz D S stop st k)

/-- `triBlockDiagLTransposeSolve(diag, subDiag, M, end)`, src/decomposition/triBlockDiagLLT.cpp:98-158.
`stop = none` is `end < 0`. -/
def triLTSolve (b : Nat) (sz : Nat → Nat) (D S : Blocks K) (M : Nat → K) (stop : Option Nat) : Nat → K :=
  (triLTFrom sz D S (stop.getD (off sz b)) b ⟨off sz b, 0, 0, true, M⟩).M

/-- Loop of `blockArrowLSolve_`, first `k` blocks: first row `n` of the next block and right-hand side. `N` is `M.rows()`.
An Eigen size mismatch (`bottomRows(diag.back().rows())` is not the size of the hub block) is `none`.
src/decomposition/blockArrowLLT.cpp:120-143. -/
def arrowLK (up : Bool) (b : Nat) (sz : Nat → Nat) (D S : Blocks K) (N start stop : Nat) (M : Nat → K) :
    Nat → Option (Nat × (Nat → K))
  | 0 => some (0, M)
  | i + 1 =>
    match arrowLK up b sz D S N start stop M i with
    | none => none
    | some (n, M) =>
      let di := arrowIdx up b i
      let hub := arrowIdx up b (b - 1)
      let ni := sz di
      let s := start - n
      if ni < s ∨ stop ≤ n then some (n + ni, M)
      else
        let M := solveRows (D di) s (n + s) (ni - s) M
        if sz (b - 1) = sz hub then
          some (n + ni, subProd (sz (b - 1)) (ni - s) (fun a c => trIf up (S i) a (s + c)) (N - sz (b - 1)) (n + s) M)
        else none

/-- `blockArrowLSolve_<Up>`, src/decomposition/blockArrowLLT.cpp:91-152. -/
def arrowLSolve_ (up : Bool) (b : Nat) (sz : Nat → Nat) (D S : Blocks K) (N start stop : Nat) (M : Nat → K) :
    Option (Nat → K) :=
  match arrowLK up b sz D S N start stop M (b - 1) with
  | none => none
  | some (n, M) =>
    let hub := arrowIdx up b (b - 1)
    some (solveRows (D hub) 0 n (sz hub) M)

/-- Move the first `n0` of `N` rows to the end, src/decomposition/blockArrowLLT.cpp:165-169. -/
def rotUp (N n0 : Nat) (M : Nat → K) : Nat → K :=
  fun k => if k < N - n0 then M (k + n0) else if k < N then M (k - (N - n0)) else M k

/-- Move the last `n0` of `N` rows to the front, src/decomposition/blockArrowLLT.cpp:267-271. -/
def rotDown (N n0 : Nat) (M : Nat → K) : Nat → K :=
  fun k => if k < n0 then M (k + (N - n0)) else if k < N then M (k - n0) else M k

/-- `blockArrowLSolve(diag, side, up, v, start, end)`, src/decomposition/blockArrowLLT.cpp:154-176. -/
def arrowLSolve (up : Bool) (b : Nat) (sz : Nat → Nat) (D S : Blocks K) (M : Nat → K) (start : Nat) (stop : Option Nat) :
    Option (Nat → K) :=
  let N := off sz b
  let e := stop.getD N
  if up then arrowLSolve_ true b sz D S N (start - sz 0) (e - sz 0) (rotUp N (sz 0) M)
  else arrowLSolve_ false b sz D S N start e M

/-- Loop of `blockArrowLTransposeSolve_`, first `k` blocks, src/decomposition/blockArrowLLT.cpp:218-252. -/
def arrowLTK (up : Bool) (b : Nat) (sz : Nat → Nat) (D S : Blocks K) (N start stop : Nat) (zero : Bool) (M : Nat → K) :
    Nat → Nat × (Nat → K)
  | 0 => (0, M)
  | i + 1 =>
    let nM := arrowLTK up b sz D S N start stop zero M i
    let n := nM.1
    let M := nM.2
    let di := arrowIdx up b i
    let nb := sz (arrowIdx up b (b - 1))
    let ni := sz di
    if zero = true ∧ n + ni ≤ start then (n + ni, M)
    else
      let M := if zero then M else subProd ni nb (fun a c => trIf up (S i) c a) n (N - nb) M
      if n ≤ stop then
        if n + ni ≤ stop then (n + ni, solveRowsT (D di) n ni M)
        else (n + ni, solveRowsT (D di) n (stop - n) M)
      else (n + ni, M)

/-- `blockArrowLTransposeSolve_<Up>`, src/decomposition/blockArrowLLT.cpp:178-253. -/
def arrowLTSolve_ (up : Bool) (b : Nat) (sz : Nat → Nat) (D S : Blocks K) (N start stop : Nat) (M : Nat → K) : Nat → K :=
  let hub := arrowIdx up b (b - 1)
  let nb := sz hub
  if N - nb < stop then
    (arrowLTK up b sz D S N start stop false (solveRowsT (D hub) (N - nb) (stop + nb - N) M) (b - 1)).2
  else (arrowLTK up b sz D S N start stop true M (b - 1)).2

/-- `blockArrowLTransposeSolve(diag, side, up, v, start, end)`, src/decomposition/blockArrowLLT.cpp:255-277. -/
def arrowLTSolve (up : Bool) (b : Nat) (sz : Nat → Nat) (D S : Blocks K) (M : Nat → K) (start : Nat) (stop : Option Nat) :
    Nat → K :=
  let N := off sz b
  let e := stop.getD N
  if up then rotDown N (sz 0) (arrowLTSolve_ true b sz D S N start e M)
  else arrowLTSolve_ false b sz D S N start e M

end JrlQp
