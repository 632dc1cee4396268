import Verif.Scalar

/-!
# The Eigen operations used by the solvers

Eigen is not part of /repo. These definitions transcribe the algorithms of Eigen 3.4 for the calls made in the code:
`llt_inplace<double, Lower>::unblocked`, triangular solves, `JacobiRotation::makeGivens`, `applyOnTheRight`,
`applyOnTheLeft`, `norm`. Matrices are functions of (row, column) with the dimensions given separately.
-/

namespace JrlQp

variable {K B : Type} [Zero K] [One K] [Add K] [Sub K] [Neg K] [Mul K] [Div K] [NumOps K B] [SumOps K]

open NumOps

/-- Column `k` of the in-place Cholesky factorisation, used by src/GoldfarbIdnaniSolver.cpp:58
(`llt_inplace<double, Lower>`): `x = A(k,k) - ‖A(k,0:k)‖²`; failure if `x <= 0`; `A(k,k) = sqrt x`;
`A(i,k) = (A(i,k) - A(i,0:k)·A(k,0:k)) / A(k,k)` for `i > k`. Only the lower triangle is read or written. -/
def cholCol (n k : Nat) (M : Nat → Nat → K) : Option (Nat → Nat → K) :=
  let x := esub (.llt n k k) (M k k) (fun j => M k j * M k j) k
  if leb x 0 then none
  else
    let s := sqrt x
    some fun i j =>
      if j = k then
        if i = k then s
        else if k < i ∧ i < n then esub (.llt n i k) (M i k) (fun j => M i j * M k j) k / s
        else M i j
      else M i j

/-- In-place Cholesky, first `k` columns: `(factor, none)` on success, `(partial, some c)` if the pivot of column `c`
is not positive (Eigen returns `c`, and `-1` on success). src/GoldfarbIdnaniSolver.cpp:58. -/
def chol (n : Nat) (M : Nat → Nat → K) : Nat → (Nat → Nat → K) × Option Nat
  | 0 => (M, none)
  | k + 1 =>
    match chol n M k with
    | (M', some c) => (M', some c)
    | (M', none) =>
      match cholCol n k M' with
      | none => (M', some k)
      | some M'' => (M'', none)

/-- Forward substitution in place, first `k` unknowns: `L.solve(b)` of src/GoldfarbIdnaniSolver.cpp:70. -/
def fwdSub (L : Nat → Nat → K) (b : Nat → K) : Nat → (Nat → K)
  | 0 => b
  | k + 1 =>
    let y := fwdSub L b k
    upd y k (esub (.fwd k) (y k) (fun j => L k j * y j) k / L k k)

/-- Backward substitution in place with the upper triangular `n x n` matrix `U`, last `k` unknowns:
`R.solve(d)` of src/GoldfarbIdnaniSolver.cpp:146 and (with `U = Lᵀ`) `L.transpose().solveInPlace` of :66, :71. -/
def backSubK (U : Nat → Nat → K) (n : Nat) (b : Nat → K) : Nat → (Nat → K)
  | 0 => b
  | k + 1 =>
    let y := backSubK U n b k
    let i := n - 1 - k
    upd y i (esub (.bwd n i) (y i) (fun j => U i (i + 1 + j) * y (i + 1 + j)) k / U i i)

/-- Backward substitution with the `n x n` upper triangular matrix `U`. -/
def backSub (U : Nat → Nat → K) (n : Nat) (b : Nat → K) : Nat → K := backSubK U n b n

/-- Result of `makeGivens(p, q, &r)`. -/
structure Givens (K : Type) where
  c : K
  s : K
  r : K

/-- `Eigen::JacobiRotation<double>::makeGivens(p, q, &r)`, used in src/GoldfarbIdnaniSolver.cpp:229 and :249. -/
def makeGivens (p q : K) : Givens K :=
  if eqb q 0 then
    { c := if ltb p 0 then -1 else 1, s := 0, r := abs p }
  else if eqb p 0 then
    { c := 0, s := if ltb q 0 then 1 else -1, r := abs q }
  else if ltb (abs q) (abs p) then
    let t := q / p
    let u0 := sqrt (1 + t * t)
    let u := if ltb p 0 then -u0 else u0
    let c := 1 / u
    { c := c, s := -t * c, r := p * u }
  else
    let t := p / q
    let u0 := sqrt (1 + t * t)
    let u := if ltb q 0 then -u0 else u0
    let s := -1 / u
    { c := -t * s, s := s, r := q * u }

/-- Eigen skips the rotation when `c == 1` and `s == 0`. -/
def Givens.isId (g : Givens K) : Bool := eqb g.c (1 : K) && eqb g.s (0 : K)

/-- `J.applyOnTheRight(i, i+1, Q)` on the first `n` rows, src/GoldfarbIdnaniSolver.cpp:231, :252. -/
def rotCols (n : Nat) (J : Nat → Nat → K) (i : Nat) (g : Givens K) : Nat → Nat → K :=
  if g.isId then J
  else fun r c =>
    if r < n then
      if c = i then g.c * J r i - g.s * J r (i + 1)
      else if c = i + 1 then g.s * J r i + g.c * J r (i + 1)
      else J r c
    else J r c

/-- `R.rightCols(..).applyOnTheLeft(i, i+1, Q.transpose())` restricted to columns `lo ≤ c < hi`,
src/GoldfarbIdnaniSolver.cpp:251. -/
def rotRows (lo hi : Nat) (R : Nat → Nat → K) (i : Nat) (g : Givens K) : Nat → Nat → K :=
  if g.isId then R
  else fun r c =>
    if lo ≤ c ∧ c < hi then
      if r = i then g.c * R i c - g.s * R (i + 1) c
      else if r = i + 1 then g.s * R i c + g.c * R (i + 1) c
      else R r c
    else R r c

/-- `v.norm()` for a vector of size `n`. -/
def normn (n : Nat) (v : Nat → K) : K := sqrt (dotn n v v)

end JrlQp
