import Mathlib.Data.EReal.Operations
import Mathlib.Analysis.Real.Sqrt

/-!
# Scalars

The solver is written with `double`. The model is generic in a scalar type `K` that has the arithmetic operations
but *no law*, so that what is proved generically holds for IEEE doubles, infinities and NaN included.
Bounds have their own type `B`, so that the exact instance (`K = ℝ`) can have infinite bounds (`B = EReal`).
-/

namespace JrlQp

/-- Comparisons and non-field operations of the `double` type used by the code. No law is assumed. -/
class NumOps (K : Type) (B : outParam Type) where
  /-- `a < b` -/
  ltb : K → K → Bool
  /-- `a <= b` -/
  leb : K → K → Bool
  /-- `a == b` -/
  eqb : K → K → Bool
  /-- `std::sqrt` -/
  sqrt : K → K
  /-- `std::abs` -/
  abs : K → K
  /-- the literal `0.5` -/
  half : K
  /-- `b1 == b2` on bounds -/
  bEq : B → B → Bool
  /-- `s1 < s2` on slacks -/
  bLt : B → B → Bool
  /-- the literal `0` as a slack -/
  bZero : B
  /-- `cx - bl` -/
  slackLow : K → B → B
  /-- `bu - cx` -/
  slackUp : B → K → B
  /-- the value of a bound as a scalar -/
  toK : B → K
  /-- a scalar compared with a bound -/
  ofK : K → B

/-- Executable instance. -/
instance : NumOps Float Float where
  ltb a b := decide (a < b)
  leb a b := decide (a ≤ b)
  eqb a b := a == b
  sqrt := Float.sqrt
  abs := Float.abs
  half := 0.5
  bEq a b := a == b
  bLt a b := decide (a < b)
  bZero := 0
  slackLow a b := a - b
  slackUp a b := a - b
  toK a := a
  ofK a := a

open Classical in
/-- Exact instance: real numbers, bounds in `[-∞, +∞]`. `toK` of an infinite bound is meaningless and is only
reached on malformed problems (`bl = +∞` or `bu = -∞`), which the exact theorems exclude. -/
noncomputable instance : NumOps ℝ EReal where
  ltb a b := decide (a < b)
  leb a b := decide (a ≤ b)
  eqb a b := decide (a = b)
  sqrt := Real.sqrt
  abs a := |a|
  half := 1 / 2
  bEq a b := decide (a = b)
  bLt a b := decide (a < b)
  bZero := 0
  slackLow a b := (a : EReal) - b
  slackUp b a := b - (a : EReal)
  toK a := a.toReal
  ofK a := (a : EReal)

/-- Operations on a vector buffer: overwrite entry `i`. -/
def upd {α : Type} (v : Nat → α) (i : Nat) (a : α) : Nat → α := fun j => if j = i then a else v j

/-- Overwrite the first `n` entries of a buffer with `f`. -/
def wr {α : Type} (n : Nat) (f v : Nat → α) : Nat → α := fun j => if j < n then f j else v j

/-- Overwrite entry `(i,j)` of a matrix buffer. -/
def upd2 {α : Type} (M : Nat → Nat → α) (i j : Nat) (a : α) : Nat → Nat → α :=
  fun r c => if r = i ∧ c = j then a else M r c

/-- `f 0 + f 1 + ... + f (n-1)`, added from the left: the order used by the exact instance, where the order does not matter. -/
def sumTo {K : Type} [Zero K] [Add K] (f : Nat → K) : Nat → K
  | 0 => 0
  | n + 1 => sumTo f n + f n

/-! ### Order of the additions

Eigen chooses the order in which the terms of a product are added (vectorised reductions, several accumulators, blocks). It is not part of
/repo, so the model leaves it open: the scalar type comes with an arbitrary order for each place of the code where terms are added. -/

/-- The places of the code where Eigen adds terms, with the indices of the coefficient that is computed. -/
inductive Site where
  /-- coefficient `(i, k)` of a Cholesky factorisation of size `n` -/
  | llt (n i k : Nat)
  /-- coefficient `k` of a forward substitution -/
  | fwd (k : Nat)
  /-- coefficient `i` of a backward substitution of size `n` -/
  | bwd (n i : Nat)
  /-- coefficient `(a, c)` of the product subtracted from a block by a block factorisation -/
  | rank (a c : Nat)
  /-- coefficient `k` of the product subtracted from a block by a block substitution -/
  | blockSub (k : Nat)
  /-- coefficient `j` of the product of a transposed matrix by the normal of a constraint -/
  | normalMul (n j : Nat)
  /-- product of the normal of a constraint and a vector -/
  | normalDot (n : Nat)
  /-- value of constraint `i` -/
  | slack (n i : Nat)
  /-- coefficient `i` of the primal step -/
  | primalStep (n i : Nat)
  /-- norm of a vector -/
  | norm (n : Nat)
  /-- value of the objective -/
  | objective (n : Nat)
  /-- reflections: norm of the tail of a vector, product with a vector -/
  | house (n : Nat)
  /-- products with the matrices of the factorisation, in the initialisation with a warm start and in the structured solver -/
  | init (name i : Nat)

/-- A parenthesised sum: a binary tree whose leaves are the indices of the terms, or zeros (initial values of accumulators). -/
inductive SumTree where
  | zero
  | leaf (i : Nat)
  | node (l r : SumTree)

namespace SumTree

/-- The indices of the terms. -/
def leaves : SumTree → List Nat
  | zero => []
  | leaf i => [i]
  | node l r => l.leaves ++ r.leaves

/-- The value of the sum. -/
def eval {K : Type} [Zero K] [Add K] (f : Nat → K) : SumTree → K
  | zero => 0
  | leaf i => f i
  | node l r => l.eval f + r.eval f

/-- `((0 + f 0) + f 1) + ...` -/
def left : Nat → SumTree
  | 0 => zero
  | n + 1 => node (left n) (leaf n)

theorem leaves_left (n : Nat) : (left n).leaves = List.range n := by
  induction n with
  | zero => rfl
  | succ n ih => rw [left, leaves, ih, leaves, List.range_succ]

theorem eval_left {K : Type} [Zero K] [Add K] (f : Nat → K) (n : Nat) : (left n).eval f = sumTo f n := by
  induction n with
  | zero => rfl
  | succ n ih => rw [left, eval, ih, eval, sumTo]

end SumTree

/-- How the terms are added. `esum s f n` is `f 0 + ... + f (n-1)` and `esub s y f n` is `y - (f 0 + ... + f (n-1))`, each evaluated with some
parentheses and in some order that may depend on the place `s` and on `n` but not on the values: for `esub`, the terms are subtracted one after
the other (column oriented substitution), all at once (row oriented), or by groups (blocks). -/
class SumOps (K : Type) [Zero K] [Add K] [Sub K] where
  esum : Site → (Nat → K) → Nat → K
  esub : Site → K → (Nat → K) → Nat → K
  esum_tree : ∀ s n, ∃ t : SumTree, t.leaves.Perm (List.range n) ∧ ∀ f, esum s f n = t.eval f
  esub_tree : ∀ s n, ∃ ts : List SumTree, (ts.flatMap SumTree.leaves).Perm (List.range n) ∧
    ∀ y f, esub s y f n = ts.foldl (fun acc t => acc - t.eval f) y

export SumOps (esum esub)

/-- Executable instance: from the left. -/
instance : SumOps Float where
  esum _ f n := sumTo f n
  esub _ y f n := y - sumTo f n
  esum_tree _ n := ⟨.left n, by rw [SumTree.leaves_left], fun f => (SumTree.eval_left f n).symm⟩
  esub_tree _ n := ⟨[.left n], by simp [SumTree.leaves_left], fun y f => by simp [SumTree.eval_left]⟩

/-- Exact instance: the order does not matter. -/
noncomputable instance : SumOps ℝ where
  esum _ f n := sumTo f n
  esub _ y f n := y - sumTo f n
  esum_tree _ n := ⟨.left n, by rw [SumTree.leaves_left], fun f => (SumTree.eval_left f n).symm⟩
  esub_tree _ n := ⟨[.left n], by simp [SumTree.leaves_left], fun y f => by simp [SumTree.eval_left]⟩

theorem esum_real (s : Site) (f : Nat → ℝ) (n : Nat) : esum s f n = sumTo f n := rfl

theorem esub_real (s : Site) (y : ℝ) (f : Nat → ℝ) (n : Nat) : esub s y f n = y - sumTo f n := rfl

section
variable {K : Type} [Zero K] [Add K] [Sub K] [SumOps K]

theorem SumTree.eval_congr {t : SumTree} {f g : Nat → K} (h : ∀ i ∈ t.leaves, f i = g i) : t.eval f = t.eval g := by
  induction t with
  | zero => rfl
  | leaf i => exact h i (by simp [leaves])
  | node l r ihl ihr =>
    rw [eval, eval, ihl fun i hi => h i (List.mem_append_left _ hi), ihr fun i hi => h i (List.mem_append_right _ hi)]

/-- Only the first `n` terms matter. -/
theorem esum_congr {s : Site} {f g : Nat → K} {n : Nat} (h : ∀ i < n, f i = g i) : esum s f n = esum s g n := by
  obtain ⟨t, ht, e⟩ := SumOps.esum_tree (K := K) s n
  rw [e, e]
  exact SumTree.eval_congr fun i hi => h i (List.mem_range.1 (ht.subset hi))

theorem esub_congr {s : Site} {y y' : K} {f g : Nat → K} {n : Nat} (hy : y = y') (h : ∀ i < n, f i = g i) : esub s y f n = esub s y' g n := by
  obtain ⟨ts, ht, e⟩ := SumOps.esub_tree (K := K) s n
  have hm : ∀ t ∈ ts, ∀ i ∈ t.leaves, f i = g i := fun t h1 i h2 => h i (List.mem_range.1 (ht.subset (List.mem_flatMap.2 ⟨t, h1, h2⟩)))
  rw [e, e, hy]
  clear e ht hy y
  induction ts generalizing y' with
  | nil => rfl
  | cons t ts ih =>
    rw [List.foldl_cons, List.foldl_cons, SumTree.eval_congr (hm t (by simp)), ih fun t' h' => hm t' (by simp [h'])]

theorem esum_zero (hz : (0 : K) + 0 = 0) (s : Site) (n : Nat) : esum s (fun _ => (0 : K)) n = 0 := by
  obtain ⟨t, -, e⟩ := SumOps.esum_tree (K := K) s n
  rw [e]
  clear e
  induction t with
  | zero => rfl
  | leaf i => rfl
  | node l r ihl ihr => rw [SumTree.eval, ihl, ihr, hz]

theorem esum_eq_zero (hz : (0 : K) + 0 = 0) {s : Site} {f : Nat → K} {n : Nat} (h : ∀ i < n, f i = 0) : esum s f n = 0 :=
  (esum_congr h).trans (esum_zero hz s n)

end

/-- Dot product of vectors of size `n`. -/
def dotn {K : Type} [Zero K] [Add K] [Sub K] [Mul K] [SumOps K] (n : Nat) (u v : Nat → K) : K := esum (.norm n) (fun i => u i * v i) n

end JrlQp
