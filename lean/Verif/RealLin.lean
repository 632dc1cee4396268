import Verif.Eigen
import Mathlib.Algebra.BigOperators.Intervals
import Mathlib.Algebra.BigOperators.Ring.Finset
import Mathlib.Algebra.Order.BigOperators.Group.Finset
import Mathlib.LinearAlgebra.Matrix.NonsingularInverse
import Mathlib.LinearAlgebra.Matrix.PosDef
import Mathlib.Tactic.Linarith
import Mathlib.Tactic.Ring
import Mathlib.Tactic.FieldSimp
import Mathlib.Tactic.Positivity

/-!
# The Eigen operations in exact arithmetic

Specifications of the operations of `Verif/Eigen.lean` for `K = ℝ`: triangular solves solve, the Cholesky factorisation
succeeds exactly on positive definite matrices and factors them, Givens rotations are orthogonal.
-/

set_option linter.unusedSectionVars false

namespace JrlQp

open NumOps Finset

theorem sumTo_eq (f : Nat → ℝ) (n : Nat) : sumTo f n = ∑ i ∈ range n, f i := by
  induction n with
  | zero => rfl
  | succ n ih => rw [sumTo, ih, sum_range_succ]

theorem esum_eq (s : Site) (f : Nat → ℝ) (n : Nat) : esum s f n = ∑ i ∈ range n, f i := sumTo_eq f n

theorem esub_eq (s : Site) (y : ℝ) (f : Nat → ℝ) (n : Nat) : esub s y f n = y - ∑ i ∈ range n, f i := by rw [esub_real, sumTo_eq]

theorem dotn_eq (n : Nat) (u v : Nat → ℝ) : dotn n u v = ∑ i ∈ range n, u i * v i := sumTo_eq _ _

@[simp] theorem ltb_real (a b : ℝ) : ltb a b = true ↔ a < b := by simp [ltb]
@[simp] theorem leb_real (a b : ℝ) : leb a b = true ↔ a ≤ b := by simp [leb]
@[simp] theorem eqb_real (a b : ℝ) : eqb a b = true ↔ a = b := by simp [eqb]
@[simp] theorem ltb_real_f (a b : ℝ) : ltb a b = false ↔ b ≤ a := by simp [ltb]
@[simp] theorem leb_real_f (a b : ℝ) : leb a b = false ↔ b < a := by simp [leb]

/-! ### Finite sums -/

/-- Kronecker delta. -/
def kd (i j : Nat) : ℝ := if i = j then 1 else 0

theorem sum_kd {n i : Nat} (hi : i < n) (f : Nat → ℝ) : ∑ j ∈ range n, kd i j * f j = f i := by
  simp [kd, hi]

theorem sum_kd' {n i : Nat} (hi : i < n) (f : Nat → ℝ) : ∑ j ∈ range n, f j * kd j i = f i := by
  simp [kd, hi]

/-- Terms of a sum that vanish can be dropped. -/
theorem sum_cut {c n : Nat} (hc : c ≤ n) (f : Nat → ℝ) (hf : ∀ i, c ≤ i → i < n → f i = 0) :
    ∑ i ∈ range n, f i = ∑ i ∈ range c, f i := by
  symm
  apply sum_subset (range_subset_range.2 hc)
  intro i hi hi'
  exact hf i (by simpa using hi') (mem_range.1 hi)

/-- A left inverse of a square matrix is a right inverse. -/
theorem inv_comm {n : Nat} {A M : Nat → Nat → ℝ}
    (h : ∀ i < n, ∀ j < n, ∑ k ∈ range n, A i k * M k j = kd i j) :
    ∀ i < n, ∀ j < n, ∑ k ∈ range n, M i k * A k j = kd i j := by
  let A' : Matrix (Fin n) (Fin n) ℝ := Matrix.of fun i j => A i j
  let M' : Matrix (Fin n) (Fin n) ℝ := Matrix.of fun i j => M i j
  have h1 : A' * M' = 1 := by
    ext i j
    have := h i i.2 j j.2
    rw [Finset.sum_range] at this
    simp only [Matrix.mul_apply, A', M', Matrix.of_apply, this, kd, Matrix.one_apply, Fin.ext_iff]
  have h2 : M' * A' = 1 := mul_eq_one_comm.1 h1
  intro i hi j hj
  have := congrFun (congrFun h2 ⟨i, hi⟩) ⟨j, hj⟩
  rw [Finset.sum_range]
  simpa only [Matrix.mul_apply, A', M', Matrix.of_apply, kd, Matrix.one_apply, Fin.ext_iff] using this

/-! ### Triangular solves -/

theorem backSubK_spec (U : Nat → Nat → ℝ) (n : Nat) (b : Nat → ℝ) (hU : ∀ i < n, U i i ≠ 0) (k : Nat) (hk : k ≤ n) :
    (∀ i, i < n - k → backSubK U n b k i = b i) ∧
    (∀ i, n - k ≤ i → i < n → U i i * backSubK U n b k i
        + ∑ j ∈ range (n - 1 - i), U i (i + 1 + j) * backSubK U n b k (i + 1 + j) = b i) := by
  induction k with
  | zero => exact ⟨fun i _ => rfl, fun i h1 h2 => by omega⟩
  | succ k ih =>
    obtain ⟨h1, h2⟩ := ih (by omega)
    simp only [backSubK]
    generalize hy : backSubK U n b k = y at h1 h2 ⊢
    constructor
    · intro i hi
      rw [upd, if_neg (by omega)]
      exact h1 i (by omega)
    · intro i hi hin
      by_cases he : i = n - 1 - k
      · subst he
        have hs : ∀ v, ∑ j ∈ range (n - 1 - (n - 1 - k)), U (n - 1 - k) (n - 1 - k + 1 + j) *
            upd y (n - 1 - k) v (n - 1 - k + 1 + j)
            = sumTo (fun j => U (n - 1 - k) (n - 1 - k + 1 + j) * y (n - 1 - k + 1 + j)) k := by
          intro v
          rw [sumTo_eq, show n - 1 - (n - 1 - k) = k by omega]
          apply sum_congr rfl
          intro j _
          rw [upd, if_neg (by omega)]
        rw [hs]
        rw [upd, if_pos rfl, h1 _ (by omega), esub_real]
        have := hU (n - 1 - k) (by omega)
        field_simp
        ring
      · have h3 := h2 i (by omega) hin
        rw [upd, if_neg he]
        rw [← h3]
        congr 1
        apply sum_congr rfl
        intro j _
        rw [upd, if_neg (by omega)]

/-- Splits a triangular row product at the diagonal. -/
theorem tri_sum (n i : Nat) (hi : i < n) (f : Nat → ℝ) :
    ∑ j ∈ range n, (if i ≤ j then f j else 0) = f i + ∑ j ∈ range (n - 1 - i), f (i + 1 + j) := by
  have h : n = i + ((n - 1 - i) + 1) := by omega
  conv_lhs => rw [h]
  rw [sum_range_add, sum_range_succ']
  have h0 : ∑ x ∈ range i, (if i ≤ x then f x else 0) = 0 := by
    apply sum_eq_zero
    intro x hx
    rw [if_neg (by have := mem_range.1 hx; omega)]
  rw [h0, zero_add, add_comm]
  congr 1
  · simp
  · apply sum_congr rfl
    intro j _
    rw [if_pos (by omega)]
    congr 1; omega

/-- Backward substitution solves the upper triangular system. -/
theorem backSub_spec (U : Nat → Nat → ℝ) (n : Nat) (b : Nat → ℝ) (hU : ∀ i < n, U i i ≠ 0) :
    ∀ i < n, ∑ j ∈ range n, (if i ≤ j then U i j else 0) * backSub U n b j = b i := by
  intro i hi
  have h := (backSubK_spec U n b hU n le_rfl).2 i (by omega) hi
  rw [← h]
  have := tri_sum n i hi (fun j => U i j * backSub U n b j)
  simp only [ite_mul, zero_mul] at this ⊢
  rw [this]; rfl

theorem fwdSub_spec (L : Nat → Nat → ℝ) (b : Nat → ℝ) (n : Nat) (hL : ∀ i < n, L i i ≠ 0) (k : Nat) (hk : k ≤ n) :
    (∀ i, k ≤ i → fwdSub L b k i = b i) ∧
    (∀ i, i < k → L i i * fwdSub L b k i + ∑ j ∈ range i, L i j * fwdSub L b k j = b i) := by
  induction k with
  | zero => exact ⟨fun i _ => rfl, fun i h => by omega⟩
  | succ k ih =>
    obtain ⟨h1, h2⟩ := ih (by omega)
    simp only [fwdSub]
    generalize hy : fwdSub L b k = y at h1 h2 ⊢
    constructor
    · intro i hi
      rw [upd, if_neg (by omega)]
      exact h1 i (by omega)
    · intro i hi
      have hs : ∀ v, ∀ i ≤ k, ∑ j ∈ range i, L i j * upd y k v j = ∑ j ∈ range i, L i j * y j := by
        intro v i hi
        apply sum_congr rfl
        intro j hj
        rw [upd, if_neg (by have := mem_range.1 hj; omega)]
      by_cases he : i = k
      · subst he
        rw [hs _ _ le_rfl, upd, if_pos rfl, esub_eq, h1 _ le_rfl]
        have := hL i (by omega)
        field_simp
        ring
      · rw [hs _ _ (by omega), upd, if_neg he]
        exact h2 i (by omega)

/-- Forward substitution solves the lower triangular system. -/
theorem fwdSub_spec' (L : Nat → Nat → ℝ) (b : Nat → ℝ) (n : Nat) (hL : ∀ i < n, L i i ≠ 0) :
    ∀ i < n, ∑ j ∈ range n, (if j ≤ i then L i j else 0) * fwdSub L b n j = b i := by
  intro i hi
  rw [← (fwdSub_spec L b n hL n le_rfl).2 i hi]
  have h : n = (i + 1) + (n - 1 - i) := by omega
  have h0 : ∑ x ∈ range (n - 1 - i), (if i + 1 + x ≤ i then L i (i + 1 + x) else 0) * fwdSub L b n (i + 1 + x) = 0 := by
    apply sum_eq_zero
    intro x _
    rw [if_neg (by omega), zero_mul]
  have e : ∑ j ∈ range n, (if j ≤ i then L i j else 0) * fwdSub L b n j
      = ∑ j ∈ range ((i + 1) + (n - 1 - i)), (if j ≤ i then L i j else 0) * fwdSub L b n j := by rw [← h]
  rw [e, sum_range_add, h0, add_zero, sum_range_succ, add_comm, if_pos le_rfl]
  congr 1
  apply sum_congr rfl
  intro j hj
  rw [if_pos (by have := mem_range.1 hj; omega)]

/-! ### Cholesky -/

/-- The symmetric matrix given by the lower triangle of `M`. -/
def symLow (M : Nat → Nat → ℝ) (i j : Nat) : ℝ := if j ≤ i then M i j else M j i

theorem symLow_comm (M : Nat → Nat → ℝ) (i j : Nat) : symLow M i j = symLow M j i := by
  simp only [symLow]
  by_cases h : j ≤ i <;> by_cases h' : i ≤ j
  · have : i = j := by omega
    subst this; rfl
  · simp [h, h']
  · simp [h, h']
  · omega

/-- The lower triangular part. -/
def low (L : Nat → Nat → ℝ) (i j : Nat) : ℝ := if j ≤ i then L i j else 0

/-- Loop invariant of the Cholesky factorisation. -/
theorem chol_inv (n : Nat) (M : Nat → Nat → ℝ) (k : Nat) (hk : k ≤ n) (L : Nat → Nat → ℝ)
    (h : chol n M k = (L, none)) :
    (∀ i, ∀ j, k ≤ j → L i j = M i j) ∧ (∀ j < k, 0 < L j j) ∧
    (∀ j < k, ∀ i, j ≤ i → i < n → ∑ l ∈ range (j + 1), L i l * L j l = M i j) := by
  induction k generalizing L with
  | zero =>
    simp only [chol, Prod.mk.injEq, and_true] at h
    subst h
    exact ⟨fun _ _ _ => rfl, fun _ h => by omega, fun _ h => by omega⟩
  | succ k ih =>
    simp only [chol] at h
    rcases hc : chol n M k with ⟨P, o⟩
    rw [hc] at h
    cases o with
    | some c => simp at h
    | none =>
      simp only at h
      obtain ⟨h1, h2, h3⟩ := ih (by omega) P hc
      cases hcc : cholCol n k P with
      | none => rw [hcc] at h; simp at h
      | some Q =>
        rw [hcc] at h
        simp only [Prod.mk.injEq, and_true] at h
        subst h
        unfold cholCol at hcc
        simp only [] at hcc
        by_cases hx : leb (esub (.llt n k k) (P k k) (fun j => P k j * P k j) k) 0 = true
        · rw [if_pos hx] at hcc; cases hcc
        · rw [if_neg hx] at hcc
          have hx' : 0 < P k k - ∑ j ∈ range k, P k j * P k j := by
            rw [leb_real, not_le, esub_eq] at hx; exact hx
          have hs : 0 < Real.sqrt (P k k - ∑ j ∈ range k, P k j * P k j) := Real.sqrt_pos.2 hx'
          have hss := Real.mul_self_sqrt hx'.le
          simp only [Option.some.injEq, esub_eq] at hcc
          have hQ : ∀ i j, Q i j = if j = k then
              if i = k then Real.sqrt (P k k - ∑ j ∈ range k, P k j * P k j)
              else if k < i ∧ i < n then (P i k - ∑ j ∈ range k, P i j * P k j) /
                Real.sqrt (P k k - ∑ j ∈ range k, P k j * P k j)
              else P i j
            else P i j := by
            intro i j; rw [← hcc]; rfl
          generalize Real.sqrt (P k k - ∑ j ∈ range k, P k j * P k j) = s at *
          have hQlt : ∀ i j, j ≠ k → Q i j = P i j := fun i j hj => by rw [hQ, if_neg hj]
          have hsum : ∀ (i j m : Nat), m ≤ k → ∑ l ∈ range m, Q i l * Q j l = ∑ l ∈ range m, P i l * P j l := by
            intro i j m hm
            apply sum_congr rfl
            intro l hl
            have := mem_range.1 hl
            rw [hQlt _ _ (by omega), hQlt _ _ (by omega)]
          refine ⟨?_, ?_, ?_⟩
          · intro i j hj
            rw [hQlt _ _ (by omega)]
            exact h1 i j (by omega)
          · intro j hj
            by_cases he : j = k
            · subst he; rw [hQ, if_pos rfl, if_pos rfl]; exact hs
            · rw [hQlt _ _ he]; exact h2 j (by omega)
          · intro j hj i hji hin
            by_cases he : j = k
            · subst he
              rw [sum_range_succ, hsum _ _ _ le_rfl]
              have hjj : Q j j = s := by rw [hQ, if_pos rfl, if_pos rfl]
              rw [hjj]
              by_cases hij : i = j
              · subst hij
                rw [hjj, hss, ← h1 i i le_rfl]; ring
              · rw [hQ i j, if_pos rfl, if_neg hij, if_pos ⟨by omega, hin⟩, ← h1 i j le_rfl]
                field_simp
                ring
            · rw [hsum _ _ _ (by omega)]
              exact h3 j (by omega) i hji hin

/-- The lower factor of a successful factorisation: `M = L Lᵀ`. -/
theorem chol_success {n : Nat} {M L : Nat → Nat → ℝ} (h : chol n M n = (L, none)) :
    (∀ i < n, 0 < L i i) ∧
    ∀ i < n, ∀ j < n, ∑ l ∈ range n, low L i l * low L j l = symLow M i j := by
  obtain ⟨_, h2, h3⟩ := chol_inv n M n le_rfl L h
  refine ⟨h2, ?_⟩
  have key : ∀ i < n, ∀ j ≤ i, ∑ l ∈ range n, low L i l * low L j l = M i j := by
    intro i hi j hj
    rw [← h3 j (by omega) i hj hi]
    have e : n = (j + 1) + (n - (j + 1)) := by omega
    have e' : ∑ l ∈ range n, low L i l * low L j l
        = ∑ l ∈ range ((j + 1) + (n - (j + 1))), low L i l * low L j l := by rw [← e]
    rw [e', sum_range_add]
    have h0 : ∑ x ∈ range (n - (j + 1)), low L i (j + 1 + x) * low L j (j + 1 + x) = 0 := by
      apply sum_eq_zero
      intro x _
      rw [low, low, if_neg (show ¬ j + 1 + x ≤ j by omega), mul_zero]
    rw [h0, add_zero]
    apply sum_congr rfl
    intro l hl
    have := mem_range.1 hl
    rw [low, low, if_pos (by omega), if_pos (by omega)]
  intro i hi j hj
  by_cases h : j ≤ i
  · rw [key i hi j h, symLow, if_pos h]
  · rw [symLow, if_neg h, ← key j hj i (by omega)]
    apply sum_congr rfl
    intro l _; ring

/-- Strict positivity of the quadratic form `Σ v_i M_ij v_j` of size `n`. -/
def PosDefN (n : Nat) (M : Nat → Nat → ℝ) : Prop :=
  ∀ v : Nat → ℝ, (∃ i < n, v i ≠ 0) → 0 < ∑ i ∈ range n, ∑ j ∈ range n, v i * M i j * v j

/-- The quadratic form of `L Lᵀ` is a sum of squares. -/
theorem quad_factor {n : Nat} {M F : Nat → Nat → ℝ}
    (h : ∀ i < n, ∀ j < n, ∑ l ∈ range n, F i l * F j l = M i j) (v : Nat → ℝ) :
    ∑ i ∈ range n, ∑ j ∈ range n, v i * M i j * v j
      = ∑ l ∈ range n, (∑ i ∈ range n, F i l * v i) * (∑ i ∈ range n, F i l * v i) := by
  have e : ∀ i ∈ range n, ∀ j ∈ range n, v i * M i j * v j
      = ∑ l ∈ range n, (F i l * v i) * (F j l * v j) := by
    intro i hi j hj
    rw [← h i (mem_range.1 hi) j (mem_range.1 hj), Finset.mul_sum, Finset.sum_mul]
    apply sum_congr rfl
    intro l _; ring
  calc _ = ∑ i ∈ range n, ∑ j ∈ range n, ∑ l ∈ range n, (F i l * v i) * (F j l * v j) := by
        apply sum_congr rfl; intro i hi; apply sum_congr rfl; intro j hj; exact e i hi j hj
    _ = ∑ i ∈ range n, ∑ l ∈ range n, ∑ j ∈ range n, (F i l * v i) * (F j l * v j) := by
        apply sum_congr rfl; intro i _; exact sum_comm
    _ = ∑ l ∈ range n, ∑ i ∈ range n, ∑ j ∈ range n, (F i l * v i) * (F j l * v j) := sum_comm
    _ = _ := by
        apply sum_congr rfl; intro l _
        rw [Finset.sum_mul_sum]

/-- A triangular matrix with a non-zero diagonal has a trivial kernel. -/
theorem upper_ker {n : Nat} {U : Nat → Nat → ℝ} (hU : ∀ i < n, U i i ≠ 0) {v : Nat → ℝ}
    (h : ∀ i < n, ∑ j ∈ range n, (if i ≤ j then U i j else 0) * v j = 0) : ∀ i < n, v i = 0 := by
  have key : ∀ k, ∀ i, i < n → n - 1 - i < k → v i = 0 := by
    intro k
    induction k with
    | zero => intro i _ h; omega
    | succ k ih =>
      intro i hi hk
      have h1 := h i hi
      have := tri_sum n i hi (fun j => U i j * v j)
      simp only [ite_mul, zero_mul] at this h1
      rw [this] at h1
      have h0 : ∑ j ∈ range (n - 1 - i), U i (i + 1 + j) * v (i + 1 + j) = 0 := by
        apply sum_eq_zero
        intro j hj
        have := mem_range.1 hj
        rw [ih (i + 1 + j) (by omega) (by omega), mul_zero]
      rw [h0, add_zero] at h1
      exact (mul_eq_zero.1 h1).resolve_left (hU i hi)
  exact fun i hi => key (n - 1 - i + 1) i hi (by omega)

theorem chol_posDef {n : Nat} {M L : Nat → Nat → ℝ} (h : chol n M n = (L, none)) : PosDefN n (symLow M) := by
  obtain ⟨h1, h2⟩ := chol_success h
  intro v ⟨i, hi, hv⟩
  rw [quad_factor h2 v]
  have hnn : ∀ l ∈ range n, 0 ≤ (∑ i ∈ range n, low L i l * v i) * (∑ i ∈ range n, low L i l * v i) :=
    fun l _ => mul_self_nonneg _
  rcases (sum_nonneg hnn).lt_or_eq with hlt | heq
  · exact hlt
  · exfalso
    have hz := (sum_eq_zero_iff_of_nonneg hnn).1 heq.symm
    refine hv (upper_ker (U := fun i j => L j i) (fun i hi => (h1 i hi).ne') ?_ i hi)
    intro l hl
    have := mul_self_eq_zero.1 (hz l (mem_range.2 hl))
    simpa only [low] using this

/-- If the factorisation fails, it is at a column whose pivot is not positive. -/
theorem chol_fail {n : Nat} {M : Nat → Nat → ℝ} (k : Nat) (hk : k ≤ n) {P : Nat → Nat → ℝ} {c : Nat}
    (h : chol n M k = (P, some c)) :
    c < k ∧ chol n M c = (P, none) ∧ P c c - ∑ j ∈ range c, P c j * P c j ≤ 0 := by
  induction k with
  | zero => simp [chol] at h
  | succ k ih =>
    simp only [chol] at h
    rcases hc : chol n M k with ⟨Q, o⟩
    rw [hc] at h
    cases o with
    | some c' =>
      simp only [Prod.mk.injEq, Option.some.injEq] at h
      obtain ⟨rfl, rfl⟩ := h
      obtain ⟨a, b⟩ := ih (by omega) hc
      exact ⟨by omega, b⟩
    | none =>
      simp only at h
      cases hcc : cholCol n k Q with
      | some Q' => rw [hcc] at h; simp at h
      | none =>
        rw [hcc] at h
        simp only [Prod.mk.injEq, Option.some.injEq] at h
        obtain ⟨rfl, rfl⟩ := h
        refine ⟨by omega, hc, ?_⟩
        unfold cholCol at hcc
        simp only [] at hcc
        by_cases hx : leb (esub (.llt n k k) (Q k k) (fun j => Q k j * Q k j) k) 0 = true
        · rw [leb_real, esub_eq] at hx; exact hx
        · rw [if_neg hx] at hcc; cases hcc

/-- The lower triangular factor of a leading block. -/
theorem chol_lead {n k : Nat} {M L : Nat → Nat → ℝ} (hk : k ≤ n) (h : chol n M k = (L, none)) :
    ∀ i < k, ∀ j < k, ∑ l ∈ range k, low L i l * low L j l = symLow M i j := by
  obtain ⟨_, h2, h3⟩ := chol_inv n M k hk L h
  have key : ∀ i < k, ∀ j ≤ i, ∑ l ∈ range k, low L i l * low L j l = M i j := by
    intro i hi j hj
    rw [← h3 j (by omega) i hj (by omega)]
    have e' : ∑ l ∈ range k, low L i l * low L j l
        = ∑ l ∈ range ((j + 1) + (k - (j + 1))), low L i l * low L j l := by
      rw [show (j + 1) + (k - (j + 1)) = k by omega]
    rw [e', sum_range_add]
    have h0 : ∑ x ∈ range (k - (j + 1)), low L i (j + 1 + x) * low L j (j + 1 + x) = 0 := by
      apply sum_eq_zero
      intro x _
      rw [low, low, if_neg (show ¬ j + 1 + x ≤ j by omega), mul_zero]
    rw [h0, add_zero]
    apply sum_congr rfl
    intro l hl
    have := mem_range.1 hl
    rw [low, low, if_pos (by omega), if_pos (by omega)]
  intro i hi j hj
  by_cases h : j ≤ i
  · rw [key i hi j h, symLow, if_pos h]
  · rw [symLow, if_neg h, ← key j hj i (by omega)]
    apply sum_congr rfl
    intro l _; ring

theorem chol_not_posDef {n : Nat} {M P : Nat → Nat → ℝ} {c : Nat} (h : chol n M n = (P, some c)) :
    ¬ PosDefN n (symLow M) := by
  obtain ⟨hcn, hc, hp⟩ := chol_fail n le_rfl h
  obtain ⟨g1, g2, g3⟩ := chol_inv n M c (by omega) P hc
  have hl := chol_lead (by omega) hc
  intro hpd
  let w : Nat → ℝ := backSub (fun i j => P j i) c (fun j => P c j)
  have hw : ∀ l < c, ∑ i ∈ range c, low P i l * w i = P c l :=
    backSub_spec (fun i j => P j i) c (fun j => P c j) (fun i hi => (g2 i hi).ne')
  let v : Nat → ℝ := fun i => if i < c then w i else if i = c then -1 else 0
  have hv := hpd v ⟨c, hcn, by simp [v]⟩
  -- restrict the sums to c+1
  have hcut : ∀ f : Nat → ℝ, (∀ i, c < i → f i = 0) → ∑ i ∈ range n, f i = ∑ i ∈ range c, f i + f c := by
    intro f hf
    rw [← sum_range_succ]
    exact sum_cut (by omega) f (fun i hi _ => hf i (by omega))
  have hv0 : ∀ i, c < i → v i = 0 := fun i hi => by
    simp only [v]; rw [if_neg (by omega), if_neg (by omega)]
  have hvc : v c = -1 := by simp [v]
  have hvw : ∀ i ∈ range c, v i = w i := fun i hi => by simp only [v]; rw [if_pos (mem_range.1 hi)]
  have hrow : ∀ i < c, symLow M i c = ∑ l ∈ range c, low P i l * P c l := by
    intro i hi
    rw [symLow, if_neg (by omega), ← g3 i hi c (by omega) hcn]
    rw [sum_cut (show i + 1 ≤ c by omega) (fun l => low P i l * P c l)
      (fun l hl _ => by simp only [low]; rw [if_neg (by omega), zero_mul])]
    apply sum_congr rfl
    intro l hl
    have := mem_range.1 hl
    rw [low, if_pos (by omega), mul_comm]
  have hcc : symLow M c c = P c c := by rw [symLow, if_pos le_rfl, g1 c c le_rfl]
  -- cross term
  have hcross : ∑ i ∈ range c, w i * symLow M i c = ∑ l ∈ range c, P c l * P c l := by
    calc _ = ∑ i ∈ range c, ∑ l ∈ range c, (low P i l * w i) * P c l := by
          apply sum_congr rfl; intro i hi
          rw [hrow i (mem_range.1 hi), Finset.mul_sum]
          apply sum_congr rfl; intro l _; ring
      _ = ∑ l ∈ range c, (∑ i ∈ range c, low P i l * w i) * P c l := by
          rw [sum_comm]; apply sum_congr rfl; intro l _; rw [Finset.sum_mul]
      _ = _ := by
          apply sum_congr rfl; intro l hl; rw [hw l (mem_range.1 hl)]
  have hquad : ∑ i ∈ range c, ∑ j ∈ range c, w i * symLow M i j * w j = ∑ l ∈ range c, P c l * P c l := by
    rw [quad_factor hl w]
    apply sum_congr rfl; intro l hl; rw [hw l (mem_range.1 hl)]
  have htot : ∑ i ∈ range n, ∑ j ∈ range n, v i * symLow M i j * v j = P c c - ∑ l ∈ range c, P c l * P c l := by
    have e1 : ∀ i, ∑ j ∈ range n, v i * symLow M i j * v j
        = ∑ j ∈ range c, v i * symLow M i j * w j - v i * symLow M i c := by
      intro i
      rw [hcut _ (fun j hj => by rw [hv0 j hj, mul_zero]), hvc]
      rw [sum_congr rfl (fun j hj => by rw [hvw j hj])]
      ring
    simp only [e1]
    rw [hcut _ (fun i hi => by simp [hv0 i hi])]
    rw [hvc]
    have e2 : ∑ i ∈ range c, (∑ j ∈ range c, v i * symLow M i j * w j - v i * symLow M i c)
        = ∑ i ∈ range c, ∑ j ∈ range c, w i * symLow M i j * w j - ∑ i ∈ range c, w i * symLow M i c := by
      rw [← sum_sub_distrib]
      apply sum_congr rfl
      intro i hi
      rw [hvw i hi]
    have e3 : ∑ j ∈ range c, -1 * symLow M c j * w j = -∑ i ∈ range c, w i * symLow M i c := by
      rw [← sum_neg_distrib]
      apply sum_congr rfl
      intro j _
      rw [symLow_comm M c j]; ring
    rw [e2, e3, hcross, hquad, hcc]
    ring
  rw [htot] at hv
  linarith

/-- The quadratic form spec agrees with Mathlib's `Matrix.PosDef`. -/
theorem posDefN_iff (n : Nat) (M : Nat → Nat → ℝ) :
    PosDefN n (symLow M) ↔ (Matrix.of fun i j : Fin n => symLow M i j).PosDef := by
  have hq : ∀ v : Nat → ℝ, ∑ i ∈ range n, ∑ j ∈ range n, v i * symLow M i j * v j
      = ∑ i : Fin n, ∑ j : Fin n, v i * symLow M i j * v j := by
    intro v
    rw [Finset.sum_range]
    apply sum_congr rfl; intro i _
    rw [Finset.sum_range]
  constructor
  · intro h
    refine Matrix.PosDef.of_dotProduct_mulVec_pos ?_ ?_
    · ext i j
      simp [Matrix.conjTranspose_apply, symLow_comm M i j]
    · intro v hv
      obtain ⟨i, hi⟩ := Function.ne_iff.1 hv
      have := h (fun k => if hk : k < n then v ⟨k, hk⟩ else 0) ⟨i, i.2, by simpa using hi⟩
      rw [hq] at this
      simp only [Fin.is_lt, dite_true, Fin.eta] at this
      simp only [dotProduct, Matrix.mulVec, Matrix.of_apply, Pi.star_apply, star_trivial]
      refine lt_of_lt_of_eq this ?_
      apply sum_congr rfl; intro i _
      rw [Finset.mul_sum]
      apply sum_congr rfl; intro j _; ring
  · intro h v ⟨i, hi, hv⟩
    have := h.dotProduct_mulVec_pos (x := fun k : Fin n => v k) (by
      intro he; exact hv (congrFun he ⟨i, hi⟩))
    rw [hq]
    simp only [dotProduct, Matrix.mulVec, Matrix.of_apply, Pi.star_apply, star_trivial] at this
    refine lt_of_lt_of_eq this ?_
    apply sum_congr rfl; intro i _
    rw [Finset.mul_sum]
    apply sum_congr rfl; intro j _; ring

end JrlQp
