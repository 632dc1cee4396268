import Verif.BlockChol
import Verif.RealLin
import Mathlib.Data.Fintype.BigOperators

/-!
# Block-tridiagonal Cholesky factorisation (C27)
-/

namespace JrlQp

open NumOps Finset

/-! ## Specification: block matrices as matrices indexed by (block, position in the block) -/

/-- Indices of a matrix made of `b` blocks of sizes `sz 0, …, sz (b-1)`. -/
abbrev BIdx (b : Nat) (sz : Nat → Nat) := Σ i : Fin b, Fin (sz i)

/-- The matrix with entry `M i a j c` at row `a` of block row `i`, column `c` of block column `j`. -/
def bmat (b : Nat) (sz : Nat → Nat) (M : Nat → Nat → Nat → Nat → ℝ) : Matrix (BIdx b sz) (BIdx b sz) ℝ :=
  Matrix.of fun p q => M p.1 p.2 q.1 q.2

/-- Sum over the entries of a block vector. -/
theorem sum_bidx (b : Nat) (sz : Nat → Nat) (f : Nat → Nat → ℝ) :
    ∑ p : BIdx b sz, f p.1 p.2 = ∑ i ∈ range b, ∑ a ∈ range (sz i), f i a := by
  rw [Fintype.sum_sigma, Finset.sum_range]
  apply sum_congr rfl; intro i _
  rw [Finset.sum_range]

/-- Quadratic form of a block matrix, as nested sums. -/
def bquad (b : Nat) (sz : Nat → Nat) (M : Nat → Nat → Nat → Nat → ℝ) (v : Nat → Nat → ℝ) : ℝ :=
  ∑ i ∈ range b, ∑ j ∈ range b, ∑ a ∈ range (sz i), ∑ c ∈ range (sz j), v i a * M i a j c * v j c

theorem bquad_eq (b : Nat) (sz : Nat → Nat) (M : Nat → Nat → Nat → Nat → ℝ) (v : Nat → Nat → ℝ) :
    ∑ p : BIdx b sz, ∑ q : BIdx b sz, v p.1 p.2 * M p.1 p.2 q.1 q.2 * v q.1 q.2 = bquad b sz M v := by
  have h1 : ∀ p : BIdx b sz, ∑ q : BIdx b sz, v p.1 p.2 * M p.1 p.2 q.1 q.2 * v q.1 q.2
      = ∑ j ∈ range b, ∑ c ∈ range (sz j), v p.1 p.2 * M p.1 p.2 j c * v j c :=
    fun p => sum_bidx b sz (fun j c => v p.1 p.2 * M p.1 p.2 j c * v j c)
  simp only [h1]
  rw [sum_bidx b sz (fun i a => ∑ j ∈ range b, ∑ c ∈ range (sz j), v i a * M i a j c * v j c)]
  unfold bquad
  apply sum_congr rfl; intro i _
  rw [sum_comm]

/-- Positive definiteness of a symmetric block matrix through its quadratic form. -/
theorem bmat_posDef_iff (b : Nat) (sz : Nat → Nat) (M : Nat → Nat → Nat → Nat → ℝ)
    (hs : ∀ i a j c, M i a j c = M j c i a) :
    (bmat b sz M).PosDef ↔ ∀ v : Nat → Nat → ℝ, (∃ i < b, ∃ a < sz i, v i a ≠ 0) → 0 < bquad b sz M v := by
  constructor
  · intro h v ⟨i, hi, a, ha, hv⟩
    have := h.dotProduct_mulVec_pos (x := fun p : BIdx b sz => v p.1 p.2) (by
      intro he; exact hv (congrFun he ⟨⟨i, hi⟩, ⟨a, ha⟩⟩))
    rw [← bquad_eq]
    simp only [dotProduct, Matrix.mulVec, bmat, Matrix.of_apply, Pi.star_apply, star_trivial] at this
    refine lt_of_lt_of_eq this ?_
    apply sum_congr rfl; intro i _
    rw [Finset.mul_sum]
    apply sum_congr rfl; intro j _; ring
  · intro h
    refine Matrix.PosDef.of_dotProduct_mulVec_pos ?_ ?_
    · ext p q
      simp [bmat, Matrix.conjTranspose_apply, hs p.1 p.2 q.1 q.2]
    · intro v hv
      obtain ⟨⟨i, a⟩, hi⟩ := Function.ne_iff.1 hv
      let w : Nat → Nat → ℝ := fun k e => if hk : k < b then (if he : e < sz k then v ⟨⟨k, hk⟩, ⟨e, he⟩⟩ else 0) else 0
      have hw : ∀ p : BIdx b sz, w p.1 p.2 = v p := by
        intro p; simp only [w, Fin.is_lt, dite_true, Fin.eta, Sigma.eta]
      have := h w ⟨i, i.2, a, a.2, by rw [hw ⟨i, a⟩]; simpa using hi⟩
      rw [← bquad_eq] at this
      simp only [hw] at this
      simp only [dotProduct, Matrix.mulVec, bmat, Matrix.of_apply, Pi.star_apply, star_trivial]
      refine lt_of_lt_of_eq this ?_
      apply sum_congr rfl; intro i _
      rw [Finset.mul_sum]
      apply sum_congr rfl; intro j _; ring

/-- The block-tridiagonal matrix with diagonal blocks the symmetric matrices of lower triangle `D i`, and blocks `S i`
under the diagonal. -/
def triMat (D S : Blocks ℝ) (i a j c : Nat) : ℝ :=
  if i = j then symLow (D i) a c else if i = j + 1 then S j a c else if j = i + 1 then S i c a else 0

/-- The block-bidiagonal lower triangular matrix with the lower triangles of `L i` on the diagonal and `B i` under it. -/
def biMat (L B : Blocks ℝ) (i a j c : Nat) : ℝ :=
  if i = j then low (L i) a c else if i = j + 1 then B j a c else 0

/-! ## One block -/

/-- Factor of a block and of the block below. -/
theorem solveRight_spec {n nr : Nat} {L S : Nat → Nat → ℝ} (hL : ∀ i < n, L i i ≠ 0) :
    ∀ a < nr, ∀ c < n, ∑ e ∈ range n, solveRight n nr L S a e * low L c e = S a c := by
  intro a ha c hc
  rw [← fwdSub_spec' L (S a) n hL c hc]
  apply sum_congr rfl; intro e he
  rw [solveRight, if_pos ⟨ha, mem_range.1 he⟩, mul_comm]
  rfl

/-- `vᵀ sym(D) v`. -/
def dq (n : Nat) (D : Nat → Nat → ℝ) (v : Nat → ℝ) : ℝ := ∑ a ∈ range n, ∑ c ∈ range n, v a * symLow D a c * v c

/-- `wᵀ S v`. -/
def cr (nr nc : Nat) (S : Nat → Nat → ℝ) (w v : Nat → ℝ) : ℝ := ∑ a ∈ range nr, ∑ c ∈ range nc, w a * S a c * v c

theorem rankUpdate_sym {nr nc : Nat} (D S : Nat → Nat → ℝ) : ∀ a < nr, ∀ c < nr,
    symLow (rankUpdate nr nc D S) a c = symLow D a c - ∑ l ∈ range nc, S a l * S c l := by
  intro a ha c hc
  unfold symLow rankUpdate
  simp only [esub_eq]
  by_cases h : c ≤ a
  · rw [if_pos h, if_pos ⟨h, ha⟩, if_pos h]
  · rw [if_neg h, if_pos ⟨by omega, hc⟩, if_neg h]
    congr 1
    apply sum_congr rfl; intro l _; ring

/-- `‖Lᵀv + Bᵀw‖²` -/
def sqn (n nr : Nat) (L B : Nat → Nat → ℝ) (v w : Nat → ℝ) : ℝ :=
  ∑ l ∈ range n, (∑ i ∈ range n, low L i l * v i + ∑ a ∈ range nr, B a l * w a) ^ 2

theorem cr_factor {n nr : Nat} {L B S : Nat → Nat → ℝ}
    (hB : ∀ a < nr, ∀ c < n, ∑ e ∈ range n, B a e * low L c e = S a c) (v w : Nat → ℝ) :
    cr nr n S w v = ∑ l ∈ range n, (∑ a ∈ range nr, B a l * w a) * (∑ i ∈ range n, low L i l * v i) := by
  have : ∀ l, (∑ a ∈ range nr, B a l * w a) * (∑ i ∈ range n, low L i l * v i)
      = ∑ a ∈ range nr, ∑ c ∈ range n, w a * (B a l * low L c l) * v c := by
    intro l
    rw [sum_mul_sum]
    apply sum_congr rfl; intro a _
    apply sum_congr rfl; intro c _
    ring
  simp only [this]
  rw [sum_comm]
  unfold cr
  apply sum_congr rfl; intro a ha
  rw [sum_comm]
  apply sum_congr rfl; intro c hc
  rw [← hB a (mem_range.1 ha) c (mem_range.1 hc), mul_sum, sum_mul]

theorem dq_rank {n nr : Nat} (D B : Nat → Nat → ℝ) (w : Nat → ℝ) :
    dq nr (rankUpdate nr n D B) w = dq nr D w - ∑ l ∈ range n, (∑ a ∈ range nr, B a l * w a) ^ 2 := by
  have : ∀ l, (∑ a ∈ range nr, B a l * w a) ^ 2 = ∑ a ∈ range nr, ∑ c ∈ range nr, w a * (B a l * B c l) * w c := by
    intro l
    rw [sq, sum_mul_sum]
    apply sum_congr rfl; intro a _
    apply sum_congr rfl; intro c _
    ring
  simp only [this]
  rw [sum_comm, dq, dq, ← sum_sub_distrib]
  apply sum_congr rfl; intro a ha
  rw [sum_comm, ← sum_sub_distrib]
  apply sum_congr rfl; intro c hc
  rw [rankUpdate_sym D B a (mem_range.1 ha) c (mem_range.1 hc), ← sum_mul, ← mul_sum]
  ring

/-- Completing the square: elimination of a block with factor `L` below which is `S = B Lᵀ`. -/
theorem complete_square {n nr : Nat} {M L S B : Nat → Nat → ℝ} (hL : ∀ i < n, ∀ j < n, ∑ l ∈ range n, low L i l * low L j l = symLow M i j)
    (hB : ∀ a < nr, ∀ c < n, ∑ e ∈ range n, B a e * low L c e = S a c) (D : Nat → Nat → ℝ) (v w : Nat → ℝ) :
    dq n M v + 2 * cr nr n S w v + dq nr D w = sqn n nr L B v w + dq nr (rankUpdate nr n D B) w := by
  have h1 : dq n M v = ∑ l ∈ range n, (∑ i ∈ range n, low L i l * v i) ^ 2 := by
    unfold dq
    rw [quad_factor hL v]
    apply sum_congr rfl; intro l _; ring
  rw [dq_rank, h1, cr_factor hB, sqn, mul_sum]
  have : ∀ l, (∑ i ∈ range n, low L i l * v i + ∑ a ∈ range nr, B a l * w a) ^ 2
      = (∑ i ∈ range n, low L i l * v i) ^ 2 + 2 * ((∑ a ∈ range nr, B a l * w a) * (∑ i ∈ range n, low L i l * v i))
        + (∑ a ∈ range nr, B a l * w a) ^ 2 := by intro l; ring
  simp only [this, sum_add_distrib]
  ring

/-- The eliminated variables can be chosen so as to cancel the square. -/
theorem exists_cancel {n nr : Nat} {L B : Nat → Nat → ℝ} (hL : ∀ i < n, L i i ≠ 0) (w : Nat → ℝ) :
    ∃ v, sqn n nr L B v w = 0 := by
  refine ⟨backSub (fun i j => L j i) n (fun l => -∑ a ∈ range nr, B a l * w a), ?_⟩
  apply sum_eq_zero
  intro l hl
  have := backSub_spec (fun i j => L j i) n (fun l => -∑ a ∈ range nr, B a l * w a) hL l (mem_range.1 hl)
  have e : ∑ i ∈ range n, low L i l * backSub (fun i j => L j i) n (fun l => -∑ a ∈ range nr, B a l * w a) i
      = -∑ a ∈ range nr, B a l * w a := by rw [← this]; rfl
  rw [e]; ring

theorem sqn_nonneg (n nr : Nat) (L B : Nat → Nat → ℝ) (v w : Nat → ℝ) : 0 ≤ sqn n nr L B v w :=
  sum_nonneg fun _ _ => sq_nonneg _

theorem low_ker {n : Nat} {L : Nat → Nat → ℝ} (hL : ∀ i < n, L i i ≠ 0) {v : Nat → ℝ}
    (h : ∀ l < n, ∑ i ∈ range n, low L i l * v i = 0) : ∀ i < n, v i = 0 :=
  upper_ker (U := fun i j => L j i) hL h

/-! ## The recursion on the blocks -/

/-- Quadratic form of the block-tridiagonal matrix restricted to the blocks `i, …, i + rem`. -/
def triQ (sz : Nat → Nat) (rem i : Nat) (D S : Blocks ℝ) (v : Nat → Nat → ℝ) : ℝ :=
  ∑ j ∈ range (rem + 1), dq (sz (i + j)) (D (i + j)) (v (i + j))
    + 2 * ∑ j ∈ range rem, cr (sz (i + j + 1)) (sz (i + j)) (S (i + j)) (v (i + j + 1)) (v (i + j))

/-- Positive definiteness of that quadratic form. -/
def TriPD (sz : Nat → Nat) (rem i : Nat) (D S : Blocks ℝ) : Prop :=
  ∀ v, (∃ j ≤ rem, ∃ a < sz (i + j), v (i + j) a ≠ 0) → 0 < triQ sz rem i D S v

theorem dq_congr {n : Nat} {D D' : Nat → Nat → ℝ} {v v' : Nat → ℝ} (hD : ∀ a < n, ∀ c < n, symLow D a c = symLow D' a c)
    (hv : ∀ a < n, v a = v' a) : dq n D v = dq n D' v' := by
  apply sum_congr rfl; intro a ha; apply sum_congr rfl; intro c hc
  rw [hD a (mem_range.1 ha) c (mem_range.1 hc), hv a (mem_range.1 ha), hv c (mem_range.1 hc)]

theorem cr_congr {nr nc : Nat} {S : Nat → Nat → ℝ} {w w' v v' : Nat → ℝ} (hw : ∀ a < nr, w a = w' a)
    (hv : ∀ c < nc, v c = v' c) : cr nr nc S w v = cr nr nc S w' v' := by
  apply sum_congr rfl; intro a ha; apply sum_congr rfl; intro c hc
  rw [hw a (mem_range.1 ha), hv c (mem_range.1 hc)]

/-- Elimination of the first block. -/
theorem triQ_elim {sz : Nat → Nat} {rem i : Nat} {D S : Blocks ℝ} {L : Nat → Nat → ℝ}
    (h : chol (sz i) (D i) (sz i) = (L, none)) (v : Nat → Nat → ℝ) :
    triQ sz (rem + 1) i D S v
      = sqn (sz i) (sz (i + 1)) L (solveRight (sz i) (sz (i + 1)) L (S i)) (v i) (v (i + 1))
        + triQ sz rem (i + 1)
            (setBlk (setBlk D i L) (i + 1) (rankUpdate (sz (i + 1)) (sz i) (setBlk D i L (i + 1))
              (solveRight (sz i) (sz (i + 1)) L (S i))))
            (setBlk S i (solveRight (sz i) (sz (i + 1)) L (S i))) v := by
  obtain ⟨hpos, hfac⟩ := chol_success h
  have hB := solveRight_spec (nr := sz (i + 1)) (S := S i) (fun k hk => (hpos k hk).ne')
  have key := complete_square hfac hB (D (i + 1)) (v i) (v (i + 1))
  generalize solveRight (sz i) (sz (i + 1)) L (S i) = Bm at *
  unfold triQ
  rw [sum_range_succ' _ (rem + 1), sum_range_succ' _ rem, sum_range_succ' _ rem, sum_range_succ' _ rem]
  have e1 : ∀ j, setBlk (setBlk D i L) (i + 1) (rankUpdate (sz (i + 1)) (sz i) (setBlk D i L (i + 1)) Bm) (i + 1 + (j + 1))
      = D (i + 1 + (j + 1)) := by
    intro j
    simp only [setBlk]
    rw [if_neg (by omega), if_neg (by omega)]
  have e2 : setBlk (setBlk D i L) (i + 1) (rankUpdate (sz (i + 1)) (sz i) (setBlk D i L (i + 1)) Bm) (i + 1 + 0)
      = rankUpdate (sz (i + 1)) (sz i) (D (i + 1)) Bm := by
    simp only [setBlk, Nat.add_zero, if_true]
    rw [if_neg (by omega)]
  have e3 : ∀ j, setBlk S i Bm (i + 1 + j) = S (i + 1 + j) := by
    intro j
    simp only [setBlk]
    rw [if_neg (by omega)]
  simp only [e1, e2, e3]
  have s1 : ∑ j ∈ range rem, dq (sz (i + (j + 1 + 1))) (D (i + (j + 1 + 1))) (v (i + (j + 1 + 1)))
      = ∑ j ∈ range rem, dq (sz (i + 1 + (j + 1))) (D (i + 1 + (j + 1))) (v (i + 1 + (j + 1))) := by
    apply sum_congr rfl; intro j _
    rw [show i + (j + 1 + 1) = i + 1 + (j + 1) by omega]
  have s2 : ∑ j ∈ range rem, cr (sz (i + (j + 1) + 1)) (sz (i + (j + 1))) (S (i + (j + 1))) (v (i + (j + 1) + 1)) (v (i + (j + 1)))
      = ∑ j ∈ range rem, cr (sz (i + 1 + j + 1)) (sz (i + 1 + j)) (S (i + 1 + j)) (v (i + 1 + j + 1)) (v (i + 1 + j)) := by
    apply sum_congr rfl; intro j _
    rw [show i + (j + 1) = i + 1 + j by omega]
  rw [s1, s2]
  simp only [Nat.add_zero, Nat.zero_add]
  linarith

theorem triPD_head {sz : Nat → Nat} {rem i : Nat} {D S : Blocks ℝ} (h : TriPD sz rem i D S) :
    PosDefN (sz i) (symLow (D i)) := by
  intro w ⟨a, ha, hw⟩
  have h1 := h (fun k => if k = i then w else fun _ => 0) ⟨0, Nat.zero_le _, a, by simpa using ha, by simpa using hw⟩
  unfold triQ at h1
  rw [sum_range_succ'] at h1
  have z1 : ∑ k ∈ range rem, dq (sz (i + (k + 1))) (D (i + (k + 1))) (if i + (k + 1) = i then w else fun _ => 0) = 0 := by
    apply sum_eq_zero; intro k _
    rw [if_neg (by omega)]
    simp [dq]
  have z2 : ∑ j ∈ range rem, cr (sz (i + j + 1)) (sz (i + j)) (S (i + j)) (if i + j + 1 = i then w else fun _ => 0)
      (if i + j = i then w else fun _ => 0) = 0 := by
    apply sum_eq_zero; intro k _
    rw [if_neg (by omega)]
    simp [cr]
  rw [z1, z2] at h1
  simpa [dq] using h1

theorem triPD_elim {sz : Nat → Nat} {rem i : Nat} {D S : Blocks ℝ} {L : Nat → Nat → ℝ}
    (h : chol (sz i) (D i) (sz i) = (L, none)) :
    TriPD sz (rem + 1) i D S ↔ TriPD sz rem (i + 1)
            (setBlk (setBlk D i L) (i + 1) (rankUpdate (sz (i + 1)) (sz i) (setBlk D i L (i + 1))
              (solveRight (sz i) (sz (i + 1)) L (S i))))
            (setBlk S i (solveRight (sz i) (sz (i + 1)) L (S i))) := by
  obtain ⟨hpos, _⟩ := chol_success h
  constructor
  · intro hp v ⟨j, hj, a, ha, hv⟩
    obtain ⟨w, hw⟩ := exists_cancel (nr := sz (i + 1)) (B := solveRight (sz i) (sz (i + 1)) L (S i))
      (fun k hk => (hpos k hk).ne') (v (i + 1))
    have h1 := hp (fun k => if k = i then w else v k)
      ⟨j + 1, by omega, a, by rwa [show i + (j + 1) = i + 1 + j by omega],
        by rw [if_neg (by omega), show i + (j + 1) = i + 1 + j by omega]; exact hv⟩
    rw [triQ_elim h] at h1
    simp only [if_true] at h1
    rw [if_neg (by omega), hw, zero_add] at h1
    refine lt_of_lt_of_eq h1 ?_
    unfold triQ
    congr 1
    · apply sum_congr rfl; intro k _; beta_reduce; rw [if_neg (by omega)]
    · congr 1
      apply sum_congr rfl; intro k _; beta_reduce; rw [if_neg (by omega), if_neg (by omega)]
  · intro hp v ⟨j, hj, a, ha, hv⟩
    rw [triQ_elim h]
    by_cases hrest : ∃ j ≤ rem, ∃ a < sz (i + 1 + j), v (i + 1 + j) a ≠ 0
    · exact add_pos_of_nonneg_of_pos (sqn_nonneg _ _ _ _ _ _) (hp v hrest)
    · push Not at hrest
      have hj0 : j = 0 := by
        by_contra hne
        obtain ⟨j', rfl⟩ := Nat.exists_eq_succ_of_ne_zero hne
        rw [show i + j'.succ = i + 1 + j' by omega] at ha hv
        exact hv (hrest j' (by omega) a ha)
      subst hj0
      have z : triQ sz rem (i + 1)
            (setBlk (setBlk D i L) (i + 1) (rankUpdate (sz (i + 1)) (sz i) (setBlk D i L (i + 1))
              (solveRight (sz i) (sz (i + 1)) L (S i))))
            (setBlk S i (solveRight (sz i) (sz (i + 1)) L (S i))) v = 0 := by
        unfold triQ
        have z1 : ∀ k ∈ range (rem + 1), ∀ E : Nat → Nat → ℝ, dq (sz (i + 1 + k)) E (v (i + 1 + k)) = 0 := by
          intro k hk E
          apply sum_eq_zero; intro a ha
          apply sum_eq_zero; intro c _
          rw [hrest k (by have := mem_range.1 hk; omega) a (mem_range.1 ha)]; ring
        have z2 : ∀ k ∈ range rem, ∀ E : Nat → Nat → ℝ,
            cr (sz (i + 1 + k + 1)) (sz (i + 1 + k)) E (v (i + 1 + k + 1)) (v (i + 1 + k)) = 0 := by
          intro k hk E
          apply sum_eq_zero; intro a _
          apply sum_eq_zero; intro c hc
          rw [hrest k (by have := mem_range.1 hk; omega) c (mem_range.1 hc)]; ring
        rw [sum_eq_zero fun k hk => z1 k hk _, sum_eq_zero fun k hk => z2 k hk _]
        ring
      rw [z, add_zero]
      rcases (sqn_nonneg (sz i) (sz (i + 1)) L (solveRight (sz i) (sz (i + 1)) L (S i)) (v i) (v (i + 1))).lt_or_eq with hlt | heq
      · exact hlt
      exfalso
      apply hv
      refine low_ker (fun k hk => (hpos k hk).ne') ?_ a (by simpa using ha)
      intro l hl
      have h0 := (sum_eq_zero_iff_of_nonneg (fun _ _ => sq_nonneg _)).1 heq.symm l (mem_range.2 hl)
      have h1 : ∑ a ∈ range (sz (i + 1)), solveRight (sz i) (sz (i + 1)) L (S i) a l * v (i + 1) a = 0 := by
        apply sum_eq_zero; intro a ha
        rw [show v (i + 1) a = 0 from hrest 0 (by omega) a (mem_range.1 ha), mul_zero]
      rw [h1, add_zero] at h0
      exact pow_eq_zero_iff (two_ne_zero) |>.1 h0

/-- What the factorisation of the blocks `i, …, i + rem` gives. -/
structure TriFac (sz : Nat → Nat) (rem i : Nat) (D S L Bm : Blocks ℝ) : Prop where
  pos : ∀ k, i ≤ k → k ≤ i + rem → ∀ a < sz k, 0 < L k a a
  head : ∀ a < sz i, ∀ c < sz i, ∑ e ∈ range (sz i), low (L i) a e * low (L i) c e = symLow (D i) a c
  diag : ∀ k, i ≤ k → k < i + rem → ∀ a < sz (k + 1), ∀ c < sz (k + 1),
    ∑ e ∈ range (sz (k + 1)), low (L (k + 1)) a e * low (L (k + 1)) c e + ∑ e ∈ range (sz k), Bm k a e * Bm k c e
      = symLow (D (k + 1)) a c
  sub : ∀ k, i ≤ k → k < i + rem → ∀ a < sz (k + 1), ∀ c < sz k,
    ∑ e ∈ range (sz k), Bm k a e * low (L k) c e = S k a c

theorem chol_of_posDef {n : Nat} {M : Nat → Nat → ℝ} (h : PosDefN n (symLow M)) : ∃ L, chol n M n = (L, none) := by
  rcases hc : chol n M n with ⟨P, c⟩
  cases c with
  | none => exact ⟨P, rfl⟩
  | some c => exact absurd h (chol_not_posDef hc)

/-- Blocks before the current one are not touched. -/
theorem triLLTFrom_before (sz : Nat → Nat) (rem : Nat) : ∀ (i : Nat) (D S : Blocks ℝ), ∀ k < i,
    (triLLTFrom sz rem i D S).2.1 k = D k ∧ (triLLTFrom sz rem i D S).2.2 k = S k := by
  induction rem with
  | zero =>
    intro i D S k hk
    simp only [triLLTFrom, setBlk]
    rw [if_neg (by omega)]; exact ⟨rfl, trivial⟩
  | succ rem ih =>
    intro i D S k hk
    simp only [triLLTFrom]
    split_ifs
    · simp only [setBlk]; rw [if_neg (by omega)]; exact ⟨rfl, trivial⟩
    · obtain ⟨h1, h2⟩ := ih (i + 1) _ _ k (by omega)
      rw [h1, h2]
      simp only [setBlk]
      rw [if_neg (by omega), if_neg (by omega), if_neg (by omega)]; exact ⟨rfl, rfl⟩

theorem triLLTFrom_pd (sz : Nat → Nat) (rem : Nat) : ∀ (i : Nat) (D S : Blocks ℝ), TriPD sz rem i D S →
    (triLLTFrom sz rem i D S).1 = true ∧
    TriFac sz rem i D S (triLLTFrom sz rem i D S).2.1 (triLLTFrom sz rem i D S).2.2 := by
  induction rem with
  | zero =>
    intro i D S h
    obtain ⟨L, hL⟩ := chol_of_posDef (triPD_head h)
    obtain ⟨hpos, hfac⟩ := chol_success hL
    simp only [triLLTFrom, hL, retPos]
    refine ⟨rfl, ?_, ?_, fun k h1 h2 => by omega, fun k h1 h2 => by omega⟩
    · intro k h1 h2
      have : k = i := by omega
      subst this
      simpa [setBlk] using hpos
    · simpa [setBlk] using hfac
  | succ rem ih =>
    intro i D S h
    obtain ⟨L, hL⟩ := chol_of_posDef (triPD_head h)
    obtain ⟨hpos, hfac⟩ := chol_success hL
    have hB := solveRight_spec (nr := sz (i + 1)) (S := S i) (fun k hk => (hpos k hk).ne')
    have h' := (triPD_elim hL).1 h
    simp only [triLLTFrom, hL, retPos]
    rw [if_neg (by simp)]
    obtain ⟨g1, g2⟩ := ih _ _ _ h'
    have hbef := triLLTFrom_before sz rem (i + 1) (setBlk (setBlk D i L) (i + 1) (rankUpdate (sz (i + 1)) (sz i)
      (setBlk D i L (i + 1)) (solveRight (sz i) (sz (i + 1)) L (S i))))
      (setBlk S i (solveRight (sz i) (sz (i + 1)) L (S i))) i (by omega)
    have e2 : setBlk (setBlk D i L) (i + 1) (rankUpdate (sz (i + 1)) (sz i) (setBlk D i L (i + 1))
          (solveRight (sz i) (sz (i + 1)) L (S i))) (i + 1)
        = rankUpdate (sz (i + 1)) (sz i) (D (i + 1)) (solveRight (sz i) (sz (i + 1)) L (S i)) := by
      simp only [setBlk, if_true]
      rw [if_neg (by omega)]
    have e1 : ∀ k, i + 1 < k → setBlk (setBlk D i L) (i + 1) (rankUpdate (sz (i + 1)) (sz i) (setBlk D i L (i + 1))
          (solveRight (sz i) (sz (i + 1)) L (S i))) k = D k := by
      intro k hk
      simp only [setBlk]
      rw [if_neg (by omega), if_neg (by omega)]
    have e3 : ∀ k, i < k → setBlk S i (solveRight (sz i) (sz (i + 1)) L (S i)) k = S k := by
      intro k hk
      simp only [setBlk]
      rw [if_neg (by omega)]
    have e4 : setBlk (setBlk D i L) (i + 1) (rankUpdate (sz (i + 1)) (sz i) (setBlk D i L (i + 1))
          (solveRight (sz i) (sz (i + 1)) L (S i))) i = L := by
      simp [setBlk]
    have e5 : setBlk S i (solveRight (sz i) (sz (i + 1)) L (S i)) i = solveRight (sz i) (sz (i + 1)) L (S i) := by
      simp [setBlk]
    rw [e4, e5] at hbef
    generalize setBlk (setBlk D i L) (i + 1) (rankUpdate (sz (i + 1)) (sz i) (setBlk D i L (i + 1))
          (solveRight (sz i) (sz (i + 1)) L (S i))) = D1 at *
    generalize setBlk S i (solveRight (sz i) (sz (i + 1)) L (S i)) = S1 at *
    generalize solveRight (sz i) (sz (i + 1)) L (S i) = Bm at *
    generalize triLLTFrom sz rem (i + 1) D1 S1 = res at *
    refine ⟨g1, ?_, ?_, ?_, ?_⟩
    · intro k h1 h2
      by_cases hk : k = i
      · subst hk; rw [hbef.1]; exact hpos
      · exact g2.pos k (by omega) (by omega)
    · rw [hbef.1]; exact hfac
    · intro k h1 h2 a ha c hc
      by_cases hk : k = i
      · subst hk
        rw [hbef.2, g2.head a ha c hc, e2, rankUpdate_sym _ _ a ha c hc]
        ring
      · rw [g2.diag k (by omega) (by omega) a ha c hc, e1 (k + 1) (by omega)]
    · intro k h1 h2 a ha c hc
      by_cases hk : k = i
      · subst hk
        rw [hbef.1, hbef.2]
        exact hB a ha c hc
      · rw [g2.sub k (by omega) (by omega) a ha c hc, e3 k (by omega)]

/-- A block whose first column fails is left unchanged. -/
theorem chol_fail_zero {n : Nat} {M P : Nat → Nat → ℝ} {c : Nat} (h : chol n M n = (P, some c)) (hr : retPos (some c) = false) :
    0 < n ∧ P 0 0 ≤ 0 := by
  obtain ⟨h1, h2, h3⟩ := chol_fail n le_rfl h
  have : c = 0 := by simpa [retPos] using hr
  subst this
  simpa using And.intro h1 h3

theorem triLLTFrom_conv (sz : Nat → Nat) (rem : Nat) : ∀ (i : Nat) (D S : Blocks ℝ),
    (triLLTFrom sz rem i D S).1 = true →
    (∀ k, i ≤ k → k ≤ i + rem → ∀ a < sz k, 0 < (triLLTFrom sz rem i D S).2.1 k a a) → TriPD sz rem i D S := by
  induction rem with
  | zero =>
    intro i D S h hp v ⟨j, hj, a, ha, hv⟩
    have : j = 0 := by omega
    subst this
    rcases hc : chol (sz i) (D i) (sz i) with ⟨P, c⟩
    simp only [triLLTFrom, hc] at h hp
    cases c with
    | some c =>
      obtain ⟨h1, h2⟩ := chol_fail_zero hc (by simpa using h)
      have := hp i le_rfl (by omega) 0 h1
      simp only [setBlk, if_true] at this
      linarith
    | none =>
      have := chol_posDef hc (v i) ⟨a, by simpa using ha, by simpa using hv⟩
      simpa [triQ, dq] using this
  | succ rem ih =>
    intro i D S h hp
    rcases hc : chol (sz i) (D i) (sz i) with ⟨P, c⟩
    simp only [triLLTFrom, hc] at h hp
    by_cases hr : retPos c = true
    · rw [if_pos hr] at h; cases h
    rw [if_neg hr] at h hp
    cases c with
    | some c =>
      exfalso
      obtain ⟨h1, h2⟩ := chol_fail_zero hc (by simpa using hr)
      have := hp i le_rfl (by omega) 0 h1
      rw [(triLLTFrom_before sz rem (i + 1) _ _ i (by omega)).1] at this
      simp only [setBlk] at this
      rw [if_neg (by omega)] at this
      simp only [if_true] at this
      linarith
    | none =>
      rw [triPD_elim hc]
      exact ih (i + 1) _ _ h (fun k h1 h2 => hp k (by omega) (by omega))

/-! ## From the recursion to the matrix -/

theorem sum_tri_pattern (f g : Nat → ℝ) (b : Nat) :
    ∑ i ∈ range (b + 1), ∑ j ∈ range (b + 1), (if i = j then f i else if i = j + 1 then g j else if j = i + 1 then g i else 0)
      = ∑ i ∈ range (b + 1), f i + 2 * ∑ i ∈ range b, g i := by
  induction b with
  | zero => simp
  | succ b ih =>
    rw [sum_range_succ]
    have h1 : ∀ i ∈ range (b + 1), ∑ j ∈ range (b + 1 + 1),
        (if i = j then f i else if i = j + 1 then g j else if j = i + 1 then g i else 0)
        = ∑ j ∈ range (b + 1), (if i = j then f i else if i = j + 1 then g j else if j = i + 1 then g i else 0)
          + (if i = b then g b else 0) := by
      intro i hi
      have := mem_range.1 hi
      rw [sum_range_succ _ (b + 1), if_neg (by omega), if_neg (by omega)]
      congr 1
      by_cases h : i = b
      · subst h; simp
      · rw [if_neg (by omega), if_neg h]
    rw [sum_congr rfl h1, sum_add_distrib, ih, sum_range_succ _ (b + 1), if_pos rfl]
    have h2 : ∑ j ∈ range (b + 1), (if b + 1 = j then f (b + 1) else if b + 1 = j + 1 then g j
        else if j = b + 1 + 1 then g (b + 1) else 0) = g b := by
      rw [sum_range_succ, if_neg (by omega), if_pos rfl, sum_eq_zero, zero_add]
      intro j hj
      have := mem_range.1 hj
      rw [if_neg (by omega), if_neg (by omega), if_neg (by omega)]
    have h3 : ∑ i ∈ range (b + 1), (if i = b then g b else 0) = g b := by simp
    rw [h2, h3, sum_range_succ f (b + 1), sum_range_succ g b]
    ring

theorem triMat_diag (D S : Blocks ℝ) (i a c : Nat) : triMat D S i a i c = symLow (D i) a c := by simp [triMat]
theorem triMat_sub (D S : Blocks ℝ) (i a c : Nat) : triMat D S (i + 1) a i c = S i a c := by simp [triMat]
theorem triMat_sup (D S : Blocks ℝ) (i a c : Nat) : triMat D S i a (i + 1) c = S i c a := by
  unfold triMat; rw [if_neg (by omega), if_neg (by omega), if_pos rfl]
theorem triMat_zero (D S : Blocks ℝ) {i j : Nat} (a c : Nat) (h1 : i ≠ j) (h2 : i ≠ j + 1) (h3 : j ≠ i + 1) :
    triMat D S i a j c = 0 := by
  unfold triMat; rw [if_neg h1, if_neg h2, if_neg h3]

theorem biMat_diag (L Bm : Blocks ℝ) (i a c : Nat) : biMat L Bm i a i c = low (L i) a c := by simp [biMat]
theorem biMat_sub (L Bm : Blocks ℝ) (i a c : Nat) : biMat L Bm (i + 1) a i c = Bm i a c := by simp [biMat]
theorem biMat_zero (L Bm : Blocks ℝ) {i j : Nat} (a c : Nat) (h1 : i ≠ j) (h2 : i ≠ j + 1) : biMat L Bm i a j c = 0 := by
  unfold biMat; rw [if_neg h1, if_neg h2]

theorem triMat_symm (D S : Blocks ℝ) (i a j c : Nat) : triMat D S i a j c = triMat D S j c i a := by
  by_cases h1 : i = j
  · subst h1; rw [triMat_diag, triMat_diag, symLow_comm]
  by_cases h2 : i = j + 1
  · subst h2; rw [triMat_sub, triMat_sup]
  by_cases h3 : j = i + 1
  · subst h3; rw [triMat_sub, triMat_sup]
  · rw [triMat_zero D S a c h1 h2 h3, triMat_zero D S c a (fun h => h1 h.symm) h3 h2]

theorem bquad_tri (b : Nat) (sz : Nat → Nat) (D S : Blocks ℝ) (v : Nat → Nat → ℝ) :
    bquad (b + 1) sz (triMat D S) v = triQ sz b 0 D S v := by
  have : ∀ i j, ∑ a ∈ range (sz i), ∑ c ∈ range (sz j), v i a * triMat D S i a j c * v j c
      = if i = j then dq (sz i) (D i) (v i) else if i = j + 1 then cr (sz (j + 1)) (sz j) (S j) (v (j + 1)) (v j)
        else if j = i + 1 then cr (sz (i + 1)) (sz i) (S i) (v (i + 1)) (v i) else 0 := by
    intro i j
    by_cases h1 : i = j
    · subst h1; simp [triMat, dq]
    rw [if_neg h1]
    by_cases h2 : i = j + 1
    · subst h2; simp [triMat, cr]
    rw [if_neg h2]
    by_cases h3 : j = i + 1
    · subst h3
      rw [if_pos rfl, sum_comm]
      apply sum_congr rfl; intro c _; apply sum_congr rfl; intro a _
      rw [triMat_sup]; ring
    · rw [if_neg h3]
      apply sum_eq_zero; intro a _; apply sum_eq_zero; intro c _
      simp [triMat, h1, h2, h3]
  unfold bquad
  simp only [this]
  rw [sum_tri_pattern (fun i => dq (sz i) (D i) (v i)) (fun i => cr (sz (i + 1)) (sz i) (S i) (v (i + 1)) (v i))]
  unfold triQ
  simp

theorem triPD_iff (b : Nat) (sz : Nat → Nat) (D S : Blocks ℝ) :
    (bmat (b + 1) sz (triMat D S)).PosDef ↔ TriPD sz b 0 D S := by
  rw [bmat_posDef_iff _ _ _ (triMat_symm D S)]
  unfold TriPD
  simp only [bquad_tri, Nat.zero_add]
  constructor
  · rintro h v ⟨j, hj, r⟩; exact h v ⟨j, by omega, r⟩
  · rintro h v ⟨j, hj, r⟩; exact h v ⟨j, by omega, r⟩

/-- The entries of `L Lᵀ` for a block-bidiagonal `L`. -/
theorem biMat_mul (b : Nat) (sz : Nat → Nat) (L Bm : Blocks ℝ) {i j a c : Nat} (hi : i < b) (hj : j < b) :
    ∑ l ∈ range b, ∑ e ∈ range (sz l), biMat L Bm i a l e * biMat L Bm j c l e
      = if i = j then ∑ e ∈ range (sz i), low (L i) a e * low (L i) c e
            + (if 0 < i then ∑ e ∈ range (sz (i - 1)), Bm (i - 1) a e * Bm (i - 1) c e else 0)
        else if i = j + 1 then ∑ e ∈ range (sz j), Bm j a e * low (L j) c e
        else if j = i + 1 then ∑ e ∈ range (sz i), Bm i c e * low (L i) a e else 0 := by
  have hz : ∀ (l : Nat), (i ≠ l ∧ i ≠ l + 1) ∨ (j ≠ l ∧ j ≠ l + 1) →
      ∑ e ∈ range (sz l), biMat L Bm i a l e * biMat L Bm j c l e = 0 := by
    intro l hl
    apply sum_eq_zero; intro e _
    rcases hl with ⟨h1, h2⟩ | ⟨h1, h2⟩
    · rw [biMat_zero L Bm a e h1 h2, zero_mul]
    · rw [biMat_zero L Bm c e h1 h2, mul_zero]
  by_cases h1 : i = j
  · subst h1
    rw [if_pos rfl]
    cases i with
    | succ i =>
      rw [if_pos (by omega), sum_eq_sum_sdiff_singleton_add (i := i + 1) (mem_range.2 hi),
        sum_eq_single_of_mem i (by simp; omega)]
      · rw [add_comm]
        simp only [biMat_diag, biMat_sub, Nat.add_sub_cancel]
      · intro l hl hne
        simp only [mem_sdiff, mem_range, mem_singleton] at hl
        exact hz l (Or.inl ⟨by omega, by omega⟩)
    | zero =>
      rw [if_neg (by omega), add_zero, sum_eq_single_of_mem 0 (mem_range.2 hi)]
      · simp only [biMat_diag]
      · intro l hl hne
        exact hz l (Or.inl ⟨by omega, by omega⟩)
  rw [if_neg h1]
  by_cases h2 : i = j + 1
  · subst h2
    rw [if_pos rfl, sum_eq_single_of_mem j (mem_range.2 hj)]
    · simp only [biMat_diag, biMat_sub]
    · intro l hl hne
      exact hz l (by omega)
  rw [if_neg h2]
  by_cases h3 : j = i + 1
  · subst h3
    rw [if_pos rfl, sum_eq_single_of_mem i (mem_range.2 hi)]
    · simp only [biMat_diag, biMat_sub]
      apply sum_congr rfl; intro e _; ring
    · intro l hl hne
      exact hz l (by omega)
  · rw [if_neg h3]
    apply sum_eq_zero; intro l _
    exact hz l (by omega)

theorem triFac_mul {b : Nat} {sz : Nat → Nat} {D S L Bm : Blocks ℝ} (h : TriFac sz b 0 D S L Bm) :
    bmat (b + 1) sz (biMat L Bm) * (bmat (b + 1) sz (biMat L Bm)).transpose = bmat (b + 1) sz (triMat D S) := by
  ext p q
  obtain ⟨⟨i, hi⟩, ⟨a, ha⟩⟩ := p
  obtain ⟨⟨j, hj⟩, ⟨c, hc⟩⟩ := q
  simp only [Matrix.mul_apply, Matrix.transpose_apply, bmat, Matrix.of_apply]
  rw [sum_bidx (b + 1) sz (fun l e => biMat L Bm i a l e * biMat L Bm j c l e), biMat_mul (b + 1) sz L Bm hi hj]
  unfold triMat
  simp only at ha hc
  by_cases h1 : i = j
  · subst h1
    rw [if_pos rfl, if_pos rfl]
    cases i with
    | zero => simp only [lt_irrefl, if_false, add_zero]; exact h.head a ha c hc
    | succ i =>
      rw [if_pos (by omega)]
      exact h.diag i (by omega) (by omega) a ha c hc
  rw [if_neg h1, if_neg h1]
  by_cases h2 : i = j + 1
  · subst h2
    rw [if_pos rfl, if_pos rfl]
    exact h.sub j (by omega) (by omega) a ha c hc
  rw [if_neg h2, if_neg h2]
  by_cases h3 : j = i + 1
  · subst h3
    rw [if_pos rfl, if_pos rfl]
    exact h.sub i (by omega) (by omega) c hc a ha
  · rw [if_neg h3, if_neg h3]

end JrlQp
