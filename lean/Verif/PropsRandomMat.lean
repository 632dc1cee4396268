import Verif.RandomMat
import Mathlib.Data.Matrix.ColumnRowPartitioned

/-!
# Random matrices of given rank (C48)
-/

namespace JrlQp

open Finset Matrix

/-- The draws of one call of `randOrtho`. -/
structure OrthoDraw where
  coin : Bool
  draws : Nat → Nat → ℝ

/-- `randOrtho(size)`, with the default argument. -/
noncomputable def OrthoDraw.mat (d : OrthoDraw) (size : Nat) : Nat → Nat → ℝ := randOrtho size false d.coin d.draws

/-- The diagonal of the middle factor, include/jrl-qp/test/randomMatrices.h:163-166: `rank` random values, scaled, then zeros. -/
noncomputable def randnDiag (rows cols rank : Nat) (sd : Nat → ℝ) : Nat → ℝ := fun i =>
  if i < rank then sd i * Real.sqrt ((3 * (rows : ℝ) * (cols : ℝ)) / (rank : ℝ)) else 0

/-- `randn`, include/jrl-qp/test/randomMatrices.h:153-181. `G` is the draw of `randnMat`, `sd` the one of `setRandom`, `dU` and `dV` those
of the two orthogonal matrices, of sizes `rows` and `cols`. `none`: the assertion on the rank fails. -/
noncomputable def randn (rows cols : Nat) (rank : Int) (G : Nat → Nat → ℝ) (sd : Nat → ℝ) (dU dV : OrthoDraw) :
    Option (Nat → Nat → ℝ) :=
  if ¬ (rank ≤ rows ∧ rank ≤ cols) then none else
  let p := min rows cols
  let rank : Nat := if rank < 0 then p else rank.toNat
  if rank = 0 then some fun _ _ => 0
  else if rank = p then some G
  else
    let s := randnDiag rows cols rank sd
    if rows ≤ cols then
      let M : Nat → Nat → ℝ := fun r c => if c < rows then dU.mat rows r c * s c else 0
      some fun r c => ∑ a ∈ range cols, M r a * dV.mat cols a c
    else
      let M : Nat → Nat → ℝ := fun r c => if r < cols then s r * dV.mat cols r c else 0
      some fun r c => ∑ a ∈ range rows, dU.mat rows r a * M a c

/-- One of the two results of `randDependent`, include/jrl-qp/test/randomMatrices.h:205-213: `M` is the block of `rank` rows of the common
matrix. -/
noncomputable def depBlock (rows rank : Nat) (M : Nat → Nat → ℝ) (d : OrthoDraw) : Nat → Nat → ℝ :=
  if rank = rows then M else fun r c => ∑ a ∈ range rank, d.mat rows r a * M a c

/-- `randDependent`, include/jrl-qp/test/randomMatrices.h:192-216. `none`: an assertion fails. -/
noncomputable def randDependent (cols rowsA rankA rowsB rankB rankAB : Nat) (G : Nat → Nat → ℝ) (sd : Nat → ℝ) (dU dV dA dB : OrthoDraw) :
    Option ((Nat → Nat → ℝ) × (Nat → Nat → ℝ)) :=
  if rankA ≤ rowsA ∧ rankA ≤ cols ∧ rankB ≤ rowsB ∧ rankB ≤ cols ∧ rankA ≤ rankAB ∧ rankB ≤ rankAB ∧ rankAB ≤ rankA + rankB ∧ rankAB ≤ cols then
    match randn (rankA + rankB) cols rankAB G sd dU dV with
    | none => none
    | some M => some (depBlock rowsA rankA M dA, depBlock rowsB rankB (fun r c => M (rankA + r) c) dB)
  else none

theorem matOf_mul {n k m : Nat} (A B : Nat → Nat → ℝ) :
    matOf n m (fun r c => ∑ a ∈ range k, A r a * B a c) = matOf n k A * matOf k m B := by
  ext r c
  rw [mul_apply]
  show ∑ a ∈ range k, A r a * B a c = ∑ a : Fin k, A r a * B a c
  rw [Fin.sum_univ_eq_sum_range (fun a => A r a * B a c) k]

theorem OrthoDraw.orth (d : OrthoDraw) (size : Nat) : (matOf size size (d.mat size))ᵀ * matOf size size (d.mat size) = 1 :=
  (Matrix.mem_orthogonalGroup_iff' (Fin size) ℝ).1 (C47_randOrtho size false d.coin d.draws).1

theorem OrthoDraw.det (d : OrthoDraw) (size : Nat) : (matOf size size (d.mat size)).det ≠ 0 := by
  rcases (C47_randOrtho size false d.coin d.draws).2.1 with h | h
  · rw [OrthoDraw.mat, h]; norm_num
  · rw [OrthoDraw.mat, h]; norm_num

/-- A left factor with orthonormal columns does not change the rank. -/
theorem rank_of_left_inv {l m n : Type} [Fintype l] [Fintype m] [Fintype n] [DecidableEq m] {P : Matrix l m ℝ} {P' : Matrix m l ℝ}
    (h : P' * P = 1) (M : Matrix m n ℝ) : (P * M).rank = M.rank := by
  apply le_antisymm (rank_mul_le_right _ _)
  calc M.rank = (P' * (P * M)).rank := by rw [← Matrix.mul_assoc, h, Matrix.one_mul]
    _ ≤ (P * M).rank := rank_mul_le_right _ _

theorem rank_of_right_inv {l m n : Type} [Fintype l] [Fintype m] [Fintype n] [DecidableEq m] {P : Matrix m l ℝ} {P' : Matrix l m ℝ}
    (h : P * P' = 1) (M : Matrix n m ℝ) : (M * P).rank = M.rank := by
  apply le_antisymm (rank_mul_le_left _ _)
  calc M.rank = ((M * P) * P').rank := by rw [Matrix.mul_assoc, h, Matrix.mul_one]
    _ ≤ (M * P).rank := rank_mul_le_left _ _

/-- Number of non-zero entries among the first `p`. -/
theorem rank_diag (p : Nat) (s : Nat → ℝ) : (diagonal (fun i : Fin p => s i)).rank = ((range p).filter fun i => s i ≠ 0).card := by
  classical
  rw [rank_diagonal, Fintype.card_subtype]
  apply Finset.card_bij (fun (a : Fin p) _ => a.1)
  · intro a ha
    simp at ha ⊢
    exact ha
  · intro a _ b _ h; exact Fin.ext h
  · intro b hb
    simp at hb
    exact ⟨⟨b, hb.1⟩, by simp [hb.2], rfl⟩

theorem randnDiag_card {rows cols rank p : Nat} (hr : rank ≤ p) (sd : Nat → ℝ) :
    ((range p).filter fun i => randnDiag rows cols rank sd i ≠ 0).card ≤ rank ∧
    (0 < rows → 0 < cols → 0 < rank → (∀ i < rank, sd i ≠ 0) →
      ((range p).filter fun i => randnDiag rows cols rank sd i ≠ 0).card = rank) := by
  have hsub : (range p).filter (fun i => randnDiag rows cols rank sd i ≠ 0) ⊆ range rank := by
    intro i hi
    rw [mem_filter] at hi
    rw [mem_range]
    by_contra h
    apply hi.2
    unfold randnDiag
    rw [if_neg h]
  refine ⟨by have := card_le_card hsub; rwa [card_range] at this, fun h1 h2 h3 h4 => ?_⟩
  have : (range p).filter (fun i => randnDiag rows cols rank sd i ≠ 0) = range rank := by
    apply Finset.Subset.antisymm hsub
    intro i hi
    have hi := mem_range.1 hi
    rw [mem_filter, mem_range]
    refine ⟨by omega, ?_⟩
    unfold randnDiag
    rw [if_pos hi]
    apply mul_ne_zero (h4 i hi)
    apply (Real.sqrt_pos.2 _).ne'
    positivity
  rw [this, card_range]

/-- The rank of the matrix in the third case of `randn`. -/
theorem randn_rank {rows cols rank : Nat} (G : Nat → Nat → ℝ) (sd : Nat → ℝ) (dU dV : OrthoDraw) {M : Nat → Nat → ℝ}
    (h : randn rows cols rank G sd dU dV = some M) (h0 : 0 < rank) (hp : rank < min rows cols) :
    (matOf rows cols M).rank = ((range (min rows cols)).filter fun i => randnDiag rows cols rank sd i ≠ 0).card := by
  unfold randn at h
  rw [if_neg (by push Not; constructor <;> (have := hp; simp at this; omega))] at h
  simp only [show ¬ ((rank : Int) < 0) by omega, if_false, Int.toNat_natCast] at h
  rw [if_neg (by omega), if_neg (by omega)] at h
  generalize randnDiag rows cols rank sd = s at h ⊢
  by_cases hrc : rows ≤ cols
  · rw [if_pos hrc] at h
    cases h
    rw [matOf_mul, min_eq_left hrc, ← rank_diag]
    have hV : matOf cols cols (dV.mat cols) * (matOf cols cols (dV.mat cols))ᵀ = 1 := mul_eq_one_comm.1 (dV.orth cols)
    rw [rank_of_right_inv hV]
    have e : matOf rows cols (fun r c => if c < rows then dU.mat rows r c * s c else 0)
        = matOf rows rows (dU.mat rows) * (diagonal (fun i : Fin rows => s i) * matOf rows cols kd) := by
      ext r c
      rw [mul_apply]
      simp only [diagonal_mul]
      show (if c.1 < rows then dU.mat rows r c * s c else 0) = ∑ a : Fin rows, dU.mat rows r a * (s a * kd a c)
      rw [Fin.sum_univ_eq_sum_range (fun a => dU.mat rows r a * (s a * kd a c)) rows]
      split_ifs with hc
      · rw [Finset.sum_eq_single c.1]
        · simp [kd]
        · intro b _ hb; simp [kd, hb]
        · intro hn; exact absurd (mem_range.2 hc) hn
      · apply (Finset.sum_eq_zero _).symm
        intro b hb
        have := mem_range.1 hb
        simp [kd, show b ≠ c.1 by omega]
    rw [e, rank_of_left_inv (dU.orth rows)]
    apply rank_of_right_inv (P' := (matOf rows cols kd)ᵀ)
    ext r c
    rw [mul_apply]
    show ∑ a : Fin cols, kd r a * kd c a = _
    rw [Fin.sum_univ_eq_sum_range (fun a => kd r a * kd c a) cols, sum_kd (i := r.1) (by have := r.2; omega)]
    simp only [kd, one_apply, Fin.ext_iff]
    split_ifs <;> first | rfl | omega
  · rw [if_neg hrc] at h
    cases h
    rw [matOf_mul, min_eq_right (by omega), ← rank_diag, rank_of_left_inv (dU.orth rows)]
    have e : matOf rows cols (fun r c => if r < cols then s r * dV.mat cols r c else 0)
        = (matOf rows cols kd * diagonal (fun i : Fin cols => s i)) * matOf cols cols (dV.mat cols) := by
      ext r c
      rw [mul_apply]
      simp only [mul_diagonal]
      show (if r.1 < cols then s r * dV.mat cols r c else 0) = ∑ a : Fin cols, kd r a * s a * dV.mat cols a c
      rw [Fin.sum_univ_eq_sum_range (fun a => kd r a * s a * dV.mat cols a c) cols]
      split_ifs with hc
      · rw [Finset.sum_eq_single r.1]
        · simp [kd]
        · intro b _ hb; simp [kd, Ne.symm hb]
        · intro hn; exact absurd (mem_range.2 hc) hn
      · apply (Finset.sum_eq_zero _).symm
        intro b hb
        have := mem_range.1 hb
        simp [kd, show r.1 ≠ b by omega]
    have hV : matOf cols cols (dV.mat cols) * (matOf cols cols (dV.mat cols))ᵀ = 1 := mul_eq_one_comm.1 (dV.orth cols)
    rw [e, rank_of_right_inv hV]
    apply rank_of_left_inv (P' := (matOf rows cols kd)ᵀ)
    ext r c
    rw [mul_apply]
    show ∑ a : Fin rows, kd a r * kd a c = _
    rw [Fin.sum_univ_eq_sum_range (fun a => kd a r * kd a c) rows, sum_kd' (i := c.1) (by have := c.2; omega)]
    simp only [kd, one_apply, Fin.ext_iff]
    split_ifs <;> first | rfl | omega

/-- **C48** (`randn`). The assertion fails exactly when the requested rank exceeds one of the dimensions. Otherwise, for every draw, the rank
of the result is at most the requested one (the smaller dimension if it is negative), and exactly the requested one if it is smaller than both
dimensions and none of the uniform draws is zero; rank 0 gives the zero matrix, and full rank gives the normal draw itself. -/
theorem C48_randn (rows cols : Nat) (rank : Int) (G : Nat → Nat → ℝ) (sd : Nat → ℝ) (dU dV : OrthoDraw) :
    (randn rows cols rank G sd dU dV = none ↔ ¬ (rank ≤ rows ∧ rank ≤ cols)) ∧
    ∀ M, randn rows cols rank G sd dU dV = some M →
      (rank < 0 → M = G ∨ min rows cols = 0) ∧
      (0 ≤ rank → ((matOf rows cols M).rank : Int) ≤ rank) ∧
      (0 ≤ rank → rank < min rows cols → (∀ i : Nat, i < rank → sd i ≠ 0) → ((matOf rows cols M).rank : Int) = rank) ∧
      (0 < rank → rank = min rows cols → M = G) := by
  constructor
  · unfold randn
    by_cases h : rank ≤ rows ∧ rank ≤ cols
    · rw [if_neg (not_not.2 h)]
      simp only [h, and_self, not_true_eq_false, iff_false]
      intro h
      split_ifs at h
    · rw [if_pos h]
      simp [h]
  · intro M hM
    have hv : rank ≤ rows ∧ rank ≤ cols := by
      by_contra h
      unfold randn at hM
      rw [if_pos h] at hM
      cases hM
    rcases lt_or_ge rank 0 with hneg | hpos
    · refine ⟨fun _ => ?_, fun h => by omega, fun h => by omega, fun h => by omega⟩
      unfold randn at hM
      rw [if_neg (not_not.2 hv)] at hM
      simp only [hneg, if_true] at hM
      by_cases h0 : min rows cols = 0
      · exact Or.inr h0
      · rw [if_neg h0] at hM
        cases hM
        exact Or.inl rfl
    · obtain ⟨k, rfl⟩ := Int.eq_ofNat_of_zero_le hpos
      have hle : k ≤ min rows cols := by have := hv.1; have := hv.2; simp; omega
      have h0 : k = 0 → M = fun _ _ => 0 := by
        rintro rfl
        unfold randn at hM
        rw [if_neg (not_not.2 hv)] at hM
        simp only [Nat.cast_zero, lt_irrefl, if_false, Int.toNat_zero, if_true] at hM
        cases hM
        rfl
      have hz : k = 0 → (matOf rows cols M).rank = 0 := by
        intro h
        rw [h0 h, show matOf rows cols (fun _ _ => (0 : ℝ)) = 0 from rfl, rank_zero]
      have hmid : 0 < k → k < min rows cols → (matOf rows cols M).rank ≤ k ∧ ((∀ i < k, sd i ≠ 0) → (matOf rows cols M).rank = k) := by
        intro hk hp
        rw [randn_rank G sd dU dV hM hk hp]
        have := randnDiag_card (rows := rows) (cols := cols) hle sd
        have h2 := hp
        rw [lt_min_iff] at h2
        exact ⟨this.1, this.2 (by omega) (by omega) hk⟩
      have hfull : (matOf rows cols M).rank ≤ min rows cols := by
        apply le_min
        · have := rank_le_card_height (matOf rows cols M)
          rwa [Fintype.card_fin] at this
        · have := rank_le_card_width (matOf rows cols M)
          rwa [Fintype.card_fin] at this
      refine ⟨fun h => by omega, fun _ => ?_, fun _ hp hs => ?_, fun h0 hp => ?_⟩
      · rcases Nat.eq_zero_or_pos k with hk | hk
        · rw [hz hk]; omega
        · rcases Nat.lt_or_ge k (min rows cols) with h | h
          · exact_mod_cast (hmid hk h).1
          · exact_mod_cast hfull.trans h
      · have hp : k < min rows cols := by exact_mod_cast hp
        rcases Nat.eq_zero_or_pos k with hk | hk
        · rw [hz hk]; omega
        · exact_mod_cast (hmid hk hp).2 (fun i hi => hs i (by exact_mod_cast hi))
      · unfold randn at hM
        rw [if_neg (not_not.2 hv)] at hM
        simp only [show ¬ ((k : Int) < 0) by omega, if_false, Int.toNat_natCast] at hM
        have hp : k = min rows cols := by exact_mod_cast hp
        rw [if_neg (by omega), if_pos hp] at hM
        cases hM
        rfl

/-- The first columns of an orthogonal matrix are orthonormal. -/
theorem leftCols_orth (d : OrthoDraw) {rows k : Nat} (h : k ≤ rows) :
    (matOf rows k (d.mat rows))ᵀ * matOf rows k (d.mat rows) = 1 := by
  ext r c
  have := congrFun (congrFun (d.orth rows) ⟨r.1, by omega⟩) ⟨c.1, by omega⟩
  rw [mul_apply] at this ⊢
  simp only [one_apply, Fin.ext_iff] at this ⊢
  exact this

/-- A block is the common block multiplied by a matrix with orthonormal columns. -/
theorem depBlock_eq (d : OrthoDraw) {rows k cols : Nat} (h : k ≤ rows) (M : Nat → Nat → ℝ) :
    ∃ P : Matrix (Fin rows) (Fin k) ℝ, Pᵀ * P = 1 ∧ matOf rows cols (depBlock rows k M d) = P * matOf k cols M := by
  unfold depBlock
  by_cases he : k = rows
  · subst he
    refine ⟨1, by simp, ?_⟩
    rw [if_pos rfl, Matrix.one_mul]
  · rw [if_neg he]
    exact ⟨matOf rows k (d.mat rows), leftCols_orth d h, matOf_mul _ _⟩

/-- The two blocks of the common matrix, one above the other. -/
theorem matOf_split {a b cols : Nat} (M : Nat → Nat → ℝ) :
    (fromRows (matOf a cols M) (matOf b cols (fun r c => M (a + r) c))).rank = (matOf (a + b) cols M).rank := by
  rw [← rank_reindex (finSumFinEquiv (m := a) (n := b)) (Equiv.refl (Fin cols))]
  congr 1
  ext r c
  rw [reindex_apply, submatrix_apply]
  obtain ⟨r, rfl⟩ := (finSumFinEquiv (m := a) (n := b)).surjective r
  rw [Equiv.symm_apply_apply]
  rcases r with r | r <;> rfl

/-- **C48** (`randDependent`). For every draw, when no assertion fails: the rank of `A`, of `B` and of `[A;B]` are those of the top block, of
the bottom block and of the whole of one matrix `M`, drawn by `randn`; hence they are never more than `rankA`, `rankB` and `rankAB`, and
that of `[A;B]` is exactly `rankAB` when it is less than both `rankA + rankB` and `cols` and no uniform draw is zero. -/
theorem C48_randDependent (cols rowsA rankA rowsB rankB rankAB : Nat) (G : Nat → Nat → ℝ) (sd : Nat → ℝ) (dU dV dA dB : OrthoDraw)
    {A B : Nat → Nat → ℝ} (h : randDependent cols rowsA rankA rowsB rankB rankAB G sd dU dV dA dB = some (A, B)) :
    ∃ M, randn (rankA + rankB) cols rankAB G sd dU dV = some M ∧
      (matOf rowsA cols A).rank = (matOf rankA cols M).rank ∧
      (matOf rowsB cols B).rank = (matOf rankB cols (fun r c => M (rankA + r) c)).rank ∧
      (fromRows (matOf rowsA cols A) (matOf rowsB cols B)).rank = (matOf (rankA + rankB) cols M).rank ∧
      (matOf rowsA cols A).rank ≤ rankA ∧ (matOf rowsB cols B).rank ≤ rankB ∧
      (fromRows (matOf rowsA cols A) (matOf rowsB cols B)).rank ≤ rankAB ∧
      (rankAB < rankA + rankB → rankAB < cols → (∀ i < rankAB, sd i ≠ 0) →
        (fromRows (matOf rowsA cols A) (matOf rowsB cols B)).rank = rankAB) := by
  unfold randDependent at h
  split_ifs at h with hc
  cases hM : randn (rankA + rankB) cols rankAB G sd dU dV with
  | none => rw [hM] at h; cases h
  | some M =>
    rw [hM] at h
    cases h
    obtain ⟨P, hP, eA⟩ := depBlock_eq dA (cols := cols) hc.1 M
    obtain ⟨P', hP', eB⟩ := depBlock_eq dB (cols := cols) hc.2.2.1 (fun r c => M (rankA + r) c)
    have rA := rank_of_left_inv hP (matOf rankA cols M)
    have rB := rank_of_left_inv hP' (matOf rankB cols (fun r c => M (rankA + r) c))
    have hAB : fromRows (P * matOf rankA cols M) (P' * matOf rankB cols (fun r c => M (rankA + r) c))
        = fromBlocks P 0 0 P' * fromRows (matOf rankA cols M) (matOf rankB cols (fun r c => M (rankA + r) c)) := by
      rw [fromBlocks_mul_fromRows]
      simp
    have hinv : fromBlocks Pᵀ 0 0 P'ᵀ * fromBlocks P 0 0 P' = 1 := by
      rw [fromBlocks_multiply]
      simp [hP, hP']
    have rAB := rank_of_left_inv hinv (fromRows (matOf rankA cols M) (matOf rankB cols (fun r c => M (rankA + r) c)))
    rw [← hAB, matOf_split] at rAB
    have hr := (C48_randn (rankA + rankB) cols rankAB G sd dU dV).2 M hM
    refine ⟨M, rfl, by rw [eA, rA], by rw [eB, rB], by rw [eA, eB, rAB], ?_, ?_, ?_, ?_⟩
    · rw [eA, rA]
      have := rank_le_card_height (matOf rankA cols M)
      rwa [Fintype.card_fin] at this
    · rw [eB, rB]
      have := rank_le_card_height (matOf rankB cols (fun r c => M (rankA + r) c))
      rwa [Fintype.card_fin] at this
    · rw [eA, eB, rAB]
      exact_mod_cast hr.2.1 (by omega)
    · intro h1 h2 hs
      rw [eA, eB, rAB]
      have := hr.2.2.1 (by omega) (by simp; omega) (fun i hi => hs i (by exact_mod_cast hi))
      exact_mod_cast this

/-- A draw. -/
def drawOnes : OrthoDraw := ⟨true, fun _ _ => 1⟩

/-- The hypotheses are met: a 3 by 4 matrix of rank 2 is drawn, and it has rank 2. -/
theorem C48_hypotheses_met :
    (∃ M, randn 3 4 2 kd (fun _ => 1 / 2) drawOnes drawOnes = some M ∧ (matOf 3 4 M).rank = 2) ∧
    (∃ A B, randDependent 5 3 2 4 2 3 kd (fun _ => 1 / 2) drawOnes drawOnes drawOnes drawOnes = some (A, B) ∧
      (fromRows (matOf 3 5 A) (matOf 4 5 B)).rank = 3) := by
  constructor
  · cases h : randn 3 4 2 kd (fun _ => 1 / 2) drawOnes drawOnes with
    | none => exact absurd ((C48_randn 3 4 2 _ _ _ _).1.1 h) (by norm_num)
    | some M =>
      refine ⟨M, rfl, ?_⟩
      have := ((C48_randn 3 4 2 _ _ _ _).2 M h).2.2.1 (by norm_num) (by norm_num) (fun _ _ => by norm_num)
      exact_mod_cast this
  · have hn : randDependent 5 3 2 4 2 3 kd (fun _ => 1 / 2) drawOnes drawOnes drawOnes drawOnes ≠ none := by
      unfold randDependent
      rw [if_pos (by norm_num)]
      cases h : randn (2 + 2) 5 ((3 : Nat) : Int) kd (fun _ => 1 / 2) drawOnes drawOnes with
      | none => exact absurd ((C48_randn _ _ _ _ _ _ _).1.1 h) (by norm_num)
      | some M => simp
    cases h : randDependent 5 3 2 4 2 3 kd (fun _ => 1 / 2) drawOnes drawOnes drawOnes drawOnes with
    | none => exact absurd h hn
    | some AB =>
      obtain ⟨_, _, _, _, _, _, _, _, hr⟩ := C48_randDependent _ _ _ _ _ _ _ _ _ _ _ _ (A := AB.1) (B := AB.2) h
      exact ⟨AB.1, AB.2, rfl, hr (by norm_num) (by norm_num) (fun _ _ => by norm_num)⟩

end JrlQp
