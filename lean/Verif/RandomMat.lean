import Verif.RealLin
import Verif.Eigen
import Mathlib.LinearAlgebra.Matrix.SchurComplement
import Mathlib.LinearAlgebra.Matrix.Rank
import Mathlib.LinearAlgebra.UnitaryGroup
import Mathlib.Algebra.BigOperators.Field

/-!
# The random matrix generators

Model of include/jrl-qp/test/randomMatrices.h, in exact arithmetic. The draws of the random number generators are arguments: what is proved
holds for all of them.
-/

namespace JrlQp

open Finset

/-- `Eigen::MatrixBase::normalize`: divides by the norm if the squared norm is positive. -/
noncomputable def normalizeN (i : Nat) (v : Nat → ℝ) : Nat → ℝ :=
  if 0 < ∑ a ∈ range i, v a ^ 2 then fun a => v a / Real.sqrt (∑ a ∈ range i, v a ^ 2) else v

/-- The sign test and the Householder vector computed from the draw `r`, include/jrl-qp/test/randomMatrices.h:90-105:
`v = randUnitVec(i)` (lines 50-55: a normal draw, normalised), `positive = v[0] >= 0`, `v[0] ± = 1`, `v.normalize()`. -/
noncomputable def houseVec (i : Nat) (r : Nat → ℝ) : Bool × (Nat → ℝ) :=
  let v := normalizeN i r
  let positive := decide (0 ≤ v 0)
  let v := if positive then upd v 0 (v 0 + 1) else upd v 0 (v 0 - 1)
  (positive, normalizeN i v)

/-- One turn of the loop of `randOrtho`, include/jrl-qp/test/randomMatrices.h:84-126; the pair is `Q` and `positiveDet`, `r` is the draw.
The local matrix `H` of the code is not used there and is left out. -/
noncomputable def orthoStep (size : Nat) (Qp : (Nat → Nat → ℝ) × Bool) (i : Nat) (r : Nat → ℝ) : (Nat → Nat → ℝ) × Bool :=
  let Q := Qp.1
  let positiveDet := Qp.2
  let k := size - i
  let hv := houseVec i r
  let v := hv.2
  let w : Nat → ℝ := fun c => ∑ a ∈ range i, Q (k + a) (k + c) * v a
  if hv.1 then
    let Q := upd2 Q k k (-1)
    let Q : Nat → Nat → ℝ := fun r c => if k + 1 ≤ r ∧ k + 1 ≤ c then Q r c * -1 else Q r c
    (fun r c => if k ≤ r ∧ k ≤ c then Q r c + 2 * v (r - k) * w (c - k) else Q r c,
      if i % 2 = 0 then !positiveDet else positiveDet)
  else
    (fun r c => if k ≤ r ∧ k ≤ c then Q r c - 2 * v (r - k) * w (c - k) else Q r c, !positiveDet)

/-- `randOrtho`, include/jrl-qp/test/randomMatrices.h:63-131. `coin` is the random boolean, `draws i` the normal draw of turn `i`. -/
noncomputable def randOrtho (size : Nat) (special coin : Bool) (draws : Nat → Nat → ℝ) : Nat → Nat → ℝ :=
  if size = 0 then kd else
  let Q : Nat → Nat → ℝ := upd2 kd (size - 1) (size - 1) (if coin then 1 else -1)
  let Qp := (List.range (size - 1)).foldl (fun Qp j => orthoStep size Qp (j + 2) (draws (j + 2))) (Q, coin)
  if special && !Qp.2 then fun r c => if c = 0 then Qp.1 r c * -1 else Qp.1 r c else Qp.1

/-- The `size × size` matrix held by a function. -/
def matOf (n m : Nat) (Q : Nat → Nat → ℝ) : Matrix (Fin n) (Fin m) ℝ := Matrix.of fun i j => Q i j

theorem normalizeN_unit {i : Nat} {v : Nat → ℝ} (h : ∃ a < i, v a ≠ 0) : ∑ a ∈ range i, normalizeN i v a ^ 2 = 1 := by
  have hpos : 0 < ∑ a ∈ range i, v a ^ 2 := by
    obtain ⟨a, ha, hv⟩ := h
    exact Finset.sum_pos' (fun _ _ => sq_nonneg _) ⟨a, mem_range.2 ha, by positivity⟩
  unfold normalizeN
  rw [if_pos hpos]
  simp only [div_pow, Real.sq_sqrt hpos.le]
  rw [← Finset.sum_div, div_self hpos.ne']

/-- Whatever the draw, the Householder vector is a unit vector. -/
theorem houseVec_unit {i : Nat} (hi : 0 < i) (r : Nat → ℝ) : ∑ a ∈ range i, (houseVec i r).2 a ^ 2 = 1 := by
  apply normalizeN_unit
  refine ⟨0, hi, ?_⟩
  by_cases h : 0 ≤ normalizeN i r 0
  · simp only [h, decide_true, if_true, upd]
    linarith
  · simp only [h, decide_false, Bool.false_eq_true, if_false, upd]
    push Not at h
    simp only [if_true]
    linarith

section house
variable {n : Nat}

open Matrix

/-- The Householder reflection. -/
noncomputable def house (v : Fin n → ℝ) : Matrix (Fin n) (Fin n) ℝ := 1 - (2 : ℝ) • vecMulVec v v

theorem house_orth {v : Fin n → ℝ} (h : v ⬝ᵥ v = 1) : (house v)ᵀ * house v = 1 := by
  have ht : (house v)ᵀ = house v := by
    unfold house
    rw [transpose_sub, transpose_one, transpose_smul, transpose_vecMulVec]
  rw [ht]
  unfold house
  rw [sub_mul, mul_sub, mul_sub, one_mul, mul_one, smul_mul_smul_comm, vecMulVec_mul_vecMulVec, h]
  ext a b
  simp
  ring

theorem house_det {v : Fin n → ℝ} (h : v ⬝ᵥ v = 1) : (house v).det = -1 := by
  have : house v = 1 + replicateCol Unit ((-2 : ℝ) • v) * replicateRow Unit v := by
    unfold house
    ext a b
    simp [vecMulVec_apply, mul_apply]
    ring
  rw [this, det_one_add_replicateCol_mul_replicateRow, dotProduct_smul, h]
  norm_num

/-- State of the loop of `randOrtho` after turn `i`. -/
structure OrthoInv (size i : Nat) (Qp : (Nat → Nat → ℝ) × Bool) : Prop where
  id : ∀ r < size, ∀ c < size, r < size - i ∨ c < size - i → Qp.1 r c = kd r c
  orth : (matOf size size Qp.1)ᵀ * matOf size size Qp.1 = 1
  det : (matOf size size Qp.1).det = if Qp.2 then 1 else -1

theorem sum_shift {k i : Nat} (f g : Nat → ℝ) (hf : ∀ a < k, f a = 0) (hg : ∀ a < i, f (k + a) = g a) :
    ∑ a ∈ range (k + i), f a = ∑ a ∈ range i, g a := by
  rw [Finset.sum_range_add, Finset.sum_eq_zero (fun a ha => hf a (mem_range.1 ha)), zero_add]
  exact Finset.sum_congr rfl fun a ha => hg a (mem_range.1 ha)

theorem orthoStep_inv {size i : Nat} (h2 : 2 ≤ i) (hi : i ≤ size) {Qp : (Nat → Nat → ℝ) × Bool} (h : OrthoInv size (i - 1) Qp)
    (r : Nat → ℝ) : OrthoInv size i (orthoStep size Qp i r) := by
  obtain ⟨Q, pd⟩ := Qp
  obtain ⟨k, hk⟩ : ∃ k, k = size - i := ⟨_, rfl⟩
  have hsz : size = k + i := by omega
  have hu := houseVec_unit (i := i) (by omega) r
  have hid : ∀ r < size, ∀ c < size, r < k + 1 ∨ c < k + 1 → Q r c = kd r c := by
    intro r hr c hc hrc
    exact h.id r hr c hc (by omega)
  have horth : (matOf size size Q)ᵀ * matOf size size Q = 1 := h.orth
  have hdet : (matOf size size Q).det = if pd then 1 else -1 := h.det
  obtain ⟨v, hv⟩ : ∃ v, v = (houseVec i r).2 := ⟨_, rfl⟩
  obtain ⟨p, hp⟩ : ∃ p, p = (houseVec i r).1 := ⟨_, rfl⟩
  rw [← hv] at hu
  obtain ⟨V, hV⟩ : ∃ V : Fin size → ℝ, V = fun a => if k ≤ a.1 then v (a.1 - k) else 0 := ⟨_, rfl⟩
  have hV1 : V ⬝ᵥ V = 1 := by
    unfold dotProduct
    rw [hV]
    rw [Fin.sum_univ_eq_sum_range (fun a => (if k ≤ a then v (a - k) else 0) * (if k ≤ a then v (a - k) else 0)) size]
    rw [hsz, sum_shift _ (fun a => v a ^ 2), hu]
    · intro a ha; rw [if_neg (by omega)]; simp
    · intro a ha
      rw [if_pos (by omega), show k + a - k = a by omega]; ring
  obtain ⟨D, hD⟩ : ∃ D : Fin size → ℝ, D = fun a => if p = true ∧ k ≤ a.1 then -1 else 1 := ⟨_, rfl⟩
  obtain ⟨w, hw⟩ : ∃ w : Nat → ℝ, w = fun c => ∑ a ∈ range i, Q (k + a) (k + c) * v a := ⟨_, rfl⟩
  -- the product by the reflection
  have hprod : ∀ (r c : Fin size), (house V * matOf size size Q) r c
      = Q r c - 2 * V r * (if k ≤ c.1 then w (c.1 - k) else 0) := by
    intro r c
    have e1 : (house V * matOf size size Q) r c = Q r c - 2 * (V r * ∑ a : Fin size, V a * Q a c) := by
      unfold house
      rw [sub_mul, one_mul, Matrix.sub_apply, Matrix.smul_mul, Matrix.smul_apply]
      congr 1
      show 2 * (vecMulVec V V * matOf size size Q) r c = _
      congr 1
      rw [mul_apply, Finset.mul_sum]
      refine Finset.sum_congr rfl fun a _ => ?_
      rw [vecMulVec_apply, mul_assoc]
      rfl
    have e2 : ∑ a : Fin size, V a * Q a c = if k ≤ c.1 then w (c.1 - k) else 0 := by
      rw [hV]
      rw [Fin.sum_univ_eq_sum_range (fun a => (if k ≤ a then v (a - k) else 0) * Q a c) size]
      have hc := c.2
      generalize c.1 = c at hc
      rw [hsz, sum_shift _ (fun a => v a * Q (k + a) c)]
      · split_ifs with hkc
        · rw [hw]
          dsimp only
          rw [show k + (c - k) = c by omega]
          exact Finset.sum_congr rfl fun a _ => by ring
        · apply Finset.sum_eq_zero
          intro a ha
          have ha := mem_range.1 ha
          rw [hid (k + a) (by omega) c hc (by omega)]
          simp [kd, show k + a ≠ c by omega]
      · intro a ha; rw [if_neg (by omega)]; simp
      · intro a ha
        rw [if_pos (by omega), show k + a - k = a by omega]
    rw [e1, e2]; ring
  have hent : ∀ a b, (orthoStep size (Q, pd) i r).1 a b = if p = true then
      (if k ≤ a ∧ k ≤ b then (if k + 1 ≤ a ∧ k + 1 ≤ b then upd2 Q k k (-1) a b * -1 else upd2 Q k k (-1) a b) + 2 * v (a - k) * w (b - k)
        else if k + 1 ≤ a ∧ k + 1 ≤ b then upd2 Q k k (-1) a b * -1 else upd2 Q k k (-1) a b)
      else if k ≤ a ∧ k ≤ b then Q a b - 2 * v (a - k) * w (b - k) else Q a b := by
    intro a b
    unfold orthoStep
    dsimp only
    rw [← hp, ← hv, ← hk, hw]
    by_cases hp1 : p = true
    · rw [if_pos hp1, if_pos hp1]
    · rw [if_neg hp1, if_neg hp1]
  have hstep : matOf size size (orthoStep size (Q, pd) i r).1 = diagonal D * (house V * matOf size size Q) := by
    ext a b
    rw [diagonal_mul, hprod]
    show (orthoStep size (Q, pd) i r).1 a.1 b.1 = _
    rw [hent, hD, hV]
    dsimp only
    have ha := a.2
    have hb := b.2
    generalize a.1 = a at ha
    generalize b.1 = b at hb
    by_cases hp1 : p = true
    · simp only [hp1, true_and, if_true]
      by_cases h1 : k ≤ a <;> by_cases h3 : k ≤ b
      · simp only [h1, h3, and_self, if_true]
        by_cases h4 : k + 1 ≤ a ∧ k + 1 ≤ b
        · rw [if_pos h4]
          have : upd2 Q k k (-1) a b = Q a b := by unfold upd2; rw [if_neg (by omega)]
          rw [this]; ring
        · rw [if_neg h4]
          have h5 := hid a ha b hb (by omega)
          rw [h5]
          unfold upd2
          by_cases h6 : a = k ∧ b = k
          · rw [if_pos h6, h6.1, h6.2]; simp [kd]; ring
          · rw [if_neg h6, h5]
            have : a ≠ b := by omega
            simp [kd, this]
      · have h5 := hid a ha b hb (by omega)
        have : a ≠ b := by omega
        rw [if_neg (by omega), if_neg (by omega)]
        unfold upd2
        rw [if_neg (by omega), h5, if_pos h1, if_pos h1, if_neg h3]
        simp [kd, this]
      · have h5 := hid a ha b hb (by omega)
        have : a ≠ b := by omega
        rw [if_neg (by omega), if_neg (by omega)]
        unfold upd2
        rw [if_neg (by omega), h5, if_neg h1, if_neg h1]
        simp [kd, this]
      · rw [if_neg (by omega), if_neg (by omega)]
        unfold upd2
        rw [if_neg (by omega), if_neg h1, if_neg h1]
        simp
    · simp only [hp1, false_and, if_false, Bool.false_eq_true, one_mul]
      by_cases h1 : k ≤ a <;> by_cases h3 : k ≤ b <;> simp [h1, h3]
  have hpd : (orthoStep size (Q, pd) i r).2 = if p = true then (if i % 2 = 0 then !pd else pd) else !pd := by
    unfold orthoStep
    dsimp only
    rw [← hp]
    split_ifs <;> rfl
  have hDorth : (diagonal D)ᵀ * diagonal D = 1 := by
    rw [diagonal_transpose, diagonal_mul_diagonal, ← diagonal_one]
    congr 1
    funext a
    rw [hD]
    dsimp only
    split_ifs <;> simp
  have hDdet : (diagonal D).det = if p = true then (-1) ^ i else 1 := by
    rw [det_diagonal, hD, Fin.prod_univ_eq_prod_range (fun a => if p = true ∧ k ≤ a then (-1 : ℝ) else 1) size, hsz, Finset.prod_range_add]
    rw [Finset.prod_eq_one (fun a ha => by rw [if_neg (by have := mem_range.1 ha; omega)]), one_mul]
    split_ifs with hp1
    · rw [Finset.prod_congr rfl (g := fun _ => (-1 : ℝ)) (fun a _ => by rw [if_pos ⟨hp1, by omega⟩])]
      simp
    · apply Finset.prod_eq_one
      intro a _
      rw [if_neg (by tauto)]
  refine ⟨?_, ?_, ?_⟩
  · intro a ha b hb hab
    rw [← hk] at hab
    have h5 := hid a ha b hb (by omega)
    have e : upd2 Q k k (-1) a b = Q a b := by unfold upd2; rw [if_neg (by omega)]
    have n1 : ¬ (k ≤ a ∧ k ≤ b) := by omega
    have n2 : ¬ (k + 1 ≤ a ∧ k + 1 ≤ b) := by omega
    rw [hent, e, h5, if_neg n1, if_neg n1, if_neg n2, ite_self]
  · rw [hstep, transpose_mul, transpose_mul]
    calc _ = (matOf size size Q)ᵀ * ((house V)ᵀ * ((diagonal D)ᵀ * diagonal D) * house V) * matOf size size Q := by
          simp only [mul_assoc]
      _ = 1 := by rw [hDorth, mul_one, house_orth hV1, mul_one, horth]
  · rw [hstep, det_mul, det_mul, house_det hV1, hdet, hDdet, hpd]
    rcases Nat.even_or_odd i with he | ho
    · have h0 : i % 2 = 0 := Nat.even_iff.1 he
      cases p <;> cases pd <;> simp [h0, he.neg_one_pow]
    · have h0 : i % 2 = 1 := Nat.odd_iff.1 ho
      cases p <;> cases pd <;> simp [h0, ho.neg_one_pow]

theorem randOrtho_loop (size : Nat) (hs : 0 < size) (coin : Bool) (draws : Nat → Nat → ℝ) : ∀ j ≤ size - 1,
    OrthoInv size (j + 1) ((List.range j).foldl (fun Qp j => orthoStep size Qp (j + 2) (draws (j + 2)))
      (upd2 kd (size - 1) (size - 1) (if coin then 1 else -1), coin)) := by
  intro j
  induction j with
  | zero =>
    intro _
    have hM : matOf size size (upd2 kd (size - 1) (size - 1) (if coin then 1 else -1))
        = diagonal (fun a : Fin size => if a.1 = size - 1 then (if coin = true then (1 : ℝ) else -1) else 1) := by
      ext a b
      show upd2 kd (size - 1) (size - 1) _ a.1 b.1 = _
      unfold upd2 kd
      rw [diagonal_apply]
      by_cases hab : a = b
      · subst hab
        simp
      · have : a.1 ≠ b.1 := fun h => hab (Fin.ext h)
        rw [if_neg (by omega), if_neg this, if_neg hab]
    refine ⟨?_, ?_, ?_⟩
    · intro r hr c hc hrc
      show upd2 kd (size - 1) (size - 1) _ r c = _
      unfold upd2
      rw [if_neg (by omega)]
    · show (matOf size size (upd2 kd (size - 1) (size - 1) (if coin then 1 else -1)))ᵀ * matOf size size (upd2 kd (size - 1) (size - 1) (if coin then 1 else -1)) = 1
      rw [hM, diagonal_transpose, diagonal_mul_diagonal, ← diagonal_one]
      congr 1
      funext a
      split_ifs <;> simp
    · show (matOf size size (upd2 kd (size - 1) (size - 1) (if coin then 1 else -1))).det = _
      rw [hM, det_diagonal]
      rw [Finset.prod_eq_single (⟨size - 1, by omega⟩ : Fin size)]
      · cases coin <;> simp
      · intro b _ hb
        rw [if_neg]
        intro h; exact hb (Fin.ext h)
      · simp
  | succ j ih =>
    intro hj
    rw [List.range_succ, List.foldl_append]
    exact orthoStep_inv (by omega) (by omega) (ih (by omega)) _

/-- **C47.** For all sizes and all draws, the matrix returned by `randOrtho` is orthogonal, its determinant is `1` or `-1`, and it
is `1` when `special` is set. -/
theorem C47_randOrtho (size : Nat) (special coin : Bool) (draws : Nat → Nat → ℝ) :
    matOf size size (randOrtho size special coin draws) ∈ Matrix.orthogonalGroup (Fin size) ℝ ∧
    ((matOf size size (randOrtho size special coin draws)).det = 1 ∨ (matOf size size (randOrtho size special coin draws)).det = -1) ∧
    (special = true → (matOf size size (randOrtho size special coin draws)).det = 1) := by
  have main : (matOf size size (randOrtho size special coin draws))ᵀ * matOf size size (randOrtho size special coin draws) = 1 ∧
      ((matOf size size (randOrtho size special coin draws)).det = 1 ∨ (matOf size size (randOrtho size special coin draws)).det = -1) ∧
      (special = true → (matOf size size (randOrtho size special coin draws)).det = 1) := by
    by_cases hs : size = 0
    · subst hs
      refine ⟨?_, Or.inl ?_, fun _ => ?_⟩
      · ext a; exact a.elim0
      · exact det_isEmpty
      · exact det_isEmpty
    · have hl := randOrtho_loop size (by omega) coin draws (size - 1) le_rfl
      unfold randOrtho
      rw [if_neg hs]
      dsimp only
      generalize (List.range (size - 1)).foldl (fun Qp j => orthoStep size Qp (j + 2) (draws (j + 2)))
        (upd2 kd (size - 1) (size - 1) (if coin then 1 else -1), coin) = Qp at hl ⊢
      obtain ⟨Q, pd⟩ := Qp
      have h1 : (matOf size size Q)ᵀ * matOf size size Q = 1 := hl.orth
      have h2 : (matOf size size Q).det = if pd then 1 else -1 := hl.det
      have hM : matOf size size (fun r c => if c = 0 then Q r c * -1 else Q r c)
          = matOf size size Q * diagonal (fun a : Fin size => if a.1 = 0 then (-1 : ℝ) else 1) := by
        ext a b
        rw [mul_diagonal]
        show (if b.1 = 0 then Q a.1 b.1 * -1 else Q a.1 b.1) = Q a.1 b.1 * _
        split_ifs <;> ring
      have hdd : (diagonal (fun a : Fin size => if a.1 = 0 then (-1 : ℝ) else 1)).det = -1 := by
        rw [det_diagonal, Finset.prod_eq_single (⟨0, by omega⟩ : Fin size)]
        · simp
        · intro b _ hb
          rw [if_neg]
          intro h; exact hb (Fin.ext h)
        · simp
      cases pd <;> cases special <;> dsimp only [Bool.not_false, Bool.not_true, Bool.and_false, Bool.and_true, Bool.false_and, Bool.true_and]
      · rw [if_neg (by simp)]
        exact ⟨h1, Or.inr (by simpa using h2), fun h => by cases h⟩
      · rw [if_pos (by simp), hM, det_mul, h2, hdd]
        refine ⟨?_, Or.inl (by simp), fun _ => by simp⟩
        rw [transpose_mul]
        calc _ = (diagonal (fun a : Fin size => if a.1 = 0 then (-1 : ℝ) else 1))ᵀ * ((matOf size size Q)ᵀ * matOf size size Q)
              * diagonal (fun a : Fin size => if a.1 = 0 then (-1 : ℝ) else 1) := by simp only [mul_assoc]
          _ = 1 := by
            rw [h1, mul_one, diagonal_transpose, diagonal_mul_diagonal, ← diagonal_one]
            congr 1
            funext a
            split_ifs <;> simp
      · rw [if_neg (by simp)]
        exact ⟨h1, Or.inl (by simpa using h2), fun h => by cases h⟩
      · rw [if_neg (by simp)]
        exact ⟨h1, Or.inl (by simpa using h2), fun _ => by simpa using h2⟩
  exact ⟨(Matrix.mem_orthogonalGroup_iff' (Fin size) ℝ).2 main.1, main.2⟩

end house

end JrlQp
