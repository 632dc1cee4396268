import Verif.BlockCholProofs

/-!
# Block-arrow Cholesky factorisation (C28)
-/

namespace JrlQp

open NumOps Finset

/-! ## Specification -/

/-- The block-arrow matrix (doc of include/jrl-qp/decomposition/blockArrowLLT.h): symmetric diagonal blocks of lower
triangle `D i`; `up`: blocks `S (i-1)` under the first diagonal block; otherwise blocks `S j` in the last block row. -/
def arrowMat (up : Bool) (b : Nat) (D S : Blocks ℝ) (i a j c : Nat) : ℝ :=
  if i = j then symLow (D i) a c
  else if up then (if j = 0 then S (i - 1) a c else if i = 0 then S (j - 1) c a else 0)
  else (if i = b - 1 then S j a c else if j = b - 1 then S i c a else 0)

/-- Its factor: lower triangles of `L i` on the diagonal and, in the hub block row (the first one if `up`, else the last
one), the stored side blocks (transposed if `up`). -/
def arrowFac (up : Bool) (b : Nat) (L S : Blocks ℝ) (i a j c : Nat) : ℝ :=
  if i = j then low (L i) a c
  else if up then (if i = 0 then S (j - 1) c a else 0)
  else (if i = b - 1 then S j a c else 0)

/-! ## Hub and spokes -/

theorem arrowIdx_spoke (up : Bool) {b k : Nat} (hk : k < b - 1) : arrowIdx up b k = if up then k + 1 else k := by
  unfold arrowIdx
  cases up
  · rfl
  · simp only [if_true]; exact Nat.mod_eq_of_lt (by omega)

theorem arrowIdx_hub (up : Bool) {b : Nat} (hb : 0 < b) : arrowIdx up b (b - 1) = if up then 0 else b - 1 := by
  unfold arrowIdx
  cases up
  · rfl
  · simp only [if_true]; rw [Nat.sub_add_cancel hb, Nat.mod_self]

theorem spoke_ne_hub (up : Bool) {b k : Nat} (hk : k < b - 1) : arrowIdx up b k ≠ arrowIdx up b (b - 1) := by
  rw [arrowIdx_spoke up hk, arrowIdx_hub up (by omega)]
  cases up <;> simp; omega

theorem spoke_inj (up : Bool) {b k l : Nat} (hk : k < b - 1) (hl : l < b - 1) (h : arrowIdx up b k = arrowIdx up b l) :
    k = l := by
  rw [arrowIdx_spoke up hk, arrowIdx_spoke up hl] at h
  cases up <;> simp at h <;> omega

theorem spoke_lt (up : Bool) {b k : Nat} (hk : k < b - 1) : arrowIdx up b k < b := by
  rw [arrowIdx_spoke up hk]; cases up <;> simp <;> omega

theorem hub_lt (up : Bool) {b : Nat} (hb : 0 < b) : arrowIdx up b (b - 1) < b := by
  rw [arrowIdx_hub up hb]; cases up <;> simp <;> omega

theorem sum_arrow (up : Bool) {b : Nat} (hb : 0 < b) (f : Nat → ℝ) :
    ∑ i ∈ range b, f i = ∑ k ∈ range (b - 1), f (arrowIdx up b k) + f (arrowIdx up b (b - 1)) := by
  obtain ⟨n, rfl⟩ := Nat.exists_eq_succ_of_ne_zero hb.ne'
  rw [arrowIdx_hub up hb]
  have : ∑ k ∈ range (n + 1 - 1), f (arrowIdx up (n + 1) k) = ∑ k ∈ range n, f (if up then k + 1 else k) := by
    rw [Nat.add_sub_cancel]
    apply sum_congr rfl; intro k hk
    rw [arrowIdx_spoke up (by have := mem_range.1 hk; omega)]
  rw [show n.succ = n + 1 from rfl, this]
  cases up
  · simp [sum_range_succ]
  · simp [sum_range_succ']

theorem exists_spoke (up : Bool) {b i : Nat} (hi : i < b) :
    i = arrowIdx up b (b - 1) ∨ ∃ k < b - 1, i = arrowIdx up b k := by
  rw [arrowIdx_hub up (by omega)]
  cases up
  · by_cases h : i = b - 1
    · left; simpa using h
    · right; exact ⟨i, by omega, by rw [arrowIdx_spoke _ (by omega)]; simp⟩
  · by_cases h : i = 0
    · left; simpa using h
    · right; exact ⟨i - 1, by omega, by rw [arrowIdx_spoke _ (by omega)]; simp; omega⟩

/-! ## Elimination -/

theorem trIf_step (up : Bool) (n nr : Nat) (L S : Nat → Nat → ℝ) :
    trIf up (if up then solveLeft n nr L S else solveRight n nr L S) = solveRight n nr L (trIf up S) := by
  cases up
  · rfl
  · funext a c
    simp only [trIf, solveLeft, solveRight, if_true, and_comm]

/-- Quadratic form of the arrow matrix restricted to the hub and the spokes `k, …, b-2`. -/
def arrQ (up : Bool) (b : Nat) (sz : Nat → Nat) (D S : Blocks ℝ) (k : Nat) (v : Nat → Nat → ℝ) : ℝ :=
  ∑ j ∈ range (b - 1 - k), (dq (sz (arrowIdx up b (k + j))) (D (arrowIdx up b (k + j))) (v (arrowIdx up b (k + j)))
      + 2 * cr (sz (arrowIdx up b (b - 1))) (sz (arrowIdx up b (k + j))) (trIf up (S (k + j)))
          (v (arrowIdx up b (b - 1))) (v (arrowIdx up b (k + j))))
    + dq (sz (arrowIdx up b (b - 1))) (D (arrowIdx up b (b - 1))) (v (arrowIdx up b (b - 1)))

def ArrPD (up : Bool) (b : Nat) (sz : Nat → Nat) (D S : Blocks ℝ) (k : Nat) : Prop :=
  ∀ v : Nat → Nat → ℝ, ((∃ a < sz (arrowIdx up b (b - 1)), v (arrowIdx up b (b - 1)) a ≠ 0) ∨
    ∃ j, k ≤ j ∧ j < b - 1 ∧ ∃ a < sz (arrowIdx up b j), v (arrowIdx up b j) a ≠ 0) → 0 < arrQ up b sz D S k v

/-- One step of the loop when the factorisation succeeds. -/
noncomputable def arrNext (up : Bool) (b : Nat) (sz : Nat → Nat) (D : Blocks ℝ) (L Bm : Nat → Nat → ℝ) (k : Nat) : Blocks ℝ :=
  setBlk (setBlk D (arrowIdx up b k) L) (arrowIdx up b (b - 1))
    (rankUpdate (sz (arrowIdx up b (b - 1))) (sz (arrowIdx up b k))
      (setBlk D (arrowIdx up b k) L (arrowIdx up b (b - 1))) Bm)

theorem arrNext_hub {up : Bool} {b k : Nat} (hk : k < b - 1) {sz : Nat → Nat} {D : Blocks ℝ} {L Bm : Nat → Nat → ℝ} :
    arrNext up b sz D L Bm k (arrowIdx up b (b - 1)) = rankUpdate (sz (arrowIdx up b (b - 1))) (sz (arrowIdx up b k))
      (D (arrowIdx up b (b - 1))) Bm := by
  unfold arrNext
  simp only [setBlk, if_true]
  rw [if_neg (spoke_ne_hub up hk).symm]

theorem arrNext_self {up : Bool} {b k : Nat} (hk : k < b - 1) {sz : Nat → Nat} {D : Blocks ℝ} {L Bm : Nat → Nat → ℝ} :
    arrNext up b sz D L Bm k (arrowIdx up b k) = L := by
  unfold arrNext
  simp only [setBlk, if_true]
  rw [if_neg (spoke_ne_hub up hk)]

theorem arrNext_other {up : Bool} {b k j : Nat} (hk : k < b - 1) (hj : j < b - 1) (hne : j ≠ k) {sz : Nat → Nat} {D : Blocks ℝ}
    {L Bm : Nat → Nat → ℝ} : arrNext up b sz D L Bm k (arrowIdx up b j) = D (arrowIdx up b j) := by
  unfold arrNext
  simp only [setBlk]
  rw [if_neg (spoke_ne_hub up hj), if_neg (fun h => hne (spoke_inj up hj hk h))]

theorem arrQ_elim {up : Bool} {b k : Nat} (hk : k < b - 1) {sz : Nat → Nat} {D S : Blocks ℝ} {L : Nat → Nat → ℝ}
    (h : chol (sz (arrowIdx up b k)) (D (arrowIdx up b k)) (sz (arrowIdx up b k)) = (L, none))
    {Si : Nat → Nat → ℝ} (hSi : trIf up Si = solveRight (sz (arrowIdx up b k)) (sz (arrowIdx up b (b - 1))) L (trIf up (S k)))
    (v : Nat → Nat → ℝ) :
    arrQ up b sz D S k v
      = sqn (sz (arrowIdx up b k)) (sz (arrowIdx up b (b - 1))) L (trIf up Si) (v (arrowIdx up b k)) (v (arrowIdx up b (b - 1)))
        + arrQ up b sz (arrNext up b sz D L (trIf up Si) k) (setBlk S k Si) (k + 1) v := by
  obtain ⟨hpos, hfac⟩ := chol_success h
  have hB := solveRight_spec (nr := sz (arrowIdx up b (b - 1))) (S := trIf up (S k)) (fun k hk => (hpos k hk).ne')
  rw [← hSi] at hB
  have key := complete_square hfac hB (D (arrowIdx up b (b - 1))) (v (arrowIdx up b k)) (v (arrowIdx up b (b - 1)))
  unfold arrQ
  rw [arrNext_hub hk, show b - 1 - k = (b - 1 - (k + 1)) + 1 by omega, sum_range_succ']
  have s1 : ∑ j ∈ range (b - 1 - (k + 1)),
      (dq (sz (arrowIdx up b (k + (j + 1)))) (D (arrowIdx up b (k + (j + 1)))) (v (arrowIdx up b (k + (j + 1))))
      + 2 * cr (sz (arrowIdx up b (b - 1))) (sz (arrowIdx up b (k + (j + 1)))) (trIf up (S (k + (j + 1))))
          (v (arrowIdx up b (b - 1))) (v (arrowIdx up b (k + (j + 1)))))
      = ∑ j ∈ range (b - 1 - (k + 1)),
      (dq (sz (arrowIdx up b (k + 1 + j))) (arrNext up b sz D L (trIf up Si) k (arrowIdx up b (k + 1 + j))) (v (arrowIdx up b (k + 1 + j)))
      + 2 * cr (sz (arrowIdx up b (b - 1))) (sz (arrowIdx up b (k + 1 + j))) (trIf up (setBlk S k Si (k + 1 + j)))
          (v (arrowIdx up b (b - 1))) (v (arrowIdx up b (k + 1 + j)))) := by
    apply sum_congr rfl; intro j hj
    have := mem_range.1 hj
    rw [show k + (j + 1) = k + 1 + j by omega, arrNext_other hk (by omega) (by omega),
      show setBlk S k Si (k + 1 + j) = S (k + 1 + j) by simp only [setBlk]; rw [if_neg (by omega)]]
  rw [s1]
  simp only [Nat.add_zero]
  linarith

theorem arrPD_head {up : Bool} {b k : Nat} (hk : k < b - 1) {sz : Nat → Nat} {D S : Blocks ℝ} (h : ArrPD up b sz D S k) :
    PosDefN (sz (arrowIdx up b k)) (symLow (D (arrowIdx up b k))) := by
  intro w ⟨a, ha, hw⟩
  have h1 := h (fun i => if i = arrowIdx up b k then w else fun _ => 0) (Or.inr ⟨k, le_rfl, hk, a, ha, by simpa using hw⟩)
  unfold arrQ at h1
  beta_reduce at h1
  rw [if_neg (spoke_ne_hub up hk).symm, show b - 1 - k = (b - 1 - (k + 1)) + 1 by omega, sum_range_succ'] at h1
  rw [sum_eq_zero] at h1
  · simpa [dq, cr] using h1
  · intro j hj
    have := mem_range.1 hj
    rw [if_neg (fun he => by have := spoke_inj up (by omega) hk he; omega)]
    simp [dq, cr]

theorem arrPD_hub {up : Bool} {b : Nat} {sz : Nat → Nat} {D S : Blocks ℝ} :
    ArrPD up b sz D S (b - 1) ↔ PosDefN (sz (arrowIdx up b (b - 1))) (symLow (D (arrowIdx up b (b - 1)))) := by
  constructor
  · intro h w ⟨a, ha, hw⟩
    have h1 := h (fun _ => w) (Or.inl ⟨a, ha, hw⟩)
    simpa [arrQ, dq] using h1
  · intro h v hv
    rcases hv with ⟨a, ha, hv⟩ | ⟨j, h1, h2, _⟩
    · have := h (v (arrowIdx up b (b - 1))) ⟨a, ha, hv⟩
      simpa [arrQ, dq] using this
    · omega

theorem arrPD_elim {up : Bool} {b k : Nat} (hk : k < b - 1) {sz : Nat → Nat} {D S : Blocks ℝ} {L : Nat → Nat → ℝ}
    (h : chol (sz (arrowIdx up b k)) (D (arrowIdx up b k)) (sz (arrowIdx up b k)) = (L, none))
    {Si : Nat → Nat → ℝ} (hSi : trIf up Si = solveRight (sz (arrowIdx up b k)) (sz (arrowIdx up b (b - 1))) L (trIf up (S k))) :
    ArrPD up b sz D S k ↔ ArrPD up b sz (arrNext up b sz D L (trIf up Si) k) (setBlk S k Si) (k + 1) := by
  obtain ⟨hpos, _⟩ := chol_success h
  constructor
  · intro hp v hv
    obtain ⟨w, hw⟩ := exists_cancel (nr := sz (arrowIdx up b (b - 1))) (B := trIf up Si)
      (fun k hk => (hpos k hk).ne') (v (arrowIdx up b (b - 1)))
    obtain ⟨v', hv'⟩ : ∃ v' : Nat → Nat → ℝ, v' = fun i => if i = arrowIdx up b k then w else v i := ⟨_, rfl⟩
    have hnz : ∀ j, k + 1 ≤ j → j < b - 1 → v' (arrowIdx up b j) = v (arrowIdx up b j) := by
      intro j h1 h2
      rw [hv']
      beta_reduce
      rw [if_neg (fun he => by have := spoke_inj up h2 hk he; omega)]
    have hhub : v' (arrowIdx up b (b - 1)) = v (arrowIdx up b (b - 1)) := by
      rw [hv']
      beta_reduce
      rw [if_neg (spoke_ne_hub up hk).symm]
    have hself : v' (arrowIdx up b k) = w := by rw [hv']; simp
    have h1 := hp v' (by
      rcases hv with ⟨a, ha, hv⟩ | ⟨j, h1, h2, a, ha, hv⟩
      · exact Or.inl ⟨a, ha, by rw [hhub]; exact hv⟩
      · exact Or.inr ⟨j, by omega, h2, a, ha, by rw [hnz j h1 h2]; exact hv⟩)
    rw [arrQ_elim hk h hSi, hself, hhub, hw, zero_add] at h1
    refine lt_of_lt_of_eq h1 ?_
    unfold arrQ
    rw [hhub]
    congr 1
    apply sum_congr rfl; intro j hj
    have := mem_range.1 hj
    rw [hnz (k + 1 + j) (by omega) (by omega)]
  · intro hp v hv
    rw [arrQ_elim hk h hSi]
    by_cases hrest : (∃ a < sz (arrowIdx up b (b - 1)), v (arrowIdx up b (b - 1)) a ≠ 0) ∨
        ∃ j, k + 1 ≤ j ∧ j < b - 1 ∧ ∃ a < sz (arrowIdx up b j), v (arrowIdx up b j) a ≠ 0
    · exact add_pos_of_nonneg_of_pos (sqn_nonneg _ _ _ _ _ _) (hp v hrest)
    · push Not at hrest
      obtain ⟨hr1, hr2⟩ := hrest
      obtain ⟨a, ha, hva⟩ : ∃ a < sz (arrowIdx up b k), v (arrowIdx up b k) a ≠ 0 := by
        rcases hv with ⟨a, ha, hv⟩ | ⟨j, h1, h2, a, ha, hv⟩
        · exact absurd (hr1 a ha) hv
        · by_cases hjk : j = k
          · subst hjk; exact ⟨a, ha, hv⟩
          · exact absurd (hr2 j (by omega) h2 a ha) hv
      have z : arrQ up b sz (arrNext up b sz D L (trIf up Si) k) (setBlk S k Si) (k + 1) v = 0 := by
        unfold arrQ
        have z0 : ∀ E : Nat → Nat → ℝ, dq (sz (arrowIdx up b (b - 1))) E (v (arrowIdx up b (b - 1))) = 0 := by
          intro E
          apply sum_eq_zero; intro a ha
          apply sum_eq_zero; intro c _
          rw [hr1 a (mem_range.1 ha)]; ring
        rw [z0, sum_eq_zero, zero_add]
        intro j hj
        have hj := mem_range.1 hj
        have z1 : ∀ E : Nat → Nat → ℝ, dq (sz (arrowIdx up b (k + 1 + j))) E (v (arrowIdx up b (k + 1 + j))) = 0 := by
          intro E
          apply sum_eq_zero; intro a ha
          apply sum_eq_zero; intro c _
          rw [hr2 (k + 1 + j) (by omega) (by omega) a (mem_range.1 ha)]; ring
        have z2 : ∀ E : Nat → Nat → ℝ, cr (sz (arrowIdx up b (b - 1))) (sz (arrowIdx up b (k + 1 + j))) E
            (v (arrowIdx up b (b - 1))) (v (arrowIdx up b (k + 1 + j))) = 0 := by
          intro E
          apply sum_eq_zero; intro a ha
          apply sum_eq_zero; intro c _
          rw [hr1 a (mem_range.1 ha)]; ring
        rw [z1, z2]; ring
      rw [z, add_zero]
      rcases (sqn_nonneg (sz (arrowIdx up b k)) (sz (arrowIdx up b (b - 1))) L (trIf up Si) (v (arrowIdx up b k))
        (v (arrowIdx up b (b - 1)))).lt_or_eq with hlt | heq
      · exact hlt
      exfalso
      apply hva
      refine low_ker (fun k hk => (hpos k hk).ne') ?_ a ha
      intro l hl
      have h0 := (sum_eq_zero_iff_of_nonneg (fun _ _ => sq_nonneg _)).1 heq.symm l (mem_range.2 hl)
      have h1 : ∑ a ∈ range (sz (arrowIdx up b (b - 1))), trIf up Si a l * v (arrowIdx up b (b - 1)) a = 0 := by
        apply sum_eq_zero; intro a ha
        rw [hr1 a (mem_range.1 ha), mul_zero]
      rw [h1, add_zero] at h0
      exact pow_eq_zero_iff (two_ne_zero) |>.1 h0

/-! ## The loop -/

/-- What the first `k` iterations give. -/
structure ArrFac (up : Bool) (b : Nat) (sz : Nat → Nat) (D S L Bm : Blocks ℝ) (k : Nat) : Prop where
  pos : ∀ j < k, ∀ a < sz (arrowIdx up b j), 0 < L (arrowIdx up b j) a a
  diag : ∀ j < k, ∀ a < sz (arrowIdx up b j), ∀ c < sz (arrowIdx up b j),
    ∑ e ∈ range (sz (arrowIdx up b j)), low (L (arrowIdx up b j)) a e * low (L (arrowIdx up b j)) c e
      = symLow (D (arrowIdx up b j)) a c
  side : ∀ j < k, ∀ a < sz (arrowIdx up b (b - 1)), ∀ c < sz (arrowIdx up b j),
    ∑ e ∈ range (sz (arrowIdx up b j)), trIf up (Bm j) a e * low (L (arrowIdx up b j)) c e = trIf up (S j) a c
  hub : ∀ a < sz (arrowIdx up b (b - 1)), ∀ c < sz (arrowIdx up b (b - 1)),
    symLow (L (arrowIdx up b (b - 1))) a c = symLow (D (arrowIdx up b (b - 1))) a c
      - ∑ j ∈ range k, ∑ e ∈ range (sz (arrowIdx up b j)), trIf up (Bm j) a e * trIf up (Bm j) c e
  restD : ∀ j, k ≤ j → j < b - 1 → L (arrowIdx up b j) = D (arrowIdx up b j)
  restS : ∀ j, k ≤ j → Bm j = S j

theorem arrowLLTK_pd {up : Bool} {b : Nat} {sz : Nat → Nat} {D S : Blocks ℝ} (h : ArrPD up b sz D S 0) (k : Nat) (hk : k ≤ b - 1) :
    ∃ L Bm, arrowLLTK up b sz D S k = (true, L, Bm) ∧ ArrPD up b sz L Bm k ∧ ArrFac up b sz D S L Bm k := by
  induction k with
  | zero =>
    refine ⟨D, S, rfl, h, ⟨?_, ?_, ?_, ?_, ?_, ?_⟩⟩
    · intro j hj; omega
    · intro j hj; omega
    · intro j hj; omega
    · intro a _ c _; simp
    · intro j _ _; rfl
    · intro j _; rfl
  | succ k ih =>
    obtain ⟨L, Bm, h1, h2, h3⟩ := ih (by omega)
    have hk' : k < b - 1 := by omega
    obtain ⟨P, hP⟩ := chol_of_posDef (arrPD_head hk' h2)
    obtain ⟨hpos, hfac⟩ := chol_success hP
    have hSi := trIf_step up (sz (arrowIdx up b k)) (sz (arrowIdx up b (b - 1))) P (Bm k)
    have hB := solveRight_spec (nr := sz (arrowIdx up b (b - 1))) (S := trIf up (Bm k)) (fun k hk => (hpos k hk).ne')
    rw [← hSi] at hB
    have h4 := (arrPD_elim hk' hP hSi).1 h2
    simp only [arrowLLTK, h1, hP, retPos]
    rw [if_neg (by simp)]
    refine ⟨_, _, rfl, h4, ?_⟩
    generalize (if up = true then solveLeft (sz (arrowIdx up b k)) (sz (arrowIdx up b (b - 1))) P (Bm k)
      else solveRight (sz (arrowIdx up b k)) (sz (arrowIdx up b (b - 1))) P (Bm k)) = Si at *
    change ArrFac up b sz D S (arrNext up b sz L P (trIf up Si) k) (setBlk Bm k Si) (k + 1)
    have hS1 : setBlk Bm k Si k = Si := by simp [setBlk]
    have hS2 : ∀ j, j ≠ k → setBlk Bm k Si j = Bm j := fun j hj => by simp [setBlk, hj]
    refine ⟨?_, ?_, ?_, ?_, ?_, ?_⟩
    · intro j hj
      by_cases hjk : j = k
      · subst hjk; rw [arrNext_self hk']; exact hpos
      · rw [arrNext_other hk' (by omega) hjk]; exact h3.pos j (by omega)
    · intro j hj
      by_cases hjk : j = k
      · subst hjk; rw [arrNext_self hk', ← h3.restD j le_rfl hk']; exact hfac
      · rw [arrNext_other hk' (by omega) hjk]; exact h3.diag j (by omega)
    · intro j hj
      by_cases hjk : j = k
      · subst hjk; rw [arrNext_self hk', hS1, ← h3.restS j le_rfl]; exact hB
      · rw [arrNext_other hk' (by omega) hjk, hS2 j hjk]; exact h3.side j (by omega)
    · intro a ha c hc
      rw [arrNext_hub hk', rankUpdate_sym _ _ a ha c hc, h3.hub a ha c hc, sum_range_succ, hS1]
      have : ∑ j ∈ range k, ∑ e ∈ range (sz (arrowIdx up b j)), trIf up (setBlk Bm k Si j) a e * trIf up (setBlk Bm k Si j) c e
          = ∑ j ∈ range k, ∑ e ∈ range (sz (arrowIdx up b j)), trIf up (Bm j) a e * trIf up (Bm j) c e := by
        apply sum_congr rfl; intro j hj
        rw [hS2 j (by have := mem_range.1 hj; omega)]
      rw [this]
      ring
    · intro j h5 h6
      rw [arrNext_other hk' (by omega) (by omega)]; exact h3.restD j (by omega) h6
    · intro j h5
      rw [hS2 j (by omega)]; exact h3.restS j (by omega)

theorem arrowLLTK_conv {up : Bool} {b : Nat} {sz : Nat → Nat} {D S : Blocks ℝ} (k : Nat) (hk : k ≤ b - 1) {L Bm : Blocks ℝ}
    (h : arrowLLTK up b sz D S k = (true, L, Bm)) (hpos : ∀ j < k, ∀ a < sz (arrowIdx up b j), 0 < L (arrowIdx up b j) a a)
    (hp : ArrPD up b sz L Bm k) : ArrPD up b sz D S 0 := by
  induction k generalizing L Bm with
  | zero => simp only [arrowLLTK, Prod.mk.injEq, true_and] at h; obtain ⟨rfl, rfl⟩ := h; exact hp
  | succ k ih =>
    have hk' : k < b - 1 := by omega
    simp only [arrowLLTK] at h
    rcases hc : arrowLLTK up b sz D S k with ⟨ok, L0, B0⟩
    rw [hc] at h
    cases ok with
    | false => simp only [Prod.mk.injEq] at h; exact absurd h.1 (by simp)
    | true =>
      rcases hch : chol (sz (arrowIdx up b k)) (L0 (arrowIdx up b k)) (sz (arrowIdx up b k)) with ⟨P, c⟩
      simp only [hch] at h
      by_cases hr : retPos c = true
      · rw [if_pos hr] at h; simp only [Prod.mk.injEq] at h; exact absurd h.1 (by simp)
      rw [if_neg hr] at h
      simp only [Prod.mk.injEq, true_and] at h
      obtain ⟨h1, h2⟩ := h
      have hSi := trIf_step up (sz (arrowIdx up b k)) (sz (arrowIdx up b (b - 1))) P (B0 k)
      generalize (if up = true then solveLeft (sz (arrowIdx up b k)) (sz (arrowIdx up b (b - 1))) P (B0 k)
        else solveRight (sz (arrowIdx up b k)) (sz (arrowIdx up b (b - 1))) P (B0 k)) = Si at *
      change arrNext up b sz L0 P (trIf up Si) k = L at h1
      subst h1 h2
      cases c with
      | some c =>
        exfalso
        obtain ⟨g1, g2⟩ := chol_fail_zero hch (by simpa using hr)
        have := hpos k (by omega) 0 g1
        rw [arrNext_self hk'] at this
        linarith
      | none =>
        refine ih (by omega) hc ?_ ((arrPD_elim hk' hch hSi).2 hp)
        intro j hj a ha
        have := hpos j (by omega) a ha
        rwa [arrNext_other hk' (by omega) (by omega)] at this

/-! ## From the loop to the matrix -/

theorem arrowMat_symm (up : Bool) (b : Nat) (D S : Blocks ℝ) (i a j c : Nat) :
    arrowMat up b D S i a j c = arrowMat up b D S j c i a := by
  unfold arrowMat
  by_cases h1 : i = j
  · subst h1; simp [symLow_comm (D i) a c]
  · have h1' : j ≠ i := fun h => h1 h.symm
    cases up
    · simp only [Bool.false_eq_true, if_false, if_neg h1, if_neg h1']
      by_cases h2 : i = b - 1
      · rw [if_pos h2, if_neg (by omega), if_pos h2]
      · rw [if_neg h2, if_neg h2]
    · simp only [if_true, if_neg h1, if_neg h1']
      by_cases h2 : j = 0
      · rw [if_pos h2, if_neg (by omega), if_pos h2]
      · rw [if_neg h2, if_neg h2]

theorem arrowMat_diag (up : Bool) (b : Nat) (D S : Blocks ℝ) (i a c : Nat) :
    arrowMat up b D S i a i c = symLow (D i) a c := by simp [arrowMat]

theorem arrowMat_hub {up : Bool} {b k : Nat} (hk : k < b - 1) (D S : Blocks ℝ) (a c : Nat) :
    arrowMat up b D S (arrowIdx up b (b - 1)) a (arrowIdx up b k) c = trIf up (S k) a c := by
  unfold arrowMat
  rw [if_neg (spoke_ne_hub up hk).symm, arrowIdx_spoke up hk, arrowIdx_hub up (by omega)]
  cases up <;> simp [trIf]

theorem arrowMat_zero {up : Bool} {b k l : Nat} (hk : k < b - 1) (hl : l < b - 1) (hkl : k ≠ l) (D S : Blocks ℝ) (a c : Nat) :
    arrowMat up b D S (arrowIdx up b k) a (arrowIdx up b l) c = 0 := by
  unfold arrowMat
  rw [if_neg (fun h => hkl (spoke_inj up hk hl h)), arrowIdx_spoke up hk, arrowIdx_spoke up hl]
  cases up
  · simp only [Bool.false_eq_true, if_false]
    rw [if_neg (by omega), if_neg (by omega)]
  · simp only [if_true]
    rw [if_neg (by omega), if_neg (by omega)]

theorem bquad_arrow {up : Bool} {b : Nat} (hb : 0 < b) (sz : Nat → Nat) (D S : Blocks ℝ) (v : Nat → Nat → ℝ) :
    bquad b sz (arrowMat up b D S) v = arrQ up b sz D S 0 v := by
  unfold bquad
  rw [sum_arrow up hb]
  have hself : ∀ i, ∑ a ∈ range (sz i), ∑ c ∈ range (sz i), v i a * arrowMat up b D S i a i c * v i c = dq (sz i) (D i) (v i) := by
    intro i; simp only [arrowMat_diag]; rfl
  have hhub : ∀ k < b - 1, ∑ a ∈ range (sz (arrowIdx up b (b - 1))), ∑ c ∈ range (sz (arrowIdx up b k)),
      v (arrowIdx up b (b - 1)) a * arrowMat up b D S (arrowIdx up b (b - 1)) a (arrowIdx up b k) c * v (arrowIdx up b k) c
      = cr (sz (arrowIdx up b (b - 1))) (sz (arrowIdx up b k)) (trIf up (S k)) (v (arrowIdx up b (b - 1))) (v (arrowIdx up b k)) := by
    intro k hk; simp only [arrowMat_hub hk]; rfl
  have hhub' : ∀ k < b - 1, ∑ a ∈ range (sz (arrowIdx up b k)), ∑ c ∈ range (sz (arrowIdx up b (b - 1))),
      v (arrowIdx up b k) a * arrowMat up b D S (arrowIdx up b k) a (arrowIdx up b (b - 1)) c * v (arrowIdx up b (b - 1)) c
      = cr (sz (arrowIdx up b (b - 1))) (sz (arrowIdx up b k)) (trIf up (S k)) (v (arrowIdx up b (b - 1))) (v (arrowIdx up b k)) := by
    intro k hk
    rw [sum_comm, ← hhub k hk]
    apply sum_congr rfl; intro c _; apply sum_congr rfl; intro a _
    rw [arrowMat_symm]; ring
  have hsp : ∀ k ∈ range (b - 1), ∑ j ∈ range b, ∑ a ∈ range (sz (arrowIdx up b k)), ∑ c ∈ range (sz j),
      v (arrowIdx up b k) a * arrowMat up b D S (arrowIdx up b k) a j c * v j c
      = dq (sz (arrowIdx up b k)) (D (arrowIdx up b k)) (v (arrowIdx up b k))
        + cr (sz (arrowIdx up b (b - 1))) (sz (arrowIdx up b k)) (trIf up (S k)) (v (arrowIdx up b (b - 1))) (v (arrowIdx up b k)) := by
    intro k hk
    have hk' := mem_range.1 hk
    rw [sum_arrow up hb, hhub' k hk', sum_eq_single_of_mem k hk, hself]
    intro l hl hne
    apply sum_eq_zero; intro a _; apply sum_eq_zero; intro c _
    rw [arrowMat_zero hk' (mem_range.1 hl) hne.symm]; ring
  have hh : ∑ j ∈ range b, ∑ a ∈ range (sz (arrowIdx up b (b - 1))), ∑ c ∈ range (sz j),
      v (arrowIdx up b (b - 1)) a * arrowMat up b D S (arrowIdx up b (b - 1)) a j c * v j c
      = ∑ k ∈ range (b - 1), cr (sz (arrowIdx up b (b - 1))) (sz (arrowIdx up b k)) (trIf up (S k)) (v (arrowIdx up b (b - 1)))
          (v (arrowIdx up b k)) + dq (sz (arrowIdx up b (b - 1))) (D (arrowIdx up b (b - 1))) (v (arrowIdx up b (b - 1))) := by
    rw [sum_arrow up hb, hself]
    congr 1
    exact sum_congr rfl fun k hk => hhub k (mem_range.1 hk)
  rw [sum_congr rfl hsp, hh]
  unfold arrQ
  simp only [Nat.zero_add, Nat.sub_zero, sum_add_distrib, ← mul_sum]
  ring

theorem arrPD_iff {up : Bool} {b : Nat} (hb : 0 < b) (sz : Nat → Nat) (D S : Blocks ℝ) :
    (bmat b sz (arrowMat up b D S)).PosDef ↔ ArrPD up b sz D S 0 := by
  rw [bmat_posDef_iff _ _ _ (arrowMat_symm up b D S)]
  unfold ArrPD
  simp only [bquad_arrow hb]
  constructor
  · rintro h v (⟨a, ha, hv⟩ | ⟨j, _, h2, a, ha, hv⟩)
    · exact h v ⟨_, hub_lt up hb, a, ha, hv⟩
    · exact h v ⟨_, spoke_lt up h2, a, ha, hv⟩
  · rintro h v ⟨i, hi, a, ha, hv⟩
    rcases exists_spoke up hi with rfl | ⟨k, hk, rfl⟩
    · exact h v (Or.inl ⟨a, ha, hv⟩)
    · exact h v (Or.inr ⟨k, Nat.zero_le _, hk, a, ha, hv⟩)

theorem arrowFac_diag (up : Bool) (b : Nat) (L S : Blocks ℝ) (i a c : Nat) :
    arrowFac up b L S i a i c = low (L i) a c := by simp [arrowFac]

theorem arrowFac_hub {up : Bool} {b k : Nat} (hk : k < b - 1) (L S : Blocks ℝ) (a c : Nat) :
    arrowFac up b L S (arrowIdx up b (b - 1)) a (arrowIdx up b k) c = trIf up (S k) a c := by
  unfold arrowFac
  rw [if_neg (spoke_ne_hub up hk).symm, arrowIdx_spoke up hk, arrowIdx_hub up (by omega)]
  cases up <;> simp [trIf]

theorem arrowFac_zero {up : Bool} {b k j : Nat} (hk : k < b - 1) (hj : j ≠ arrowIdx up b k) (L S : Blocks ℝ) (a c : Nat) :
    arrowFac up b L S (arrowIdx up b k) a j c = 0 := by
  unfold arrowFac
  rw [if_neg (fun h => hj h.symm), arrowIdx_spoke up hk]
  cases up
  · simp only [Bool.false_eq_true, if_false]; rw [if_neg (by omega)]
  · simp

theorem arrowFac_mul {up : Bool} {b : Nat} (hb : 0 < b) {sz : Nat → Nat} {D S L Bm L' : Blocks ℝ}
    (h : ArrFac up b sz D S L Bm (b - 1)) (hL' : ∀ k < b - 1, L' (arrowIdx up b k) = L (arrowIdx up b k))
    (hhub : ∀ a < sz (arrowIdx up b (b - 1)), ∀ c < sz (arrowIdx up b (b - 1)),
      ∑ e ∈ range (sz (arrowIdx up b (b - 1))), low (L' (arrowIdx up b (b - 1))) a e * low (L' (arrowIdx up b (b - 1))) c e
        = symLow (L (arrowIdx up b (b - 1))) a c) :
    bmat b sz (arrowFac up b L' Bm) * (bmat b sz (arrowFac up b L' Bm)).transpose = bmat b sz (arrowMat up b D S) := by
  have key : ∀ i < b, ∀ j < b, ∀ a < sz i, ∀ c < sz j,
      ∑ l ∈ range b, ∑ e ∈ range (sz l), arrowFac up b L' Bm i a l e * arrowFac up b L' Bm j c l e
        = arrowMat up b D S i a j c := by
    have spoke_any : ∀ k < b - 1, ∀ j < b, ∀ a c, ∑ l ∈ range b, ∑ e ∈ range (sz l),
        arrowFac up b L' Bm (arrowIdx up b k) a l e * arrowFac up b L' Bm j c l e
        = ∑ e ∈ range (sz (arrowIdx up b k)), low (L (arrowIdx up b k)) a e * arrowFac up b L' Bm j c (arrowIdx up b k) e := by
      intro k hk j _ a c
      rw [sum_eq_single_of_mem (arrowIdx up b k) (mem_range.2 (spoke_lt up hk))]
      · simp only [arrowFac_diag, hL' k hk]
      · intro l _ hne
        apply sum_eq_zero; intro e _
        rw [arrowFac_zero hk hne, zero_mul]
    intro i hi j hj a ha c hc
    rcases exists_spoke up hi with rfl | ⟨k, hk, rfl⟩
    · rcases exists_spoke up hj with rfl | ⟨l, hl, rfl⟩
      · rw [sum_arrow up hb]
        have h1 := hhub a ha c hc
        have h2 := h.hub a ha c hc
        simp only [arrowFac_diag, arrowMat_diag]
        rw [h1, h2]
        have : ∑ k ∈ range (b - 1), ∑ e ∈ range (sz (arrowIdx up b k)),
            arrowFac up b L' Bm (arrowIdx up b (b - 1)) a (arrowIdx up b k) e * arrowFac up b L' Bm (arrowIdx up b (b - 1)) c (arrowIdx up b k) e
            = ∑ k ∈ range (b - 1), ∑ e ∈ range (sz (arrowIdx up b k)), trIf up (Bm k) a e * trIf up (Bm k) c e := by
          apply sum_congr rfl; intro k hk
          simp only [arrowFac_hub (mem_range.1 hk)]
        rw [this]; ring
      · have e1 : ∀ l' e, arrowFac up b L' Bm (arrowIdx up b (b - 1)) a l' e * arrowFac up b L' Bm (arrowIdx up b l) c l' e
            = arrowFac up b L' Bm (arrowIdx up b l) c l' e * arrowFac up b L' Bm (arrowIdx up b (b - 1)) a l' e := fun _ _ => mul_comm _ _
        simp only [e1]
        rw [spoke_any l hl _ hi, arrowMat_hub hl, ← h.side l hl a ha c hc]
        apply sum_congr rfl; intro e _
        rw [arrowFac_hub hl, mul_comm]
    · rw [spoke_any k hk j hj]
      rcases exists_spoke up hj with rfl | ⟨l, hl, rfl⟩
      · rw [arrowMat_symm, arrowMat_hub hk, ← h.side k hk c hc a ha]
        apply sum_congr rfl; intro e _
        rw [arrowFac_hub hk, mul_comm]
      · by_cases hkl : k = l
        · subst hkl
          simp only [arrowFac_diag, arrowMat_diag, hL' k hk]
          exact h.diag k hk a ha c hc
        · rw [arrowMat_zero hk hl hkl]
          apply sum_eq_zero; intro e _
          rw [arrowFac_zero hl (fun h => hkl (spoke_inj up hk hl h)), mul_zero]
  ext p q
  obtain ⟨⟨i, hi⟩, ⟨a, ha⟩⟩ := p
  obtain ⟨⟨j, hj⟩, ⟨c, hc⟩⟩ := q
  simp only [Matrix.mul_apply, Matrix.transpose_apply, bmat, Matrix.of_apply]
  rw [sum_bidx b sz (fun l e => arrowFac up b L' Bm i a l e * arrowFac up b L' Bm j c l e)]
  exact key i hi j hj a ha c hc

end JrlQp
