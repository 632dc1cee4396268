import Verif.ArrowCholProofs

/-!
# Triangular solves with block factors (C27, C28)
-/

namespace JrlQp

open NumOps Finset

/-- The components `off i + a` of a stacked vector as a vector indexed by blocks. -/
def bvec (b : Nat) (sz : Nat → Nat) (M : Nat → ℝ) : BIdx b sz → ℝ := fun p => M (off sz p.1 + p.2)

theorem off_le {sz : Nat → Nat} {i j : Nat} (h : i ≤ j) : off sz i ≤ off sz j := by
  induction j with
  | zero => obtain rfl : i = 0 := by omega
            exact le_rfl
  | succ j ih =>
    rcases Nat.lt_or_ge j i with h' | h'
    · obtain rfl : i = j + 1 := by omega
      exact le_rfl
    · exact le_trans (ih h') (by simp [off])

theorem off_add_lt {sz : Nat → Nat} {i j a : Nat} (h : i < j) (ha : a < sz i) : off sz i + a < off sz j :=
  lt_of_lt_of_le (by simp only [off]; omega) (off_le (sz := sz) (show i + 1 ≤ j from h))

/-! ## Kernels -/

theorem solveRows_out {L : Nat → Nat → ℝ} {sh lo r : Nat} {M : Nat → ℝ} {k : Nat} (h : ¬ (lo ≤ k ∧ k < lo + r)) :
    solveRows L sh lo r M k = M k := if_neg h

/-- Forward substitution with a bottom right corner: if the first `sh` components of the block are zero, the block
equation holds for all the rows of the block. -/
theorem solveRows_spec {L : Nat → Nat → ℝ} {sh lo r : Nat} {M : Nat → ℝ} (hL : ∀ a < sh + r, L a a ≠ 0)
    (hz : ∀ a < sh, M (lo + a) = 0) (a : Nat) (ha : a < sh + r) :
    ∑ c ∈ range (sh + r), low L a c * solveRows L sh (lo + sh) r M (lo + c) = M (lo + a) := by
  rw [sum_range_add]
  have h0 : ∑ c ∈ range sh, low L a c * solveRows L sh (lo + sh) r M (lo + c) = 0 := by
    apply sum_eq_zero; intro c hc
    have := mem_range.1 hc
    rw [solveRows_out (by omega), hz c this, mul_zero]
  rw [h0, zero_add]
  have h1 : ∀ c ∈ range r, low L a (sh + c) * solveRows L sh (lo + sh) r M (lo + (sh + c))
      = low L a (sh + c) * fwdSub (fun a c => L (sh + a) (sh + c)) (fun a => M (lo + sh + a)) r c := by
    intro c hc
    have := mem_range.1 hc
    rw [solveRows, if_pos (by omega), show lo + (sh + c) - (lo + sh) = c by omega]
  rw [sum_congr rfl h1]
  rcases Nat.lt_or_ge a sh with h | h
  · rw [hz a h]
    apply sum_eq_zero; intro c _
    rw [low, if_neg (by omega), zero_mul]
  · obtain ⟨a', rfl⟩ : ∃ a', a = sh + a' := ⟨a - sh, by omega⟩
    have := fwdSub_spec' (fun a c => L (sh + a) (sh + c)) (fun a => M (lo + sh + a)) r
      (fun i hi => hL (sh + i) (by omega)) a' (by omega)
    rw [← add_assoc, ← this]
    apply sum_congr rfl; intro c _
    by_cases hca : c ≤ a'
    · rw [low, if_pos (by omega), if_pos hca]
    · rw [low, if_neg (by omega), if_neg hca]

theorem solveRowsT_out {L : Nat → Nat → ℝ} {lo r : Nat} {M : Nat → ℝ} {k : Nat} (h : ¬ (lo ≤ k ∧ k < lo + r)) :
    solveRowsT L lo r M k = M k := if_neg h

/-- Backward substitution with a top left corner: if the last components of the block are zero, the (transposed) block
equation holds for all the rows of the block. -/
theorem solveRowsT_spec {L : Nat → Nat → ℝ} {lo r n : Nat} {M : Nat → ℝ} (hr : r ≤ n) (hL : ∀ a < n, L a a ≠ 0)
    (hz : ∀ a, r ≤ a → a < n → M (lo + a) = 0) (a : Nat) (ha : a < n) :
    ∑ c ∈ range n, low L c a * solveRowsT L lo r M (lo + c) = M (lo + a) := by
  obtain ⟨s, rfl⟩ : ∃ s, n = r + s := ⟨n - r, by omega⟩
  rw [sum_range_add]
  have h0 : ∑ c ∈ range s, low L (r + c) a * solveRowsT L lo r M (lo + (r + c)) = 0 := by
    apply sum_eq_zero; intro c hc
    have := mem_range.1 hc
    rw [solveRowsT_out (by omega), hz (r + c) (by omega) (by omega), mul_zero]
  rw [h0, add_zero]
  have h1 : ∀ c ∈ range r, low L c a * solveRowsT L lo r M (lo + c)
      = low L c a * backSub (fun a c => L c a) r (fun a => M (lo + a)) c := by
    intro c hc
    have := mem_range.1 hc
    rw [solveRowsT, if_pos (by omega), show lo + c - lo = c by omega]
  rw [sum_congr rfl h1]
  rcases Nat.lt_or_ge a r with h | h
  · have := backSub_spec (fun a c => L c a) r (fun a => M (lo + a)) (fun i hi => hL i (by omega)) a h
    rw [← this]
    apply sum_congr rfl; intro c _
    rfl
  · rw [hz a h ha]
    apply sum_eq_zero; intro c hc
    have := mem_range.1 hc
    rw [low, if_neg (by omega), zero_mul]

theorem subProd_out {nr nc : Nat} {S : Nat → Nat → ℝ} {lo l : Nat} {M : Nat → ℝ} {k : Nat} (h : ¬ (lo ≤ k ∧ k < lo + nr)) :
    subProd nr nc S lo l M k = M k := if_neg h

theorem subProd_in {nr nc : Nat} {S : Nat → Nat → ℝ} {lo l : Nat} {M : Nat → ℝ} {a : Nat} (h : a < nr) :
    subProd nr nc S lo l M (lo + a) = M (lo + a) - ∑ c ∈ range nc, S a c * M (l + c) := by
  rw [subProd, if_pos (by omega), esub_eq, show lo + a - lo = a by omega]

/-! ## Block tridiagonal, `L` -/

/-- Invariant after `k` blocks. -/
structure TriLInv (sz : Nat → Nat) (D S : Blocks ℝ) (start : Nat) (M : Nat → ℝ) (k : Nat) (st : TriSt ℝ) : Prop where
  n : st.n = off sz k
  prev : 0 < k → st.l = off sz (k - 1) ∧ st.li = sz (k - 1)
  zero : st.zero = true ↔ (k = 0 ∨ off sz k < start)
  rest : ∀ p, off sz k ≤ p → st.M p = M p
  zeros : ∀ p < start, st.M p = 0
  eqn : ∀ i < k, ∀ a < sz i, ∑ c ∈ range (sz i), low (D i) a c * st.M (off sz i + c)
    + (if 0 < i then ∑ c ∈ range (sz (i - 1)), S (i - 1) a c * st.M (off sz (i - 1) + c) else 0) = M (off sz i + a)

theorem triLInv_step {sz : Nat → Nat} {D S : Blocks ℝ} {start : Nat} {M : Nat → ℝ} {k : Nat} {st : TriSt ℝ}
    (hM : ∀ p < start, M p = 0) (hD : ∀ a < sz k, D k a a ≠ 0)
    (h : TriLInv sz D S start M k st) : TriLInv sz D S start M (k + 1) (triLStep sz D S start st k) := by
  -- a change limited to the rows of block `k` keeps the previous equations
  have mk : ∀ (M' : Nat → ℝ) (z : Bool), (z = true ↔ off sz (k + 1) < start) →
      (∀ p, (p < off sz k ∨ off sz (k + 1) ≤ p) → M' p = st.M p) →
      (∀ p < start, M' p = 0) →
      (∀ a < sz k, ∑ c ∈ range (sz k), low (D k) a c * M' (off sz k + c)
        + (if 0 < k then ∑ c ∈ range (sz (k - 1)), S (k - 1) a c * st.M (off sz (k - 1) + c) else 0) = M (off sz k + a)) →
      TriLInv sz D S start M (k + 1) ⟨st.n + sz k, st.n, sz k, z, M'⟩ := by
    intro M' z hz h1 h2 h3
    refine ⟨by simp only [off, h.n], fun _ => ⟨by simp only [h.n, Nat.add_sub_cancel], by simp⟩, by simpa using hz, ?_, h2, ?_⟩
    · intro p hp
      dsimp only
      rw [h1 p (Or.inr hp)]
      exact h.rest p (le_trans (off_le (by omega)) hp)
    · intro i hi a ha
      have hlow : ∀ j < k, ∀ c < sz j, M' (off sz j + c) = st.M (off sz j + c) :=
        fun j hj c hc => h1 _ (Or.inl (off_add_lt hj hc))
      have hprev : (if 0 < i then ∑ c ∈ range (sz (i - 1)), S (i - 1) a c * M' (off sz (i - 1) + c) else 0)
          = if 0 < i then ∑ c ∈ range (sz (i - 1)), S (i - 1) a c * st.M (off sz (i - 1) + c) else 0 := by
        by_cases h0 : 0 < i
        · rw [if_pos h0, if_pos h0]
          apply sum_congr rfl; intro c hc
          rw [hlow (i - 1) (by omega) c (mem_range.1 hc)]
        · rw [if_neg h0, if_neg h0]
      simp only [hprev]
      rcases Nat.lt_or_ge i k with hik | hik
      · rw [← h.eqn i hik a ha]
        congr 1
        apply sum_congr rfl; intro c hc
        rw [hlow i hik c (mem_range.1 hc)]
      · obtain rfl : i = k := by omega
        exact h3 a ha
  unfold triLStep
  dsimp only
  have hoff : off sz (k + 1) = off sz k + sz k := rfl
  by_cases hs : start ≤ st.n + sz k
  · rw [if_pos hs]
    rw [h.n] at hs
    by_cases hz : st.zero = true
    · rw [if_pos hz]
      dsimp only
      have hkz := h.zero.1 hz
      have hst : off sz k ≤ start := by
        rcases hkz with rfl | hkz
        · exact Nat.zero_le _
        · omega
      refine mk _ false (by simp; omega) ?_ ?_ ?_
      · intro p hp
        rw [h.n]
        exact solveRows_out (by omega)
      · intro p hp
        rw [solveRows_out (by omega)]; exact h.zeros p hp
      · intro a ha
        have hprev : (if 0 < k then ∑ c ∈ range (sz (k - 1)), S (k - 1) a c * st.M (off sz (k - 1) + c) else 0) = 0 := by
          by_cases h0 : 0 < k
          · rw [if_pos h0]
            apply sum_eq_zero; intro c hc
            have := off_add_lt (show k - 1 < k by omega) (mem_range.1 hc)
            rw [h.zeros _ (by omega), mul_zero]
          · rw [if_neg h0]
        rw [hprev, add_zero, h.n]
        have hspec := solveRows_spec (L := D k) (sh := start - off sz k) (lo := off sz k) (r := off sz k + sz k - start)
          (M := st.M) (fun a ha => hD a (by omega)) (fun a ha => h.zeros _ (by omega)) a (by omega)
        rw [show start - off sz k + (off sz k + sz k - start) = sz k by omega,
          show off sz k + (start - off sz k) = start by omega,
          ] at hspec
        rw [show sz k - (off sz k + sz k - start) = start - off sz k by omega, hspec]
        exact h.rest _ (by omega)
    · rw [if_neg hz]
      dsimp only
      have hkz : ¬ (k = 0 ∨ off sz k < start) := fun hc => hz (h.zero.2 hc)
      have hk0 : 0 < k := by omega
      obtain ⟨hl, hli⟩ := h.prev hk0
      refine mk _ st.zero ?_ ?_ ?_ ?_
      · constructor
        · intro hc; exact absurd hc hz
        · intro hc; omega
      · intro p hp
        rw [h.n, solveRows_out (by omega), subProd_out (by omega)]
      · intro p hp
        rw [h.n, solveRows_out (by omega), subProd_out (by omega)]; exact h.zeros p hp
      · intro a ha
        rw [if_pos hk0, h.n, hl, hli]
        have hspec := solveRows_spec (L := D k) (sh := 0) (lo := off sz k) (r := sz k)
          (M := subProd (sz k) (sz (k - 1)) (S (k - 1)) (off sz k) (off sz (k - 1)) st.M)
          (fun a ha => hD a (by omega)) (fun a ha => by omega) a (by omega)
        rw [Nat.zero_add, Nat.add_zero] at hspec
        rw [hspec, subProd_in ha, h.rest _ (by omega)]
        ring
  · rw [if_neg hs]
    rw [h.n] at hs
    have hz : st.zero = true := h.zero.2 (Or.inr (by omega))
    refine mk st.M st.zero ?_ (fun _ _ => rfl) h.zeros ?_
    · rw [hz]; simp; omega
    · intro a ha
      have h1 : ∑ c ∈ range (sz k), low (D k) a c * st.M (off sz k + c) = 0 := by
        apply sum_eq_zero; intro c hc
        have := mem_range.1 hc
        rw [h.zeros _ (by omega), mul_zero]
      have h2 : (if 0 < k then ∑ c ∈ range (sz (k - 1)), S (k - 1) a c * st.M (off sz (k - 1) + c) else 0) = 0 := by
        by_cases h0 : 0 < k
        · rw [if_pos h0]
          apply sum_eq_zero; intro c hc
          have := off_add_lt (show k - 1 < k by omega) (mem_range.1 hc)
          rw [h.zeros _ (by omega), mul_zero]
        · rw [if_neg h0]
      rw [h1, h2, hM _ (by omega), add_zero]

theorem triLInv_fold {sz : Nat → Nat} {D S : Blocks ℝ} {start : Nat} {M : Nat → ℝ} (hM : ∀ p < start, M p = 0) {b : Nat}
    (hD : ∀ i < b, ∀ a < sz i, D i a a ≠ 0) (k : Nat) (hk : k ≤ b) :
    TriLInv sz D S start M k ((List.range k).foldl (triLStep sz D S start) ⟨0, 0, 0, true, M⟩) := by
  induction k with
  | zero =>
    refine ⟨rfl, fun h => by omega, by simp, fun _ _ => rfl, hM, fun i hi => by omega⟩
  | succ k ih =>
    rw [List.range_succ, List.foldl_append]
    exact triLInv_step hM (hD k (by omega)) (ih (by omega))

/-- A row of a block-bidiagonal product. -/
theorem biMat_row (b : Nat) (sz : Nat → Nat) (D S : Blocks ℝ) (f : Nat → Nat → ℝ) {i a : Nat} (hi : i < b) :
    ∑ j ∈ range b, ∑ c ∈ range (sz j), biMat D S i a j c * f j c
      = ∑ c ∈ range (sz i), low (D i) a c * f i c
        + (if 0 < i then ∑ c ∈ range (sz (i - 1)), S (i - 1) a c * f (i - 1) c else 0) := by
  have hz : ∀ l, i ≠ l → i ≠ l + 1 → ∑ c ∈ range (sz l), biMat D S i a l c * f l c = 0 := by
    intro l h1 h2
    apply sum_eq_zero; intro c _
    rw [biMat_zero D S a c h1 h2, zero_mul]
  rw [sum_eq_sum_sdiff_singleton_add (i := i) (mem_range.2 hi), add_comm]
  congr 1
  · simp only [biMat_diag]
  · by_cases h0 : 0 < i
    · obtain ⟨i, rfl⟩ : ∃ i', i = i' + 1 := ⟨i - 1, by omega⟩
      rw [if_pos h0, sum_eq_single_of_mem i (by simp; omega)]
      · simp only [biMat_sub, Nat.add_sub_cancel]
      · intro l hl hne
        simp only [mem_sdiff, mem_range, mem_singleton] at hl
        exact hz l (by omega) (by omega)
    · rw [if_neg h0]
      apply sum_eq_zero; intro l hl
      simp only [mem_sdiff, mem_range, mem_singleton] at hl
      exact hz l (by omega) (by omega)

/-! ## Block tridiagonal, `Lᵀ` -/

/-- Invariant when the blocks `k, …, b-1` have been treated. -/
structure TriLTInv (b : Nat) (sz : Nat → Nat) (D S : Blocks ℝ) (stop : Nat) (M : Nat → ℝ) (k : Nat) (st : TriSt ℝ) : Prop where
  n : st.n = off sz k
  prev : k < b → st.l = off sz (k + 1) ∧ st.li = sz k
  zero : st.zero = true → stop ≤ off sz k
  zero' : st.zero = false → off sz k < stop ∧ k < b
  rest : ∀ p < off sz k, st.M p = M p
  zeros : ∀ p, stop ≤ p → p < off sz b → st.M p = 0
  eqn : ∀ i, k ≤ i → i < b → ∀ a < sz i, ∑ c ∈ range (sz i), low (D i) c a * st.M (off sz i + c)
    + (if i + 1 < b then ∑ c ∈ range (sz (i + 1)), S i c a * st.M (off sz (i + 1) + c) else 0) = M (off sz i + a)

theorem triLTInv_step {b : Nat} {sz : Nat → Nat} {D S : Blocks ℝ} {stop : Nat} {M : Nat → ℝ} {k : Nat} {st : TriSt ℝ}
    (hM : ∀ p, stop ≤ p → p < off sz b → M p = 0) (hD : ∀ a < sz k, D k a a ≠ 0) (hkb : k + 1 ≤ b)
    (h : TriLTInv b sz D S stop M (k + 1) st) : TriLTInv b sz D S stop M k (triLTStep sz D S stop st k) := by
  have hoff : off sz (k + 1) = off sz k + sz k := rfl
  have hle : off sz (k + 1) ≤ off sz b := off_le hkb
  have mk : ∀ (M' : Nat → ℝ) (z : Bool), (z = true → stop ≤ off sz k) → (z = false → off sz k < stop) →
      (∀ p, (p < off sz k ∨ off sz (k + 1) ≤ p) → M' p = st.M p) →
      (∀ p, stop ≤ p → p < off sz b → M' p = 0) →
      (∀ a < sz k, ∑ c ∈ range (sz k), low (D k) c a * M' (off sz k + c)
        + (if k + 1 < b then ∑ c ∈ range (sz (k + 1)), S k c a * st.M (off sz (k + 1) + c) else 0) = M (off sz k + a)) →
      TriLTInv b sz D S stop M k ⟨st.n - sz k, st.n, sz k, z, M'⟩ := by
    intro M' z hz hz' h1 h2 h3
    refine ⟨by simp only [h.n, hoff]; omega, fun _ => ⟨h.n, rfl⟩, hz, fun hf => ⟨hz' hf, by omega⟩, ?_, h2, ?_⟩
    · intro p hp
      dsimp only
      rw [h1 p (Or.inl hp)]
      exact h.rest p (by omega)
    · intro i hki hib a ha
      have hup : ∀ j, k < j → ∀ c, M' (off sz j + c) = st.M (off sz j + c) := by
        intro j hj c
        have := off_le (sz := sz) (show k + 1 ≤ j from hj)
        exact h1 _ (Or.inr (by omega))
      have hnext : (if i + 1 < b then ∑ c ∈ range (sz (i + 1)), S i c a * M' (off sz (i + 1) + c) else 0)
          = if i + 1 < b then ∑ c ∈ range (sz (i + 1)), S i c a * st.M (off sz (i + 1) + c) else 0 := by
        congr 1
        apply sum_congr rfl; intro c _
        rw [hup (i + 1) (by omega) c]
      simp only [hnext]
      rcases Nat.lt_or_ge k i with hik | hik
      · rw [← h.eqn i hik hib a ha]
        congr 1
        apply sum_congr rfl; intro c _
        rw [hup i hik c]
      · obtain rfl : i = k := by omega
        exact h3 a ha
  unfold triLTStep
  dsimp only
  have hn : st.n - sz k = off sz k := by rw [h.n, hoff]; omega
  by_cases hs : st.n - sz k < stop
  · rw [if_pos hs]
    rw [hn] at hs
    by_cases hz : st.zero = true
    · rw [if_pos hz]
      dsimp only
      have hkz := h.zero hz
      refine mk _ false (by simp) (fun _ => hs) ?_ ?_ ?_
      · intro p hp
        rw [hn]
        exact solveRowsT_out (by rw [h.n]; omega)
      · intro p hp hp'
        rw [hn, solveRowsT_out (by rw [h.n]; omega)]; exact h.zeros p hp hp'
      · intro a ha
        have hnext : (if k + 1 < b then ∑ c ∈ range (sz (k + 1)), S k c a * st.M (off sz (k + 1) + c) else 0) = 0 := by
          by_cases h0 : k + 1 < b
          · rw [if_pos h0]
            apply sum_eq_zero; intro c hc
            have := off_add_lt h0 (mem_range.1 hc)
            rw [h.zeros _ (by omega) this, mul_zero]
          · rw [if_neg h0]
        rw [hnext, add_zero, hn]
        rw [solveRowsT_spec (n := sz k) (by rw [h.n]; omega) hD (fun c hc hc' => h.zeros _ (by rw [h.n] at hc; omega) (by omega)) a ha]
        exact h.rest _ (by omega)
    · rw [if_neg hz]
      dsimp only
      obtain ⟨h0', hkb'⟩ := h.zero' (by simpa using hz)
      obtain ⟨hl, hli⟩ := h.prev hkb'
      have hlli : st.l - st.li = off sz (k + 1) := by
        rw [hl, hli]; show off sz (k + 1) + sz (k + 1) - sz (k + 1) = _; omega
      refine mk _ st.zero (fun hc => absurd hc hz) (fun _ => hs) ?_ ?_ ?_
      · intro p hp
        rw [hn, solveRowsT_out (by omega), subProd_out (by omega)]
      · intro p hp hp'
        rw [hn, solveRowsT_out (by omega), subProd_out (by omega)]; exact h.zeros p hp hp'
      · intro a ha
        rw [if_pos hkb', hn, hlli, hli]
        rw [solveRowsT_spec (n := sz k) le_rfl hD (fun c hc hc' => by omega) a ha, subProd_in ha, h.rest _ (by omega)]
        ring
  · rw [if_neg hs]
    rw [hn] at hs
    have hz : st.zero = true := by
      cases hzz : st.zero with
      | true => rfl
      | false =>
        have := (h.zero' hzz).1; omega
    refine mk st.M st.zero (fun _ => by omega) (fun hf => by rw [hz] at hf; cases hf) (fun _ _ => rfl) h.zeros ?_
    intro a ha
    have h1 : ∑ c ∈ range (sz k), low (D k) c a * st.M (off sz k + c) = 0 := by
      apply sum_eq_zero; intro c hc
      have := mem_range.1 hc
      rw [h.zeros _ (by omega) (by omega), mul_zero]
    have h2 : (if k + 1 < b then ∑ c ∈ range (sz (k + 1)), S k c a * st.M (off sz (k + 1) + c) else 0) = 0 := by
      by_cases h0 : k + 1 < b
      · rw [if_pos h0]
        apply sum_eq_zero; intro c hc
        have := off_add_lt h0 (mem_range.1 hc)
        rw [h.zeros _ (by omega) this, mul_zero]
      · rw [if_neg h0]
    rw [h1, h2, hM _ (by omega) (by omega), add_zero]

theorem triLTInv_from {b : Nat} {sz : Nat → Nat} {D S : Blocks ℝ} {stop : Nat} {M : Nat → ℝ}
    (hM : ∀ p, stop ≤ p → p < off sz b → M p = 0) (hD : ∀ i < b, ∀ a < sz i, D i a a ≠ 0)
    (k : Nat) (hk : k ≤ b) {st : TriSt ℝ} (h : TriLTInv b sz D S stop M k st) :
    TriLTInv b sz D S stop M 0 (triLTFrom sz D S stop k st) := by
  induction k generalizing st with
  | zero => exact h
  | succ k ih => exact ih (by omega) (triLTInv_step hM (hD k (by omega)) hk h)

/-- A column of a block-bidiagonal matrix. -/
theorem biMat_col (b : Nat) (sz : Nat → Nat) (D S : Blocks ℝ) (f : Nat → Nat → ℝ) {i a : Nat} (hi : i < b) :
    ∑ j ∈ range b, ∑ c ∈ range (sz j), biMat D S j c i a * f j c
      = ∑ c ∈ range (sz i), low (D i) c a * f i c
        + (if i + 1 < b then ∑ c ∈ range (sz (i + 1)), S i c a * f (i + 1) c else 0) := by
  have hz : ∀ l, l ≠ i → l ≠ i + 1 → ∑ c ∈ range (sz l), biMat D S l c i a * f l c = 0 := by
    intro l h1 h2
    apply sum_eq_zero; intro c _
    rw [biMat_zero D S c a h1 h2, zero_mul]
  rw [sum_eq_sum_sdiff_singleton_add (i := i) (mem_range.2 hi), add_comm]
  congr 1
  · simp only [biMat_diag]
  · by_cases h0 : i + 1 < b
    · rw [if_pos h0, sum_eq_single_of_mem (i + 1) (by simp; omega)]
      · simp only [biMat_sub]
      · intro l hl hne
        simp only [mem_sdiff, mem_range, mem_singleton] at hl
        exact hz l (by omega) (by omega)
    · rw [if_neg h0]
      apply sum_eq_zero; intro l hl
      simp only [mem_sdiff, mem_range, mem_singleton] at hl
      exact hz l (by omega) (by omega)

theorem mulVec_bmat (b : Nat) (sz : Nat → Nat) (A : Nat → Nat → Nat → Nat → ℝ) (X : Nat → ℝ) (p : BIdx b sz) :
    (bmat b sz A).mulVec (bvec b sz X) p = ∑ j ∈ range b, ∑ c ∈ range (sz j), A p.1 p.2 j c * X (off sz j + c) := by
  rw [← sum_bidx b sz (fun j c => A p.1 p.2 j c * X (off sz j + c))]
  rfl

theorem mulVec_bmatT (b : Nat) (sz : Nat → Nat) (A : Nat → Nat → Nat → Nat → ℝ) (X : Nat → ℝ) (p : BIdx b sz) :
    (bmat b sz A).transpose.mulVec (bvec b sz X) p = ∑ j ∈ range b, ∑ c ∈ range (sz j), A j c p.1 p.2 * X (off sz j + c) := by
  rw [← sum_bidx b sz (fun j c => A j c p.1 p.2 * X (off sz j + c))]
  rfl

theorem triLSolve_spec {b : Nat} {sz : Nat → Nat} {D S : Blocks ℝ} {start : Nat} {M : Nat → ℝ}
    (hM : ∀ p < start, M p = 0) (hD : ∀ i < b, ∀ a < sz i, D i a a ≠ 0) :
    (bmat b sz (biMat D S)).mulVec (bvec b sz (triLSolve b sz D S M start)) = bvec b sz M := by
  funext p
  rw [mulVec_bmat, biMat_row b sz D S (fun j c => triLSolve b sz D S M start (off sz j + c)) p.1.2]
  exact (triLInv_fold hM hD b le_rfl).eqn p.1 p.1.2 p.2 p.2.2

theorem triLTSolve_spec {b : Nat} {sz : Nat → Nat} {D S : Blocks ℝ} {stop : Option Nat} {M : Nat → ℝ}
    (hstop : stop.getD (off sz b) ≤ off sz b)
    (hM : ∀ p, stop.getD (off sz b) ≤ p → p < off sz b → M p = 0) (hD : ∀ i < b, ∀ a < sz i, D i a a ≠ 0) :
    (bmat b sz (biMat D S)).transpose.mulVec (bvec b sz (triLTSolve b sz D S M stop)) = bvec b sz M := by
  funext p
  rw [mulVec_bmatT, biMat_col b sz D S (fun j c => triLTSolve b sz D S M stop (off sz j + c)) p.1.2]
  refine (triLTInv_from (k := b) (st := ⟨off sz b, 0, 0, true, M⟩) hM hD le_rfl ?_).eqn p.1 (Nat.zero_le _) p.1.2 p.2 p.2.2
  exact ⟨rfl, fun h => absurd h (lt_irrefl _), fun _ => hstop, fun h => by simp at h, fun _ _ => rfl, hM,
    fun i h1 h2 => by omega⟩

/-! ## Block arrow -/

/-- First row, in the order of the rows of `L`, of block `i`: with `up` the first block is the last one of `L`. -/
def lpos (up : Bool) (b : Nat) (sz : Nat → Nat) (i : Nat) : Nat :=
  if up then (if i = 0 then off sz b - sz 0 else off sz i - sz 0) else off sz i

/-- The components of a vector stacked in the order of the rows of `L`, as a vector indexed by blocks. -/
def lvec (up : Bool) (b : Nat) (sz : Nat → Nat) (X : Nat → ℝ) : BIdx b sz → ℝ := fun p => X (lpos up b sz p.1 + p.2)

/-- First row of the block in `k`-th position. -/
def aoff (up : Bool) (b : Nat) (sz : Nat → Nat) (k : Nat) : Nat := off (fun j => sz (arrowIdx up b j)) k

theorem aoff_succ (up : Bool) (b : Nat) (sz : Nat → Nat) (k : Nat) :
    aoff up b sz (k + 1) = aoff up b sz k + sz (arrowIdx up b k) := rfl

theorem aoff_le (up : Bool) (b : Nat) (sz : Nat → Nat) {k l : Nat} (h : k ≤ l) : aoff up b sz k ≤ aoff up b sz l := off_le h

theorem aoff_up {b : Nat} {sz : Nat → Nat} (k : Nat) (hk : k ≤ b - 1) : aoff true b sz k + sz 0 = off sz (k + 1) := by
  induction k with
  | zero => simp [aoff, off]
  | succ k ih =>
    have := ih (by omega)
    rw [aoff_succ, arrowIdx_spoke true (show k < b - 1 by omega), if_pos rfl]
    show _ = off sz (k + 1) + sz (k + 1)
    omega

theorem aoff_down {b : Nat} {sz : Nat → Nat} (k : Nat) : aoff false b sz k = off sz k := by
  simp [aoff, arrowIdx]

theorem aoff_spoke (up : Bool) {b : Nat} {sz : Nat → Nat} {k : Nat} (hk : k < b - 1) :
    aoff up b sz k = lpos up b sz (arrowIdx up b k) := by
  rw [arrowIdx_spoke up hk]
  cases up
  · simp [aoff_down, lpos]
  · have := aoff_up (b := b) (sz := sz) k (by omega)
    simp only [lpos, if_true]
    rw [if_neg (by omega)]; omega

theorem aoff_hub (up : Bool) {b : Nat} (hb : 0 < b) {sz : Nat → Nat} :
    aoff up b sz (b - 1) = lpos up b sz (arrowIdx up b (b - 1)) := by
  rw [arrowIdx_hub up hb]
  cases up
  · simp [aoff_down, lpos]
  · have := aoff_up (sz := sz) (b - 1) le_rfl
    rw [Nat.sub_add_cancel hb] at this
    simp only [lpos, if_true]; omega

theorem aoff_total (up : Bool) {b : Nat} (hb : 0 < b) {sz : Nat → Nat} :
    aoff up b sz (b - 1) + sz (arrowIdx up b (b - 1)) = off sz b := by
  rw [arrowIdx_hub up hb]
  cases up
  · simp only [aoff_down, Bool.false_eq_true, if_false]
    obtain ⟨n, rfl⟩ := Nat.exists_eq_succ_of_ne_zero hb.ne'
    rfl
  · have := aoff_up (sz := sz) (b - 1) le_rfl
    rw [Nat.sub_add_cancel hb] at this
    simpa using this

/-- Invariant of the loop of the forward solve after `k` spokes. -/
structure ArrLInv (up : Bool) (b : Nat) (sz : Nat → Nat) (D S : Blocks ℝ) (M X : Nat → ℝ) (k : Nat) : Prop where
  rest : ∀ p, aoff up b sz k ≤ p → p < aoff up b sz (b - 1) → X p = M p
  eqn : ∀ j < k, ∀ a < sz (arrowIdx up b j),
    ∑ c ∈ range (sz (arrowIdx up b j)), low (D (arrowIdx up b j)) a c * X (aoff up b sz j + c) = M (aoff up b sz j + a)
  hub : ∀ a < sz (arrowIdx up b (b - 1)), X (aoff up b sz (b - 1) + a) = M (aoff up b sz (b - 1) + a)
    - ∑ j ∈ range k, ∑ c ∈ range (sz (arrowIdx up b j)), trIf up (S j) a c * X (aoff up b sz j + c)

theorem arrLInv_next {up : Bool} {b : Nat} {sz : Nat → Nat} {D S : Blocks ℝ} {M X X' : Nat → ℝ} {k : Nat} (hk : k < b - 1)
    (h : ArrLInv up b sz D S M X k)
    (h1 : ∀ p, p < aoff up b sz (b - 1) → (p < aoff up b sz k ∨ aoff up b sz (k + 1) ≤ p) → X' p = X p)
    (h2 : ∀ a < sz (arrowIdx up b k),
      ∑ c ∈ range (sz (arrowIdx up b k)), low (D (arrowIdx up b k)) a c * X' (aoff up b sz k + c) = M (aoff up b sz k + a))
    (h3 : ∀ a < sz (arrowIdx up b (b - 1)), X' (aoff up b sz (b - 1) + a) = X (aoff up b sz (b - 1) + a)
      - ∑ c ∈ range (sz (arrowIdx up b k)), trIf up (S k) a c * X' (aoff up b sz k + c)) :
    ArrLInv up b sz D S M X' (k + 1) := by
  have hold : ∀ j < k, ∀ c < sz (arrowIdx up b j), X' (aoff up b sz j + c) = X (aoff up b sz j + c) := by
    intro j hj c hc
    have h4 : aoff up b sz j + c < aoff up b sz k := by
      have := aoff_le up b sz (show j + 1 ≤ k from hj)
      rw [aoff_succ] at this; omega
    exact h1 _ (lt_of_lt_of_le h4 (aoff_le up b sz hk.le)) (Or.inl h4)
  refine ⟨?_, ?_, ?_⟩
  · intro p hp hp'
    rw [h1 p hp' (Or.inr hp)]
    exact h.rest p (le_trans (aoff_le up b sz (by omega)) hp) hp'
  · intro j hj a ha
    rcases Nat.lt_or_ge j k with hjk | hjk
    · rw [← h.eqn j hjk a ha]
      apply sum_congr rfl; intro c hc
      rw [hold j hjk c (mem_range.1 hc)]
    · obtain rfl : j = k := by omega
      exact h2 a ha
  · intro a ha
    rw [h3 a ha, h.hub a ha, sum_range_succ]
    have : ∑ j ∈ range k, ∑ c ∈ range (sz (arrowIdx up b j)), trIf up (S j) a c * X' (aoff up b sz j + c)
        = ∑ j ∈ range k, ∑ c ∈ range (sz (arrowIdx up b j)), trIf up (S j) a c * X (aoff up b sz j + c) := by
      apply sum_congr rfl; intro j hj
      apply sum_congr rfl; intro c hc
      rw [hold j (mem_range.1 hj) c (mem_range.1 hc)]
    rw [this]; ring

theorem arrowLK_inv {up : Bool} {b : Nat} (hb : 0 < b) {sz : Nat → Nat} (hsz : sz (b - 1) = sz (arrowIdx up b (b - 1)))
    {D S : Blocks ℝ} {start stop : Nat} {M : Nat → ℝ}
    (hM1 : ∀ p < aoff up b sz (b - 1), p < start → M p = 0) (hM2 : ∀ p < aoff up b sz (b - 1), stop ≤ p → M p = 0)
    (hD : ∀ i < b, ∀ a < sz i, D i a a ≠ 0) (k : Nat) (hk : k ≤ b - 1) :
    ∃ X, arrowLK up b sz D S (off sz b) start stop M k = some (aoff up b sz k, X) ∧ ArrLInv up b sz D S M X k := by
  have htot := aoff_total up hb (sz := sz)
  induction k with
  | zero =>
    exact ⟨M, rfl, fun _ _ _ => rfl, fun j hj => by omega, fun a _ => by simp⟩
  | succ k ih =>
    obtain ⟨X, hX, h⟩ := ih (by omega)
    have hk' : k < b - 1 := by omega
    have hs := aoff_succ up b sz k
    have hle := aoff_le up b sz (show k + 1 ≤ b - 1 from hk)
    simp only [arrowLK, hX]
    by_cases hskip : sz (arrowIdx up b k) < start - aoff up b sz k ∨ stop ≤ aoff up b sz k
    · rw [if_pos hskip]
      refine ⟨X, rfl, ?_⟩
      have hM0 : ∀ c < sz (arrowIdx up b k), M (aoff up b sz k + c) = 0 := by
        intro c hc
        rcases hskip with hh | hh
        · exact hM1 _ (by omega) (by omega)
        · exact hM2 _ (by omega) (by omega)
      have hX0 : ∀ c < sz (arrowIdx up b k), X (aoff up b sz k + c) = 0 := by
        intro c hc
        rw [h.rest _ (by omega) (by omega), hM0 c hc]
      refine arrLInv_next hk' h (fun _ _ _ => rfl) ?_ ?_
      · intro a ha
        rw [hM0 a ha]
        apply sum_eq_zero; intro c hc
        rw [hX0 c (mem_range.1 hc), mul_zero]
      · intro a _
        rw [sum_eq_zero (fun c hc => by rw [hX0 c (mem_range.1 hc), mul_zero]), sub_zero]
    · rw [if_neg hskip, if_pos hsz]
      refine ⟨_, rfl, ?_⟩
      have hsle : start - aoff up b sz k ≤ sz (arrowIdx up b k) := by omega
      generalize hsd : start - aoff up b sz k = s at *
      have hX0 : ∀ c < s, X (aoff up b sz k + c) = 0 := by
        intro c hc
        rw [h.rest _ (by omega) (by omega), hM1 _ (by omega) (by omega)]
      obtain ⟨Y, hY⟩ : ∃ Y, Y = solveRows (D (arrowIdx up b k)) s (aoff up b sz k + s) (sz (arrowIdx up b k) - s) X := ⟨_, rfl⟩
      rw [← hY, hsz]
      have hN : off sz b - sz (arrowIdx up b (b - 1)) = aoff up b sz (b - 1) := by omega
      rw [hN]
      have hYout : ∀ p, (p < aoff up b sz k ∨ aoff up b sz (k + 1) ≤ p) → Y p = X p := by
        intro p hp; rw [hY]; exact solveRows_out (by omega)
      have hYz : ∀ c < s, Y (aoff up b sz k + c) = 0 := by
        intro c hc; rw [hY, solveRows_out (by omega)]; exact hX0 c hc
      have hsub : ∀ p < aoff up b sz (b - 1), subProd (sz (arrowIdx up b (b - 1))) (sz (arrowIdx up b k) - s)
          (fun a c => trIf up (S k) a (s + c)) (aoff up b sz (b - 1)) (aoff up b sz k + s) Y p = Y p :=
        fun p hp => subProd_out (by omega)
      refine arrLInv_next hk' h ?_ ?_ ?_
      · intro p hp hp'
        rw [hsub p hp, hYout p hp']
      · intro a ha
        have hspec := solveRows_spec (L := D (arrowIdx up b k)) (sh := s) (lo := aoff up b sz k)
          (r := sz (arrowIdx up b k) - s) (M := X) (fun a ha => hD _ (spoke_lt up hk') a (by omega)) hX0 a (by omega)
        rw [← hY, show s + (sz (arrowIdx up b k) - s) = sz (arrowIdx up b k) by omega] at hspec
        rw [← h.rest _ (by omega) (by omega), ← hspec]
        apply sum_congr rfl; intro c hc
        have := mem_range.1 hc
        rw [hsub _ (by omega)]
      · intro a ha
        rw [subProd_in ha, hYout _ (Or.inr (by omega))]
        congr 1
        have e1 : ∀ c ∈ range (sz (arrowIdx up b k)), trIf up (S k) a c * subProd (sz (arrowIdx up b (b - 1)))
            (sz (arrowIdx up b k) - s) (fun a c => trIf up (S k) a (s + c)) (aoff up b sz (b - 1)) (aoff up b sz k + s) Y
              (aoff up b sz k + c) = trIf up (S k) a c * Y (aoff up b sz k + c) := by
          intro c hc
          have := mem_range.1 hc
          rw [hsub _ (by omega)]
        rw [sum_congr rfl e1]
        obtain ⟨r, hr⟩ : ∃ r, sz (arrowIdx up b k) = s + r := ⟨sz (arrowIdx up b k) - s, by omega⟩
        rw [hr, sum_range_add, sum_eq_zero (s := range s), zero_add, Nat.add_sub_cancel_left]
        · apply sum_congr rfl; intro c _
          rw [add_assoc]
        · intro c hc
          rw [hYz c (mem_range.1 hc), mul_zero]

/-- Block equations of the forward solve. -/
theorem arrowLSolveU_spec {up : Bool} {b : Nat} (hb : 0 < b) {sz : Nat → Nat} (hsz : sz (b - 1) = sz (arrowIdx up b (b - 1)))
    {D S : Blocks ℝ} {start stop : Nat} {M : Nat → ℝ}
    (hM1 : ∀ p < aoff up b sz (b - 1), p < start → M p = 0) (hM2 : ∀ p < aoff up b sz (b - 1), stop ≤ p → M p = 0)
    (hD : ∀ i < b, ∀ a < sz i, D i a a ≠ 0) :
    ∃ X, arrowLSolve_ up b sz D S (off sz b) start stop M = some X ∧
      (∀ k < b - 1, ∀ a < sz (arrowIdx up b k), ∑ c ∈ range (sz (arrowIdx up b k)),
        low (D (arrowIdx up b k)) a c * X (aoff up b sz k + c) = M (aoff up b sz k + a)) ∧
      (∀ a < sz (arrowIdx up b (b - 1)), ∑ c ∈ range (sz (arrowIdx up b (b - 1))),
          low (D (arrowIdx up b (b - 1))) a c * X (aoff up b sz (b - 1) + c)
        + ∑ k ∈ range (b - 1), ∑ c ∈ range (sz (arrowIdx up b k)), trIf up (S k) a c * X (aoff up b sz k + c)
        = M (aoff up b sz (b - 1) + a)) := by
  obtain ⟨X, hX, h⟩ := arrowLK_inv hb hsz (S := S) hM1 hM2 hD (b - 1) le_rfl
  have hhub : arrowIdx up b (b - 1) < b := by rw [arrowIdx_hub up hb]; split_ifs <;> omega
  simp only [arrowLSolve_, hX]
  refine ⟨_, rfl, ?_, ?_⟩
  · intro k hk a ha
    rw [← h.eqn k hk a ha]
    apply sum_congr rfl; intro c hc
    have h1 := mem_range.1 hc
    have h2 := aoff_le up b sz (show k + 1 ≤ b - 1 from hk)
    rw [aoff_succ] at h2
    rw [solveRows_out (by omega)]
  · intro a ha
    have hspec := solveRows_spec (L := D (arrowIdx up b (b - 1))) (sh := 0) (lo := aoff up b sz (b - 1))
      (r := sz (arrowIdx up b (b - 1))) (M := X) (fun a ha => hD _ hhub a (by omega)) (fun a ha => by omega) a (by omega)
    rw [Nat.zero_add, Nat.add_zero] at hspec
    rw [hspec, h.hub a ha]
    have : ∑ k ∈ range (b - 1), ∑ c ∈ range (sz (arrowIdx up b k)), trIf up (S k) a c *
          solveRows (D (arrowIdx up b (b - 1))) 0 (aoff up b sz (b - 1)) (sz (arrowIdx up b (b - 1))) X (aoff up b sz k + c)
        = ∑ k ∈ range (b - 1), ∑ c ∈ range (sz (arrowIdx up b k)), trIf up (S k) a c * X (aoff up b sz k + c) := by
      apply sum_congr rfl; intro k hk
      apply sum_congr rfl; intro c hc
      have h1 := mem_range.1 hc
      have h2 := aoff_le up b sz (show k + 1 ≤ b - 1 from mem_range.1 hk)
      rw [aoff_succ] at h2
      rw [solveRows_out (by omega)]
    rw [this]; ring

/-- A row of the arrow factor times a vector. -/
theorem arrowFac_row {up : Bool} {b : Nat} (hb : 0 < b) (sz : Nat → Nat) (D S : Blocks ℝ) (f : Nat → Nat → ℝ) (a : Nat) :
    (∀ k < b - 1, ∑ j ∈ range b, ∑ c ∈ range (sz j), arrowFac up b D S (arrowIdx up b k) a j c * f j c
      = ∑ c ∈ range (sz (arrowIdx up b k)), low (D (arrowIdx up b k)) a c * f (arrowIdx up b k) c) ∧
    ∑ j ∈ range b, ∑ c ∈ range (sz j), arrowFac up b D S (arrowIdx up b (b - 1)) a j c * f j c
      = ∑ c ∈ range (sz (arrowIdx up b (b - 1))), low (D (arrowIdx up b (b - 1))) a c * f (arrowIdx up b (b - 1)) c
        + ∑ k ∈ range (b - 1), ∑ c ∈ range (sz (arrowIdx up b k)), trIf up (S k) a c * f (arrowIdx up b k) c := by
  constructor
  · intro k hk
    rw [sum_eq_single_of_mem (arrowIdx up b k) (mem_range.2 (spoke_lt up hk))]
    · simp only [arrowFac_diag]
    · intro j _ hne
      apply sum_eq_zero; intro c _
      rw [arrowFac_zero hk hne, zero_mul]
  · rw [sum_arrow up hb, add_comm]
    congr 1
    · simp only [arrowFac_diag]
    · apply sum_congr rfl; intro k hk
      apply sum_congr rfl; intro c _
      rw [arrowFac_hub (mem_range.1 hk)]

/-- A column of the arrow factor times a vector. -/
theorem arrowFac_col {up : Bool} {b : Nat} (hb : 0 < b) (sz : Nat → Nat) (D S : Blocks ℝ) (f : Nat → Nat → ℝ) (a : Nat) :
    (∀ k < b - 1, ∑ j ∈ range b, ∑ c ∈ range (sz j), arrowFac up b D S j c (arrowIdx up b k) a * f j c
      = ∑ c ∈ range (sz (arrowIdx up b k)), low (D (arrowIdx up b k)) c a * f (arrowIdx up b k) c
        + ∑ c ∈ range (sz (arrowIdx up b (b - 1))), trIf up (S k) c a * f (arrowIdx up b (b - 1)) c) ∧
    ∑ j ∈ range b, ∑ c ∈ range (sz j), arrowFac up b D S j c (arrowIdx up b (b - 1)) a * f j c
      = ∑ c ∈ range (sz (arrowIdx up b (b - 1))), low (D (arrowIdx up b (b - 1))) c a * f (arrowIdx up b (b - 1)) c := by
  constructor
  · intro k hk
    rw [sum_arrow up hb]
    congr 1
    · rw [sum_eq_single_of_mem k (mem_range.2 hk)]
      · simp only [arrowFac_diag]
      · intro j hj hne
        apply sum_eq_zero; intro c _
        rw [arrowFac_zero (mem_range.1 hj) (fun he => hne (spoke_inj up (mem_range.1 hj) hk he.symm)), zero_mul]
    · apply sum_congr rfl; intro c _
      rw [arrowFac_hub hk]
  · rw [sum_arrow up hb, sum_eq_zero, zero_add]
    · simp only [arrowFac_diag]
    · intro k hk
      apply sum_eq_zero; intro c _
      rw [arrowFac_zero (mem_range.1 hk) (spoke_ne_hub up (mem_range.1 hk)).symm, zero_mul]

/-- Row of block position `k` before and after the rotation. -/
theorem rot_row (up : Bool) {b : Nat} (hb : 0 < b) (sz : Nat → Nat) (M : Nat → ℝ) {i a : Nat} (hi : i < b) (ha : a < sz i) :
    (if up then rotUp (off sz b) (sz 0) M else M) (lpos up b sz i + a) = M (off sz i + a) := by
  cases up
  · simp [lpos]
  · simp only [if_true, lpos]
    have h0 : sz 0 ≤ off sz b := by
      have := off_le (sz := sz) (show 1 ≤ b from hb); simpa [off] using this
    by_cases hi0 : i = 0
    · subst hi0
      rw [if_pos rfl, rotUp, if_neg (by omega), if_pos (by omega)]
      congr 1; simp [off]
    · rw [if_neg hi0]
      have h1 : sz 0 ≤ off sz i := by
        have := off_le (sz := sz) (show 1 ≤ i by omega); simpa [off] using this
      have h2 := off_add_lt hi ha
      rw [rotUp, if_pos (by omega)]
      congr 1; omega

theorem arrowLSolve_spec {up : Bool} {b : Nat} (hb : 0 < b) {sz : Nat → Nat} (hsz : up = true → sz (b - 1) = sz 0)
    {D S : Blocks ℝ} {start : Nat} {stop : Option Nat} {M : Nat → ℝ}
    (hM1 : ∀ p < start, M p = 0) (hM2 : ∀ p, stop.getD (off sz b) ≤ p → p < off sz b → M p = 0)
    (hD : ∀ i < b, ∀ a < sz i, D i a a ≠ 0) :
    ∃ X, arrowLSolve up b sz D S M start stop = some X ∧
      (bmat b sz (arrowFac up b D S)).mulVec (lvec up b sz X) = bvec b sz M := by
  have hsz' : sz (b - 1) = sz (arrowIdx up b (b - 1)) := by
    rw [arrowIdx_hub up hb]; cases up
    · rfl
    · simpa using hsz rfl
  have h0 : sz 0 ≤ off sz b := by
    have := off_le (sz := sz) (show 1 ≤ b from hb); simpa [off] using this
  have htot := aoff_total up hb (sz := sz)
  obtain ⟨start', hst⟩ : ∃ s, s = if up then start - sz 0 else start := ⟨_, rfl⟩
  obtain ⟨stop', hsp⟩ : ∃ s, s = if up then stop.getD (off sz b) - sz 0 else stop.getD (off sz b) := ⟨_, rfl⟩
  obtain ⟨M', hM'⟩ : ∃ M', M' = if up then rotUp (off sz b) (sz 0) M else M := ⟨_, rfl⟩
  have hA : ∀ p < aoff up b sz (b - 1), p < start' → M' p = 0 := by
    intro p hp hps
    rw [arrowIdx_hub up hb] at htot
    cases up
    · simp only [Bool.false_eq_true, if_false] at hst hM'
      rw [hM']; exact hM1 p (by omega)
    · simp only [if_true] at hst hM' htot
      rw [hM', rotUp, if_pos (by omega)]
      exact hM1 _ (by omega)
  have hB : ∀ p < aoff up b sz (b - 1), stop' ≤ p → M' p = 0 := by
    intro p hp hps
    rw [arrowIdx_hub up hb] at htot
    cases up
    · simp only [Bool.false_eq_true, if_false] at hsp hM' htot
      rw [hM']; exact hM2 p (by omega) (by omega)
    · simp only [if_true] at hsp hM' htot
      rw [hM', rotUp, if_pos (by omega)]
      exact hM2 _ (by omega) (by omega)
  obtain ⟨X, hX, h1, h2⟩ := arrowLSolveU_spec hb hsz' (S := S) hA hB hD
  refine ⟨X, ?_, ?_⟩
  · rw [← hX, hst, hsp, hM']
    unfold arrowLSolve
    cases up <;> rfl
  · funext p
    obtain ⟨⟨i, hi⟩, ⟨a, ha⟩⟩ := p
    simp only at ha
    have e : (bmat b sz (arrowFac up b D S)).mulVec (lvec up b sz X) ⟨⟨i, hi⟩, ⟨a, ha⟩⟩
        = ∑ j ∈ range b, ∑ c ∈ range (sz j), arrowFac up b D S i a j c * X (lpos up b sz j + c) := by
      rw [← sum_bidx b sz (fun j c => arrowFac up b D S i a j c * X (lpos up b sz j + c))]
      rfl
    rw [e]
    have hr := rot_row up hb sz M hi ha
    rw [← hM'] at hr
    show _ = M (off sz i + a)
    rw [← hr]
    obtain ⟨r1, r2⟩ := arrowFac_row (up := up) hb sz D S (fun j c => X (lpos up b sz j + c)) a
    rcases exists_spoke up hi with rfl | ⟨k, hk, rfl⟩
    · rw [r2, ← aoff_hub up hb, ← h2 a ha]
      congr 1
      apply sum_congr rfl; intro k hk
      rw [← aoff_spoke up (mem_range.1 hk)]
    · rw [r1 k hk, ← aoff_spoke up hk]
      exact h1 k hk a ha

/-! ### Transpose -/

theorem arrowLTK_inv {up : Bool} {b : Nat} (hb : 0 < b) {sz : Nat → Nat} {D S : Blocks ℝ} {start stop : Nat} {zero : Bool}
    {M X0 : Nat → ℝ} (hX0 : ∀ p < aoff up b sz (b - 1), X0 p = M p)
    (hz : zero = true → ∀ a < sz (arrowIdx up b (b - 1)), X0 (aoff up b sz (b - 1) + a) = 0)
    (hz' : zero = false → aoff up b sz (b - 1) ≤ stop)
    (hM1 : ∀ p < aoff up b sz (b - 1), p < start → M p = 0) (hM2 : ∀ p < aoff up b sz (b - 1), stop ≤ p → M p = 0)
    (hD : ∀ i < b, ∀ a < sz i, D i a a ≠ 0) (k : Nat) (hk : k ≤ b - 1) :
    (arrowLTK up b sz D S (off sz b) start stop zero X0 k).1 = aoff up b sz k ∧
    (∀ p, aoff up b sz k ≤ p → (arrowLTK up b sz D S (off sz b) start stop zero X0 k).2 p = X0 p) ∧
    (∀ j < k, ∀ a < sz (arrowIdx up b j), ∑ c ∈ range (sz (arrowIdx up b j)), low (D (arrowIdx up b j)) c a *
        (arrowLTK up b sz D S (off sz b) start stop zero X0 k).2 (aoff up b sz j + c)
      + ∑ c ∈ range (sz (arrowIdx up b (b - 1))), trIf up (S j) c a * X0 (aoff up b sz (b - 1) + c)
      = M (aoff up b sz j + a)) := by
  have htot := aoff_total up hb (sz := sz)
  induction k with
  | zero => exact ⟨rfl, fun _ _ => rfl, fun j hj => by omega⟩
  | succ k ih =>
    obtain ⟨i1, i2, i3⟩ := ih (by omega)
    have hk' : k < b - 1 := by omega
    have hs := aoff_succ up b sz k
    have hle := aoff_le up b sz (show k + 1 ≤ b - 1 from hk)
    rw [arrowLTK]
    generalize hY : arrowLTK up b sz D S (off sz b) start stop zero X0 k = Y at *
    obtain ⟨n, Y⟩ := Y
    simp only at i1 i2 i3 ⊢
    subst i1
    have hDk := hD _ (spoke_lt up hk')
    -- a change limited to the rows of the block keeps the rest
    have mk : ∀ Z : Nat → ℝ, (∀ p, (p < aoff up b sz k ∨ aoff up b sz (k + 1) ≤ p) → Z p = Y p) →
        (∀ a < sz (arrowIdx up b k), ∑ c ∈ range (sz (arrowIdx up b k)), low (D (arrowIdx up b k)) c a * Z (aoff up b sz k + c)
          + ∑ c ∈ range (sz (arrowIdx up b (b - 1))), trIf up (S k) c a * X0 (aoff up b sz (b - 1) + c)
          = M (aoff up b sz k + a)) →
        (∀ p, aoff up b sz (k + 1) ≤ p → Z p = X0 p) ∧
        (∀ j < k + 1, ∀ a < sz (arrowIdx up b j), ∑ c ∈ range (sz (arrowIdx up b j)), low (D (arrowIdx up b j)) c a *
          Z (aoff up b sz j + c)
          + ∑ c ∈ range (sz (arrowIdx up b (b - 1))), trIf up (S j) c a * X0 (aoff up b sz (b - 1) + c)
          = M (aoff up b sz j + a)) := by
      intro Z h1 h2
      refine ⟨fun p hp => by rw [h1 p (Or.inr hp), i2 p (by omega)], ?_⟩
      intro j hj a ha
      rcases Nat.lt_or_ge j k with hjk | hjk
      · rw [← i3 j hjk a ha]
        congr 1
        apply sum_congr rfl; intro c hc
        have h3 := mem_range.1 hc
        have h4 := aoff_le up b sz (show j + 1 ≤ k from hjk)
        rw [aoff_succ] at h4
        rw [h1 _ (Or.inl (by omega))]
      · obtain rfl : j = k := by omega
        exact h2 a ha
    have hub0 : zero = true → ∀ a, ∑ c ∈ range (sz (arrowIdx up b (b - 1))), trIf up (S k) c a * X0 (aoff up b sz (b - 1) + c) = 0 := by
      intro hzt a
      apply sum_eq_zero; intro c hc
      rw [hz hzt c (mem_range.1 hc), mul_zero]
    have hYM : ∀ a < sz (arrowIdx up b k), Y (aoff up b sz k + a) = M (aoff up b sz k + a) := by
      intro a ha
      rw [i2 _ (by omega), hX0 _ (by omega)]
    by_cases hskip : zero = true ∧ aoff up b sz k + sz (arrowIdx up b k) ≤ start
    · rw [if_pos hskip]
      refine ⟨rfl, mk Y (fun _ _ => rfl) ?_⟩
      intro a ha
      rw [hub0 hskip.1, add_zero, hM1 _ (by omega) (by omega)]
      apply sum_eq_zero; intro c hc
      have := mem_range.1 hc
      rw [hYM c this, hM1 _ (by omega) (by omega), mul_zero]
    · rw [if_neg hskip]
      have hN : off sz b - sz (arrowIdx up b (b - 1)) = aoff up b sz (b - 1) := by omega
      rw [hN]
      obtain ⟨W, hW⟩ : ∃ W, W = if zero then Y else subProd (sz (arrowIdx up b k)) (sz (arrowIdx up b (b - 1)))
        (fun a c => trIf up (S k) c a) (aoff up b sz k) (aoff up b sz (b - 1)) Y := ⟨_, rfl⟩
      rw [← hW]
      have hW1 : ∀ p, (p < aoff up b sz k ∨ aoff up b sz (k + 1) ≤ p) → W p = Y p := by
        intro p hp
        rw [hW]
        cases zero
        · simp only [Bool.false_eq_true, if_false]; exact subProd_out (by omega)
        · rfl
      have hW2 : ∀ a < sz (arrowIdx up b k), W (aoff up b sz k + a)
          + ∑ c ∈ range (sz (arrowIdx up b (b - 1))), trIf up (S k) c a * X0 (aoff up b sz (b - 1) + c)
          = M (aoff up b sz k + a) := by
        intro a ha
        rw [← hYM a ha, hW]
        cases hzc : zero
        · simp only [Bool.false_eq_true, if_false]
          rw [subProd_in ha]
          have : ∑ c ∈ range (sz (arrowIdx up b (b - 1))), trIf up (S k) c a * Y (aoff up b sz (b - 1) + c)
              = ∑ c ∈ range (sz (arrowIdx up b (b - 1))), trIf up (S k) c a * X0 (aoff up b sz (b - 1) + c) := by
            apply sum_congr rfl; intro c _
            rw [i2 _ (by omega)]
          rw [this]; ring
        · rw [hub0 hzc, add_zero]; rfl
      have hWz : ∀ a < sz (arrowIdx up b k), stop ≤ aoff up b sz k + a → W (aoff up b sz k + a) = 0 := by
        intro a ha hst
        have hzt : zero = true := by
          cases hzc : zero
          · have := hz' hzc; omega
          · rfl
        have := hW2 a ha
        rw [hub0 hzt, add_zero, hM2 _ (by omega) hst] at this
        exact this
      by_cases hn : aoff up b sz k ≤ stop
      · rw [if_pos hn]
        by_cases hn2 : aoff up b sz k + sz (arrowIdx up b k) ≤ stop
        · rw [if_pos hn2]
          refine ⟨rfl, mk _ ?_ ?_⟩
          · intro p hp
            show solveRowsT _ _ _ _ _ = _
            rw [solveRowsT_out (by omega), hW1 p hp]
          · intro a ha
            dsimp only
            rw [solveRowsT_spec (n := sz (arrowIdx up b k)) le_rfl hDk (fun c hc hc' => by omega) a ha]
            exact hW2 a ha
        · rw [if_neg hn2]
          refine ⟨rfl, mk _ ?_ ?_⟩
          · intro p hp
            show solveRowsT _ _ _ _ _ = _
            rw [solveRowsT_out (by omega), hW1 p hp]
          · intro a ha
            dsimp only
            rw [solveRowsT_spec (n := sz (arrowIdx up b k)) (by omega) hDk (fun c hc hc' => hWz c hc' (by omega)) a ha]
            exact hW2 a ha
      · rw [if_neg hn]
        refine ⟨rfl, mk _ hW1 ?_⟩
        intro a ha
        rw [← hW2 a ha]
        congr 1
        rw [hWz a ha (by omega)]
        apply sum_eq_zero; intro c hc
        dsimp only
        rw [hWz c (mem_range.1 hc) (by omega), mul_zero]

theorem arrowLTSolveU_spec {up : Bool} {b : Nat} (hb : 0 < b) {sz : Nat → Nat} {D S : Blocks ℝ} {start stop : Nat}
    {M : Nat → ℝ} (hstop : stop ≤ off sz b)
    (hM1 : ∀ p < start, M p = 0) (hM2 : ∀ p, stop ≤ p → p < off sz b → M p = 0)
    (hD : ∀ i < b, ∀ a < sz i, D i a a ≠ 0) :
    (∀ k < b - 1, ∀ a < sz (arrowIdx up b k), ∑ c ∈ range (sz (arrowIdx up b k)), low (D (arrowIdx up b k)) c a *
        arrowLTSolve_ up b sz D S (off sz b) start stop M (aoff up b sz k + c)
      + ∑ c ∈ range (sz (arrowIdx up b (b - 1))), trIf up (S k) c a *
        arrowLTSolve_ up b sz D S (off sz b) start stop M (aoff up b sz (b - 1) + c)
      = M (aoff up b sz k + a)) ∧
    (∀ a < sz (arrowIdx up b (b - 1)), ∑ c ∈ range (sz (arrowIdx up b (b - 1))), low (D (arrowIdx up b (b - 1))) c a *
        arrowLTSolve_ up b sz D S (off sz b) start stop M (aoff up b sz (b - 1) + c) = M (aoff up b sz (b - 1) + a)) := by
  have htot := aoff_total up hb (sz := sz)
  have hhub : arrowIdx up b (b - 1) < b := by rw [arrowIdx_hub up hb]; split_ifs <;> omega
  have hN : off sz b - sz (arrowIdx up b (b - 1)) = aoff up b sz (b - 1) := by omega
  have fin : ∀ (z : Bool) (X0 : Nat → ℝ), (∀ p < aoff up b sz (b - 1), X0 p = M p) →
      (z = true → ∀ a < sz (arrowIdx up b (b - 1)), X0 (aoff up b sz (b - 1) + a) = 0) →
      (z = false → aoff up b sz (b - 1) ≤ stop) →
      (∀ a < sz (arrowIdx up b (b - 1)), ∑ c ∈ range (sz (arrowIdx up b (b - 1))), low (D (arrowIdx up b (b - 1))) c a *
        X0 (aoff up b sz (b - 1) + c) = M (aoff up b sz (b - 1) + a)) →
      (∀ k < b - 1, ∀ a < sz (arrowIdx up b k), ∑ c ∈ range (sz (arrowIdx up b k)), low (D (arrowIdx up b k)) c a *
          (arrowLTK up b sz D S (off sz b) start stop z X0 (b - 1)).2 (aoff up b sz k + c)
        + ∑ c ∈ range (sz (arrowIdx up b (b - 1))), trIf up (S k) c a *
          (arrowLTK up b sz D S (off sz b) start stop z X0 (b - 1)).2 (aoff up b sz (b - 1) + c)
        = M (aoff up b sz k + a)) ∧
      (∀ a < sz (arrowIdx up b (b - 1)), ∑ c ∈ range (sz (arrowIdx up b (b - 1))), low (D (arrowIdx up b (b - 1))) c a *
          (arrowLTK up b sz D S (off sz b) start stop z X0 (b - 1)).2 (aoff up b sz (b - 1) + c)
            = M (aoff up b sz (b - 1) + a)) := by
    intro z X0 h1 h2 h3 h4
    obtain ⟨_, i2, i3⟩ := arrowLTK_inv hb (S := S) h1 h2 h3 (fun p _ => hM1 p) (fun p hp hp' => hM2 p hp' (by omega)) hD
      (b - 1) le_rfl
    have i2' : ∀ c, (arrowLTK up b sz D S (off sz b) start stop z X0 (b - 1)).2 (aoff up b sz (b - 1) + c)
        = X0 (aoff up b sz (b - 1) + c) := fun c => i2 _ (by omega)
    simp only [i2']
    exact ⟨i3, h4⟩
  unfold arrowLTSolve_
  rw [hN]
  by_cases hs : aoff up b sz (b - 1) < stop
  · rw [if_pos hs]
    refine fin false _ ?_ (by simp) (fun _ => hs.le) ?_
    · intro p hp
      exact solveRowsT_out (by omega)
    · intro a ha
      exact solveRowsT_spec (n := sz (arrowIdx up b (b - 1))) (by omega) (hD _ hhub)
        (fun c hc hc' => hM2 _ (by omega) (by omega)) a ha
  · rw [if_neg hs]
    have hz : ∀ a < sz (arrowIdx up b (b - 1)), M (aoff up b sz (b - 1) + a) = 0 :=
      fun a ha => hM2 _ (by omega) (by omega)
    refine fin true M (fun _ _ => rfl) (fun _ => hz) (by simp) ?_
    intro a ha
    rw [hz a ha]
    apply sum_eq_zero; intro c hc
    rw [hz c (mem_range.1 hc), mul_zero]

/-- Row of block `i` after the rotation back. -/
theorem rotBack_row (up : Bool) {b : Nat} (hb : 0 < b) (sz : Nat → Nat) (X : Nat → ℝ) {i a : Nat} (hi : i < b) (ha : a < sz i) :
    (if up then rotDown (off sz b) (sz 0) X else X) (off sz i + a) = X (lpos up b sz i + a) := by
  cases up
  · simp [lpos]
  · simp only [if_true, lpos]
    have h0 : sz 0 ≤ off sz b := by
      have := off_le (sz := sz) (show 1 ≤ b from hb); simpa [off] using this
    by_cases hi0 : i = 0
    · subst hi0
      rw [if_pos rfl, rotDown, if_pos (by simpa [off] using ha)]
      congr 1; simp [off]; omega
    · rw [if_neg hi0]
      have h1 : sz 0 ≤ off sz i := by
        have := off_le (sz := sz) (show 1 ≤ i by omega); simpa [off] using this
      have h2 := off_add_lt hi ha
      rw [rotDown, if_neg (by omega), if_pos (by omega)]
      congr 1; omega

theorem arrowLTSolve_spec {up : Bool} {b : Nat} (hb : 0 < b) {sz : Nat → Nat}
    {D S : Blocks ℝ} {start : Nat} {stop : Option Nat} {M : Nat → ℝ} (hstop : stop.getD (off sz b) ≤ off sz b)
    (hM1 : ∀ p < start, M p = 0) (hM2 : ∀ p, stop.getD (off sz b) ≤ p → p < off sz b → M p = 0)
    (hD : ∀ i < b, ∀ a < sz i, D i a a ≠ 0) :
    (bmat b sz (arrowFac up b D S)).transpose.mulVec (bvec b sz (arrowLTSolve up b sz D S M start stop)) = lvec up b sz M := by
  obtain ⟨h1, h2⟩ := arrowLTSolveU_spec (up := up) hb (S := S) hstop hM1 hM2 hD
  obtain ⟨X, hX⟩ : ∃ X, X = arrowLTSolve_ up b sz D S (off sz b) start (stop.getD (off sz b)) M := ⟨_, rfl⟩
  rw [← hX] at h1 h2
  have hres : arrowLTSolve up b sz D S M start stop = if up then rotDown (off sz b) (sz 0) X else X := by
    rw [hX]; unfold arrowLTSolve; cases up <;> rfl
  funext p
  obtain ⟨⟨i, hi⟩, ⟨a, ha⟩⟩ := p
  simp only at ha
  rw [mulVec_bmatT, hres]
  have e : ∀ j ∈ range b, ∑ c ∈ range (sz j), arrowFac up b D S j c i a * (if up then rotDown (off sz b) (sz 0) X else X) (off sz j + c)
      = ∑ c ∈ range (sz j), arrowFac up b D S j c i a * X (lpos up b sz j + c) := by
    intro j hj
    apply sum_congr rfl; intro c hc
    rw [rotBack_row up hb sz X (mem_range.1 hj) (mem_range.1 hc)]
  rw [sum_congr rfl e]
  show _ = M (lpos up b sz i + a)
  obtain ⟨r1, r2⟩ := arrowFac_col (up := up) hb sz D S (fun j c => X (lpos up b sz j + c)) a
  rcases exists_spoke up hi with rfl | ⟨k, hk, rfl⟩
  · rw [r2, ← aoff_hub up hb]
    exact h2 a ha
  · rw [r1 k hk, ← aoff_spoke up hk, ← aoff_hub up hb]
    exact h1 k hk a ha

end JrlQp
