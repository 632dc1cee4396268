import Verif.Internal
import Verif.RealLin

/-!
# C26, C29, C31: containers
-/

namespace JrlQp

open NumOps Finset

/-! ## C26: workspaces -/

/-- C26: without `fit` a workspace never shrinks, is large enough afterwards, and keeps its content when it was already
large enough. -/
theorem C26_resize {K : Type} (w : WS K) (want : Nat) (fresh : Nat → K) :
    w.size ≤ (w.resize want false fresh).size ∧ want ≤ (w.resize want false fresh).size ∧
    (want ≤ w.size → w.resize want false fresh = w) := by
  simp only [WS.resize, Bool.false_eq_true, and_false, or_false]
  split_ifs with h
  · exact ⟨le_of_lt h, le_rfl, fun h' => absurd h' (by omega)⟩
  · exact ⟨le_rfl, by omega, fun _ => rfl⟩

/-- C26: with `fit` the size is exactly the requested one. -/
theorem C26_resize_fit {K : Type} (w : WS K) (want : Nat) (fresh : Nat → K) : (w.resize want true fresh).size = want := by
  simp only [WS.resize, and_true]
  split_ifs with h
  · rfl
  · omega

theorem growLd_spec {K : Type} (rows oldLd newLd : Nat) (h1 : rows ≤ oldLd) (h2 : oldLd < newLd) (hr : 0 < rows) (k : Nat) :
    ∀ w : WS K, (k + 1) * newLd ≤ w.size → ∃ w', WS.growLd rows oldLd newLd k w = some w' ∧ w'.size = w.size ∧
      (∀ c ≤ k, ∀ r < rows, w'.buf (c * newLd + r) = w.buf (c * oldLd + r)) ∧
      (∀ p, (k + 1) * newLd ≤ p → w'.buf p = w.buf p) := by
  induction k with
  | zero =>
    intro w _
    refine ⟨w, rfl, rfl, ?_, fun _ _ => rfl⟩
    intro c hc r _
    obtain rfl : c = 0 := by omega
    simp
  | succ k ih =>
    intro w hw
    have e1 : (k + 1 + 1) * newLd = (k + 1) * newLd + newLd := by ring
    have e2 : (k + 1) * oldLd ≤ (k + 1) * newLd := Nat.mul_le_mul_left _ h2.le
    simp only [WS.growLd, WS.memmove]
    rw [if_pos (by omega)]
    obtain ⟨w', h3, h4, h5, h6⟩ := ih
      { w with
        buf := fun p =>
          if (k + 1) * newLd ≤ p ∧ p < (k + 1) * newLd + rows then w.buf ((k + 1) * oldLd + (p - (k + 1) * newLd))
          else w.buf p }
      (by simp only; omega)
    refine ⟨w', h3, h4, ?_, ?_⟩
    · intro c hc r hrr
      rcases Nat.lt_or_ge c (k + 1) with hck | hck
      · rw [h5 c (by omega) r hrr]
        have : (c + 1) * oldLd ≤ (k + 1) * oldLd := Nat.mul_le_mul_right _ hck
        have e3 : (c + 1) * oldLd = c * oldLd + oldLd := by ring
        simp only
        rw [if_neg (by omega)]
      · obtain rfl : c = k + 1 := by omega
        rw [h6 _ (by omega)]
        simp only
        rw [if_pos (by omega)]
        congr 1; omega
    · intro p hp
      rw [h6 p (by omega)]
      simp only
      rw [if_neg (by omega)]

theorem shrinkLd_spec {K : Type} (rows oldLd newLd : Nat) (h1 : rows ≤ newLd) (h2 : newLd < oldLd) (hr : 0 < rows) (w : WS K)
    (k : Nat) (hw : k * oldLd + rows ≤ w.size) : ∃ w', WS.shrinkLd rows oldLd newLd w k = some w' ∧ w'.size = w.size ∧
      (∀ c ≤ k, ∀ r < rows, w'.buf (c * newLd + r) = w.buf (c * oldLd + r)) ∧
      (∀ p, k * newLd + rows ≤ p → w'.buf p = w.buf p) := by
  induction k with
  | zero =>
    refine ⟨w, rfl, rfl, ?_, fun _ _ => rfl⟩
    intro c hc r _
    obtain rfl : c = 0 := by omega
    simp
  | succ k ih =>
    have e0 : (k + 1) * oldLd = k * oldLd + oldLd := by ring
    have e1 : (k + 1) * newLd = k * newLd + newLd := by ring
    have e2 : k * newLd ≤ k * oldLd := Nat.mul_le_mul_left _ h2.le
    obtain ⟨w', h3, h4, h5, h6⟩ := ih (by omega)
    simp only [WS.shrinkLd, h3, Option.bind_some, WS.memmove]
    rw [if_pos (by omega)]
    refine ⟨_, rfl, h4, ?_, ?_⟩
    · intro c hc r hrr
      rcases Nat.lt_or_ge c (k + 1) with hck | hck
      · have : (c + 1) * newLd ≤ (k + 1) * newLd := Nat.mul_le_mul_right _ hck
        have e3 : (c + 1) * newLd = c * newLd + newLd := by ring
        simp only
        rw [if_neg (by omega)]
        exact h5 c (by omega) r hrr
      · obtain rfl : c = k + 1 := by omega
        simp only
        rw [if_pos (by omega), h6 _ (by omega)]
        congr 1; omega
    · intro p hp
      simp only
      rw [if_neg (by omega), h6 p (by omega)]

/-- C26: `changeLd` keeps every coefficient of the `rows x cols` matrix, whatever the two leading dimensions, provided both
layouts fit (`asMatrix` asserts); with asserts enabled the buffer must be strictly larger than needed when the leading
dimension grows (see `C26_assert_strict`). -/
theorem C26_changeLd {K : Type} (dbg : Bool) (w : WS K) (rows cols oldLd newLd : Nat) (hr : 0 < rows)
    (h1 : w.matOk rows cols oldLd = true) (h2 : w.matOk rows cols newLd = true)
    (h3 : dbg = true → oldLd < newLd → cols * newLd < w.size) :
    ∃ w', w.changeLd dbg rows cols oldLd newLd = some w' ∧ w'.size = w.size ∧
      ∀ r < rows, ∀ c < cols, w'.mat newLd r c = w.mat oldLd r c := by
  simp only [WS.matOk, Bool.and_eq_true, decide_eq_true_eq] at h1 h2
  unfold WS.changeLd
  rcases Nat.eq_zero_or_pos cols with hc0 | hc0
  · subst hc0
    split_ifs with g1 g2 g3
    · exact absurd (h3 g2.1 g1) g2.2
    · exact ⟨w, rfl, rfl, fun r _ c hc => by omega⟩
    · exact ⟨w, rfl, rfl, fun r _ c hc => by omega⟩
    · exact ⟨w, rfl, rfl, fun r _ c hc => by omega⟩
  have hcc : cols - 1 + 1 = cols := by omega
  have ho : oldLd * cols = (cols - 1) * oldLd + oldLd := by
    obtain ⟨k, rfl⟩ : ∃ k, cols = k + 1 := ⟨cols - 1, by omega⟩
    simp only [Nat.add_sub_cancel]; ring
  split_ifs with g1 g2 g3
  · exact absurd (h3 g2.1 g1) g2.2
  · obtain ⟨w', h4, h5, h6, _⟩ := growLd_spec rows oldLd newLd h1.2 g1 hr (cols - 1) w (by rw [hcc, Nat.mul_comm]; exact h2.1)
    exact ⟨w', h4, h5, fun r hr c hc => h6 c (by omega) r hr⟩
  · obtain ⟨w', h4, h5, h6, _⟩ := shrinkLd_spec rows oldLd newLd h2.2 g3 hr w (cols - 1) (by omega)
    exact ⟨w', h4, h5, fun r hr c hc => h6 c (by omega) r hr⟩
  · obtain rfl : oldLd = newLd := by omega
    exact ⟨w, rfl, rfl, fun _ _ _ _ => rfl⟩

/-- With asserts enabled, `changeLd` aborts on a buffer of exactly the size the new layout needs. -/
theorem C26_assert_strict {K : Type} (w : WS K) (rows cols oldLd newLd : Nat) (h : oldLd < newLd)
    (hs : w.size = cols * newLd) : w.changeLd true rows cols oldLd newLd = none := by
  unfold WS.changeLd
  rw [if_pos h, if_pos ⟨rfl, by omega⟩]

example : ∃ w', (⟨13, fun k => (k : ℝ)⟩ : WS ℝ).changeLd true 2 3 3 4 = some w' ∧ w'.size = 13 ∧
    ∀ r < 2, ∀ c < 3, w'.mat 4 r c = (⟨13, fun k => (k : ℝ)⟩ : WS ℝ).mat 3 r c :=
  C26_changeLd true _ 2 3 3 4 (by norm_num) (by decide) (by decide) (by norm_num)

/-! ## C31: vectors with a single non-zero segment -/

/-- The entries of the vector `[0; v; 0]`. -/
def SegVec.entry (s : SegVec ℝ) (i : Nat) : ℝ := if s.start ≤ i ∧ i < s.start + s.len then s.v (i - s.start) else 0

/-- The asserts of the constructor, include/jrl-qp/internal/SingleNZSegmentVector.h:18-19. -/
def SegVec.ok (s : SegVec ℝ) : Prop := s.start + s.len ≤ s.size

/-- C31: `toFullVector` writes exactly the denoted vector (and nothing outside of it). -/
theorem C31_toFull (s : SegVec ℝ) (h : s.ok) (u : Nat → ℝ) :
    (∀ i < s.size, s.toFull u i = s.entry i) ∧ ∀ i, s.size ≤ i → s.toFull u i = u i := by
  unfold SegVec.ok at h
  constructor
  · intro i hi
    unfold SegVec.toFull SegVec.entry
    by_cases h1 : s.size - (s.size - s.len - s.start) ≤ i ∧ i < s.size
    · rw [if_pos h1, if_neg (by omega)]
    · rw [if_neg h1]
      by_cases h2 : s.start ≤ i ∧ i < s.start + s.len
      · rw [if_pos h2, if_pos h2]
      · rw [if_neg h2, if_neg h2, if_pos (by omega)]
  · intro i hi
    unfold SegVec.toFull
    rw [if_neg (by omega), if_neg (by omega), if_neg (by omega)]

/-- C31: `dot` is the dot product with the denoted vector. -/
theorem C31_dot (s : SegVec ℝ) (h : s.ok) (u : Nat → ℝ) : s.dot u = ∑ i ∈ range s.size, s.entry i * u i := by
  unfold SegVec.ok at h
  obtain ⟨t, ht⟩ : ∃ t, s.size = s.start + s.len + t := ⟨s.size - (s.start + s.len), by omega⟩
  rw [SegVec.dot, esum_eq, ht, sum_range_add, sum_range_add]
  have h1 : ∑ i ∈ range s.start, s.entry i * u i = 0 := by
    apply sum_eq_zero; intro i hi
    have := mem_range.1 hi
    rw [SegVec.entry, if_neg (by omega), zero_mul]
  have h2 : ∑ i ∈ range t, s.entry (s.start + s.len + i) * u (s.start + s.len + i) = 0 := by
    apply sum_eq_zero; intro i hi
    rw [SegVec.entry, if_neg (by omega), zero_mul]
  rw [h1, h2, zero_add, add_zero]
  apply sum_congr rfl; intro i hi
  have := mem_range.1 hi
  rw [SegVec.entry, if_pos (by omega), show s.start + i - s.start = i by omega]

/-- C31: the denoted vector is zero outside of `[start(), end())`. -/
theorem C31_range (s : SegVec ℝ) (i : Nat) (h : i < s.start ∨ s.fin ≤ i) : s.entry i = 0 := by
  unfold SegVec.fin at h
  rw [SegVec.entry, if_neg (by omega)]

example : (⟨1, 2, 4, fun i => (i : ℝ) + 1⟩ : SegVec ℝ).ok ∧ (⟨1, 2, 4, fun i => (i : ℝ) + 1⟩ : SegVec ℝ).entry 2 = 2 := by
  constructor
  · simp [SegVec.ok]
  · simp [SegVec.entry]; norm_num

end JrlQp
