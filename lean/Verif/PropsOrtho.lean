import Verif.PropsInternal
import Mathlib.Tactic.LinearCombination

/-!
# C29: sequences of orthonormal transformations
-/

namespace JrlQp

open NumOps Finset

/-! ## Specification -/

/-- `f` is an isometry of the first `n` coordinates with inverse `g`, both leaving the other coordinates alone. -/
structure Iso (n : Nat) (f g : (Nat → ℝ) → Nat → ℝ) : Prop where
  gf : ∀ v, g (f v) = v
  fg : ∀ v, f (g v) = v
  dot : ∀ v w, ∑ i ∈ range n, f v i * f w i = ∑ i ∈ range n, v i * w i
  out : ∀ v i, n ≤ i → f v i = v i
  out' : ∀ v i, n ≤ i → g v i = v i

/-- The reflectors from index `j` on are reflectors (or the identity) of the right sizes: `I - tau w wᵀ` with
`w = [1; essential]` is orthonormal when `tau (tau wᵀw - 2) = 0`. -/
def houseWf (n : Nat) : Nat → List ((Nat → ℝ) × ℝ) → Prop
  | _, [] => True
  | j, h :: t => j < n ∧ h.2 * (h.2 * (1 + ∑ k ∈ range (n - j - 1), h.1 k ^ 2) - 2) = 0 ∧ houseWf n (j + 1) t

/-- An elementary sequence made of true reflectors or rotations acting on its `n` rows. -/
def Elem.wf : Elem ℝ → Prop
  | .house n hs => houseWf n 0 hs
  | .givens n gs => (gs = [] ∨ gs.length < n) ∧ ∀ g ∈ gs, g.1 ^ 2 + g.2 ^ 2 = 1

/-- A sequence of size `N`: every elementary sequence is well-formed and fits. -/
def OSeq.wf (N : Nat) (q : OSeq ℝ) : Prop := ∀ h ∈ q, h.1 + h.2.n ≤ N ∧ h.2.wf

/-! ## Isometries -/

theorem Iso.id (n : Nat) : Iso n (fun v => v) (fun v => v) :=
  ⟨fun _ => rfl, fun _ => rfl, fun _ _ => rfl, fun _ _ _ => rfl, fun _ _ _ => rfl⟩

theorem Iso.comp {n : Nat} {f g f' g' : (Nat → ℝ) → Nat → ℝ} (h : Iso n f g) (h' : Iso n f' g') :
    Iso n (fun v => f (f' v)) (fun v => g' (g v)) :=
  ⟨fun v => by rw [h.gf, h'.gf], fun v => by rw [h'.fg, h.fg], fun v w => by rw [h.dot, h'.dot],
    fun v i hi => by rw [h.out _ i hi, h'.out _ i hi], fun v i hi => by rw [h'.out' _ i hi, h.out' _ i hi]⟩

theorem Iso.symm {n : Nat} {f g : (Nat → ℝ) → Nat → ℝ} (h : Iso n f g) : Iso n g f :=
  ⟨h.fg, h.gf, fun v w => by rw [← h.dot, h.fg, h.fg], h.out', h.out⟩

theorem Iso.mono {n m : Nat} (hnm : n ≤ m) {f g : (Nat → ℝ) → Nat → ℝ} (h : Iso n f g) : Iso m f g := by
  refine ⟨h.gf, h.fg, ?_, fun v i hi => h.out v i (by omega), fun v i hi => h.out' v i (by omega)⟩
  intro v w
  obtain ⟨k, rfl⟩ : ∃ k, m = n + k := ⟨m - n, by omega⟩
  rw [sum_range_add, sum_range_add, h.dot]
  congr 1
  apply sum_congr rfl; intro i _
  rw [h.out v _ (by omega), h.out w _ (by omega)]

theorem Iso.zero {n : Nat} {f g : (Nat → ℝ) → Nat → ℝ} (h : Iso n f g) {v : Nat → ℝ} (hv : ∀ i < n, v i = 0) : f v = v := by
  have h0 : ∑ i ∈ range n, f v i * f v i = 0 := by
    rw [h.dot]
    apply sum_eq_zero; intro i hi
    rw [hv i (mem_range.1 hi), mul_zero]
  funext i
  rcases Nat.lt_or_ge i n with hi | hi
  · have := (sum_eq_zero_iff_of_nonneg (fun i _ => mul_self_nonneg (f v i))).1 h0 i (mem_range.2 hi)
    rw [mul_self_eq_zero.1 this, hv i hi]
  · exact h.out v i hi

theorem segApply_lt {o k : Nat} (f : (Nat → ℝ) → Nat → ℝ) (v : Nat → ℝ) (h : k < o) : segApply o f v k = v k := by
  rw [segApply, if_neg (by omega)]

theorem segApply_ge {o : Nat} (f : (Nat → ℝ) → Nat → ℝ) (v : Nat → ℝ) (i : Nat) :
    segApply o f v (o + i) = f (fun i => v (o + i)) i := by
  rw [segApply, if_pos (by omega), show o + i - o = i by omega]

theorem segApply_inv {f g : (Nat → ℝ) → Nat → ℝ} (h : ∀ v, g (f v) = v) (o : Nat) (v : Nat → ℝ) :
    segApply o g (segApply o f v) = v := by
  funext k
  rcases Nat.lt_or_ge k o with hk | hk
  · rw [segApply_lt _ _ hk, segApply_lt _ _ hk]
  · obtain ⟨i, rfl⟩ : ∃ i, k = o + i := ⟨k - o, by omega⟩
    rw [segApply_ge]
    have : (fun i => segApply o f v (o + i)) = f (fun i => v (o + i)) := funext fun i => segApply_ge f v i
    rw [this, h]

theorem Iso.seg {n : Nat} {f g : (Nat → ℝ) → Nat → ℝ} (h : Iso n f g) (o : Nat) :
    Iso (o + n) (segApply o f) (segApply o g) := by
  refine ⟨segApply_inv h.gf o, segApply_inv h.fg o, ?_, ?_, ?_⟩
  · intro v w
    rw [sum_range_add, sum_range_add]
    congr 1
    · apply sum_congr rfl; intro i hi
      rw [segApply_lt _ _ (mem_range.1 hi), segApply_lt _ _ (mem_range.1 hi)]
    · simp only [segApply_ge]
      exact h.dot _ _
  · intro v i hi
    obtain ⟨k, rfl⟩ : ∃ k, i = o + k := ⟨i - o, by omega⟩
    rw [segApply_ge, h.out _ _ (by omega)]
  · intro v i hi
    obtain ⟨k, rfl⟩ : ∃ k, i = o + k := ⟨i - o, by omega⟩
    rw [segApply_ge, h.out' _ _ (by omega)]

/-! ## Givens rotations -/

theorem givRot_eq (i : Nat) (c s : ℝ) (v : Nat → ℝ) : givRot i c s v =
    fun k => if k = i then c * v i + s * v (i + 1) else if k = i + 1 then -s * v i + c * v (i + 1) else v k := by
  unfold givRot
  split_ifs with h
  · simp only [Bool.and_eq_true, eqb_real] at h
    obtain ⟨rfl, rfl⟩ := h
    funext k
    by_cases h1 : k = i
    · subst h1; simp
    · by_cases h2 : k = i + 1
      · subst h2; simp
      · simp [h1, h2]
  · rfl

theorem givRot_inv (i : Nat) {c s : ℝ} (h : c ^ 2 + s ^ 2 = 1) (v : Nat → ℝ) : givRot i c (-s) (givRot i c s v) = v := by
  rw [givRot_eq, givRot_eq]
  funext k
  by_cases h1 : k = i
  · subst h1
    simp only [if_true, Nat.add_eq_left, one_ne_zero, if_false]
    linear_combination (v k) * h
  · by_cases h2 : k = i + 1
    · subst h2
      simp only [if_true, Nat.add_eq_left, one_ne_zero, if_false]
      linear_combination (v (i + 1)) * h
    · simp [h1, h2]

theorem givRot_iso {i n : Nat} (hi : i + 1 < n) {c s : ℝ} (h : c ^ 2 + s ^ 2 = 1) : Iso n (givRot i c s) (givRot i c (-s)) := by
  have hout : ∀ (c s : ℝ) (v : Nat → ℝ) k, n ≤ k → givRot i c s v k = v k := by
    intro c s v k hk
    rw [givRot_eq]; simp only
    rw [if_neg (by omega), if_neg (by omega)]
  refine ⟨givRot_inv i h, ?_, ?_, hout c s, hout c (-s)⟩
  · intro v
    have := givRot_inv i (c := c) (s := -s) (by rw [neg_sq]; exact h) v
    rwa [neg_neg] at this
  · intro v w
    have split : ∀ f : Nat → ℝ, ∑ k ∈ range n, f k = ∑ k ∈ (range n \ {i}) \ {i + 1}, f k + f (i + 1) + f i := by
      intro f
      rw [sum_eq_sum_sdiff_singleton_add (i := i) (mem_range.2 (by omega)),
        sum_eq_sum_sdiff_singleton_add (i := i + 1) (s := range n \ {i}) (by simp; omega)]
    rw [split, split]
    have e1 : ∑ k ∈ (range n \ {i}) \ {i + 1}, givRot i c s v k * givRot i c s w k
        = ∑ k ∈ (range n \ {i}) \ {i + 1}, v k * w k := by
      apply sum_congr rfl; intro k hk
      simp only [mem_sdiff, mem_singleton] at hk
      rw [givRot_eq, givRot_eq]; simp only
      rw [if_neg hk.1.2, if_neg hk.2, if_neg hk.1.2, if_neg hk.2]
    rw [e1, givRot_eq, givRot_eq]
    simp only [if_true, Nat.add_eq_left, one_ne_zero, if_false]
    linear_combination (v i * w i + v (i + 1) * w (i + 1)) * h

theorem givRot_zero (i : Nat) (c s : ℝ) {v : Nat → ℝ} (h1 : v i = 0) (h2 : v (i + 1) = 0) : givRot i c s v = v := by
  rw [givRot_eq]
  funext k
  by_cases hk : k = i
  · subst hk; simp [h1, h2]
  · by_cases hk2 : k = i + 1
    · subst hk2; simp [h1, h2]
    · simp [hk, hk2]

theorem givSeqT_succ' (gs : Nat → ℝ × ℝ) (b k : Nat) (v : Nat → ℝ) :
    givSeqT gs b v (k + 1) = givSeqT gs (b + 1) (givRot b (gs b).1 (-(gs b).2) v) k := by
  induction k with
  | zero => rfl
  | succ k ih =>
    rw [givSeqT, ih, givSeqT, show b + 1 + k = b + (k + 1) by omega]

theorem giv_iso {n : Nat} {gs : Nat → ℝ × ℝ} (k : Nat) (hk : k = 0 ∨ k < n) (hg : ∀ i < k, (gs i).1 ^ 2 + (gs i).2 ^ 2 = 1) :
    Iso n (givSeq gs k) (fun v => givSeqT gs 0 v k) := by
  induction k with
  | zero => exact Iso.id n
  | succ k ih =>
    have h1 := ih (by omega) (fun i hi => hg i (by omega))
    have h2 : Iso n (givRot k (gs k).1 (gs k).2) (givRot k (gs k).1 (-(gs k).2)) := givRot_iso (by omega) (hg k (by omega))
    have := h1.comp h2
    refine ⟨?_, ?_, this.dot, this.out, ?_⟩
    · intro v; have := this.gf v; simpa [givSeqT, givSeq] using this
    · intro v; have := this.fg v; simpa [givSeqT, givSeq] using this
    · intro v i hi; have := this.out' v i hi; simpa [givSeqT, givSeq] using this

/-! ## Householder reflectors -/

theorem houseOne_full {n : Nat} (ess : Nat → ℝ) (tau : ℝ) (v : Nat → ℝ) (i : Nat) :
    houseOne n ess tau 0 n v i = if i < n then v i - tau * (∑ k ∈ range n, (if k = 0 then 1 else ess (k - 1)) * v k)
      * (if i = 0 then 1 else ess (i - 1)) else v i := by
  simp only [houseOne, esum_eq, Nat.zero_add]

theorem sum_col {n : Nat} (hn : 0 < n) (ess f : Nat → ℝ) :
    ∑ k ∈ range n, (if k = 0 then 1 else ess (k - 1)) * f k = ∑ k ∈ range (n - 1), ess k * f (k + 1) + f 0 := by
  obtain ⟨m, rfl⟩ : ∃ m, n = m + 1 := ⟨n - 1, by omega⟩
  rw [sum_range_succ', Nat.add_sub_cancel]
  simp

theorem applyHouse_eq {r : Nat} (hr : 0 < r) (ess : Nat → ℝ) (tau : ℝ) (v : Nat → ℝ) :
    applyHouse r ess tau v = houseOne r ess tau 0 r v := by
  funext i
  rw [houseOne_full, sum_col hr]
  unfold applyHouse
  by_cases h1 : r = 1
  · subst h1
    simp only [if_true, Nat.sub_self, range_zero, sum_empty, zero_add]
    by_cases hi : i = 0
    · subst hi; simp; ring
    · rw [if_neg hi, if_neg (by omega)]
  · rw [if_neg h1]
    by_cases ht : eqb tau (0 : ℝ) = true
    · rw [if_pos ht]
      have : tau = 0 := by simpa using ht
      subst this
      simp
    · rw [if_neg ht]
      simp only [esum_eq]
      by_cases hi : i = 0
      · subst hi; rw [if_pos rfl, if_pos hr, if_pos rfl]; ring
      · rw [if_neg hi]
        by_cases hir : i < r
        · rw [if_pos hir, if_pos hir, if_neg hi]; ring
        · rw [if_neg hir, if_neg hir]

theorem houseOne_iso {n : Nat} (hn : 0 < n) {ess : Nat → ℝ} {tau : ℝ}
    (h : tau * (tau * (1 + ∑ k ∈ range (n - 1), ess k ^ 2) - 2) = 0) :
    Iso n (houseOne n ess tau 0 n) (houseOne n ess tau 0 n) := by
  obtain ⟨w, hw⟩ : ∃ w : Nat → ℝ, w = fun k => if k = 0 then 1 else ess (k - 1) := ⟨_, rfl⟩
  have hww : ∑ k ∈ range n, w k * w k = 1 + ∑ k ∈ range (n - 1), ess k ^ 2 := by
    rw [hw, sum_col hn, add_comm]
    simp only [Nat.add_sub_cancel, if_true]
    congr 1
    apply sum_congr rfl; intro k _
    rw [if_neg (by omega)]; ring
  have hf : ∀ v i, houseOne n ess tau 0 n v i = if i < n then v i - tau * (∑ k ∈ range n, w k * v k) * w i else v i := by
    intro v i; rw [houseOne_full, hw]
  have hdot : ∀ v u : Nat → ℝ, ∑ k ∈ range n, u k * houseOne n ess tau 0 n v k
      = ∑ k ∈ range n, u k * v k - tau * (∑ k ∈ range n, w k * v k) * ∑ k ∈ range n, w k * u k := by
    intro v u
    rw [mul_sum, ← sum_sub_distrib]
    apply sum_congr rfl; intro k hk
    rw [hf, if_pos (mem_range.1 hk)]; ring
  have hin : ∀ v, houseOne n ess tau 0 n (houseOne n ess tau 0 n v) = v := by
    intro v
    funext i
    rw [hf, hdot, hww, hf]
    by_cases hi : i < n
    · rw [if_pos hi, if_pos hi]
      linear_combination ((∑ k ∈ range n, w k * v k) * w i) * h
    · rw [if_neg hi, if_neg hi]
  have hout : ∀ v i, n ≤ i → houseOne n ess tau 0 n v i = v i := by
    intro v i hi; rw [hf, if_neg (by omega)]
  refine ⟨hin, hin, ?_, hout, hout⟩
  intro v u
  rw [hdot]
  have e1 : ∑ k ∈ range n, houseOne n ess tau 0 n v k * u k = ∑ k ∈ range n, u k * houseOne n ess tau 0 n v k :=
    sum_congr rfl fun _ _ => mul_comm _ _
  have e2 : ∑ k ∈ range n, u k * v k = ∑ k ∈ range n, v k * u k := sum_congr rfl fun _ _ => mul_comm _ _
  rw [e1, hdot, hdot, hww, e2]
  linear_combination ((∑ k ∈ range n, w k * v k) * (∑ k ∈ range n, w k * u k)) * h

theorem houseSeq_iso {n : Nat} (hs : List ((Nat → ℝ) × ℝ)) : ∀ j, houseWf n j hs → Iso n (houseSeq n j hs) (houseSeqT n j hs) := by
  induction hs with
  | nil => intro j _; exact Iso.id n
  | cons h t ih =>
    intro j ⟨h1, h2, h3⟩
    have e : applyHouse (n - j) h.1 h.2 = houseOne (n - j) h.1 h.2 0 (n - j) :=
      funext fun v => applyHouse_eq (by omega) h.1 h.2 v
    have i1 := (houseOne_iso (n := n - j) (by omega) h2).seg j
    rw [Nat.add_sub_cancel' h1.le, ← e] at i1
    exact i1.comp (ih (j + 1) h3)

/-! ## Elementary sequences -/

theorem gsFn_lt {gs : List (ℝ × ℝ)} (h : ∀ g ∈ gs, g.1 ^ 2 + g.2 ^ 2 = 1) (i : Nat) (hi : i < gs.length) :
    (gsFn gs i).1 ^ 2 + (gsFn gs i).2 ^ 2 = 1 := by
  unfold gsFn
  have e : gs.getD i (1, 0) = gs[i] := by simp [List.getD, hi]
  rw [e]
  exact h _ (List.getElem_mem hi)

theorem elem_iso {e : Elem ℝ} (h : e.wf) : Iso e.n (e.apply 0 e.n) (e.applyT 0 e.n) := by
  cases e with
  | givens n gs =>
    obtain ⟨h1, h2⟩ := h
    have := giv_iso (n := n) (gs := gsFn gs) gs.length (by rcases h1 with rfl | h1 <;> simp_all) (gsFn_lt h2)
    have e1 : (Elem.givens n gs).apply 0 n = givSeq (gsFn gs) gs.length := by
      funext v
      simp only [Elem.apply, Nat.zero_add]
      rw [Nat.min_eq_left]
      rcases h1 with rfl | h1
      · simp
      · exact h1.le
    have e2 : (Elem.givens n gs).applyT 0 n = fun v => givSeqT (gsFn gs) 0 v gs.length := by
      funext v
      simp only [Elem.applyT, Nat.zero_sub, Nat.sub_zero]
    show Iso n ((Elem.givens n gs).apply 0 n) ((Elem.givens n gs).applyT 0 n)
    rw [e1, e2]
    exact this
  | house n hs =>
    match hs, h with
    | [], h => exact houseSeq_iso [] 0 h
    | [g], h => exact houseOne_iso h.1 h.2.1
    | g :: g' :: t, h => exact houseSeq_iso (g :: g' :: t) 0 h

/-- On a vector that is zero outside of the given rows the restricted application is the full one. -/
theorem elem_seg {e : Elem ℝ} (h : e.wf) {v : Nat → ℝ} {s l : Nat} (hsl : s + l ≤ e.n)
    (hv : ∀ i < e.n, (i < s ∨ s + l ≤ i) → v i = 0) :
    e.apply s l v = e.apply 0 e.n v ∧ e.applyT s l v = e.applyT 0 e.n v := by
  have hone : ∀ (n : Nat) (g : (Nat → ℝ) × ℝ), s + l ≤ n → (∀ i < n, (i < s ∨ s + l ≤ i) → v i = 0) →
      houseOne n g.1 g.2 s l v = houseOne n g.1 g.2 0 n v := by
    intro n g hsl hv
    simp only [houseOne, esum_eq, Nat.zero_add]
    have : ∑ i ∈ range n, (if i = 0 then 1 else g.1 (i - 1)) * v i
        = ∑ i ∈ range l, (if s + i = 0 then 1 else g.1 (s + i - 1)) * v (s + i) := by
      obtain ⟨t, rfl⟩ : ∃ t, n = s + l + t := ⟨n - (s + l), by omega⟩
      rw [sum_range_add, sum_range_add, sum_eq_zero (s := range s), sum_eq_zero (s := range t), zero_add, add_zero]
      · intro i hi
        have := mem_range.1 hi
        rw [hv _ (by omega) (by omega), mul_zero]
      · intro i hi
        have := mem_range.1 hi
        rw [hv _ (by omega) (by omega), mul_zero]
    rw [this]
  cases e with
  | house n hs =>
    match hs with
    | [] => exact ⟨rfl, rfl⟩
    | [g] => exact ⟨hone n g hsl hv, hone n g hsl hv⟩
    | _ :: _ :: _ => exact ⟨rfl, rfl⟩
  | givens n gs =>
    obtain ⟨h1, _⟩ := h
    have hlen : gs.length = 0 ∨ gs.length < n := by rcases h1 with rfl | h1 <;> simp_all
    simp only [Elem.n] at hsl hv
    have fwd : ∀ k ≤ gs.length, s + l ≤ k → givSeq (gsFn gs) k v = givSeq (gsFn gs) (s + l) v := by
      intro k hk hk'
      obtain ⟨j, rfl⟩ : ∃ j, k = s + l + j := ⟨k - (s + l), by omega⟩
      clear hk'
      induction j with
      | zero => rfl
      | succ j ih =>
        rw [← add_assoc, givSeq, givRot_zero _ _ _ (hv _ (by omega) (by omega)) (hv _ (by omega) (by omega))]
        exact ih (by omega)
    constructor
    · simp only [Elem.apply, Elem.n, Nat.zero_add]
      rw [Nat.min_eq_left (show gs.length ≤ n by omega)]
      rcases Nat.le_total gs.length (s + l) with hc | hc
      · rw [Nat.min_eq_left hc]
      · rw [Nat.min_eq_right hc, fwd gs.length le_rfl hc]
    · simp only [Elem.applyT, Nat.zero_sub, Nat.sub_zero]
      have bwd : ∀ k ≤ s - 1, k ≤ gs.length → givSeqT (gsFn gs) 0 v k = v := by
        intro k hk hk'
        induction k with
        | zero => rfl
        | succ k ih =>
          rw [givSeqT, ih (by omega) (by omega), Nat.zero_add,
            givRot_zero _ _ _ (hv _ (by omega) (by omega)) (hv _ (by omega) (by omega))]
      have add : ∀ a k, givSeqT (gsFn gs) 0 v (a + k) = givSeqT (gsFn gs) a (givSeqT (gsFn gs) 0 v a) k := by
        intro a k
        induction k with
        | zero => rfl
        | succ k ih => rw [← add_assoc, givSeqT, ih, givSeqT, Nat.zero_add]
      rcases Nat.le_total gs.length (s - 1) with hc | hc
      · rw [Nat.sub_eq_zero_of_le hc, bwd _ hc le_rfl]; rfl
      · have := add (s - 1) (gs.length - (s - 1))
        rw [Nat.add_sub_cancel' hc, bwd _ le_rfl hc] at this
        exact this.symm

/-! ## The properties -/

theorem oseq_iso {N : Nat} {q : OSeq ℝ} (h : q.wf N) : Iso N q.apply q.applyT := by
  induction q with
  | nil => exact Iso.id N
  | cons a t ih =>
    obtain ⟨h1, h2⟩ := h a (List.mem_cons_self ..)
    exact ((elem_iso h2).seg a.1).mono h1 |>.comp (ih fun b hb => h b (List.mem_cons_of_mem _ hb))

/-- C29: applying a sequence then its transpose (or the transpose first) gives the vector back. -/
theorem C29_inverse (N : Nat) (q : OSeq ℝ) (h : q.wf N) (v : Nat → ℝ) : q.applyT (q.apply v) = v ∧ q.apply (q.applyT v) = v :=
  ⟨(oseq_iso h).gf v, (oseq_iso h).fg v⟩

/-- C29: inner products (hence norms) are kept, by the sequence and by its transpose; entries outside of the vector are not
touched. -/
theorem C29_isometry (N : Nat) (q : OSeq ℝ) (h : q.wf N) (v w : Nat → ℝ) :
    ∑ i ∈ range N, q.apply v i * q.apply w i = ∑ i ∈ range N, v i * w i ∧
    ∑ i ∈ range N, q.applyT v i * q.applyT w i = ∑ i ∈ range N, v i * w i ∧
    ∀ i, N ≤ i → q.apply v i = v i ∧ q.applyT v i = v i :=
  ⟨(oseq_iso h).dot v w, (oseq_iso h).symm.dot v w, fun i hi => ⟨(oseq_iso h).out v i hi, (oseq_iso h).out' v i hi⟩⟩

/-- Invariant of the loops on vectors with a single non-zero segment. -/
def SegInv (N : Nat) (st : SegSt ℝ) : Prop := st.start ≤ st.fin ∧ ∀ i < N, (i < st.start ∨ st.fin ≤ i) → st.v i = 0

theorem segStep_spec {N : Nat} {h : Nat × Elem ℝ} (h1 : h.1 + h.2.n ≤ N) (h2 : h.2.wf) {st : SegSt ℝ} (hs : SegInv N st) :
    ((segStep h st).v = segApply h.1 (h.2.apply 0 h.2.n) st.v ∧ SegInv N (segStep h st)) ∧
    ((segStepT h st).v = segApply h.1 (h.2.applyT 0 h.2.n) st.v ∧ SegInv N (segStepT h st)) := by
  obtain ⟨hle, hz⟩ := hs
  have hiso := elem_iso h2
  by_cases hc : st.fin ≤ h.1 ∨ h.1 + h.2.n < st.start
  · have hzero : ∀ i < h.2.n, st.v (h.1 + i) = 0 := fun i hi => hz _ (by omega) (by omega)
    have key : ∀ f g, Iso h.2.n f g → segApply h.1 f st.v = st.v := by
      intro f g hfg
      funext k
      rcases Nat.lt_or_ge k h.1 with hk | hk
      · exact segApply_lt _ _ hk
      · obtain ⟨i, rfl⟩ : ∃ i, k = h.1 + i := ⟨k - h.1, by omega⟩
        rw [segApply_ge, hfg.zero hzero]
    simp only [segStep, segStepT, if_pos hc]
    exact ⟨⟨(key _ _ hiso).symm, hle, hz⟩, ⟨(key _ _ hiso.symm).symm, hle, hz⟩⟩
  · simp only [segStep, segStepT, if_neg hc]
    have hsl : (st.start - h.1) + (min h.2.n (st.fin - h.1) - (st.start - h.1)) = min h.2.n (st.fin - h.1) := by omega
    obtain ⟨e1, e2⟩ := elem_seg h2 (v := fun i => st.v (h.1 + i)) (s := st.start - h.1)
      (l := min h.2.n (st.fin - h.1) - (st.start - h.1)) (by omega) (fun i hi hi' => hz _ (by omega) (by omega))
    have key : ∀ f f' : (Nat → ℝ) → Nat → ℝ, f (fun i => st.v (h.1 + i)) = f' (fun i => st.v (h.1 + i)) →
        segApply h.1 f st.v = segApply h.1 f' st.v := by
      intro f f' hff
      funext k
      rcases Nat.lt_or_ge k h.1 with hk | hk
      · rw [segApply_lt _ _ hk, segApply_lt _ _ hk]
      · obtain ⟨i, rfl⟩ : ∃ i, k = h.1 + i := ⟨k - h.1, by omega⟩
        rw [segApply_ge, segApply_ge, hff]
    have zero' : ∀ f g, Iso h.2.n f g → ∀ i < N, (i < min st.start h.1 ∨ max st.fin (h.1 + h.2.n) ≤ i) →
        segApply h.1 f st.v i = 0 := by
      intro f g hfg i hi hi'
      rcases Nat.lt_or_ge i h.1 with hk | hk
      · rw [segApply_lt _ _ hk]; exact hz i hi (by omega)
      · obtain ⟨k, rfl⟩ : ∃ k, i = h.1 + k := ⟨i - h.1, by omega⟩
        rw [segApply_ge, hfg.out _ _ (by omega)]
        exact hz _ hi (by omega)
    refine ⟨⟨key _ _ e1, by simp only; omega, ?_⟩, ⟨key _ _ e2, by simp only; omega, ?_⟩⟩
    · intro i hi hi'
      simp only at hi' ⊢
      rw [key _ _ e1]
      exact zero' _ _ hiso i hi hi'
    · intro i hi hi'
      simp only at hi' ⊢
      rw [key _ _ e2]
      exact zero' _ _ hiso.symm i hi hi'

theorem segInv_init {N : Nat} {inp : SegVec ℝ} (hN : inp.size = N) (hok : inp.ok) (u : Nat → ℝ) :
    SegInv N ⟨inp.toFull u, inp.start, inp.fin⟩ := by
  refine ⟨by simp [SegVec.fin], ?_⟩
  intro i hi hi'
  simp only at hi' ⊢
  rw [(C31_toFull inp hok u).1 i (by omega)]
  exact C31_range inp i hi'

/-- C29: on a vector with a single non-zero segment, the optimised variants give the same result as the dense ones on the
vector it denotes. `u` is the previous content of the output. -/
theorem C29_segment (N : Nat) (q : OSeq ℝ) (h : q.wf N) (inp : SegVec ℝ) (hN : inp.size = N) (hok : inp.ok) (u : Nat → ℝ) :
    q.applySeg u inp = q.apply (inp.toFull u) ∧ q.applySegT u inp = q.applyT (inp.toFull u) := by
  constructor
  · have : ∀ st, SegInv N st → (q.foldr segStep st).v = q.apply st.v ∧ SegInv N (q.foldr segStep st) := by
      intro st hst
      induction q with
      | nil => exact ⟨rfl, hst⟩
      | cons a t ih =>
        obtain ⟨i1, i2⟩ := ih fun b hb => h b (List.mem_cons_of_mem _ hb)
        obtain ⟨h1, h2⟩ := h a (List.mem_cons_self ..)
        have := (segStep_spec h1 h2 i2).1
        rw [i1] at this
        exact this
    exact (this _ (segInv_init hN hok u)).1
  · have : ∀ st, SegInv N st → (q.foldl (fun st h => segStepT h st) st).v = q.applyT st.v := by
      induction q with
      | nil => intro st _; rfl
      | cons a t ih =>
        intro st hst
        obtain ⟨h1, h2⟩ := h a (List.mem_cons_self ..)
        have h3 := (segStep_spec h1 h2 hst).2
        rw [List.foldl_cons, ih (fun b hb => h b (List.mem_cons_of_mem _ hb)) _ h3.2, h3.1]
        rfl
    exact this _ (segInv_init hN hok u)

/-! ## The hypotheses are met -/

/-- A rotation of angle `atan(4/3)` on rows 1, 2 followed by a reflector on rows 0, 1. -/
example : OSeq.wf 3 [(1, Elem.givens 2 [(3/5, 4/5)]), (0, Elem.house 2 [(fun _ => 1, 1)])] := by
  intro h hh
  simp only [List.mem_cons, List.not_mem_nil, or_false] at hh
  rcases hh with rfl | rfl
  · refine ⟨by simp [Elem.n], ?_, ?_⟩
    · right; simp
    · intro g hg
      simp only [List.mem_cons, List.not_mem_nil, or_false] at hg
      subst hg; norm_num
  · refine ⟨by simp [Elem.n], by norm_num, ?_, trivial⟩
    simp; norm_num

end JrlQp
