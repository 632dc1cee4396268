import Verif.IeeeChol
import Mathlib.Algebra.Order.Chebyshev

/-!
# When the factorisation cannot fail

A real argument: leading rows factored up to rounding errors, one more row, and a margin in the positive definiteness of the matrix
give a lower bound on the next pivot, hence also an upper bound on the entries of the row.
-/

namespace JrlQp

open Finset

/-- The leading `k` rows of `L` are a factor of `g` up to a relative error `ε` and an absolute error `κ`. -/
structure Fact (ε κ : ℝ) (k : ℕ) (L g : ℕ → ℕ → ℝ) : Prop where
  pos : ∀ a < k, 0 < L a a
  err : ∀ a < k, ∀ b ≤ a, |g a b - ∑ l ∈ range (b + 1), L a l * L b l| ≤ ε * (∑ l ∈ range (b + 1), |L a l| * |L b l|) + κ * (1 + L b b)

/-- `r` is the next row, for the entries `γ` of the matrix. -/
def FactRow (ε κ : ℝ) (k : ℕ) (L : ℕ → ℕ → ℝ) (r γ : ℕ → ℝ) : Prop :=
  ∀ b < k, |γ b - ∑ l ∈ range (b + 1), r l * L b l| ≤ ε * (∑ l ∈ range (b + 1), |r l| * |L b l|) + κ * (1 + L b b)

/-- Norm of the first `k` entries. -/
noncomputable def nrm (k : ℕ) (r : ℕ → ℝ) : ℝ := Real.sqrt (∑ l ∈ range k, r l ^ 2)

theorem nrm_nonneg (k : ℕ) (r : ℕ → ℝ) : 0 ≤ nrm k r := Real.sqrt_nonneg _

theorem nrm_sq (k : ℕ) (r : ℕ → ℝ) : nrm k r ^ 2 = ∑ l ∈ range k, r l ^ 2 := Real.sq_sqrt (sum_nonneg fun l _ => by positivity)

theorem nrm_mono {k m : ℕ} (h : k ≤ m) (r : ℕ → ℝ) : nrm k r ≤ nrm m r :=
  Real.sqrt_le_sqrt (sum_le_sum_of_subset_of_nonneg (range_subset_range.2 h) fun l _ _ => by positivity)

theorem sum_abs_le_nrm (k : ℕ) (r t : ℕ → ℝ) : ∑ l ∈ range k, |r l| * |t l| ≤ nrm k r * nrm k t := by
  refine (Real.sum_mul_le_sqrt_mul_sqrt _ _ _).trans (le_of_eq ?_)
  simp only [sq_abs, nrm]

theorem abs_le_nrm {k l : ℕ} (h : l < k) (r : ℕ → ℝ) : |r l| ≤ nrm k r := by
  apply Real.abs_le_sqrt
  exact single_le_sum (f := fun l => r l ^ 2) (fun l _ => by positivity) (mem_range.2 h)

/-- What the constants must satisfy. -/
structure Small (ε κ m : ℝ) : Prop where
  ε0 : 0 ≤ ε
  ε1 : ε ≤ 1 / 12
  κ0 : 0 ≤ κ
  m0 : 0 < m
  m1 : m ≤ 1
  κm : 4 * κ ≤ ε * m

/-- Comparison of a diagonal entry `g` with the square of the norm `d` of its row. -/
theorem diag_bounds {ε κ m g d : ℝ} (hs : Small ε κ m) (hm : m ≤ g) (hd : 0 ≤ d) (h : |g - d ^ 2| ≤ ε * d ^ 2 + κ * (1 + d)) :
    3 / 4 * d ^ 2 ≤ g ∧ 3 / 4 * g ≤ d ^ 2 := by
  obtain ⟨h0, h1, h2, h3, h4, h5⟩ := hs
  obtain ⟨a, b⟩ := abs_le.1 h
  have hk : κ ≤ ε / 4 := by nlinarith
  have hkg : 4 * κ ≤ ε * g := h5.trans (mul_le_mul_of_nonneg_left hm h0)
  have hg : 0 < g := lt_of_lt_of_le h3 hm
  have e1 : κ * d ≤ κ * (1 + d ^ 2) / 2 := by nlinarith [sq_nonneg (d - 1)]
  have e2 : κ * d ^ 2 ≤ ε / 4 * d ^ 2 := mul_le_mul_of_nonneg_right hk (by positivity)
  have e3 : ε * d ^ 2 ≤ 1 / 12 * d ^ 2 := mul_le_mul_of_nonneg_right h1 (by positivity)
  have e4 : ε * g ≤ 1 / 12 * g := mul_le_mul_of_nonneg_right h1 hg.le
  constructor <;> nlinarith

/-- The absolute error is absorbed in the relative one. -/
theorem absorb {ε κ m d e : ℝ} (hs : Small ε κ m) (hd : 0 ≤ d) (he : 0 ≤ e) (hmd : 3 / 4 * m ≤ d ^ 2) (hme : 3 / 4 * m ≤ e ^ 2) :
    κ * (1 + e) ≤ ε * (d * e) := by
  obtain ⟨h0, h1, h2, h3, h4, h5⟩ := hs
  have a1 : 3 / 4 * m ≤ d * e := by
    have : (3 / 4 * m) ^ 2 ≤ (d * e) ^ 2 := by
      rw [mul_pow d e, pow_two (3 / 4 * m)]
      exact mul_le_mul hmd hme (by positivity) (by positivity)
    exact le_of_sq_le_sq this (by positivity)
  have a2 : 3 / 4 * m ≤ d := by
    have : (3 / 4 * m) ^ 2 ≤ d ^ 2 := by nlinarith
    exact le_of_sq_le_sq this hd
  have b1 : κ * e ≤ ε * m / 4 * e := mul_le_mul_of_nonneg_right (by linarith) he
  have b2 : 3 / 4 * (m * e) ≤ d * e := by nlinarith
  have b3 := mul_le_mul_of_nonneg_left a1 h0
  have b4 := mul_le_mul_of_nonneg_left b2 h0
  have b5 : 0 ≤ ε * (d * e) := by positivity
  nlinarith
where
  le_of_sq_le_sq {a b : ℝ} (h : a ^ 2 ≤ b ^ 2) (hb : 0 ≤ b) : a ≤ b := by
    have := abs_le_abs_of_sq h
    exact (le_abs_self a).trans (by rwa [abs_of_nonneg hb] at this)
  abs_le_abs_of_sq {a b : ℝ} (h : a ^ 2 ≤ b ^ 2) : |a| ≤ |b| := sq_le_sq.1 h

theorem Fact.diag {ε κ m : ℝ} {k : ℕ} {L g : ℕ → ℕ → ℝ} (hs : Small ε κ m) (h : Fact ε κ k L g) (hm : ∀ a < k, m ≤ g a a) {a : ℕ}
    (ha : a < k) : 3 / 4 * nrm (a + 1) (L a) ^ 2 ≤ g a a ∧ 3 / 4 * g a a ≤ nrm (a + 1) (L a) ^ 2 := by
  apply diag_bounds hs (hm a ha) (nrm_nonneg _ _)
  have h1 := h.err a ha a le_rfl
  have e1 : ∑ l ∈ range (a + 1), L a l * L a l = nrm (a + 1) (L a) ^ 2 := by
    rw [nrm_sq]; exact sum_congr rfl fun l _ => (pow_two _).symm
  have e2 : ∑ l ∈ range (a + 1), |L a l| * |L a l| = nrm (a + 1) (L a) ^ 2 := by
    rw [nrm_sq]; exact sum_congr rfl fun l _ => by rw [abs_mul_abs_self, pow_two]
  rw [e1, e2] at h1
  have h2 : L a a ≤ nrm (a + 1) (L a) := (le_abs_self _).trans (abs_le_nrm (Nat.lt_succ_self a) _)
  have := mul_le_mul_of_nonneg_left h2 hs.κ0
  linarith

/-- Errors relative to the norms of the rows. -/
theorem Fact.rel {ε κ m : ℝ} {k : ℕ} {L g : ℕ → ℕ → ℝ} (hs : Small ε κ m) (h : Fact ε κ k L g) (hm : ∀ a < k, m ≤ g a a) {a b : ℕ}
    (ha : a < k) (hb : b ≤ a) :
    |g a b - ∑ l ∈ range (b + 1), L a l * L b l| ≤ 2 * ε * (nrm (a + 1) (L a) * nrm (b + 1) (L b)) := by
  refine (h.err a ha b hb).trans ?_
  have h1 := (sum_abs_le_nrm (b + 1) (L a) (L b)).trans
    (mul_le_mul_of_nonneg_right (nrm_mono (show b + 1 ≤ a + 1 by omega) (L a)) (nrm_nonneg _ _))
  have h2 : L b b ≤ nrm (b + 1) (L b) := (le_abs_self _).trans (abs_le_nrm (Nat.lt_succ_self b) _)
  have h3 := absorb hs (nrm_nonneg (a + 1) (L a)) (nrm_nonneg (b + 1) (L b))
    (by have := (h.diag hs hm ha).2; have := hm a ha; linarith)
    (by have := (h.diag hs hm (show b < k by omega)).2; have := hm b (by omega); linarith)
  have h4 := mul_le_mul_of_nonneg_left h1 hs.ε0
  have h5 := mul_le_mul_of_nonneg_left h2 hs.κ0
  nlinarith

theorem FactRow.rel {ε κ m : ℝ} {k : ℕ} {L g : ℕ → ℕ → ℝ} {r γ : ℕ → ℝ} (hs : Small ε κ m) (h : Fact ε κ k L g)
    (hm : ∀ a < k, m ≤ g a a) (hr : FactRow ε κ k L r γ) (hD : 3 / 4 * m ≤ nrm k r ^ 2) {b : ℕ} (hb : b < k) :
    |γ b - ∑ l ∈ range (b + 1), r l * L b l| ≤ 2 * ε * (nrm k r * nrm (b + 1) (L b)) := by
  refine (hr b hb).trans ?_
  have h1 := (sum_abs_le_nrm (b + 1) r (L b)).trans
    (mul_le_mul_of_nonneg_right (nrm_mono (show b + 1 ≤ k by omega) r) (nrm_nonneg _ _))
  have h2 : L b b ≤ nrm (b + 1) (L b) := (le_abs_self _).trans (abs_le_nrm (Nat.lt_succ_self b) _)
  have h3 := absorb hs (nrm_nonneg k r) (nrm_nonneg (b + 1) (L b)) hD
    (by have := (h.diag hs hm hb).2; have := hm b hb; linarith)
  have h4 := mul_le_mul_of_nonneg_left h1 hs.ε0
  have h5 := mul_le_mul_of_nonneg_left h2 hs.κ0
  nlinarith

theorem low_row {k b : ℕ} (hb : b < k) (L : ℕ → ℕ → ℝ) (r : ℕ → ℝ) : ∑ l ∈ range k, r l * low L b l = ∑ l ∈ range (b + 1), r l * L b l := by
  rw [sum_cut (show b + 1 ≤ k by omega) (fun l => r l * low L b l)
    (fun l hl _ => by simp only [low]; rw [if_neg (show ¬ l ≤ b by omega), mul_zero])]
  apply sum_congr rfl
  intro l hl
  have := mem_range.1 hl
  rw [low, if_pos (by omega)]

theorem low_low {k a b : ℕ} (hb : b < k) (hba : b ≤ a) (L : ℕ → ℕ → ℝ) :
    ∑ l ∈ range k, low L a l * low L b l = ∑ l ∈ range (b + 1), L a l * L b l := by
  rw [low_row hb L (low L a)]
  apply sum_congr rfl
  intro l hl
  have := mem_range.1 hl
  rw [low, if_pos (by omega)]

theorem pivot_end {ε lam gi A D T N : ℝ} (h0 : 0 ≤ ε) (h1 : ε ≤ 1 / 12) (hgi : 0 < gi) (hA0 : 0 ≤ A) (hD0 : 0 ≤ D) (hN : 1 ≤ N)
    (hlam : 12 * N * ε < lam) (hT0 : 0 ≤ T) (hmar : 3 / 4 * A ^ 2 ≤ N * T) (hgD : gi - D ^ 2 ≤ 2 * ε * D ^ 2)
    (hfin : lam * (T + gi) ≤ 2 * ε * (A * A) + 4 * ε * (D * A) + gi - D ^ 2) : False := by
  have hAA : A * A = A ^ 2 := (pow_two A).symm
  rw [hAA] at hfin
  have f1 : 12 * N * ε * (T + gi) < lam * (T + gi) := mul_lt_mul_of_pos_right hlam (by linarith)
  have f2 : 9 * ε * A ^ 2 ≤ 12 * N * ε * T := by
    have := mul_le_mul_of_nonneg_left hmar h0
    linarith
  have f3 : 12 * ε * gi ≤ 12 * N * ε * gi := by
    have := mul_le_mul_of_nonneg_right hN (show 0 ≤ 12 * ε * gi by positivity)
    linarith
  have g4 : 0 ≤ ε * gi := by positivity
  have g3 : 0 ≤ ε * A ^ 2 := by positivity
  rw [mul_add (12 * N * ε)] at f1
  by_cases hc : 2 * gi ≤ D ^ 2
  · have g1 : 4 * ε * (D * A) ≤ 8 * ε ^ 2 * A ^ 2 + D ^ 2 / 2 := by nlinarith [sq_nonneg (4 * ε * A - D)]
    have g2 : 8 * ε ^ 2 * A ^ 2 ≤ ε * A ^ 2 := by
      have : 8 * ε ^ 2 ≤ ε := by nlinarith
      exact mul_le_mul_of_nonneg_right this (by positivity)
    linarith
  · have hc := not_le.1 hc
    have g1 : 4 * ε * (D * A) ≤ 2 * ε * A ^ 2 + 2 * ε * D ^ 2 := by
      have := mul_nonneg h0 (sq_nonneg (D - A))
      nlinarith
    have g2 : ε * D ^ 2 ≤ ε * (2 * gi) := mul_le_mul_of_nonneg_left hc.le h0
    linarith

/-- **The next pivot.** -/
theorem next_pivot {ε κ m lam : ℝ} {k : ℕ} {N : ℝ} {L g : ℕ → ℕ → ℝ} {r γ : ℕ → ℝ} {gi : ℝ} (hs : Small ε κ m) (h : Fact ε κ k L g)
    (hm : ∀ a < k, m ≤ g a a) (hmi : m ≤ gi) (hr : FactRow ε κ k L r γ) (hkN : (k : ℝ) ≤ N) (hN : 1 ≤ N) (hlam : 12 * N * ε < lam)
    (hpd : ∀ v : ℕ → ℝ, lam * ((∑ a ∈ range k, g a a * v a ^ 2) + gi)
      ≤ (∑ a ∈ range k, ∑ b ∈ range k, v a * (if b ≤ a then g a b else g b a) * v b) + 2 * (∑ a ∈ range k, v a * γ a) + gi) :
    (1 + ε) * (∑ l ∈ range k, r l ^ 2) + κ < gi := by
  by_contra hcon
  have hcon := not_lt.1 hcon
  rw [← nrm_sq] at hcon
  have hgi : 0 < gi := lt_of_lt_of_le hs.m0 hmi
  obtain ⟨h0, h1, h2, h3, h4, h5⟩ := hs
  have hs : Small ε κ m := ⟨h0, h1, h2, h3, h4, h5⟩
  have hκ : 4 * κ ≤ ε * gi := h5.trans (mul_le_mul_of_nonneg_left hmi h0)
  have hεg : ε * gi ≤ 1 / 12 * gi := mul_le_mul_of_nonneg_right h1 hgi.le
  set D := nrm k r with hD
  have hD0 : 0 ≤ D := nrm_nonneg _ _
  have hεD : ε * D ^ 2 ≤ 1 / 12 * D ^ 2 := mul_le_mul_of_nonneg_right h1 (by positivity)
  have hDg : 3 / 4 * gi ≤ D ^ 2 := by nlinarith
  have hgD : gi - D ^ 2 ≤ 2 * ε * D ^ 2 := by
    have : gi * (1 - ε / 4) ≤ (1 + 2 * ε) * D ^ 2 * (1 - ε / 4) := by nlinarith [mul_nonneg h0 (sq_nonneg D)]
    have := le_of_mul_le_mul_right this (by linarith)
    linarith
  -- the vector on which the product of the factors vanishes
  let w : ℕ → ℝ := backSub (fun i j => L j i) k r
  have hw : ∀ l < k, ∑ a ∈ range k, low L a l * w a = r l :=
    backSub_spec (fun i j => L j i) k r (fun i hi => (h.pos i hi).ne')
  have hq := hpd (fun a => -w a)
  let d : ℕ → ℝ := fun a => nrm (a + 1) (L a)
  have hd0 : ∀ a, 0 ≤ d a := fun a => nrm_nonneg _ _
  set A := ∑ a ∈ range k, |w a| * d a with hA
  have hA0 : 0 ≤ A := sum_nonneg fun a _ => mul_nonneg (abs_nonneg _) (hd0 a)
  -- errors
  have hE : ∀ a ∈ range k, ∀ b ∈ range k,
      -w a * (if b ≤ a then g a b else g b a) * -w b
        ≤ w a * (∑ l ∈ range k, low L a l * low L b l) * w b + 2 * ε * ((|w a| * d a) * (|w b| * d b)) := by
    intro a ha b hb
    have ha := mem_range.1 ha
    have hb := mem_range.1 hb
    have key : ∀ a b, a < k → b ≤ a → w a * (g a b - ∑ l ∈ range k, low L a l * low L b l) * w b ≤ 2 * ε * ((|w a| * d a) * (|w b| * d b)) := by
      intro a b ha hba
      rw [low_low (by omega) hba L]
      refine (le_abs_self _).trans ?_
      rw [abs_mul, abs_mul]
      have := mul_le_mul_of_nonneg_left (h.rel hs hm ha hba) (show 0 ≤ |w a| * |w b| by positivity)
      calc |w a| * _ * |w b| = |w a| * |w b| * |g a b - ∑ l ∈ range (b + 1), L a l * L b l| := by ring
        _ ≤ _ := this
        _ = _ := by ring
    by_cases hba : b ≤ a
    · rw [if_pos hba]
      have := key a b ha hba
      nlinarith
    · rw [if_neg hba]
      have := key b a hb (by omega)
      have e : ∑ l ∈ range k, low L b l * low L a l = ∑ l ∈ range k, low L a l * low L b l := sum_congr rfl fun l _ => mul_comm _ _
      rw [e] at this
      nlinarith
  have hE2 : ∑ a ∈ range k, ∑ b ∈ range k, -w a * (if b ≤ a then g a b else g b a) * -w b
      ≤ (∑ a ∈ range k, ∑ b ∈ range k, w a * (∑ l ∈ range k, low L a l * low L b l) * w b) + 2 * ε * (A * A) := by
    have : A * A = ∑ a ∈ range k, ∑ b ∈ range k, (|w a| * d a) * (|w b| * d b) := by rw [hA, Finset.sum_mul_sum]
    rw [this, Finset.mul_sum, ← sum_add_distrib]
    apply sum_le_sum
    intro a ha
    rw [Finset.mul_sum, ← sum_add_distrib]
    exact sum_le_sum fun b hb => hE a ha b hb
  have hR : ∑ a ∈ range k, -w a * γ a ≤ -(∑ a ∈ range k, w a * ∑ l ∈ range k, r l * low L a l) + 2 * ε * (D * A) := by
    rw [← Finset.sum_neg_distrib, hA, Finset.mul_sum, Finset.mul_sum, ← sum_add_distrib]
    apply sum_le_sum
    intro a ha
    have ha := mem_range.1 ha
    rw [low_row ha L r]
    have h6 := hr.rel hs h hm (by linarith) ha
    have h7 := mul_le_mul_of_nonneg_left h6 (abs_nonneg (w a))
    rw [← abs_mul] at h7
    have h8 := (abs_le.1 h7).1
    have : 2 * ε * (D * (|w a| * d a)) = |w a| * (2 * ε * (D * d a)) := by ring
    rw [this]
    show _ ≤ _ + |w a| * (2 * ε * (nrm k r * nrm (a + 1) (L a)))
    nlinarith
  have hquad : ∑ a ∈ range k, ∑ b ∈ range k, w a * (∑ l ∈ range k, low L a l * low L b l) * w b = D ^ 2 := by
    rw [quad_factor (M := fun a b => ∑ l ∈ range k, low L a l * low L b l) (F := low L) (fun _ _ _ _ => rfl) w, hD, nrm_sq]
    apply sum_congr rfl
    intro l hl
    rw [hw l (mem_range.1 hl), pow_two]
  have hcross : ∑ a ∈ range k, w a * ∑ l ∈ range k, r l * low L a l = D ^ 2 := by
    rw [hD, nrm_sq]
    have : ∀ a ∈ range k, w a * ∑ l ∈ range k, r l * low L a l = ∑ l ∈ range k, r l * (low L a l * w a) := by
      intro a _
      rw [Finset.mul_sum]
      exact sum_congr rfl fun l _ => by ring
    rw [sum_congr rfl this, sum_comm]
    apply sum_congr rfl
    intro l hl
    rw [← Finset.mul_sum, hw l (mem_range.1 hl), pow_two]
  rw [hquad] at hE2
  rw [hcross] at hR
  -- the margin
  have hmar : 3 / 4 * A ^ 2 ≤ N * ∑ a ∈ range k, g a a * (-w a) ^ 2 := by
    have c1 : A ^ 2 ≤ k * ∑ a ∈ range k, (|w a| * d a) ^ 2 := by
      have := sq_sum_le_card_mul_sum_sq (s := range k) (f := fun a => |w a| * d a)
      rwa [card_range] at this
    have c2 : 3 / 4 * ∑ a ∈ range k, (|w a| * d a) ^ 2 ≤ ∑ a ∈ range k, g a a * (-w a) ^ 2 := by
      rw [Finset.mul_sum]
      apply sum_le_sum
      intro a ha
      have := (h.diag hs hm (mem_range.1 ha)).1
      rw [mul_pow, sq_abs, neg_sq]
      have := mul_le_mul_of_nonneg_right this (sq_nonneg (w a))
      calc 3 / 4 * (w a ^ 2 * d a ^ 2) = 3 / 4 * nrm (a + 1) (L a) ^ 2 * w a ^ 2 := by simp only [d]; ring
        _ ≤ _ := this
    have c3 : 0 ≤ ∑ a ∈ range k, (|w a| * d a) ^ 2 := sum_nonneg fun a _ => by positivity
    have c4 : (k : ℝ) * ∑ a ∈ range k, (|w a| * d a) ^ 2 ≤ N * ∑ a ∈ range k, (|w a| * d a) ^ 2 := mul_le_mul_of_nonneg_right hkN c3
    have c5 := mul_le_mul_of_nonneg_left c2 (by linarith : 0 ≤ N)
    nlinarith
  generalize (∑ a ∈ range k, g a a * (-w a) ^ 2) = T at *
  have hT0 : 0 ≤ T := by
    have : 0 ≤ N * T := le_trans (by positivity) hmar
    exact nonneg_of_mul_nonneg_right this (by linarith)
  exact pivot_end h0 h1 hgi hA0 hD0 hN hlam hT0 hmar hgD (by linarith)

end JrlQp
