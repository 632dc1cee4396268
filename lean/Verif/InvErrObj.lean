import Verif.InvErr

/-!
# Errors of the minimum value computed with the inverse of the factor: real numbers
-/

namespace JrlQp

open Finset

namespace InvRun

variable {n : ℕ} {M J Q : ℕ → ℕ → ℝ} {d R a α x y τ : ℕ → ℝ} {ε κ T lam : ℝ}

theorem sum_add_le (h : InvRun n M J Q d R a α x y τ ε κ T lam) : en n (fun j => α j + vec n M y j) ≤ en n (rest n M J α y) +
    Real.sqrt n * (29 / 25 * (ε * (Real.sqrt n * (3 / 2 / Real.sqrt lam))) + T) * en n (vec n M y) := by
  have he0 : 0 ≤ 29 / 25 * (ε * (Real.sqrt n * (3 / 2 / Real.sqrt lam))) + T := by
    have := h.ε0
    have := h.T0
    positivity
  have e : (fun j => α j + vec n M y j) = fun j => rest n M J α y j + -(∑ l ∈ range n, err n M J l j * vec n M y l) := by
    funext j; rw [rest]; ring
  rw [e]
  have hneg : ∀ v : ℕ → ℝ, en n (fun j => -v j) = en n v := fun v => by unfold en; simp only [neg_sq]
  have h1 := en_add (n := n) (rest n M J α y) (fun j => -(∑ l ∈ range n, err n M J l j * vec n M y l))
  rw [hneg] at h1
  have h2 := en_colsT he0 (fun j hj => h.err_le' hj) (vec n M y)
  linarith

/-- Difference of two squared norms. -/
theorem sq_diff (v w : ℕ → ℝ) : |∑ i ∈ range n, v i ^ 2 - ∑ i ∈ range n, w i ^ 2| ≤ en n (fun i => v i + w i) * (en n (fun i => v i + w i) + 2 * en n w) := by
  have e : ∑ i ∈ range n, v i ^ 2 - ∑ i ∈ range n, w i ^ 2 = ∑ i ∈ range n, (v i + w i) * (v i - w i) := by
    rw [← sum_sub_distrib]
    exact sum_congr rfl fun i _ => by ring
  rw [e]
  refine (en_dot' _ _).trans (mul_le_mul_of_nonneg_left ?_ (en_nonneg _))
  have e2 : (fun i => v i - w i) = fun i => (v i + w i) + (-2) * w i := by funext i; ring
  have e3 : en n (fun i => (-2) * w i) = 2 * en n w := by
    have : en n (fun i => (-2) * w i) = en n (fun i => 2 * w i) := by unfold en; congr 1; exact sum_congr rfl fun i _ => by ring
    rw [this, en_smul (by norm_num)]
  rw [e2, ← e3]
  exact en_add _ _

/-- The quadratic form at the minimiser. -/
theorem quad_diff (h : InvRun n M J Q d R a α x y τ ε κ T lam) :
    |∑ l ∈ range n, vec n M y l ^ 2 - ∑ i ∈ range n, ∑ j ∈ range n, y i * Q i j * y j| ≤ 3 * ε * (29 / 25 * (Real.sqrt n * en n (fun k => d k * y k))) ^ 2 := by
  have e : ∑ l ∈ range n, vec n M y l ^ 2 - ∑ i ∈ range n, ∑ j ∈ range n, y i * Q i j * y j =
      ∑ i ∈ range n, y i * ∑ b ∈ range n, (∑ l ∈ range n, M i l * M b l - Q i b) * y b := by
    have e1 : ∑ l ∈ range n, vec n M y l ^ 2 = ∑ i ∈ range n, ∑ b ∈ range n, y i * (∑ l ∈ range n, M i l * M b l) * y b := by
      have : ∀ l ∈ range n, vec n M y l ^ 2 = ∑ i ∈ range n, ∑ b ∈ range n, y i * (M i l * M b l) * y b := fun l _ => by
        rw [sq, vec, sum_mul_sum]
        exact sum_congr rfl fun i _ => sum_congr rfl fun b _ => by ring
      rw [sum_congr rfl this, sum_comm]
      refine sum_congr rfl fun i _ => ?_
      rw [sum_comm]
      refine sum_congr rfl fun b _ => ?_
      rw [mul_sum, sum_mul]
    rw [e1, ← sum_sub_distrib]
    refine sum_congr rfl fun i _ => ?_
    rw [mul_sum, ← sum_sub_distrib]
    exact sum_congr rfl fun b _ => by ring
  rw [e]
  refine (abs_sum_le_sum_abs _ _).trans ?_
  have h1 : ∀ i ∈ range n, |y i * ∑ b ∈ range n, (∑ l ∈ range n, M i l * M b l - Q i b) * y b| ≤ 3 * ε * (∑ k ∈ range n, R k * |y k|) * (R i * |y i|) := fun i hi => by
    rw [abs_mul]
    have := mul_le_mul_of_nonneg_left (h.delta_sum i (mem_range.1 hi)) (abs_nonneg (y i))
    linarith
  refine (sum_le_sum h1).trans ?_
  rw [← mul_sum]
  have h2 := h.sum_R y
  have h0 : 0 ≤ ∑ k ∈ range n, R k * |y k| := sum_nonneg fun k hk => mul_nonneg (h.R0 k (mem_range.1 hk)) (abs_nonneg _)
  have h3 := pow_le_pow_left₀ h0 h2 2
  have h4 := mul_le_mul_of_nonneg_left h3 (show 0 ≤ 3 * ε by have := h.ε0; positivity)
  linarith

theorem value_num {s r ε T κ N C Y V D G A2 V2 q f : ℝ} (hs0 : 0 < s) (hs1 : s ≤ 1) (hr1 : 1 ≤ r) (hr : r ^ 2 = N) (hε0 : 0 ≤ ε)
    (hε : 12 * N * ε ≤ s ^ 2) (hT : 0 ≤ T) (hNT : N * T ≤ 1 / 20) (hκ : 0 ≤ κ) (hκ1 : κ ≤ 1) (hC : s * C = 3 / 2) (hY : 0 ≤ Y) (hV0 : 0 ≤ V)
    (hV : V ≤ 29 / 25 * (r * Y)) (hG : G ≤ r * (127 / 25 * (ε * (r * (r * C))) * Y + κ)) (hD0 : 0 ≤ D) (hD : D ≤ G + r * (29 / 25 * (ε * (r * C)) + T) * V)
    (h1 : |A2 - V2| ≤ D * (D + 2 * V)) (hA0 : 0 ≤ A2) (hV2 : V2 = V ^ 2) (h2 : |V2 - q| ≤ 3 * ε * (29 / 25 * (r * Y)) ^ 2)
    (h3 : |f + 1 / 2 * A2| ≤ 25 / 24 * ε * A2 + 13 / 8 * κ) :
    s * |f + 1 / 2 * q| ≤ 22 * ε * N ^ 2 * Y ^ 2 + 2 * r * N * T * Y ^ 2 + 3 * N * κ * (Y + 1) := by
  have hN1 : 1 ≤ N := by rw [← hr]; exact one_le_pow₀ hr1
  have hrN : r ≤ N := by rw [← hr]; exact le_self_pow₀ hr1 (by norm_num)
  have hC0 : 0 ≤ C := by
    by_contra hc
    push Not at hc
    have := mul_neg_of_pos_of_neg hs0 hc
    linarith
  have hεN : ε * N ≤ 1 / 12 := by
    have : s ^ 2 ≤ 1 := pow_le_one₀ hs0.le hs1
    linarith
  have hrr : r * r = N := by rw [← hr]; ring
  -- first bound of `s D`
  have hsD : s * D ≤ 9.64 * (ε * N * (r * Y)) + 1.16 * (N * T * Y) + r * κ := by
    have k1 : r * (29 / 25 * (ε * (r * C)) + T) * V ≤ r * (29 / 25 * (ε * (r * C)) + T) * (29 / 25 * (r * Y)) :=
      mul_le_mul_of_nonneg_left hV (by positivity)
    have k2 : s * D ≤ s * (r * (127 / 25 * (ε * (r * (r * C))) * Y + κ) + r * (29 / 25 * (ε * (r * C)) + T) * (29 / 25 * (r * Y))) :=
      mul_le_mul_of_nonneg_left (by linarith) hs0.le
    have e : s * (r * (127 / 25 * (ε * (r * (r * C))) * Y + κ) + r * (29 / 25 * (ε * (r * C)) + T) * (29 / 25 * (r * Y))) =
        (s * C) * (127 / 25 + (29 / 25) ^ 2) * (ε * (r * r) * (r * Y)) + 29 / 25 * (s * ((r * r) * T * Y)) + s * (r * κ) := by ring
    rw [e, hC, hrr] at k2
    have k3 : s * (N * T * Y) ≤ N * T * Y := mul_le_of_le_one_left (by positivity) hs1
    have k4 : s * (r * κ) ≤ r * κ := mul_le_of_le_one_left (by positivity) hs1
    have k5 : 0 ≤ ε * N * (r * Y) := by positivity
    linarith
  -- bound of `D`
  have hDb : D ≤ 0.87 * (r * Y) + r * κ := by
    have k1 : r * (29 / 25 * (ε * (r * C)) + T) * V ≤ r * (29 / 25 * (ε * (r * C)) + T) * (29 / 25 * (r * Y)) :=
      mul_le_mul_of_nonneg_left hV (by positivity)
    have e : r * (127 / 25 * (ε * (r * (r * C))) * Y + κ) + r * (29 / 25 * (ε * (r * C)) + T) * (29 / 25 * (r * Y)) =
        (127 / 25 + (29 / 25) ^ 2) * ((ε * (r * r) * C) * (r * Y)) + 29 / 25 * ((r * r) * T * Y) + r * κ := by ring
    have k2 : D ≤ (127 / 25 + (29 / 25) ^ 2) * ((ε * N * C) * (r * Y)) + 29 / 25 * (N * T * Y) + r * κ := by
      rw [hrr] at e; linarith
    have k3 : ε * N * C ≤ 1 / 8 := by
      have e2 : 12 * (ε * N * C) * s = 12 * N * ε * (s * C) := by ring
      rw [hC] at e2
      have k4 : 12 * (ε * N * C) * s ≤ 3 / 2 * s * s := by
        rw [e2]; have := mul_le_mul_of_nonneg_right hε (show (0 : ℝ) ≤ 3 / 2 by norm_num); linarith
      have k5 := le_of_mul_le_mul_right k4 hs0
      linarith
    have k4 := mul_le_mul_of_nonneg_right k3 (show 0 ≤ r * Y by positivity)
    have k5 := mul_le_mul_of_nonneg_right hNT hY
    have k6 : Y ≤ r * Y := le_mul_of_one_le_left hY hr1
    linarith
  have hEE : 0 ≤ D + 2 * V := by linarith
  have hE : D + 2 * V ≤ 3.19 * (r * Y) + r * κ := by linarith
  have k1 : s * (D * (D + 2 * V)) ≤ (9.64 * (ε * N * (r * Y)) + 1.16 * (N * T * Y) + r * κ) * (3.19 * (r * Y) + r * κ) := by
    rw [← mul_assoc]
    exact mul_le_mul hsD hE hEE (by positivity)
  have e1 : (9.64 * (ε * N * (r * Y)) + 1.16 * (N * T * Y) + r * κ) * (3.19 * (r * Y) + r * κ) =
      9.64 * 3.19 * (ε * N * ((r * r) * Y ^ 2)) + 9.64 * (ε * N * ((r * r) * (Y * κ))) + 1.16 * 3.19 * (r * N * T * Y ^ 2)
        + 1.16 * ((N * T) * (r * (Y * κ))) + 3.19 * ((r * r) * (Y * κ)) + (r * r) * κ ^ 2 := by ring
  rw [e1, hrr] at k1
  have hYκ : 0 ≤ Y * κ := by positivity
  have k2 : ε * N * (N * (Y * κ)) ≤ 1 / 12 * (N * (Y * κ)) := mul_le_mul_of_nonneg_right hεN (by positivity)
  have k3 : (N * T) * (r * (Y * κ)) ≤ 1 / 20 * (N * (Y * κ)) :=
    mul_le_mul hNT (mul_le_mul_of_nonneg_right hrN hYκ) (by positivity) (by norm_num)
  have hκ2 : κ ^ 2 ≤ κ := by rw [sq]; exact mul_le_of_le_one_left hκ hκ1
  have k4 : N * κ ^ 2 ≤ N * κ := mul_le_mul_of_nonneg_left hκ2 (by linarith)
  have k5 : κ ≤ N * κ := le_mul_of_one_le_left hκ hN1
  -- square of `α`
  have hVr : V ≤ 1.16 * (r * Y) := by linarith
  have hA : A2 ≤ (2.03 * (r * Y) + r * κ) ^ 2 := by
    have a1 := (abs_le.1 h1).2
    have a2 : (D + V) ^ 2 ≤ (2.03 * (r * Y) + r * κ) ^ 2 := pow_le_pow_left₀ (by linarith) (by linarith) 2
    rw [hV2] at a1
    have e : (D + V) ^ 2 = D * (D + 2 * V) + V ^ 2 := by ring
    linarith
  have e2 : (2.03 * (r * Y) + r * κ) ^ 2 = (r * r) * (2.03 ^ 2 * Y ^ 2 + 4.06 * (Y * κ) + κ ^ 2) := by ring
  rw [e2, hrr] at hA
  have k6 : ε * A2 ≤ 2.03 ^ 2 * (ε * N * Y ^ 2) + 4.06 / 12 * (Y * κ) + 1 / 12 * κ := by
    have a1 := mul_le_mul_of_nonneg_left hA hε0
    have a2 : ε * N * (Y * κ) ≤ 1 / 12 * (Y * κ) := mul_le_mul_of_nonneg_right hεN hYκ
    have a3 : ε * N * κ ^ 2 ≤ 1 / 12 * κ := mul_le_mul hεN hκ2 (by positivity) (by norm_num)
    have e : ε * (N * (2.03 ^ 2 * Y ^ 2 + 4.06 * (Y * κ) + κ ^ 2)) = 2.03 ^ 2 * (ε * N * Y ^ 2) + 4.06 * (ε * N * (Y * κ)) + ε * N * κ ^ 2 := by ring
    linarith
  have e3 : 3 * ε * (29 / 25 * (r * Y)) ^ 2 = 3 * (29 / 25) ^ 2 * (ε * (r * r) * Y ^ 2) := by ring
  rw [e3, hrr] at h2
  have k7 : ε * N * Y ^ 2 ≤ ε * N * (N * Y ^ 2) := by
    have : Y ^ 2 ≤ N * Y ^ 2 := le_mul_of_one_le_left (sq_nonneg _) hN1
    exact mul_le_mul_of_nonneg_left this (by positivity)
  have k8 : Y * κ ≤ N * (Y * κ) := le_mul_of_one_le_left hYκ hN1
  have hsum : |f + 1 / 2 * q| ≤ |f + 1 / 2 * A2| + 1 / 2 * |A2 - V2| + 1 / 2 * |V2 - q| := by
    have e : f + 1 / 2 * q = (f + 1 / 2 * A2) + (-(1 / 2 * (A2 - V2)) + -(1 / 2 * (V2 - q))) := by ring
    have a1 := abs_add_le (f + 1 / 2 * A2) (-(1 / 2 * (A2 - V2)) + -(1 / 2 * (V2 - q)))
    have a2 := abs_add_le (-(1 / 2 * (A2 - V2))) (-(1 / 2 * (V2 - q)))
    rw [abs_neg, abs_neg, abs_mul, abs_mul, abs_of_pos (by norm_num : (0 : ℝ) < 1 / 2)] at a2
    rw [← e] at a1
    linarith
  have hs : s * |f + 1 / 2 * q| ≤ s * |f + 1 / 2 * A2| + 1 / 2 * (s * |A2 - V2|) + 1 / 2 * (s * |V2 - q|) := by
    have := mul_le_mul_of_nonneg_left hsum hs0.le
    linarith
  have p1 : s * |f + 1 / 2 * A2| ≤ |f + 1 / 2 * A2| := mul_le_of_le_one_left (abs_nonneg _) hs1
  have p2 : s * |V2 - q| ≤ |V2 - q| := mul_le_of_le_one_left (abs_nonneg _) hs1
  have p3 := mul_le_mul_of_nonneg_left h1 hs0.le
  have g1 : 22 * ε * N ^ 2 * Y ^ 2 = 22 * (ε * N * (N * Y ^ 2)) := by ring
  have g2 : 2 * r * N * T * Y ^ 2 = 2 * (r * N * T * Y ^ 2) := by ring
  have g3 : 3 * N * κ * (Y + 1) = 3 * (N * (Y * κ)) + 3 * (N * κ) := by ring
  have g4 : 25 / 24 * ε * A2 = 25 / 24 * (ε * A2) := by ring
  rw [g1, g2, g3]
  rw [g4] at h3
  have n1 : 0 ≤ r * N * T * Y ^ 2 := by positivity
  have n2 : 0 ≤ ε * N * (N * Y ^ 2) := by positivity
  have n3 : 0 ≤ N * (Y * κ) := by positivity
  have n4 : 0 ≤ N * κ := by positivity
  generalize r * N * T * Y ^ 2 = X1 at *
  generalize ε * N * (N * Y ^ 2) = X2 at *
  generalize N * (Y * κ) = X3 at *
  generalize ε * N * Y ^ 2 = X4 at *
  generalize Y * κ = X5 at *
  generalize N * κ = X6 at *
  generalize N * κ ^ 2 = X7 at *
  generalize ε * A2 = X8 at *
  norm_num at *
  linarith

/-- Accuracy of the value. -/
theorem value (h : InvRun n M J Q d R a α x y τ ε κ T lam) (hκ1 : κ ≤ 1) {f : ℝ}
    (hf : |f + 1 / 2 * ∑ k ∈ range n, α k ^ 2| ≤ 25 / 24 * ε * (∑ k ∈ range n, α k ^ 2) + 13 / 8 * κ) :
    Real.sqrt lam * |f + 1 / 2 * ∑ i ∈ range n, ∑ j ∈ range n, y i * Q i j * y j| ≤
      22 * ε * (n : ℝ) ^ 2 * en n (fun k => d k * y k) ^ 2 + 2 * Real.sqrt n * n * T * en n (fun k => d k * y k) ^ 2
        + 3 * n * κ * (en n (fun k => d k * y k) + 1) := by
  have hs0 := Real.sqrt_pos.2 h.lam0
  have hn : (1 : ℝ) ≤ n := by exact_mod_cast h.n1
  have hG : en n (rest n M J α y) ≤
      Real.sqrt n * (127 / 25 * (ε * (Real.sqrt n * (Real.sqrt n * (3 / 2 / Real.sqrt lam)))) * en n (fun k => d k * y k) + κ) := by
    refine en_le_const ?_ fun j hj => h.rest_le hj
    have := h.ε0
    have := h.κ0
    have := en_nonneg (n := n) (fun k => d k * y k)
    positivity
  exact value_num hs0 (Real.sqrt_le_one.2 h.lam1) (Real.one_le_sqrt.2 hn) (Real.sq_sqrt (by linarith)) h.ε0 (by rw [Real.sq_sqrt h.lam0.le]; exact h.hε)
    h.T0 h.nT h.κ0 hκ1 (by field_simp) (en_nonneg _) (en_nonneg _) h.vec_le hG (en_nonneg _) h.sum_add_le (sq_diff α (vec n M y))
    (sum_nonneg fun i _ => sq_nonneg _) (en_sq _).symm h.quad_diff hf

end InvRun

end JrlQp
