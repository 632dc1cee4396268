import Verif.IeeeSubstOk

/-!
# Errors of the minimum computed with the inverse of the factor: real numbers

`M` is a lower triangular matrix, `J` an approximation of the inverse of its transpose, `α` of `Jᵀ a`, `x` of `-J α`.
-/

namespace JrlQp

open Finset

/-- Euclidean norm of the first `n` elements. -/
noncomputable def en (n : ℕ) (v : ℕ → ℝ) : ℝ := Real.sqrt (∑ i ∈ range n, v i ^ 2)

variable {n : ℕ}

theorem en_nonneg (v : ℕ → ℝ) : 0 ≤ en n v := Real.sqrt_nonneg _

theorem en_sq (v : ℕ → ℝ) : en n v ^ 2 = ∑ i ∈ range n, v i ^ 2 := Real.sq_sqrt (sum_nonneg fun i _ => sq_nonneg _)

theorem en_mono {v w : ℕ → ℝ} (h : ∀ i < n, |v i| ≤ w i) : en n v ≤ en n w := by
  refine Real.sqrt_le_sqrt (sum_le_sum fun i hi => ?_)
  have h1 := h i (mem_range.1 hi)
  rw [← sq_abs (v i)]
  exact pow_le_pow_left₀ (abs_nonneg _) h1 2

theorem en_dot (v w : ℕ → ℝ) : ∑ i ∈ range n, |v i| * |w i| ≤ en n v * en n w := by
  have := Real.sum_mul_le_sqrt_mul_sqrt (range n) (fun i => |v i|) (fun i => |w i|)
  simpa [en, sq_abs] using this

theorem en_dot' (v w : ℕ → ℝ) : |∑ i ∈ range n, v i * w i| ≤ en n v * en n w :=
  (abs_sum_le_sum_abs _ _).trans ((le_of_eq (sum_congr rfl fun i _ => abs_mul _ _)).trans (en_dot v w))

theorem en_add (v w : ℕ → ℝ) : en n (fun i => v i + w i) ≤ en n v + en n w := by
  have h1 := en_sq (n := n) v
  have h2 := en_sq (n := n) w
  have h3 := en_sq (n := n) (fun i => v i + w i)
  have h4 := (le_abs_self _).trans (en_dot' (n := n) v w)
  have e : ∑ i ∈ range n, (v i + w i) ^ 2 = ∑ i ∈ range n, v i ^ 2 + ∑ i ∈ range n, w i ^ 2 + 2 * ∑ i ∈ range n, v i * w i := by
    rw [mul_sum, ← sum_add_distrib, ← sum_add_distrib]
    exact sum_congr rfl fun i _ => by ring
  have h5 := en_nonneg (n := n) v
  have h6 := en_nonneg (n := n) w
  refine (abs_le_of_sq_le_sq' ?_ (add_nonneg h5 h6)).2
  rw [h3, e, ← h1, ← h2]
  nlinarith

theorem en_const {c : ℝ} (hc : 0 ≤ c) : en n (fun _ => c) = Real.sqrt n * c := by
  unfold en
  rw [sum_const, card_range, nsmul_eq_mul, Real.sqrt_mul (Nat.cast_nonneg n), Real.sqrt_sq hc]

theorem en_le_const {v : ℕ → ℝ} {c : ℝ} (hc : 0 ≤ c) (h : ∀ i < n, |v i| ≤ c) : en n v ≤ Real.sqrt n * c := by
  rw [← en_const hc]; exact en_mono h

theorem en_le_sum {v : ℕ → ℝ} (h : ∀ i < n, 0 ≤ v i) : en n v ≤ ∑ i ∈ range n, v i := by
  have h0 : 0 ≤ ∑ i ∈ range n, v i := sum_nonneg fun i hi => h i (mem_range.1 hi)
  refine Real.sqrt_le_iff.2 ⟨h0, ?_⟩
  exact sum_sq_le_sq_sum_of_nonneg fun i hi => h i (mem_range.1 hi)

theorem sum_le_en (v : ℕ → ℝ) : ∑ i ∈ range n, |v i| ≤ Real.sqrt n * en n v := by
  have := en_dot (n := n) (fun _ => (1 : ℝ)) v
  rw [en_const zero_le_one] at this
  simpa using this

theorem en_smul {c : ℝ} (hc : 0 ≤ c) (v : ℕ → ℝ) : en n (fun i => c * v i) = c * en n v := by
  unfold en
  simp only [mul_pow]
  rw [← mul_sum, Real.sqrt_mul (sq_nonneg c), Real.sqrt_sq hc]

theorem en_unit {j : ℕ} (hj : j < n) : en n (fun i => if i = j then 1 else 0) = 1 := by
  unfold en
  rw [sum_eq_single_of_mem j (mem_range.2 hj) (fun i _ hi => by simp [hi])]
  simp

/-- Product of a matrix with rows of norms `R` and of a vector. -/
theorem en_rows {M : ℕ → ℕ → ℝ} {R : ℕ → ℝ} (hR : ∀ i < n, ∑ l ∈ range n, M i l ^ 2 = R i ^ 2) (hR0 : ∀ i < n, 0 ≤ R i) (v : ℕ → ℝ) :
    en n (fun l => ∑ k ∈ range n, |M k l| * |v k|) ≤ ∑ k ∈ range n, R k * |v k| := by
  have h0 : 0 ≤ ∑ k ∈ range n, R k * |v k| := sum_nonneg fun k hk => mul_nonneg (hR0 k (mem_range.1 hk)) (abs_nonneg _)
  refine Real.sqrt_le_iff.2 ⟨h0, ?_⟩
  have e : ∑ l ∈ range n, (∑ k ∈ range n, |M k l| * |v k|) ^ 2 =
      ∑ k ∈ range n, ∑ k' ∈ range n, |v k| * |v k'| * ∑ l ∈ range n, |M k l| * |M k' l| := by
    have h : ∀ l, (∑ k ∈ range n, |M k l| * |v k|) ^ 2 = ∑ k ∈ range n, ∑ k' ∈ range n, |v k| * |v k'| * (|M k l| * |M k' l|) := fun l => by
      rw [pow_two, sum_mul_sum]
      exact sum_congr rfl fun k _ => sum_congr rfl fun k' _ => by ring
    rw [sum_congr rfl fun l _ => h l, sum_comm]
    refine sum_congr rfl fun k _ => ?_
    rw [sum_comm]
    exact sum_congr rfl fun k' _ => by rw [mul_sum]
  rw [e, pow_two, sum_mul_sum]
  refine sum_le_sum fun k hk => sum_le_sum fun k' hk' => ?_
  have h1 := en_dot (n := n) (M k) (M k')
  have hk := mem_range.1 hk
  have hk' := mem_range.1 hk'
  have h2 : en n (M k) = R k := by unfold en; rw [hR k hk, Real.sqrt_sq (hR0 k hk)]
  have h3 : en n (M k') = R k' := by unfold en; rw [hR k' hk', Real.sqrt_sq (hR0 k' hk')]
  rw [h2, h3] at h1
  have := mul_le_mul_of_nonneg_left h1 (mul_nonneg (abs_nonneg (v k)) (abs_nonneg (v k')))
  linarith

theorem en_rows' {M : ℕ → ℕ → ℝ} {R : ℕ → ℝ} (hR : ∀ i < n, ∑ l ∈ range n, M i l ^ 2 = R i ^ 2) (hR0 : ∀ i < n, 0 ≤ R i) (v : ℕ → ℝ) :
    en n (fun l => ∑ k ∈ range n, M k l * v k) ≤ ∑ k ∈ range n, R k * |v k| :=
  (en_mono fun _ _ => (abs_sum_le_sum_abs _ _).trans (le_of_eq (sum_congr rfl fun _ _ => abs_mul _ _))).trans (en_rows hR hR0 v)

/-- Product with a matrix whose columns have norms at most `e`. -/
theorem en_cols {E : ℕ → ℕ → ℝ} {e : ℝ} (he : 0 ≤ e) (hE : ∀ j < n, en n (fun i => E i j) ≤ e) (v : ℕ → ℝ) :
    en n (fun i => ∑ j ∈ range n, E i j * v j) ≤ Real.sqrt n * e * en n v := by
  refine Real.sqrt_le_iff.2 ⟨mul_nonneg (mul_nonneg (Real.sqrt_nonneg _) he) (en_nonneg v), ?_⟩
  rw [mul_pow, mul_pow, Real.sq_sqrt (Nat.cast_nonneg n), en_sq]
  have h1 : ∀ i, (∑ j ∈ range n, E i j * v j) ^ 2 ≤ (∑ j ∈ range n, E i j ^ 2) * ∑ j ∈ range n, v j ^ 2 := fun i => sum_mul_sq_le_sq_mul_sq _ _ _
  refine (sum_le_sum fun i _ => h1 i).trans ?_
  rw [← sum_mul, sum_comm]
  refine mul_le_mul_of_nonneg_right ?_ (sum_nonneg fun i _ => sq_nonneg _)
  have h2 : ∀ j ∈ range n, ∑ i ∈ range n, E i j ^ 2 ≤ e ^ 2 := fun j hj => by
    rw [← en_sq (n := n) (fun i => E i j)]
    exact pow_le_pow_left₀ (en_nonneg _) (hE j (mem_range.1 hj)) 2
  refine (sum_le_sum h2).trans ?_
  rw [sum_const, card_range, nsmul_eq_mul]

theorem en_colsT {E : ℕ → ℕ → ℝ} {e : ℝ} (he : 0 ≤ e) (hE : ∀ j < n, en n (fun i => E i j) ≤ e) (v : ℕ → ℝ) :
    en n (fun j => ∑ i ∈ range n, E i j * v i) ≤ Real.sqrt n * e * en n v := by
  rw [mul_assoc]
  refine en_le_const (mul_nonneg he (en_nonneg v)) fun j hj => ?_
  refine (en_dot' (fun i => E i j) v).trans ?_
  exact mul_le_mul_of_nonneg_right (hE j hj) (en_nonneg v)

/-- The computation: `M` is the factor, with rows of norms `R`, `Q` the matrix, `J` is computed as the inverse of the transpose of `M`, `α` as `Jᵀ a` and `x` as
`-J α`; `y` is the minimiser. -/
structure InvRun (n : ℕ) (M J Q : ℕ → ℕ → ℝ) (d R a α x y τ : ℕ → ℝ) (ε κ T lam : ℝ) : Prop where
  n1 : 1 ≤ n
  lam0 : 0 < lam
  lam1 : lam ≤ 1
  ε0 : 0 ≤ ε
  κ0 : 0 ≤ κ
  hε : 12 * n * ε ≤ lam
  margin : ∀ v : ℕ → ℝ, 2 / 3 * lam * (∑ i ∈ range n, d i ^ 2 * v i ^ 2) ≤ ∑ l ∈ range n, (∑ j ∈ range n, M j l * v j) ^ 2
  d0 : ∀ i < n, 0 ≤ d i
  R0 : ∀ i < n, 0 ≤ R i
  rows : ∀ i < n, ∑ l ∈ range n, M i l ^ 2 = R i ^ 2
  Rd : ∀ i < n, R i ≤ 29 / 25 * d i
  τ0 : ∀ i < n, 0 ≤ τ i
  τT : ∑ i ∈ range n, τ i ≤ T
  nT : n * T ≤ 1 / 20
  inv : ∀ i < n, ∀ j < n, |(if i = j then 1 else 0) - ∑ k ∈ range n, M k i * J k j| ≤ ε * (∑ k ∈ range n, |M k i| * |J k j|) + τ i
  hα : ∀ j < n, |α j - ∑ k ∈ range n, J k j * a k| ≤ ε * (∑ k ∈ range n, |J k j| * |a k|) + κ
  hx : ∀ i < n, |x i + ∑ k ∈ range n, J i k * α k| ≤ ε * (∑ k ∈ range n, |J i k| * |α k|) + κ
  hQ : ∀ i < n, ∀ j < n, |Q i j| ≤ d i * d j
  hA : ∀ i < n, ∀ j < n, |∑ l ∈ range n, M i l * M j l - Q i j| ≤ 3 * ε * (R i * R j)
  grad : ∀ i < n, a i + ∑ j ∈ range n, Q i j * y j = 0

namespace InvRun

variable {M J Q : ℕ → ℕ → ℝ} {d R a α x y τ : ℕ → ℝ} {ε κ T lam : ℝ}

theorem sum_d (h : InvRun n M J Q d R a α x y τ ε κ T lam) (v : ℕ → ℝ) : ∑ k ∈ range n, d k * |v k| ≤ Real.sqrt n * en n (fun k => d k * v k) := by
  refine le_trans (le_of_eq (sum_congr rfl fun k hk => ?_)) (sum_le_en fun k => d k * v k)
  rw [abs_mul, abs_of_nonneg (h.d0 k (mem_range.1 hk))]

theorem sum_R (h : InvRun n M J Q d R a α x y τ ε κ T lam) (v : ℕ → ℝ) :
    ∑ k ∈ range n, R k * |v k| ≤ 29 / 25 * (Real.sqrt n * en n (fun k => d k * v k)) := by
  refine le_trans ?_ (mul_le_mul_of_nonneg_left (h.sum_d v) (by norm_num))
  rw [mul_sum]
  refine sum_le_sum fun k hk => ?_
  have := mul_le_mul_of_nonneg_right (h.Rd k (mem_range.1 hk)) (abs_nonneg (v k))
  linarith

theorem dn_le (h : InvRun n M J Q d R a α x y τ ε κ T lam) (v : ℕ → ℝ) :
    2 / 3 * lam * en n (fun k => d k * v k) ^ 2 ≤ en n (fun l => ∑ j ∈ range n, M j l * v j) ^ 2 := by
  rw [en_sq, en_sq]
  have := h.margin v
  simp only [mul_pow]
  exact this

theorem T0 (h : InvRun n M J Q d R a α x y τ ε κ T lam) : 0 ≤ T := (sum_nonneg fun i hi => h.τ0 i (mem_range.1 hi)).trans h.τT

/-- The error of the inverse. -/
noncomputable def err (n : ℕ) (M J : ℕ → ℕ → ℝ) (i j : ℕ) : ℝ := (∑ k ∈ range n, M k i * J k j) - if i = j then 1 else 0

theorem err_le (h : InvRun n M J Q d R a α x y τ ε κ T lam) {j : ℕ} (hj : j < n) :
    en n (fun i => err n M J i j) ≤ ε * (29 / 25 * (Real.sqrt n * en n (fun k => d k * J k j))) + T := by
  have h1 : en n (fun i => err n M J i j) ≤ en n (fun i => ε * (∑ k ∈ range n, |M k i| * |J k j|) + τ i) :=
    en_mono fun i hi => by rw [err, abs_sub_comm]; exact h.inv i hi j hj
  have h2 := en_add (n := n) (fun i => ε * (∑ k ∈ range n, |M k i| * |J k j|)) τ
  rw [en_smul h.ε0] at h2
  have h3 := (en_rows h.rows h.R0 (fun k => J k j)).trans (h.sum_R fun k => J k j)
  have h4 := (en_le_sum h.τ0).trans h.τT
  have h5 := mul_le_mul_of_nonneg_left h3 h.ε0
  linarith

theorem col_num {w s : ℝ} (hw : 0 ≤ w) (h : 2 / 3 * w ^ 2 ≤ (21 / 20 + 29 / 300 * w) ^ 2) : w ≤ 3 / 2 := by nlinarith

/-- Size of the columns of the inverse. -/
theorem col_le (h : InvRun n M J Q d R a α x y τ ε κ T lam) {j : ℕ} (hj : j < n) : Real.sqrt lam * en n (fun k => d k * J k j) ≤ 3 / 2 := by
  have h1 := h.dn_le fun k => J k j
  have e : (fun l => ∑ k ∈ range n, M k l * J k j) = fun l => (if l = j then 1 else 0) + err n M J l j := by
    funext l; rw [err]; ring
  rw [e] at h1
  have h2 := en_add (n := n) (fun l => if l = j then 1 else 0) (fun l => err n M J l j)
  rw [en_unit hj] at h2
  have h3 := h.err_le hj
  have h4 := en_nonneg (n := n) fun l => (if l = j then 1 else 0) + err n M J l j
  have hc := en_nonneg (n := n) (fun k => d k * J k j)
  have hs := Real.sq_sqrt h.lam0.le
  have hs0 := Real.sqrt_pos.2 h.lam0
  have hs1 : Real.sqrt lam ≤ 1 := Real.sqrt_le_one.2 h.lam1
  have hn : (1 : ℝ) ≤ n := by exact_mod_cast h.n1
  have hr := Real.sq_sqrt (show (0 : ℝ) ≤ n by linarith)
  have hr1 : 1 ≤ Real.sqrt n := Real.one_le_sqrt.2 hn
  have hT := h.T0
  have hnT := h.nT
  have hε := h.hε
  have hε0 := h.ε0
  generalize en n (fun l => (if l = j then 1 else 0) + err n M J l j) = W at *
  generalize en n (fun k => d k * J k j) = c at *
  generalize Real.sqrt lam = s at *
  generalize Real.sqrt n = r at *
  refine col_num (s := s) (mul_nonneg hs0.le hc) ?_
  have h5 : 12 * (ε * r) ≤ s := by
    have : ε * r ≤ ε * n := mul_le_mul_of_nonneg_left (by nlinarith) hε0
    nlinarith
  have h6 := mul_le_mul_of_nonneg_right h5 hc
  have h7 : T ≤ 1 / 20 := by nlinarith
  have h8 : W ≤ 21 / 20 + 29 / 300 * (s * c) := by linarith
  have h9 := pow_le_pow_left₀ h4 h8 2
  rw [mul_pow, hs]
  linarith

theorem col_le' (h : InvRun n M J Q d R a α x y τ ε κ T lam) {j : ℕ} (hj : j < n) : en n (fun k => d k * J k j) ≤ 3 / 2 / Real.sqrt lam := by
  rw [le_div_iff₀ (Real.sqrt_pos.2 h.lam0), mul_comm]
  exact h.col_le hj

theorem err_le' (h : InvRun n M J Q d R a α x y τ ε κ T lam) {j : ℕ} (hj : j < n) :
    en n (fun i => err n M J i j) ≤ 29 / 25 * (ε * (Real.sqrt n * (3 / 2 / Real.sqrt lam))) + T := by
  refine (h.err_le hj).trans ?_
  have h1 := mul_le_mul_of_nonneg_left (h.col_le' hj) (Real.sqrt_nonneg n)
  have h2 := mul_le_mul_of_nonneg_left h1 h.ε0
  linarith

/-- The product of the factor and of the minimiser. -/
noncomputable def vec (n : ℕ) (M : ℕ → ℕ → ℝ) (y : ℕ → ℝ) (l : ℕ) : ℝ := ∑ k ∈ range n, M k l * y k

theorem vec_le (h : InvRun n M J Q d R a α x y τ ε κ T lam) : en n (vec n M y) ≤ 29 / 25 * (Real.sqrt n * en n (fun k => d k * y k)) :=
  (en_rows' h.rows h.R0 y).trans (h.sum_R y)

/-- What remains of `α` after its main part. -/
noncomputable def rest (n : ℕ) (M J : ℕ → ℕ → ℝ) (α y : ℕ → ℝ) (j : ℕ) : ℝ := α j + vec n M y j + ∑ l ∈ range n, err n M J l j * vec n M y l

theorem delta_sum (h : InvRun n M J Q d R a α x y τ ε κ T lam) (i : ℕ) (hi : i < n) :
    |∑ b ∈ range n, (∑ l ∈ range n, M i l * M b l - Q i b) * y b| ≤ 3 * ε * R i * ∑ k ∈ range n, R k * |y k| := by
  refine (abs_sum_le_sum_abs _ _).trans ?_
  rw [mul_sum]
  refine sum_le_sum fun b hb => ?_
  rw [abs_mul]
  have := mul_le_mul_of_nonneg_right (h.hA i hi b (mem_range.1 hb)) (abs_nonneg (y b))
  linarith

theorem rest_eq (h : InvRun n M J Q d R a α x y τ ε κ T lam) {j : ℕ} (hj : j < n) :
    rest n M J α y j = (α j - ∑ k ∈ range n, J k j * a k) +
      ∑ k ∈ range n, J k j * ∑ b ∈ range n, (∑ l ∈ range n, M k l * M b l - Q k b) * y b := by
  have e1 : ∀ k ∈ range n, J k j * ∑ b ∈ range n, (∑ l ∈ range n, M k l * M b l - Q k b) * y b =
      J k j * a k + ∑ l ∈ range n, M k l * J k j * vec n M y l := by
    intro k hk
    have h1 := h.grad k (mem_range.1 hk)
    have h2 : ∑ b ∈ range n, (∑ l ∈ range n, M k l * M b l - Q k b) * y b = (∑ l ∈ range n, M k l * vec n M y l) - ∑ b ∈ range n, Q k b * y b := by
      simp only [sub_mul, sum_sub_distrib]
      congr 1
      simp only [vec, mul_sum, sum_mul]
      rw [sum_comm]
      exact sum_congr rfl fun l _ => sum_congr rfl fun b _ => by ring
    have h3 : ∑ l ∈ range n, M k l * J k j * vec n M y l = J k j * ∑ l ∈ range n, M k l * vec n M y l := by
      rw [mul_sum]; exact sum_congr rfl fun l _ => by ring
    rw [h2, h3]
    linear_combination (-(J k j)) * h1
  rw [sum_congr rfl e1, sum_add_distrib, sum_comm]
  have e2 : ∑ l ∈ range n, ∑ k ∈ range n, M k l * J k j * vec n M y l = vec n M y j + ∑ l ∈ range n, err n M J l j * vec n M y l := by
    have : ∀ l ∈ range n, ∑ k ∈ range n, M k l * J k j * vec n M y l = (if l = j then vec n M y l else 0) + err n M J l j * vec n M y l := by
      intro l _
      rw [← sum_mul, err]
      split_ifs <;> ring
    rw [sum_congr rfl this, sum_add_distrib, sum_ite_eq' (range n) j, if_pos (mem_range.2 hj)]
  rw [e2, rest]
  ring

theorem rest_le (h : InvRun n M J Q d R a α x y τ ε κ T lam) {j : ℕ} (hj : j < n) :
    |rest n M J α y j| ≤ 127 / 25 * (ε * (Real.sqrt n * (Real.sqrt n * (3 / 2 / Real.sqrt lam)))) * en n (fun k => d k * y k) + κ := by
  rw [h.rest_eq hj]
  have h1 := h.hα j hj
  have hc := h.col_le' hj
  have hY := en_nonneg (n := n) (fun k => d k * y k)
  have hr := Real.sqrt_nonneg (n : ℝ)
  have hε := h.ε0
  have hRJ := h.sum_R fun k => J k j
  have hdJ := h.sum_d fun k => J k j
  have hRy := h.sum_R y
  have hdy := h.sum_d y
  have hJ0 := en_nonneg (n := n) (fun k => d k * J k j)
  have ha : ∀ k ∈ range n, |J k j| * |a k| ≤ d k * |J k j| * (Real.sqrt n * en n (fun k => d k * y k)) := by
    intro k hk
    have hk' := mem_range.1 hk
    have : |a k| ≤ d k * ∑ b ∈ range n, d b * |y b| := by
      rw [show a k = -∑ b ∈ range n, Q k b * y b by linarith [h.grad k hk'], abs_neg]
      refine (abs_sum_le_sum_abs _ _).trans ?_
      rw [mul_sum]
      refine sum_le_sum fun b hb => ?_
      rw [abs_mul]
      have := mul_le_mul_of_nonneg_right (h.hQ k hk' b (mem_range.1 hb)) (abs_nonneg (y b))
      linarith
    have h2 := mul_le_mul_of_nonneg_left (this.trans (mul_le_mul_of_nonneg_left hdy (h.d0 k hk'))) (abs_nonneg (J k j))
    linarith
  have h2 : ∑ k ∈ range n, |J k j| * |a k| ≤ (∑ k ∈ range n, d k * |J k j|) * (Real.sqrt n * en n (fun k => d k * y k)) := by
    rw [sum_mul]; exact sum_le_sum ha
  have h3 : |∑ k ∈ range n, J k j * ∑ b ∈ range n, (∑ l ∈ range n, M k l * M b l - Q k b) * y b| ≤
      3 * ε * (∑ k ∈ range n, R k * |y k|) * ∑ k ∈ range n, R k * |J k j| := by
    refine (abs_sum_le_sum_abs _ _).trans ?_
    rw [mul_sum]
    refine sum_le_sum fun k hk => ?_
    rw [abs_mul]
    have := mul_le_mul_of_nonneg_left (h.delta_sum k (mem_range.1 hk)) (abs_nonneg (J k j))
    linarith
  refine (abs_add_le _ _).trans ?_
  have hP0 : 0 ≤ ∑ k ∈ range n, R k * |y k| := sum_nonneg fun k hk => mul_nonneg (h.R0 k (mem_range.1 hk)) (abs_nonneg _)
  have hPJ0 : 0 ≤ ∑ k ∈ range n, R k * |J k j| := sum_nonneg fun k hk => mul_nonneg (h.R0 k (mem_range.1 hk)) (abs_nonneg _)
  generalize ∑ k ∈ range n, |J k j| * |a k| = s1 at *
  generalize |∑ k ∈ range n, J k j * ∑ b ∈ range n, (∑ l ∈ range n, M k l * M b l - Q k b) * y b| = s2 at *
  generalize ∑ k ∈ range n, R k * |y k| = py at *
  generalize ∑ k ∈ range n, R k * |J k j| = pj at *
  generalize ∑ k ∈ range n, d k * |J k j| = dj at *
  generalize en n (fun k => d k * y k) = Y at *
  generalize en n (fun k => d k * J k j) = c at *
  generalize 3 / 2 / Real.sqrt lam = C at *
  generalize Real.sqrt n = r at *
  have k1 : r * c ≤ r * C := mul_le_mul_of_nonneg_left hc hr
  have k2 : dj * (r * Y) ≤ r * C * (r * Y) := mul_le_mul_of_nonneg_right (hdJ.trans k1) (mul_nonneg hr hY)
  have k3 : py * pj ≤ (29 / 25 * (r * Y)) * (29 / 25 * (r * C)) := mul_le_mul hRy (hRJ.trans (by linarith)) hPJ0 (by positivity)
  have k4 := mul_le_mul_of_nonneg_left (h2.trans k2) hε
  have k5 := mul_le_mul_of_nonneg_left k3 hε
  have k6 : 0 ≤ ε * (r * C * (r * Y)) := mul_nonneg hε (mul_nonneg (mul_nonneg hr (hJ0.trans hc)) (mul_nonneg hr hY))
  nlinarith

theorem alpha_le (h : InvRun n M J Q d R a α x y τ ε κ T lam) {e : ℝ} (he0 : 0 ≤ e) (he : ∀ j < n, en n (fun i => err n M J i j) ≤ e) :
    en n α ≤ (1 + Real.sqrt n * e) * en n (vec n M y) + en n (rest n M J α y) := by
  have h1 : en n α ≤ en n (fun j => |vec n M y j| + |∑ l ∈ range n, err n M J l j * vec n M y l| + |rest n M J α y j|) :=
    en_mono fun j _ => by
      have e : α j = -vec n M y j + -(∑ l ∈ range n, err n M J l j * vec n M y l) + rest n M J α y j := by rw [rest]; ring
      conv_lhs => rw [e]
      refine (abs_add_le _ _).trans ?_
      have := abs_add_le (-vec n M y j) (-(∑ l ∈ range n, err n M J l j * vec n M y l))
      rw [abs_neg, abs_neg] at this
      linarith
  have habs : ∀ v : ℕ → ℝ, en n (fun j => |v j|) = en n v := fun v => by unfold en; simp only [sq_abs]
  have h2 := en_add (n := n) (fun j => |vec n M y j| + |∑ l ∈ range n, err n M J l j * vec n M y l|) (fun j => |rest n M J α y j|)
  have h3 := en_add (n := n) (fun j => |vec n M y j|) (fun j => |∑ l ∈ range n, err n M J l j * vec n M y l|)
  rw [habs] at h2 h3
  rw [habs] at h3
  have h4 := en_colsT he0 he (vec n M y)
  linarith

theorem back_eq (h : InvRun n M J Q d R a α x y τ ε κ T lam) {l : ℕ} (hl : l < n) :
    (∑ i ∈ range n, M i l * (x i - y i)) = -rest n M J α y l + (∑ i ∈ range n, err n M J i l * vec n M y i) + -(∑ k ∈ range n, err n M J l k * α k)
      + ∑ i ∈ range n, M i l * (x i + ∑ k ∈ range n, J i k * α k) := by
  have e1 : ∑ i ∈ range n, M i l * (x i + ∑ k ∈ range n, J i k * α k) = ∑ i ∈ range n, M i l * x i + ∑ k ∈ range n, (∑ i ∈ range n, M i l * J i k) * α k := by
    simp only [mul_add, sum_add_distrib, mul_sum, sum_mul]
    congr 1
    rw [sum_comm]
    exact sum_congr rfl fun k _ => sum_congr rfl fun i _ => by ring
  have e2 : ∑ k ∈ range n, (∑ i ∈ range n, M i l * J i k) * α k = α l + ∑ k ∈ range n, err n M J l k * α k := by
    have : ∀ k ∈ range n, (∑ i ∈ range n, M i l * J i k) * α k = (if l = k then α k else 0) + err n M J l k * α k := by
      intro k _
      rw [err]
      split_ifs <;> ring
    rw [sum_congr rfl this, sum_add_distrib, sum_ite_eq (range n) l, if_pos (mem_range.2 hl)]
  rw [e1, e2]
  simp only [mul_sub, sum_sub_distrib]
  have e3 : ∑ i ∈ range n, M i l * y i = vec n M y l := rfl
  rw [rest, e3]
  ring

theorem psi_le (h : InvRun n M J Q d R a α x y τ ε κ T lam) :
    en n (fun l => ∑ i ∈ range n, M i l * (x i + ∑ k ∈ range n, J i k * α k)) ≤
      29 / 25 * (ε * (Real.sqrt n * (Real.sqrt n * (3 / 2 / Real.sqrt lam)))) * en n α + κ * ∑ i ∈ range n, R i := by
  refine (en_rows' h.rows h.R0 _).trans ?_
  have h1 : ∑ i ∈ range n, R i * |x i + ∑ k ∈ range n, J i k * α k| ≤ ε * (∑ k ∈ range n, |α k| * ∑ i ∈ range n, R i * |J i k|) + κ * ∑ i ∈ range n, R i := by
    have e : ε * (∑ k ∈ range n, |α k| * ∑ i ∈ range n, R i * |J i k|) = ∑ i ∈ range n, R i * (ε * ∑ k ∈ range n, |J i k| * |α k|) := by
      simp only [mul_sum]
      rw [sum_comm]
      exact sum_congr rfl fun i _ => sum_congr rfl fun k _ => by ring
    rw [e, mul_sum, ← sum_add_distrib]
    refine sum_le_sum fun i hi => ?_
    have := mul_le_mul_of_nonneg_left (h.hx i (mem_range.1 hi)) (h.R0 i (mem_range.1 hi))
    linarith
  refine h1.trans ?_
  have h2 : ∑ k ∈ range n, |α k| * ∑ i ∈ range n, R i * |J i k| ≤ (∑ k ∈ range n, |α k|) * (29 / 25 * (Real.sqrt n * (3 / 2 / Real.sqrt lam))) := by
    rw [sum_mul]
    refine sum_le_sum fun k hk => mul_le_mul_of_nonneg_left ?_ (abs_nonneg _)
    refine (h.sum_R fun i => J i k).trans ?_
    have := mul_le_mul_of_nonneg_left (h.col_le' (mem_range.1 hk)) (Real.sqrt_nonneg n)
    linarith
  have hC : 0 ≤ 29 / 25 * (Real.sqrt n * (3 / 2 / Real.sqrt lam)) := by positivity
  have h3 := mul_le_mul_of_nonneg_right (sum_le_en (n := n) α) hC
  have h4 := mul_le_mul_of_nonneg_left (h2.trans h3) h.ε0
  linarith

theorem final_num {lam s r ε T κ N C Y V A G P X Z SR e : ℝ} (hs0 : 0 < s) (hs1 : s ≤ 1) (hs : s ^ 2 = lam) (hr1 : 1 ≤ r) (hr : r ^ 2 = N) (hε0 : 0 ≤ ε)
    (hε : 12 * N * ε ≤ lam) (hT : 0 ≤ T) (hNT : N * T ≤ 1 / 20) (hκ : 0 ≤ κ) (hC : s * C = 3 / 2) (hY : 0 ≤ Y) (hSR : 0 ≤ SR) (he : e = 29 / 25 * (ε * (r * C)) + T)
    (hV0 : 0 ≤ V) (hV : V ≤ 29 / 25 * (r * Y)) (hG : G ≤ r * (127 / 25 * (ε * (r * (r * C))) * Y + κ)) (hA0 : 0 ≤ A) (hA : A ≤ (1 + r * e) * V + G)
    (hP : P ≤ 29 / 25 * (ε * (r * (r * C))) * A + κ * SR) (hZ0 : 0 ≤ Z) (hZ : Z ≤ G + r * e * V + r * e * A + P) (hX0 : 0 ≤ X) (hX : 2 / 3 * lam * X ^ 2 ≤ Z ^ 2) :
    lam * X ≤ 21 * ε * N * r * Y + 4 * N * T * Y + 2 * (κ * r) + 5 / 4 * (κ * SR) := by
  obtain ⟨g, hg⟩ : ∃ g, g = ε * (r * (r * C)) := ⟨_, rfl⟩
  rw [← hg] at hG hP
  have hsg : s * g = 3 / 2 * (ε * N) := by rw [hg, ← hr]; linear_combination ε * r ^ 2 * hC
  have hC0 : 0 ≤ C := by
    by_contra hcon
    have := not_le.1 hcon
    nlinarith
  have hr0 : 0 ≤ r := by linarith
  have hg0 : 0 ≤ g := by rw [hg]; positivity
  have hg1 : 8 * g ≤ 1 := by
    have h1 : 8 * (s * g) ≤ s * s := by rw [hsg]; nlinarith
    have h2 : 8 * g ≤ s := by
      have : s * (8 * g) ≤ s * s := by linarith
      exact le_of_mul_le_mul_left this hs0
    linarith
  have hrT : r * T ≤ 1 / 20 := by
    have : r * T ≤ N * T := mul_le_mul_of_nonneg_right (by nlinarith) hT
    linarith
  have hrT0 : 0 ≤ r * T := mul_nonneg hr0 hT
  have hre : r * e = 29 / 25 * g + r * T := by rw [he, hg]; ring
  rw [hre] at hA hZ
  obtain ⟨f, hf⟩ : ∃ f, f = r * T := ⟨_, rfl⟩
  rw [← hf] at hA hZ hrT hrT0
  obtain ⟨w, hw⟩ : ∃ w, w = r * Y := ⟨_, rfl⟩
  obtain ⟨k, hk⟩ : ∃ k, k = κ * r := ⟨_, rfl⟩
  have hw0 : 0 ≤ w := by rw [hw]; exact mul_nonneg hr0 hY
  have hk0 : 0 ≤ k := by rw [hk]; exact mul_nonneg hκ hr0
  rw [← hw] at hV
  have hG' : G ≤ 127 / 25 * (g * w) + k := by rw [hw, hk]; linarith
  have hgw : 0 ≤ g * w := mul_nonneg hg0 hw0
  have hgw1 : 8 * (g * w) ≤ w := by nlinarith
  have hA' : A ≤ 21 / 10 * w + k := by
    have h1 : (1 + (29 / 25 * g + f)) * V ≤ 6 / 5 * V := mul_le_mul_of_nonneg_right (by linarith) hV0
    linarith
  have h1 : (29 / 25 * g + f) * (V + A) ≤ (29 / 25 * g + f) * (163 / 50 * w + k) :=
    mul_le_mul_of_nonneg_left (by linarith) (by linarith)
  have h2 : g * A ≤ g * (21 / 10 * w + k) := mul_le_mul_of_nonneg_left hA' hg0
  have h3 : g * k ≤ 1 / 8 * k := mul_le_mul_of_nonneg_right (by linarith) hk0
  have h4 : f * k ≤ 1 / 20 * k := mul_le_mul_of_nonneg_right hrT hk0
  have hZ' : Z ≤ 113 / 10 * (g * w) + 163 / 50 * (f * w) + 8 / 5 * k + κ * SR := by linarith
  have h5 : s * X ≤ 49 / 40 * Z := by
    refine (abs_le_of_sq_le_sq' ?_ (by linarith)).2
    rw [mul_pow, hs, mul_pow]
    have : 0 ≤ Z ^ 2 := sq_nonneg Z
    have h' : 2 / 3 * (lam * X ^ 2) ≤ Z ^ 2 := by rw [← mul_assoc]; exact hX
    clear hX hZ hZ' h1 h2 hA hP hG
    linarith
  have h6 := mul_le_mul_of_nonneg_left h5 hs0.le
  have h7 := mul_le_mul_of_nonneg_left hZ' hs0.le
  have e1 : s * (g * w) = 3 / 2 * (ε * N * r * Y) := by rw [hw]; linear_combination r * Y * hsg
  have e2 : f * w = N * T * Y := by rw [hf, hw, ← hr]; ring
  have e3 : s * (s * X) = lam * X := by rw [← hs]; ring
  have h8 : s * (f * w) ≤ f * w := by
    exact mul_le_of_le_one_left (mul_nonneg hrT0 hw0) hs1
  have h9 : s * k ≤ k := mul_le_of_le_one_left hk0 hs1
  have h10 : s * (κ * SR) ≤ κ * SR := mul_le_of_le_one_left (mul_nonneg hκ hSR) hs1
  have h11 : 0 ≤ ε * N * r * Y := by
    have : 0 ≤ N := by rw [← hr]; positivity
    positivity
  have h12 : 0 ≤ N * T * Y := by rw [← e2]; exact mul_nonneg hrT0 hw0
  have h13 := mul_nonneg hκ hSR
  rw [e3] at h6
  rw [← hk]
  have h14 : 0 ≤ f * w := mul_nonneg hrT0 hw0
  rw [← e2] at h12
  have h15 : 4 * N * T * Y = 4 * (f * w) := by rw [e2]; ring
  have h16 : 21 * ε * N * r * Y = 21 * (ε * N * r * Y) := by ring
  rw [h15, h16]
  have h17 : s * (113 / 10 * (g * w) + 163 / 50 * (f * w) + 8 / 5 * k + κ * SR) =
      113 / 10 * (s * (g * w)) + 163 / 50 * (s * (f * w)) + 8 / 5 * (s * k) + s * (κ * SR) := by ring
  rw [h17, e1] at h7
  linarith

/-- Distance of the point computed to the minimiser. -/
theorem error (h : InvRun n M J Q d R a α x y τ ε κ T lam) :
    lam * en n (fun k => d k * (x k - y k)) ≤ 21 * ε * n * Real.sqrt n * en n (fun k => d k * y k) + 4 * n * T * en n (fun k => d k * y k)
      + 2 * (κ * Real.sqrt n) + 5 / 4 * (κ * ∑ i ∈ range n, R i) := by
  have hs0 := Real.sqrt_pos.2 h.lam0
  have hn : (1 : ℝ) ≤ n := by exact_mod_cast h.n1
  have hC0 : 0 ≤ 3 / 2 / Real.sqrt lam := by positivity
  have he0 : 0 ≤ 29 / 25 * (ε * (Real.sqrt n * (3 / 2 / Real.sqrt lam))) + T := by
    have := h.ε0
    have := h.T0
    positivity
  have hG : en n (rest n M J α y) ≤
      Real.sqrt n * (127 / 25 * (ε * (Real.sqrt n * (Real.sqrt n * (3 / 2 / Real.sqrt lam)))) * en n (fun k => d k * y k) + κ) := by
    refine en_le_const ?_ fun j hj => h.rest_le hj
    have := h.ε0
    have := h.κ0
    have := en_nonneg (n := n) (fun k => d k * y k)
    positivity
  have hA := h.alpha_le he0 fun j hj => h.err_le' hj
  have hZ : en n (fun l => ∑ i ∈ range n, M i l * (x i - y i)) ≤ en n (rest n M J α y) +
      Real.sqrt n * (29 / 25 * (ε * (Real.sqrt n * (3 / 2 / Real.sqrt lam))) + T) * en n (vec n M y) +
      Real.sqrt n * (29 / 25 * (ε * (Real.sqrt n * (3 / 2 / Real.sqrt lam))) + T) * en n α +
      en n (fun l => ∑ i ∈ range n, M i l * (x i + ∑ k ∈ range n, J i k * α k)) := by
    have hneg : ∀ v : ℕ → ℝ, en n (fun j => -v j) = en n v := fun v => by unfold en; simp only [neg_sq]
    have h1 : en n (fun l => ∑ i ∈ range n, M i l * (x i - y i)) = en n (fun l => -rest n M J α y l + (∑ i ∈ range n, err n M J i l * vec n M y i) +
        -(∑ k ∈ range n, err n M J l k * α k) + ∑ i ∈ range n, M i l * (x i + ∑ k ∈ range n, J i k * α k)) := by
      unfold en
      congr 1
      refine sum_congr rfl fun l hl => ?_
      show (∑ i ∈ range n, M i l * (x i - y i)) ^ 2 = _
      rw [h.back_eq (mem_range.1 hl)]
    rw [h1]
    have h2 := en_add (n := n) (fun l => -rest n M J α y l + (∑ i ∈ range n, err n M J i l * vec n M y i) + -(∑ k ∈ range n, err n M J l k * α k))
      (fun l => ∑ i ∈ range n, M i l * (x i + ∑ k ∈ range n, J i k * α k))
    have h3 := en_add (n := n) (fun l => -rest n M J α y l + (∑ i ∈ range n, err n M J i l * vec n M y i)) (fun l => -(∑ k ∈ range n, err n M J l k * α k))
    have h4 := en_add (n := n) (fun l => -rest n M J α y l) (fun l => ∑ i ∈ range n, err n M J i l * vec n M y i)
    rw [hneg] at h3 h4
    have h5 := en_colsT he0 (fun j hj => h.err_le' hj) (vec n M y)
    have h6 := en_cols he0 (fun j hj => h.err_le' hj) α
    linarith
  exact final_num hs0 (Real.sqrt_le_one.2 h.lam1) (Real.sq_sqrt h.lam0.le) (Real.one_le_sqrt.2 hn) (Real.sq_sqrt (by linarith)) h.ε0 h.hε h.T0 h.nT h.κ0
    (by field_simp) (en_nonneg _) (sum_nonneg fun i hi => h.R0 i (mem_range.1 hi)) rfl (en_nonneg _) h.vec_le hG (en_nonneg _) hA h.psi_le (en_nonneg _) hZ
    (en_nonneg _) (h.dn_le fun k => x k - y k)

end InvRun

end JrlQp
