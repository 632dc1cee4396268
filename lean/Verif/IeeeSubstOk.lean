import Verif.PropsIeeeMinOk

/-!
# No overflow in the computation of the unconstrained minimum
-/

namespace JrlQp

open Finset

/-- A lower triangular real matrix whose product with its transpose is bounded below by the diagonal matrix `d²`. -/
structure TriLow (n : ℕ) (M : ℕ → ℕ → ℝ) (d : ℕ → ℝ) (μ : ℝ) : Prop where
  tri : ∀ i l, i < l → M i l = 0
  diag : ∀ i < n, 0 < M i i
  d0 : ∀ i, 0 ≤ d i
  margin : ∀ v : ℕ → ℝ, μ * (∑ i ∈ range n, d i ^ 2 * v i ^ 2) ≤ ∑ l ∈ range n, (∑ j ∈ range n, M j l * v j) ^ 2

variable {n : ℕ} {M : ℕ → ℕ → ℝ} {d : ℕ → ℝ} {μ : ℝ}

/-- Solution of a leading triangular system, extended by zero. -/
theorem TriLow.lead (h : TriLow n M d μ) {k : ℕ} (hk : k ≤ n) (b : ℕ → ℝ) :
    ∃ v : ℕ → ℝ, (∀ j, k ≤ j → v j = 0) ∧ (∀ l < k, ∑ j ∈ range n, M j l * v j = b l) ∧ ∀ l, k ≤ l → ∑ j ∈ range n, M j l * v j = 0 := by
  have hs := backSub_spec (fun i j => M j i) k b (fun i hi => (h.diag i (by omega)).ne')
  refine ⟨fun j => if j < k then backSub (fun i j => M j i) k b j else 0, fun j hj => if_neg (by omega), fun l hl => ?_, fun l hl => ?_⟩
  · rw [← hs l hl]
    rw [sum_cut hk _ (fun j hj _ => by dsimp only; rw [if_neg (by omega), mul_zero])]
    refine sum_congr rfl fun j hj => ?_
    have hj := mem_range.1 hj
    dsimp only
    rw [if_pos hj]
    split_ifs with hlj
    · rfl
    · rw [h.tri j l (by omega)]
  · refine sum_eq_zero fun j _ => ?_
    dsimp only
    split_ifs with hj
    · rw [h.tri j l (by omega), zero_mul]
    · rw [mul_zero]

/-- The trailing part: the Schur complement is bounded below too. -/
theorem TriLow.trail (h : TriLow n M d μ) (hμ : 0 ≤ μ) {k : ℕ} (hk : k ≤ n) {w : ℕ → ℝ} (hw : ∀ j < k, w j = 0) :
    μ * (∑ i ∈ range n, d i ^ 2 * w i ^ 2) ≤ ∑ l ∈ range n, if k ≤ l then (∑ j ∈ range n, M j l * w j) ^ 2 else 0 := by
  obtain ⟨v, h1, h2, h3⟩ := h.lead hk (fun l => -∑ j ∈ range n, M j l * w j)
  have hm := h.margin (fun j => v j + w j)
  have e : ∀ l, ∑ j ∈ range n, M j l * (v j + w j) = (∑ j ∈ range n, M j l * v j) + ∑ j ∈ range n, M j l * w j := fun l => by
    rw [← sum_add_distrib]; exact sum_congr rfl fun j _ => by ring
  have e1 : ∑ l ∈ range n, (∑ j ∈ range n, M j l * (v j + w j)) ^ 2 =
      ∑ l ∈ range n, if k ≤ l then (∑ j ∈ range n, M j l * w j) ^ 2 else 0 := by
    refine sum_congr rfl fun l _ => ?_
    rw [e]
    split_ifs with hl
    · rw [h3 l hl, zero_add]
    · rw [h2 l (by omega)]; ring
  rw [e1] at hm
  refine le_trans (mul_le_mul_of_nonneg_left (sum_le_sum fun i _ => ?_) hμ) hm
  rcases Nat.lt_or_ge i k with hi | hi
  · rw [hw i hi]
    have := mul_nonneg (sq_nonneg (d i)) (sq_nonneg (v i + 0))
    simpa using this
  · rw [h1 i hi, zero_add]

/-- A lower bound of the diagonal. -/
theorem TriLow.diag_ge (h : TriLow n M d μ) (hμ : 0 ≤ μ) {i : ℕ} (hi : i < n) : μ * d i ^ 2 ≤ M i i ^ 2 := by
  have := h.trail hμ hi.le (w := fun j => if j = i then 1 else 0) (fun j hj => if_neg (by omega))
  have e1 : ∑ j ∈ range n, d j ^ 2 * (if j = i then (1 : ℝ) else 0) ^ 2 = d i ^ 2 := by
    rw [sum_eq_single i (fun b _ hb => by rw [if_neg hb]; ring) (fun hc => absurd (mem_range.2 hi) hc)]
    simp
  have e2 : ∀ l, ∑ j ∈ range n, M j l * (if j = i then (1 : ℝ) else 0) = M i l := fun l => by
    rw [sum_eq_single i (fun b _ hb => by rw [if_neg hb]; ring) (fun hc => absurd (mem_range.2 hi) hc)]
    simp
  have e3 : ∑ l ∈ range n, (if i ≤ l then (∑ j ∈ range n, M j l * (if j = i then (1 : ℝ) else 0)) ^ 2 else 0) = M i i ^ 2 := by
    simp only [e2]
    rw [sum_eq_single i (fun b _ hb => ?_) (fun hc => absurd (mem_range.2 hi) hc)]
    · simp
    · split_ifs with hl
      · rw [h.tri i b (by omega)]; ring
      · rfl
  rw [e1, e3] at this
  exact this

/-- Norm of the solution of a leading lower triangular system. -/
theorem TriLow.fwd (h : TriLow n M d μ) (hμ : 0 < μ) {k : ℕ} (hk : k ≤ n) {y : ℕ → ℝ} (hy : ∀ l, k ≤ l → y l = 0) {β : ℝ} (hβ : 0 ≤ β)
    (hb : ∀ j < k, |∑ l ∈ range n, M j l * y l| ≤ β * d j) : μ * (∑ l ∈ range n, y l ^ 2) ≤ n * β ^ 2 := by
  obtain ⟨v, h1, h2, h3⟩ := h.lead hk y
  have hm := h.margin v
  have e : ∀ l, ∑ j ∈ range n, M j l * v j = y l := fun l => by
    rcases Nat.lt_or_ge l k with hl | hl
    · exact h2 l hl
    · rw [h3 l hl, hy l hl]
  simp only [e] at hm
  have e1 : ∑ l ∈ range n, y l ^ 2 = ∑ j ∈ range n, v j * ∑ l ∈ range n, M j l * y l := by
    have : ∀ l ∈ range n, y l ^ 2 = ∑ j ∈ range n, y l * (M j l * v j) := fun l _ => by
      rw [← mul_sum, e]; ring
    rw [sum_congr rfl this, sum_comm]
    refine sum_congr rfl fun j _ => ?_
    rw [mul_sum]
    exact sum_congr rfl fun l _ => by ring
  have e2 : ∑ l ∈ range n, y l ^ 2 ≤ β * ∑ j ∈ range n, d j * |v j| := by
    rw [e1, mul_sum]
    refine sum_le_sum fun j _ => ?_
    rcases Nat.lt_or_ge j k with hj | hj
    · refine (le_abs_self _).trans ?_
      rw [abs_mul]
      have := mul_le_mul_of_nonneg_left (hb j hj) (abs_nonneg (v j))
      linarith
    · rw [h1 j hj]; simp
  have e3 : (∑ j ∈ range n, d j * |v j|) ^ 2 ≤ n * ∑ j ∈ range n, d j ^ 2 * v j ^ 2 := by
    have := sum_mul_sq_le_sq_mul_sq (range n) (fun _ => (1 : ℝ)) (fun j => d j * |v j|)
    simpa [mul_pow] using this
  generalize ∑ l ∈ range n, y l ^ 2 = Y at *
  generalize ∑ j ∈ range n, d j ^ 2 * v j ^ 2 = V at *
  have hA : 0 ≤ ∑ j ∈ range n, d j * |v j| := sum_nonneg fun j _ => mul_nonneg (h.d0 j) (abs_nonneg _)
  generalize ∑ j ∈ range n, d j * |v j| = A at *
  rcases le_or_gt Y 0 with hY | hY
  · have : 0 ≤ (n : ℝ) * β ^ 2 := by positivity
    nlinarith
  · -- Y² ≤ β² A² ≤ β² n V ≤ β² n Y / μ
    have h4 : Y ^ 2 ≤ β ^ 2 * (n * V) := by
      have := pow_le_pow_left₀ hY.le e2 2
      rw [mul_pow] at this
      exact this.trans (mul_le_mul_of_nonneg_left e3 (by positivity))
    have h5 : μ * Y ^ 2 ≤ β ^ 2 * n * Y := by
      have := mul_le_mul_of_nonneg_left h4 hμ.le
      have h6 := mul_le_mul_of_nonneg_left hm (show 0 ≤ β ^ 2 * n by positivity)
      linarith
    have : (μ * Y) * Y ≤ (n * β ^ 2) * Y := by linarith
    exact le_of_mul_le_mul_right this hY

/-- Norm of the solution of a trailing upper triangular system. -/
theorem TriLow.bwd (h : TriLow n M d μ) (hμ : 0 ≤ μ) {k : ℕ} (hk : k ≤ n) {z y : ℕ → ℝ} (hz : ∀ j < k, z j = 0) {b : ℝ} (hb0 : 0 ≤ b)
    (hb : ∀ l, k ≤ l → l < n → |y l - ∑ j ∈ range n, M j l * z j| ≤ b) :
    μ * (∑ i ∈ range n, d i ^ 2 * z i ^ 2) ≤ (Real.sqrt (∑ l ∈ range n, y l ^ 2) + Real.sqrt n * b) ^ 2 := by
  refine (h.trail hμ hk hz).trans ?_
  have h1 : ∑ l ∈ range n, (if k ≤ l then (∑ j ∈ range n, M j l * z j) ^ 2 else 0) ≤ ∑ l ∈ range n, (|y l| + b) ^ 2 := by
    refine sum_le_sum fun l hl => ?_
    split_ifs with hkl
    · have h2 := hb l hkl (mem_range.1 hl)
      have h3 : |∑ j ∈ range n, M j l * z j| ≤ |y l| + b := by
        have := abs_sub_abs_le_abs_sub (∑ j ∈ range n, M j l * z j) (y l)
        rw [abs_sub_comm] at this
        linarith
      rw [← sq_abs]
      exact pow_le_pow_left₀ (abs_nonneg _) h3 2
    · positivity
  refine h1.trans ?_
  have hn : Real.sqrt n ^ 2 = n := Real.sq_sqrt (Nat.cast_nonneg n)
  have h2 : Real.sqrt (∑ l ∈ range n, y l ^ 2) ^ 2 = ∑ l ∈ range n, y l ^ 2 := Real.sq_sqrt (sum_nonneg fun l _ => sq_nonneg _)
  have h3 : ∑ l ∈ range n, |y l| ≤ Real.sqrt n * Real.sqrt (∑ l ∈ range n, y l ^ 2) := by
    have := Real.sum_mul_le_sqrt_mul_sqrt (range n) (fun _ => (1 : ℝ)) (fun j => |y j|)
    simpa using this
  have e : ∑ l ∈ range n, (|y l| + b) ^ 2 = ∑ l ∈ range n, y l ^ 2 + 2 * b * (∑ l ∈ range n, |y l|) + n * b ^ 2 := by
    have : ∀ l ∈ range n, (|y l| + b) ^ 2 = y l ^ 2 + 2 * b * |y l| + b ^ 2 := fun l _ => by
      have := sq_abs (y l)
      linear_combination this
    rw [sum_congr rfl this, sum_add_distrib, sum_add_distrib, ← mul_sum]
    simp
  rw [e]
  have h4 := mul_le_mul_of_nonneg_left h3 (show 0 ≤ 2 * b by linarith)
  nlinarith

end JrlQp

namespace JrlQp
namespace Ieee

open NumOps Finset

variable {F : Fmt} {n : ℕ} {G L : ℕ → ℕ → Fl F} {m lam : ℝ}

theorem under_le {ε κ η m N a b : ℝ} (hs : Small ε κ m) (hκ : κ = (1 + ε) * η * (N + 2)) (hη : 0 ≤ η) (hη' : η ≤ 1 / 4) (hN : 0 ≤ N) (ha : 0 ≤ a) (hb : 0 ≤ b)
    (hma : 3 / 4 * m ≤ a ^ 2) (hmb : 3 / 4 * m ≤ b ^ 2) :
    (1 + ε) * η * (N + 2 * a + 2 * b + η) ≤ 2 * ε * (a * b) := by
  have b1 := absorb hs ha hb hma hmb
  have b2 := absorb hs hb ha hmb hma
  have hε := hs.ε0
  have b4 : 0 ≤ N * a := mul_nonneg hN ha
  have b5 : 0 ≤ N * b := mul_nonneg hN hb
  have b6 : N + 2 * a + 2 * b + η ≤ (N + 2) * (1 + a) + (N + 2) * (1 + b) := by nlinarith
  have b7 := mul_le_mul_of_nonneg_left b6 (show 0 ≤ (1 + ε) * η by positivity)
  rw [hκ] at b1 b2
  nlinarith

/-- Distance of the matrix factorised to the matrix given. -/
theorem SafeHessian.entry (h : SafeHessian F n G m lam) (hc : Close n G (gram n L)) {i j : ℕ} (hi : i < n) (hj : j < n) :
    |gram n L i j - hessVal G i j| ≤ 3 * relErr F n * (Real.sqrt (gram n L i i) * Real.sqrt (gram n L j j)) := by
  have hn : 0 < n := by omega
  have h1 := hc.entry (gram_comm n L) hi hj
  rw [Real.sqrt_mul (gram_diag_nonneg L)] at h1
  have hd := fun j (hj : j < n) => (h.diag (H := gram n L) (fun i _ => gram_diag_nonneg L) hc hj).2
  have hm : ∀ j < n, 3 / 4 * m ≤ Real.sqrt (gram n L j j) ^ 2 := fun j hj => by
    have := hd j hj; have := h.low j hj; linarith
  have h2 := under_le ((h.wellPosed hn).small hn) rfl eta_pos.le eta_le (Nat.cast_nonneg n) (Real.sqrt_nonneg _) (Real.sqrt_nonneg _) (hm i hi) (hm j hj)
  linarith

theorem margin_real {R D v : ℕ → ℝ} {A Q : ℕ → ℕ → ℝ} {ε : ℝ} (hε : 0 ≤ ε) (hlam : 12 * n * ε ≤ lam) (hR : ∀ i < n, 0 ≤ R i ∧ 3 / 4 * R i ^ 2 ≤ D i ^ 2)
    (hA : ∀ i < n, ∀ j < n, |A i j - Q i j| ≤ 3 * ε * (R i * R j))
    (hQ : lam * (∑ i ∈ range n, D i ^ 2 * v i ^ 2) ≤ ∑ i ∈ range n, ∑ j ∈ range n, v i * Q i j * v j) :
    2 / 3 * lam * (∑ i ∈ range n, D i ^ 2 * v i ^ 2) ≤ ∑ i ∈ range n, ∑ j ∈ range n, v i * A i j * v j := by
  have h1 : (∑ i ∈ range n, ∑ j ∈ range n, v i * Q i j * v j) - (∑ i ∈ range n, ∑ j ∈ range n, v i * A i j * v j)
      ≤ 3 * ε * (∑ i ∈ range n, R i * |v i|) ^ 2 := by
    rw [pow_two, sum_mul_sum, mul_sum, ← sum_sub_distrib]
    refine sum_le_sum fun i hi => ?_
    rw [mul_sum, ← sum_sub_distrib]
    refine sum_le_sum fun j hj => ?_
    have h2 := hA i (mem_range.1 hi) j (mem_range.1 hj)
    have e : v i * Q i j * v j - v i * A i j * v j = -((A i j - Q i j) * (v i * v j)) := by ring
    rw [e]
    refine (neg_le_abs _).trans ?_
    rw [abs_mul, abs_mul]
    have := mul_le_mul_of_nonneg_right h2 (mul_nonneg (abs_nonneg (v i)) (abs_nonneg (v j)))
    linarith
  have h2 : (∑ i ∈ range n, R i * |v i|) ^ 2 ≤ n * ∑ i ∈ range n, R i ^ 2 * v i ^ 2 := by
    have := sum_mul_sq_le_sq_mul_sq (range n) (fun _ => (1 : ℝ)) (fun j => R j * |v j|)
    simpa [mul_pow] using this
  have h3 : ∑ i ∈ range n, R i ^ 2 * v i ^ 2 ≤ 4 / 3 * ∑ i ∈ range n, D i ^ 2 * v i ^ 2 := by
    rw [mul_sum]
    refine sum_le_sum fun i hi => ?_
    have := mul_le_mul_of_nonneg_right (hR i (mem_range.1 hi)).2 (sq_nonneg (v i))
    linarith
  have h4 : 0 ≤ ∑ i ∈ range n, D i ^ 2 * v i ^ 2 := sum_nonneg fun i _ => by positivity
  have h5 := mul_le_mul_of_nonneg_left h3 (Nat.cast_nonneg (α := ℝ) n)
  have h6 := mul_le_mul_of_nonneg_left (h2.trans h5) (show 0 ≤ 3 * ε by positivity)
  have h7 := mul_le_mul_of_nonneg_right hlam h4
  nlinarith

theorem SafeHessian.triLow (h : SafeHessian F n G m lam) (hn : 0 < n) (hc : Close n G (gram n L)) (hd : ∀ i < n, 0 < (L i i).val) :
    TriLow n (lowVal L) (fun i => Real.sqrt (G i i).val) (2 / 3 * lam) := by
  refine ⟨fun i l hil => by rw [lowVal, if_neg (by omega)], fun i hi => by rw [lowVal, if_pos le_rfl]; exact hd i hi,
    fun i => Real.sqrt_nonneg _, fun v => ?_⟩
  have e1 : ∑ l ∈ range n, (∑ j ∈ range n, lowVal L j l * v j) ^ 2 = ∑ i ∈ range n, ∑ j ∈ range n, v i * gram n L i j * v j := by
    rw [quad_factor (F := lowVal L) (M := gram n L) (fun i _ j _ => rfl) v]
    exact sum_congr rfl fun l _ => pow_two _
  rw [e1]
  have hG : ∀ i < n, Real.sqrt (G i i).val ^ 2 = (G i i).val := fun i hi => Real.sq_sqrt (h.m0.le.trans (h.low i hi))
  refine margin_real (R := fun i => Real.sqrt (gram n L i i)) (relErr_nonneg (F := F) (n := n)) (h.wellPosed hn).lam.le
    (fun i hi => ⟨Real.sqrt_nonneg _, ?_⟩) (fun i hi j hj => h.entry hc hi hj) ?_
  · rw [hG i hi]
    exact (h.diag (H := gram n L) (fun i _ => gram_diag_nonneg L) hc hi).1
  · have := h.margin v
    rw [sum_congr rfl fun i hi => by rw [hG i (mem_range.1 hi)]]
    exact this

theorem WellPosed.qf_le (h : WellPosed F n G m lam) (hn : 0 < n) : qf F ^ (n + 2) ≤ 13 / 12 := by
  have := h.err_le hn
  unfold relErr at this
  linarith

theorem WellPosed.u_le (h : WellPosed F n G m lam) (hn : 0 < n) : 1 + u F ≤ 13 / 12 := by
  refine (one_add_u_le_qf (F := F)).trans (le_trans ?_ (h.qf_le hn))
  exact le_self_pow₀ one_le_qf (by omega)

theorem WellPosed.eta_n (h : WellPosed F n G m lam) (hn : 0 < n) : (1 + relErr F n) * eta F * (n + 2) ≤ 1 / 48 := by
  have h5 := h.under
  have h6 : relErr F n * m ≤ 1 / 12 := by
    have := mul_le_mul (h.err_le hn) h.m1 h.m0.le (by norm_num : (0:ℝ) ≤ 1/12)
    linarith
  linarith

theorem WellPosed.subMag_le (h : WellPosed F n G m lam) {k : ℕ} (hk : k < n) {S : ℝ} (hS0 : 0 ≤ S) :
    subMag F k S ≤ (13 / 12) ^ 3 * (S + 1 / 48) := by
  have hn : 0 < n := by omega
  have he := eta_pos (F := F)
  have hε0 := relErr_nonneg (F := F) (n := n)
  have hu := u_pos (F := F)
  have hq := one_add_u_le_qf (F := F)
  have hkn : (k : ℝ) ≤ n := by exact_mod_cast hk.le
  have hkη : (k : ℝ) * eta F ≤ 1 / 48 := by
    have h5 := h.eta_n hn
    have h7 : (k : ℝ) * eta F ≤ (n + 2) * eta F := mul_le_mul_of_nonneg_right (by linarith) he.le
    have : 0 ≤ relErr F n * (eta F * (n + 2)) := by positivity
    nlinarith
  have hp : (1 + u F) ^ (3 * k + 1) ≤ (13 / 12) ^ 3 := by
    calc (1 + u F) ^ (3 * k + 1) ≤ qf F ^ (3 * k + 1) := pow_le_pow_left₀ (by linarith) hq _
      _ ≤ qf F ^ (3 * (n + 2)) := pow_le_pow_right₀ one_le_qf (by omega)
      _ = (qf F ^ (n + 2)) ^ 3 := by rw [mul_comm, pow_mul]
      _ ≤ (13 / 12) ^ 3 := pow_le_pow_left₀ (by have := one_le_qf (F := F); positivity) (h.qf_le hn) 3
  unfold subMag
  exact mul_le_mul hp (by linarith) (by positivity) (by positivity)

/-- A quotient `(y - Σ c x) / s` which does not overflow. -/
theorem quot_fin (hw : WellPosed F n G m lam) (st : Site) (c x : Nat → Fl F) (y s : Fl F) {k : ℕ} (hk : k < n) (hy : y.Finite)
    (hf : ∀ i < k, (c i).Finite ∧ (x i).Finite) (hs : s.Finite) (hs0 : 0 < s.val)
    (h1 : |y.val| + ∑ i ∈ range k, |(c i).val| * |(x i).val| ≤ top F / 2)
    (h2 : |y.val| + (∑ i ∈ range k, |(c i).val| * |(x i).val|) + 1 / 48 ≤ s.val * (top F / 2)) :
    (esub st y (fun i => c i * x i) k / s).Finite := by
  have hS0 : 0 ≤ |y.val| + ∑ i ∈ range k, |(c i).val| * |(x i).val| := add_nonneg (abs_nonneg _) (sum_nonneg fun i _ => by positivity)
  have hn : 0 < n := by omega
  have hlt : subMag F k (|y.val| + ∑ i ∈ range k, |(c i).val| * |(x i).val|) < top F := by
    have := hw.subMag_lt hk hS0 (by rw [top_quarter]; linarith)
    have := two_le_top (F := F)
    linarith
  obtain ⟨h3, h4⟩ := esub_fin st c x y k hy hf hlt
  have h5 := h4.trans (hw.subMag_le hk hS0)
  generalize |y.val| + ∑ i ∈ range k, |(c i).val| * |(x i).val| = S at *
  apply div_fin h3 hs hs0.ne'
  rw [rq_abs]
  refine lt_of_le_of_lt (rnd_le (abs_nonneg _)) ?_
  rw [abs_div, abs_of_pos hs0]
  generalize |(esub st y (fun i => c i * x i) k).val| = w at *
  have h6 : w / s.val ≤ (13 / 12) ^ 3 * (top F / 2) := by
    rw [div_le_iff₀ hs0]
    have := mul_le_mul_of_nonneg_left h2 (show (0 : ℝ) ≤ (13 / 12) ^ 3 by norm_num)
    linarith
  have h7 := two_le_top (F := F)
  have h8 := eta_le (F := F)
  have h9 := hw.u_le hn
  have h10 := u_pos (F := F)
  have h11 : (1 + u F) * (w / s.val) ≤ 13 / 12 * ((13 / 12) ^ 3 * (top F / 2)) := by
    refine (mul_le_mul_of_nonneg_left h6 (by linarith)).trans (mul_le_mul_of_nonneg_right h9 (by positivity))
  linarith

/-- The gradient at 0 is not too large: `α` bounds it in the scale of the Hessian. -/
structure SafeGradient (F : Fmt) (n : ℕ) (G : ℕ → ℕ → Fl F) (a : ℕ → Fl F) (m lam α : ℝ) : Prop where
  fin : ∀ i < n, (a i).Finite
  one_le : 1 ≤ α
  bound : ∀ i < n, |(a i).val| ≤ α * Real.sqrt (G i i).val
  range : 25 * α * (n / lam) ^ 3 ≤ Real.sqrt m * Real.sqrt (2 ^ (F.emax + 1))

/-- A standard format: the smallest positive number and the largest one are about inverse of each other. -/
def Fmt.Std (F : Fmt) : Prop := F.emin + F.emax ≤ 1

theorem fwd_num {N ε α Y : ℝ} (hε : 0 ≤ ε) (hlam : 12 * N * ε ≤ lam) (hl1 : lam ≤ 1) (hN : 1 ≤ N) (hα : 1 ≤ α) (hY : 0 ≤ Y)
    (h : 2 / 3 * lam * Y ^ 2 ≤ N * (α + 29 / 25 * ε * (Y + 1)) ^ 2) : lam * Y ≤ 2 * (N * α) := by
  have hl0 : 0 ≤ lam := le_trans (by positivity) hlam
  have h1 : (4 / 5 * lam * Y) ^ 2 ≤ (N * (α + 29 / 25 * ε * (Y + 1))) ^ 2 := by
    have e1 : (4 / 5 * lam * Y) ^ 2 ≤ 2 / 3 * lam * Y ^ 2 := by
      have : lam * lam ≤ lam := by nlinarith
      have := mul_le_mul_of_nonneg_right this (sq_nonneg Y)
      have h2 : 0 ≤ lam * Y ^ 2 := by positivity
      nlinarith
    have e2 : N * (α + 29 / 25 * ε * (Y + 1)) ^ 2 ≤ (N * (α + 29 / 25 * ε * (Y + 1))) ^ 2 := by
      rw [mul_pow]
      exact mul_le_mul_of_nonneg_right (by nlinarith) (sq_nonneg _)
    linarith
  have h2 : 4 / 5 * lam * Y ≤ N * (α + 29 / 25 * ε * (Y + 1)) := le_of_sq_le_sq h1 (by positivity)
  have h3 := mul_le_mul_of_nonneg_right hlam (show 0 ≤ Y + 1 by linarith)
  have h4 : lam ≤ N * α := hl1.trans (by nlinarith)
  nlinarith

theorem row_sum_le {M : ℕ → ℝ} (y : ℕ → ℝ) {R : ℝ} (hR : ∑ l ∈ range n, M l ^ 2 = R ^ 2) (hR0 : 0 ≤ R) :
    ∑ l ∈ range n, |M l| * |y l| ≤ R * Real.sqrt (∑ l ∈ range n, y l ^ 2) := by
  have := Real.sum_mul_le_sqrt_mul_sqrt (range n) (fun l => |M l|) (fun l => |y l|)
  simp only [sq_abs, hR, Real.sqrt_sq hR0] at this
  exact this

variable {a : ℕ → Fl F} {α : ℝ}

theorem SafeHessian.tau_le (h : SafeHessian F n G m lam) (hc : Close n G (gram n L)) {j : ℕ} (hj : j < n) :
    tau n L j ≤ relErr F n * Real.sqrt (gram n L j j) := by
  have hn : 0 < n := by omega
  have hsm := (h.wellPosed hn).small hn
  have h1 := (h.diag (H := gram n L) (fun i _ => gram_diag_nonneg L) hc hj).2
  have h2 := h.low j hj
  have h3 := diag_le_sqrt hj L
  have hR0 := Real.sqrt_nonneg (gram n L j j)
  have hε0 := relErr_nonneg (F := F) (n := n)
  have hη := eta_pos (F := F)
  have hm0 := h.m0
  have hm1 := h.m1
  unfold tau
  generalize Real.sqrt (gram n L j j) = R at *
  have h4 : 3 / 4 * m ≤ R := by
    by_contra hcon
    have hcon := not_le.1 hcon
    nlinarith
  obtain ⟨_, _, hκ0, _, _, hκ⟩ := hsm
  have h5 : (1 + relErr F n) * eta F * (n + |(L j j).val|) ≤ (1 + relErr F n) * eta F * (n + 2) * (1 + R) := by
    have : (n : ℝ) + |(L j j).val| ≤ (n + 2) * (1 + R) := by
      have : (0 : ℝ) ≤ n * R := mul_nonneg (Nat.cast_nonneg n) hR0
      nlinarith
    have := mul_le_mul_of_nonneg_left this (show 0 ≤ (1 + relErr F n) * eta F by positivity)
    linarith
  refine h5.trans ?_
  generalize (1 + relErr F n) * eta F * (n + 2) = κ at *
  have h6 := mul_le_mul_of_nonneg_left h4 hε0
  have h7 : 4 * κ ≤ relErr F n := hκ.trans (by nlinarith)
  have h8 := mul_le_mul_of_nonneg_right h7 hR0
  nlinarith

/-- Norm of the part of the forward substitution already computed. -/
theorem fwd_norm (h : SafeHessian F n G m lam) (hc : Close n G (gram n L)) (hd : ∀ i < n, 0 < (L i i).val) (hf : ∀ i < n, (L i i).Finite)
    (hg : SafeGradient F n G a m lam α) (hn : 0 < n) {k : ℕ} (hk : k ≤ n) (hy : ∀ j < k, (fwdSub L a n j).Finite) :
    lam * Real.sqrt (∑ l ∈ range n, (if l < k then (fwdSub L a n l).val else 0) ^ 2) ≤ 2 * (n * α) := by
  have ht := h.triLow hn hc hd
  have hw := h.wellPosed hn
  have hε0 := relErr_nonneg (F := F) (n := n)
  generalize hY : (fun l => if l < k then (fwdSub L a n l).val else 0) = y
  have hY : ∀ l, (if l < k then (fwdSub L a n l).val else 0) = y l := fun l => congrFun hY l
  simp only [hY]
  have hlam0 := h.lam_pos
  have hYn : Real.sqrt (∑ l ∈ range n, y l ^ 2) ^ 2 = ∑ l ∈ range n, y l ^ 2 := Real.sq_sqrt (sum_nonneg fun l _ => sq_nonneg _)
  have hY0 := Real.sqrt_nonneg (∑ l ∈ range n, y l ^ 2)
  generalize hYs : Real.sqrt (∑ l ∈ range n, y l ^ 2) = Y at *
  have hα := hg.one_le
  refine fwd_num hε0 hw.lam.le (hw.lam_le hn) (by exact_mod_cast hn) hα hY0 ?_
  rw [hYn]
  refine ht.fwd (by linarith) hk (fun l hl => by rw [← hY, if_neg (by omega)]) (by positivity) fun j hj => ?_
  have hjn : j < n := by omega
  obtain ⟨_, h1⟩ := fwdSub_err (b := a) hjn (hf j hjn) (hy j hj)
  have e1 : ∑ l ∈ range n, lowVal L j l * (fwdSub L a n l).val = ∑ l ∈ range n, lowVal L j l * y l := sum_congr rfl fun l _ => by
    rcases Nat.lt_or_ge j l with hl | hl
    · rw [lowVal, if_neg (by omega), zero_mul, zero_mul]
    · rw [← hY, if_pos (by omega)]
  have e2 : ∑ l ∈ range n, |lowVal L j l| * |(fwdSub L a n l).val| = ∑ l ∈ range n, |lowVal L j l| * |y l| := sum_congr rfl fun l _ => by
    rcases Nat.lt_or_ge j l with hl | hl
    · rw [lowVal, if_neg (by omega), abs_zero, zero_mul, zero_mul]
    · rw [← hY, if_pos (by omega)]
  rw [e1, e2] at h1
  have h2 := row_sum_le (n := n) (M := lowVal L j) y (R := Real.sqrt (gram n L j j))
    (by rw [Real.sq_sqrt (gram_diag_nonneg L), gram_diag]) (Real.sqrt_nonneg _)
  rw [hYs] at h2
  have h3 := h.tau_le hc hjn
  have h4 := hg.bound j hjn
  have hR : Real.sqrt (gram n L j j) ≤ 29 / 25 * Real.sqrt (G j j).val := by
    refine two_thirds (Real.sqrt_nonneg _) ?_
    rw [Real.sq_sqrt (h.m0.le.trans (h.low j hjn))]
    exact (h.diag (H := gram n L) (fun i _ => gram_diag_nonneg L) hc hjn).1
  have h5 : |∑ l ∈ range n, lowVal L j l * y l| ≤ |(a j).val| + |(a j).val - ∑ l ∈ range n, lowVal L j l * y l| := by
    have := abs_sub_abs_le_abs_sub (∑ l ∈ range n, lowVal L j l * y l) (a j).val
    rw [abs_sub_comm] at this
    linarith
  have hR0 := Real.sqrt_nonneg (gram n L j j)
  have hD0 := Real.sqrt_nonneg (G j j).val
  generalize Real.sqrt (gram n L j j) = R at *
  generalize Real.sqrt (G j j).val = D at *
  have h6 := mul_le_mul_of_nonneg_left h2 hε0
  have h7 := mul_le_mul_of_nonneg_left hR (show 0 ≤ relErr F n * (Y + 1) by positivity)
  nlinarith

/-- Sizes needed by the forward substitution. -/
theorem fwd_sizes {P α s K d ℓ S : ℝ} (hP : 1 ≤ P) (hlP : 1 ≤ lam * P) (hl : 0 ≤ lam) (hα : 1 ≤ α) (hs0 : 0 ≤ s) (hs1 : s ≤ 1) (hsd : s ≤ d) (hK : 1 ≤ K)
    (hdK : d ≤ K / 2) (hc : 25 * α * P ^ 3 ≤ s * K) (hℓ : 4 / 5 * lam * d ≤ ℓ) (hS : S ≤ 4 * (P * α) * d) :
    S ≤ K ^ 2 / 2 ∧ S + 1 / 48 ≤ ℓ * (K ^ 2 / 2) := by
  have hd0 : 0 ≤ d := hs0.trans hsd
  have hPα : 0 ≤ P * α := by positivity
  have c1 : P * α ≤ P ^ 2 * α := by nlinarith
  have c2 : P ^ 2 * α ≤ P ^ 3 * α := by
    have : 0 ≤ P ^ 2 * α := by positivity
    nlinarith
  have c3 : P ≤ P * α := by nlinarith
  have hsK : s * K ≤ K := by nlinarith
  have hKK : K ≤ K ^ 2 := by nlinarith
  have c4 : 25 * (P ^ 2 * α) ≤ K := by linarith
  have c5 : 25 * (P * α) ≤ K := by linarith
  constructor
  · have : 4 * (P * α) * d ≤ 4 * (P * α) * (K / 2) := mul_le_mul_of_nonneg_left hdK (by positivity)
    have h2 := mul_le_mul_of_nonneg_right c5 (show 0 ≤ K by linarith)
    nlinarith
  · have h1 : 4 * (P * α) * d + 1 / 48 ≤ lam * (4 * (P ^ 2 * α) * d + P / 48) := by
      have e : lam * (4 * (P ^ 2 * α) * d + P / 48) = (lam * P) * (4 * (P * α) * d + 1 / 48) := by ring
      rw [e]
      have : 0 ≤ 4 * (P * α) * d + 1 / 48 := by positivity
      nlinarith
    have h2 : 4 * (P ^ 2 * α) * d + P / 48 ≤ 2 / 5 * d * K ^ 2 := by
      have a1 := mul_le_mul_of_nonneg_right (c4.trans hKK) hd0
      have a2 : 25 * P ≤ d * K := by
        have : s * K ≤ d * K := mul_le_mul_of_nonneg_right hsd (by linarith)
        linarith
      have a3 : d * K ≤ d * K ^ 2 := mul_le_mul_of_nonneg_left hKK hd0
      linarith
    have h3 := mul_le_mul_of_nonneg_left h2 hl
    have h4 := mul_le_mul_of_nonneg_right hℓ (show 0 ≤ K ^ 2 / 2 by positivity)
    nlinarith

/-- Sizes needed by the backward substitution. -/
theorem bwd_sizes {P α s K d ℓ S : ℝ} (hP : 1 ≤ P) (hlP : 1 ≤ lam * P) (hl : 0 ≤ lam) (hα : 1 ≤ α) (hs0 : 0 ≤ s) (hs1 : s ≤ 1) (hsd : s ≤ d) (hK : 1 ≤ K)
    (hc : 25 * α * P ^ 3 ≤ s * K) (hℓ : 4 / 5 * lam * d ≤ ℓ) (hS : S ≤ 9 * (P ^ 2 * α)) :
    S ≤ K ^ 2 / 2 ∧ S + 1 / 48 ≤ ℓ * (K ^ 2 / 2) := by
  have hd0 : 0 ≤ d := hs0.trans hsd
  have c0 : 1 ≤ P ^ 2 * α := by nlinarith [one_le_pow₀ (n := 2) hP]
  have c2 : P ^ 2 * α ≤ P ^ 3 * α := by nlinarith
  have hsK : s * K ≤ K := by nlinarith
  have hKK : K ≤ K ^ 2 := by nlinarith
  have c4 : 25 * (P ^ 2 * α) ≤ K := by linarith
  constructor
  · linarith
  · have h1 : 10 * (P ^ 2 * α) ≤ lam * (10 * (P ^ 3 * α)) := by
      have e : lam * (10 * (P ^ 3 * α)) = (lam * P) * (10 * (P ^ 2 * α)) := by ring
      rw [e]; nlinarith
    have h2 : 10 * (P ^ 3 * α) ≤ 2 / 5 * (d * K ^ 2) := by
      have : s * K ≤ d * K := mul_le_mul_of_nonneg_right hsd (by linarith)
      have a3 : d * K ≤ d * K ^ 2 := mul_le_mul_of_nonneg_left hKK hd0
      linarith
    have h3 := mul_le_mul_of_nonneg_left h2 hl
    have h4 := mul_le_mul_of_nonneg_right hℓ (show 0 ≤ K ^ 2 / 2 by positivity)
    nlinarith

/-- What is known of the factor and of the data, gathered. -/
structure Ready (F : Fmt) (n : ℕ) (G L : ℕ → ℕ → Fl F) (a : ℕ → Fl F) (m lam α : ℝ) : Prop where
  h : SafeHessian F n G m lam
  hg : SafeGradient F n G a m lam α
  hc : Close n G (gram n L)
  hd : ∀ i < n, 0 < (L i i).val
  hf : ∀ i < n, ∀ j ≤ i, (L i j).Finite
  hn : 0 < n

namespace Ready

theorem P1 (r : Ready F n G L a m lam α) : 1 ≤ n / lam ∧ 1 ≤ lam * (n / lam) ∧ lam * (n / lam) = n := by
  have h1 := (r.h.wellPosed r.hn).lam_le r.hn
  have h2 := r.h.lam_pos
  have h3 : (1 : ℝ) ≤ n := by exact_mod_cast r.hn
  have e : lam * (n / lam) = n := by field_simp
  exact ⟨by rw [le_div_iff₀ h2]; linarith, by rw [e]; exact h3, e⟩

theorem K1 : 1 ≤ Real.sqrt (top F) ∧ Real.sqrt (top F) ^ 2 = top F := by
  have := two_le_top (F := F)
  exact ⟨by rw [Real.one_le_sqrt]; linarith, Real.sq_sqrt (by linarith)⟩

theorem s1 (r : Ready F n G L a m lam α) {i : ℕ} (hi : i < n) :
    Real.sqrt m ≤ 1 ∧ Real.sqrt m ≤ Real.sqrt (G i i).val ∧ Real.sqrt (G i i).val ≤ Real.sqrt (top F) / 2 := by
  refine ⟨Real.sqrt_le_one.2 r.h.m1, Real.sqrt_le_sqrt (r.h.low i hi), ?_⟩
  have h1 := r.h.high i hi
  rw [top_quarter] at h1
  have := Real.sqrt_le_sqrt h1
  rw [Real.sqrt_div (by have := two_le_top (F := F); linarith), show (4 : ℝ) = 2 ^ 2 by norm_num, Real.sqrt_sq (by norm_num)] at this
  exact this

theorem diag_ge (r : Ready F n G L a m lam α) {i : ℕ} (hi : i < n) : 4 / 5 * lam * Real.sqrt (G i i).val ≤ (L i i).val := by
  have hl := r.h.lam_pos
  have hl1 := (r.h.wellPosed r.hn).lam_le r.hn
  have h1 := (r.h.triLow r.hn r.hc r.hd).diag_ge (by linarith) hi
  have e : lowVal L i i = (L i i).val := by rw [lowVal, if_pos le_rfl]
  rw [e] at h1
  have hd0 := Real.sqrt_nonneg (G i i).val
  generalize Real.sqrt (G i i).val = d at *
  refine le_of_sq_le_sq ?_ (r.hd i hi).le
  have : lam * lam ≤ lam := by nlinarith
  have := mul_le_mul_of_nonneg_right this (sq_nonneg d)
  have h2 : 0 ≤ lam * d ^ 2 := by positivity
  nlinarith

theorem R_le (r : Ready F n G L a m lam α) {i : ℕ} (hi : i < n) : Real.sqrt (gram n L i i) ≤ 29 / 25 * Real.sqrt (G i i).val := by
  refine two_thirds (Real.sqrt_nonneg _) ?_
  rw [Real.sq_sqrt (r.h.m0.le.trans (r.h.low i hi))]
  exact (r.h.diag (H := gram n L) (fun i _ => gram_diag_nonneg L) r.hc hi).1

/-- The forward substitution does not overflow. -/
theorem fwd_fin (r : Ready F n G L a m lam α) : ∀ i < n, (fwdSub L a n i).Finite := by
  intro i
  induction i using Nat.strong_induction_on with
  | _ i ih =>
    intro hi
    have hy := fwd_norm r.h r.hc r.hd (fun i hi => r.hf i hi i le_rfl) r.hg r.hn hi.le (fun j hj => ih j hj (by omega))
    obtain ⟨hP, hlP, hPe⟩ := r.P1
    obtain ⟨hK, hK2⟩ := K1 (F := F)
    obtain ⟨b1, b2, b3⟩ := r.s1 hi
    have hl := r.h.lam_pos
    have hα := r.hg.one_le
    have hS : |(a i).val| + ∑ j ∈ range i, |(L i j).val| * |(fwdSub L a n j).val| ≤ 4 * (n / lam * α) * Real.sqrt (G i i).val := by
      have h1 := r.hg.bound i hi
      have h2 := row_sum_le (n := n) (M := lowVal L i) (fun l => if l < i then (fwdSub L a n l).val else 0) (R := Real.sqrt (gram n L i i))
        (by rw [Real.sq_sqrt (gram_diag_nonneg L), gram_diag]) (Real.sqrt_nonneg _)
      have e : ∑ l ∈ range n, |lowVal L i l| * |if l < i then (fwdSub L a n l).val else 0| =
          ∑ j ∈ range i, |(L i j).val| * |(fwdSub L a n j).val| := by
        rw [sum_cut hi.le _ (fun l hl _ => by rw [if_neg (by omega), abs_zero, mul_zero])]
        refine sum_congr rfl fun l hl => ?_
        have := mem_range.1 hl
        rw [lowVal, if_pos (by omega), if_pos this]
      rw [e] at h2
      have hR := r.R_le hi
      have hR0 := Real.sqrt_nonneg (gram n L i i)
      have hD0 := Real.sqrt_nonneg (G i i).val
      have hY0 := Real.sqrt_nonneg (∑ l ∈ range n, (if l < i then (fwdSub L a n l).val else 0) ^ 2)
      generalize Real.sqrt (∑ l ∈ range n, (if l < i then (fwdSub L a n l).val else 0) ^ 2) = Y at *
      generalize Real.sqrt (gram n L i i) = R at *
      generalize Real.sqrt (G i i).val = D at *
      have hY : Y ≤ 2 * (n / lam * α) := by
        have : lam * Y ≤ lam * (2 * (n / lam * α)) := by
          have e : lam * (2 * (n / lam * α)) = 2 * (lam * (n / lam) * α) := by ring
          rw [e, hPe]; exact hy
        exact le_of_mul_le_mul_left this hl
      have h3 : R * Y ≤ 29 / 25 * D * (2 * (n / lam * α)) := mul_le_mul hR hY hY0 (by positivity)
      have h4 : α ≤ n / lam * α := by nlinarith
      have h5 := mul_le_mul_of_nonneg_right h4 hD0
      nlinarith
    obtain ⟨h1, h2⟩ := fwd_sizes hP hlP hl.le hα (Real.sqrt_nonneg m) b1 b2 hK b3 r.hg.range (r.diag_ge hi) hS
    rw [hK2] at h1 h2
    rw [fwdSub_eqn L a hi]
    exact quot_fin (r.h.wellPosed r.hn) (.fwd i) (fun j => L i j) (fwdSub L a n) (a i) (L i i) hi (r.hg.fin i hi)
      (fun j hj => ⟨r.hf i hi j (by omega), ih j hj (by omega)⟩) (r.hf i hi i le_rfl) (r.hd i hi) h1 h2

/-- Norm of the result of the forward substitution. -/
theorem fwd_le (r : Ready F n G L a m lam α) : Real.sqrt (∑ l ∈ range n, (fwdSub L a n l).val ^ 2) ≤ 2 * (n / lam * α) := by
  have hy := fwd_norm r.h r.hc r.hd (fun i hi => r.hf i hi i le_rfl) r.hg r.hn le_rfl (fun j hj => r.fwd_fin j hj)
  have e : ∑ l ∈ range n, (if l < n then (fwdSub L a n l).val else 0) ^ 2 = ∑ l ∈ range n, (fwdSub L a n l).val ^ 2 :=
    sum_congr rfl fun l hl => by rw [if_pos (mem_range.1 hl)]
  rw [e] at hy
  obtain ⟨hP, hlP, hPe⟩ := r.P1
  have hl := r.h.lam_pos
  refine le_of_mul_le_mul_left ?_ hl
  have e : lam * (2 * (n / lam * α)) = 2 * (lam * (n / lam) * α) := by ring
  rw [e, hPe]; exact hy

theorem tau_le_two (r : Ready F n G L a m lam α) (hF : F.Std) {l : ℕ} (hl : l < n) : tau n L l ≤ 2 := by
  have hw := r.h.wellPosed r.hn
  have h1 := hw.eta_n r.hn
  have h2 := diag_le_sqrt hl L
  have h3 := r.R_le hl
  obtain ⟨_, _, h4⟩ := r.s1 hl
  obtain ⟨hK, hK2⟩ := K1 (F := F)
  have hη := eta_pos (F := F)
  have hε := hw.err_le r.hn
  have hε0 := relErr_nonneg (F := F) (n := n)
  have h5 : eta F * top F ≤ 2 := by
    unfold eta top
    rw [← zpow_add₀ (by norm_num)]
    have : (2 : ℝ) ^ (F.emin - 1 + (F.emax + 1)) ≤ 2 ^ (1 : ℤ) := zpow_le_zpow_right₀ (by norm_num) (by unfold Fmt.Std at hF; omega)
    rwa [zpow_one] at this
  have h6 : |(L l l).val| ≤ 3 / 5 * top F := by
    have : Real.sqrt (top F) ≤ top F := by nlinarith
    linarith
  unfold tau
  have h7 := mul_le_mul_of_nonneg_left h6 hη.le
  have h8 : eta F * |(L l l).val| ≤ 6 / 5 := by linarith
  have h9 : (1 + relErr F n) * (eta F * |(L l l).val|) ≤ 13 / 12 * (6 / 5) := mul_le_mul (by linarith) h8 (by positivity) (by norm_num)
  have h10 : (0 : ℝ) ≤ (1 + relErr F n) * eta F := by positivity
  nlinarith

/-- Weighted norm of the part of the backward substitution already computed. -/
theorem bwd_norm (r : Ready F n G L a m lam α) (hF : F.Std) {b : ℕ → Fl F} (hbn : Real.sqrt (∑ l ∈ range n, (b l).val ^ 2) ≤ 2 * (n / lam * α)) {k : ℕ} (hk : k ≤ n)
    (hz : ∀ j, k ≤ j → j < n → (backSub (fun i j => L j i) n b j).Finite) :
    lam * dnorm n G (fun j => if k ≤ j then (backSub (fun i j => L j i) n b j).val else 0) ≤ 6 * (n / lam * α) := by
  have hl := r.h.lam_pos
  have hw := r.h.wellPosed r.hn
  have hl1 := hw.lam_le r.hn
  have hε0 := relErr_nonneg (F := F) (n := n)
  have hG : ∀ i < n, 0 ≤ (G i i).val := fun i hi => r.h.m0.le.trans (r.h.low i hi)
  generalize hZ : (fun j => if k ≤ j then (backSub (fun i j => L j i) n b j).val else 0) = z
  have hZ : ∀ l, (if k ≤ l then (backSub (fun i j => L j i) n b l).val else 0) = z l := fun l => congrFun hZ l
  have hsum := sum_le_dnorm hG z
  have hZ0 := dnorm_nonneg (n := n) (G := G) z
  have hsn0 := Real.sqrt_nonneg (n : ℝ)
  have hsn : Real.sqrt n * Real.sqrt n = n := Real.mul_self_sqrt (Nat.cast_nonneg n)
  have hn1 : (1 : ℝ) ≤ n := by exact_mod_cast r.hn
  have hb := (r.h.triLow r.hn r.hc r.hd).bwd (by linarith) hk (z := z) (y := fun l => (b l).val) (fun j hj => by rw [← hZ, if_neg (by omega)])
    (b := 29 / 25 * relErr F n * (Real.sqrt n * dnorm n G z) + 2) (by positivity) (fun l hkl hln => by
      obtain ⟨_, h1⟩ := backSub_err (b := b) hln (r.hf l hln l le_rfl) (hz l hkl hln)
      have e1 : ∑ j ∈ range n, lowVal L j l * (backSub (fun i j => L j i) n b j).val = ∑ j ∈ range n, lowVal L j l * z j :=
        sum_congr rfl fun j _ => by
          rcases Nat.lt_or_ge j l with hj | hj
          · rw [lowVal, if_neg (by omega), zero_mul, zero_mul]
          · rw [← hZ, if_pos (by omega)]
      have e2 : ∑ j ∈ range n, |lowVal L j l| * |(backSub (fun i j => L j i) n b j).val| = ∑ j ∈ range n, |lowVal L j l| * |z j| :=
        sum_congr rfl fun j _ => by
          rcases Nat.lt_or_ge j l with hj | hj
          · rw [lowVal, if_neg (by omega), abs_zero, zero_mul, zero_mul]
          · rw [← hZ, if_pos (by omega)]
      rw [e1, e2] at h1
      have h2 := r.tau_le_two hF hln
      have h3 : ∑ j ∈ range n, |lowVal L j l| * |z j| ≤ 29 / 25 * ∑ j ∈ range n, Real.sqrt (G j j).val * |z j| := by
        rw [mul_sum]
        refine sum_le_sum fun j hj => ?_
        have hj := mem_range.1 hj
        have := mul_le_mul_of_nonneg_right ((low_le_sqrt (i := j) hln L).trans (r.R_le hj)) (abs_nonneg (z j))
        linarith
      have h4 := mul_le_mul_of_nonneg_left (h3.trans (mul_le_mul_of_nonneg_left hsum (by norm_num))) hε0
      linarith)
  have hy := hbn
  have hd2 : ∑ i ∈ range n, Real.sqrt (G i i).val ^ 2 * z i ^ 2 = dnorm n G z ^ 2 := by
    rw [dnorm_sq hG]
    exact sum_congr rfl fun i hi => by rw [Real.sq_sqrt (hG i (mem_range.1 hi))]
  rw [hd2] at hb
  have hY0 := Real.sqrt_nonneg (∑ l ∈ range n, (b l).val ^ 2)
  generalize Real.sqrt (∑ l ∈ range n, (b l).val ^ 2) = Y at *
  generalize dnorm n G z = Z at *
  obtain ⟨hP, hlP, hPe⟩ := r.P1
  have hα := r.hg.one_le
  have h1 : 4 / 5 * lam * Z ≤ Y + Real.sqrt n * (29 / 25 * relErr F n * (Real.sqrt n * Z) + 2) := by
    refine le_of_sq_le_sq (le_trans ?_ hb) (by positivity)
    have : lam * lam ≤ lam := by nlinarith
    have := mul_le_mul_of_nonneg_right this (sq_nonneg Z)
    have h2 : 0 ≤ lam * Z ^ 2 := by positivity
    nlinarith
  have e1 : Real.sqrt n * (29 / 25 * relErr F n * (Real.sqrt n * Z) + 2) = 29 / 25 * (n * relErr F n) * Z + 2 * Real.sqrt n := by
    linear_combination (29 / 25 * relErr F n * Z) * hsn
  rw [e1] at h1
  have h2 : Real.sqrt n ≤ n := by nlinarith [Real.one_le_sqrt.2 hn1]
  have h3 := mul_le_mul_of_nonneg_right hw.lam.le hZ0
  have h4 : (n : ℝ) ≤ n / lam * α := by
    have a1 : (n : ℝ) ≤ n / lam := by rw [le_div_iff₀ hl]; nlinarith
    nlinarith
  nlinarith

/-- The backward substitution does not overflow. -/
theorem bwd_fin (r : Ready F n G L a m lam α) (hF : F.Std) {b : ℕ → Fl F} (hbf : ∀ i < n, (b i).Finite)
    (hbn : Real.sqrt (∑ l ∈ range n, (b l).val ^ 2) ≤ 2 * (n / lam * α)) : ∀ k i, i + k = n → k ≠ 0 → (backSub (fun i j => L j i) n b i).Finite := by
  intro k
  induction k using Nat.strong_induction_on with
  | _ k ih =>
    intro i hik hk0
    have hi : i < n := by omega
    have ih' : ∀ j, i + 1 ≤ j → j < n → (backSub (fun i j => L j i) n b j).Finite :=
      fun j h1 h2 => ih (n - j) (by omega) j (by omega) (by omega)
    have hz := r.bwd_norm hF hbn (k := i + 1) (by omega) ih'
    obtain ⟨hP, hlP, hPe⟩ := r.P1
    obtain ⟨hK, hK2⟩ := K1 (F := F)
    obtain ⟨b1, b2, b3⟩ := r.s1 hi
    have hl := r.h.lam_pos
    have hα := r.hg.one_le
    have hG : ∀ i < n, 0 ≤ (G i i).val := fun i hi => r.h.m0.le.trans (r.h.low i hi)
    have hS : |(b i).val| + ∑ j ∈ range (n - 1 - i), |(L (i + 1 + j) i).val| * |(backSub (fun i j => L j i) n b (i + 1 + j)).val|
        ≤ 9 * ((n / lam) ^ 2 * α) := by
      generalize hZ : (fun j => if i + 1 ≤ j then (backSub (fun i j => L j i) n b j).val else 0) = z at hz
      have hZ : ∀ l, (if i + 1 ≤ l then (backSub (fun i j => L j i) n b l).val else 0) = z l := fun l => congrFun hZ l
      have h1 : |(b i).val| ≤ 2 * (n / lam * α) := by
        refine le_trans (Real.abs_le_sqrt ?_) hbn
        exact single_le_sum (f := fun l => (b l).val ^ 2) (fun l _ => sq_nonneg _) (mem_range.2 hi)
      have h2 : ∑ j ∈ range (n - 1 - i), |(L (i + 1 + j) i).val| * |(backSub (fun i j => L j i) n b (i + 1 + j)).val|
          ≤ ∑ j ∈ range n, |lowVal L j i| * |z j| := by
        have g2 := lowVal_col hi L (fun t => |t|) abs_zero (fun l => |z l|)
        rw [g2]
        have : ∑ j ∈ range (n - 1 - i), |(L (i + 1 + j) i).val| * |(backSub (fun i j => L j i) n b (i + 1 + j)).val| =
            ∑ j ∈ range (n - 1 - i), |(L (i + 1 + j) i).val| * |z (i + 1 + j)| :=
          sum_congr rfl fun j _ => by rw [← hZ, if_pos (by omega)]
        rw [this]
        have : 0 ≤ |(L i i).val| * |z i| := by positivity
        linarith
      have h3 : ∑ j ∈ range n, |lowVal L j i| * |z j| ≤ 29 / 25 * ∑ j ∈ range n, Real.sqrt (G j j).val * |z j| := by
        rw [mul_sum]
        refine sum_le_sum fun j hj => ?_
        have hj := mem_range.1 hj
        have := mul_le_mul_of_nonneg_right ((low_le_sqrt (i := j) hi L).trans (r.R_le hj)) (abs_nonneg (z j))
        linarith
      have h4 := sum_le_dnorm hG z
      have hn1 : (1 : ℝ) ≤ n := by exact_mod_cast r.hn
      have hsn : Real.sqrt n * Real.sqrt n = n := Real.mul_self_sqrt (Nat.cast_nonneg n)
      have h5 : Real.sqrt n ≤ n := by nlinarith [Real.one_le_sqrt.2 hn1]
      have hZ0 := dnorm_nonneg (n := n) (G := G) z
      generalize dnorm n G z = Z at *
      have h6 := mul_le_mul_of_nonneg_right h5 hZ0
      have h7 : n * Z ≤ 6 * ((n / lam) ^ 2 * α) := by
        have := mul_le_mul_of_nonneg_left hz (show 0 ≤ n / lam by linarith)
        have e : n / lam * (lam * Z) = (lam * (n / lam)) * Z := by ring
        rw [e, hPe] at this
        nlinarith
      have h8 : n / lam * α ≤ (n / lam) ^ 2 * α := by
        have : 0 ≤ n / lam * α := by positivity
        nlinarith
      nlinarith
    obtain ⟨h1, h2⟩ := bwd_sizes hP hlP hl.le hα (Real.sqrt_nonneg m) b1 b2 hK r.hg.range (r.diag_ge hi) hS
    rw [hK2] at h1 h2
    rw [backSub_eqn _ n _ hi]
    exact quot_fin (r.h.wellPosed r.hn) (.bwd n i) (fun j => L (i + 1 + j) i) (fun j => backSub (fun i j => L j i) n b (i + 1 + j))
      (b i) (L i i) (show n - 1 - i < n by omega) (hbf i hi)
      (fun j hj => ⟨r.hf (i + 1 + j) (by omega) i (by omega), ih' (i + 1 + j) (by omega) (by omega)⟩) (r.hf i hi i le_rfl) (r.hd i hi) h1 h2

/-- The computed unconstrained minimum is finite. -/
theorem min_fin (r : Ready F n G L a m lam α) (hF : F.Std) : ∀ i < n, (unconstrMin n L a i).Finite := fun i hi =>
  (neg_fin (r.bwd_fin hF r.fwd_fin r.fwd_le (n - i) i (by omega) (by omega))).1

end Ready
end Ieee
end JrlQp
