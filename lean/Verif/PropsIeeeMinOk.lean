import Verif.PropsIeeeMin

/-!
# C81: an unconstrained problem is solved to within rounding errors

The specification is the exact minimiser of the objective given by the user, in real arithmetic.
-/

namespace JrlQp

open NumOps Finset

section generic

variable {K B : Type} [Zero K] [One K] [Add K] [Sub K] [Neg K] [Mul K] [Div K] [NumOps K B] [SumOps K]

/-- Without constraint and with a Hessian accepted by the factorisation, `solve` returns SUCCESS without an iteration. -/
theorem solve_unconstrained {o : Opts K} {pb : Pb K B} {s : State K} (hs : Inv s) (hm : pb.m = 0) (hb : pb.nb = 0) (hc : cholOk pb)
    (hit : 0 < o.maxIter) : ∃ s', solve o pb s = .ok (.success, s') ∧ s'.it = 0 := by
  have hq : numEq pb = 0 := by simp [numEq, hm, hb]
  have hd := preInit_dim (o := o) (resize_dim_pb hs pb)
  obtain ⟨t0, s0, h1, h2, h3⟩ := init_safe (o := o) hd (fun _ => by omega)
  have ht0 : t0 = .success := by
    have := h1
    unfold init_ at this
    rw [if_pos (by simp [hd.nbVar])] at this
    simp only [] at this
    rw [hd.nbVar, if_neg (by unfold cholOk at hc; rw [hc]; simp)] at this
    split_ifs at this
    split at this
    · cases this
    · cases this; rfl
  subst ht0
  have h0 : s0.it = 0 := (init_it h1).1
  refine ⟨s0, ?_, h0⟩
  unfold solve dualSolve
  rw [h1]
  simp only [ne_eq, not_true_eq_false, if_false]
  have hk : o.maxIter - s0.it = (o.maxIter - 1) + 1 := by rw [h0]; omega
  have hsel : (select pb s0.nbVar s0.A s0.x).status = .inactive := by
    have b1 : s0.A.nbCstr = 0 := h2.nbCstr.trans hm
    have b2 : s0.A.nbBnd = 0 := h2.nbBnd.trans hb
    unfold select
    rw [b1, b2]
    simp
  have : iterate o pb s0 ⟨0, .inactive⟩ false = .ok (.done .success s0) := by
    unfold iterate
    simp only [Bool.false_eq_true, if_false]
    rw [if_pos (h3 rfl).selectOk, if_pos hsel]
  rw [hk, loop, this]
  rfl

end generic

namespace Ieee

variable {F : Fmt}

/-- Objective defined by the numbers stored in `G` (lower triangle) and `a`, in real arithmetic. -/
noncomputable def objVal (n : ℕ) (G : ℕ → ℕ → Fl F) (a : ℕ → Fl F) (x : ℕ → ℝ) : ℝ :=
  1 / 2 * (∑ i ∈ range n, ∑ j ∈ range n, x i * hessVal G i j * x j) + ∑ i ∈ range n, (a i).val * x i

/-- Norm weighted by the diagonal of the Hessian: `√(Σ Gᵢᵢ xᵢ²)`. -/
noncomputable def dnorm (n : ℕ) (G : ℕ → ℕ → Fl F) (x : ℕ → ℝ) : ℝ := Real.sqrt (∑ i ∈ range n, (G i i).val * x i ^ 2)

/-- Size of the underflow errors, a multiple of `η`, half of the smallest positive number. -/
noncomputable def tiny (n : ℕ) (G : ℕ → ℕ → Fl F) (m : ℝ) : ℝ :=
  eta F * (n / Real.sqrt m + 1 + ∑ l ∈ range n, (n + Real.sqrt (G l l).val))

variable {n : ℕ} {G : ℕ → ℕ → Fl F} {m lam : ℝ}

theorem SafeHessian.lam_pos (h : SafeHessian F n G m lam) : 0 < lam :=
  lt_of_le_of_lt (by have := u_pos (F := F); positivity) h.lam

theorem SafeHessian.posDef (h : SafeHessian F n G m lam) : PosDefN n (hessVal G) := by
  intro v ⟨i, hi, hv⟩
  refine lt_of_lt_of_le (mul_pos h.lam_pos ?_) (h.margin v)
  have h0 : ∀ j ∈ range n, 0 ≤ (G j j).val * v j ^ 2 := fun j hj =>
    mul_nonneg (h.m0.le.trans (h.low j (mem_range.1 hj))) (sq_nonneg _)
  refine lt_of_lt_of_le ?_ (single_le_sum h0 (mem_range.2 hi))
  exact mul_pos (lt_of_lt_of_le h.m0 (h.low i hi)) (by positivity)

/-- Diagonal of the matrix factorised. -/
theorem SafeHessian.diag (h : SafeHessian F n G m lam) {H : ℕ → ℕ → ℝ} (hH : ∀ i < n, 0 ≤ H i i) (hc : Close n G H) {i : ℕ} (hi : i < n) :
    3 / 4 * Real.sqrt (H i i) ^ 2 ≤ (G i i).val ∧ 3 / 4 * (G i i).val ≤ Real.sqrt (H i i) ^ 2 := by
  have hw := h.wellPosed (by omega)
  refine diag_bounds (hw.small (by omega)) (h.low i hi) (Real.sqrt_nonneg _) ?_
  have h1 := (hc i hi i le_rfl).2
  rw [Real.sqrt_mul_self (hH i hi)] at h1
  rw [Real.sq_sqrt (hH i hi), abs_sub_comm]
  refine h1.trans ?_
  have h2 := eta_le (F := F)
  have h3 := relErr_nonneg (F := F) (n := n)
  have h4 := eta_pos (F := F)
  have h5 : (0 : ℝ) ≤ n * Real.sqrt (H i i) := mul_nonneg (Nat.cast_nonneg n) (Real.sqrt_nonneg _)
  have h6 : (n : ℝ) + 2 * Real.sqrt (H i i) + eta F ≤ (n + 2) * (1 + Real.sqrt (H i i)) := by nlinarith
  have h7 := mul_le_mul_of_nonneg_left h6 (show 0 ≤ (1 + relErr F n) * eta F by positivity)
  linarith

theorem two_thirds {r d : ℝ} (hd : 0 ≤ d) (h : 3 / 4 * r ^ 2 ≤ d ^ 2) : r ≤ 29 / 25 * d := by
  nlinarith

theorem resid_safe {ε η t N R S A X : ℝ} (hε0 : 0 ≤ ε) (hε : ε ≤ 1 / 12) (hη : 0 ≤ η) (hRS : 0 ≤ R * S) (hA : 0 ≤ N + R + R * A) (hX0 : 0 ≤ X)
    (hX : (1 + ε) * η * X ≤ 2 * ε * (R * S)) (ht : N + R + R * A ≤ t) :
    (3 * ε + ε ^ 2) * (R * S) + (1 + ε) ^ 2 * η * (N + R + R * A + X) ≤ 21 / 4 * ε * (R * S) + 6 / 5 * η * t := by
  have h1 := mul_le_mul_of_nonneg_left hX (show 0 ≤ 1 + ε by linarith)
  have h2 : (1 + ε) ^ 2 ≤ 6 / 5 := by nlinarith
  have h3 : 0 ≤ ε * (R * S) := mul_nonneg hε0 hRS
  have h4 : ε * (ε * (R * S)) ≤ 1 / 12 * (ε * (R * S)) := mul_le_mul_of_nonneg_right hε h3
  have h5 := mul_le_mul_of_nonneg_right h2 (mul_nonneg hη hA)
  have h6 := mul_le_mul_of_nonneg_left ht (show 0 ≤ 6 / 5 * η by linarith)
  nlinarith

/-- The residual of C79 when the Hessian is safe, with the data of the user only. -/
theorem SafeHessian.resid (h : SafeHessian F n G m lam) {H : ℕ → ℕ → ℝ} (hH : ∀ i < n, 0 ≤ H i i) (hc : Close n G H) {a x : ℕ → Fl F}
    (hs : Stationary n G a x H) {i : ℕ} (hi : i < n) :
    |(a i).val + ∑ j ∈ range n, hessVal G i j * (x j).val| ≤
      Real.sqrt (G i i).val * (8 * relErr F n * (∑ j ∈ range n, Real.sqrt (G j j).val * |(x j).val|) + 3 * tiny n G m) := by
  have hn : 0 < n := by omega
  have hsm := (h.wellPosed hn).small hn
  have hε0 := relErr_nonneg (F := F) (n := n)
  have hε := (h.wellPosed hn).err_le hn
  have hη := eta_pos (F := F)
  have hd := fun j (hj : j < n) => h.diag hH hc hj
  refine (hs i hi).2.trans ?_
  generalize hR : (fun j => Real.sqrt (H j j)) = R
  have hR : ∀ j, Real.sqrt (H j j) = R j := fun j => congrFun hR j
  have hR0 : ∀ j, 0 ≤ R j := fun j => by rw [← hR]; exact Real.sqrt_nonneg _
  generalize hD : (fun j => Real.sqrt (G j j).val) = D
  have hD : ∀ j, Real.sqrt (G j j).val = D j := fun j => congrFun hD j
  have hD0 : ∀ j, 0 ≤ D j := fun j => by rw [← hD]; exact Real.sqrt_nonneg _
  have hDs : ∀ j < n, D j ^ 2 = (G j j).val := fun j hj => by
    rw [← hD, Real.sq_sqrt (h.m0.le.trans (h.low j hj))]
  unfold tiny
  simp only [hR, hD] at hd ⊢
  have hRD : ∀ j < n, R j ≤ 29 / 25 * D j := fun j hj => two_thirds (hD0 j) (by rw [hDs j hj]; exact (hd j hj).1)
  have hmR : ∀ j < n, 3 / 4 * m ≤ R j ^ 2 := fun j hj => by have := (hd j hj).2; have := h.low j hj; linarith
  have hS0 : 0 ≤ ∑ j ∈ range n, R j * |(x j).val| := sum_nonneg fun j _ => mul_nonneg (hR0 j) (abs_nonneg _)
  have hA0 : 0 ≤ ∑ l ∈ range n, ((n : ℝ) + R l) := sum_nonneg fun j _ => add_nonneg (Nat.cast_nonneg n) (hR0 j)
  have hX : (1 + relErr F n) * eta F * ∑ j ∈ range n, (n + 2 * R i + 2 * R j + eta F) * |(x j).val| ≤
      2 * relErr F n * (R i * ∑ j ∈ range n, R j * |(x j).val|) := by
    rw [mul_sum, mul_sum, mul_sum]
    refine sum_le_sum fun j hj => ?_
    have hj := mem_range.1 hj
    have b1 := absorb hsm (hR0 i) (hR0 j) (hmR i hi) (hmR j hj)
    have b2 := absorb hsm (hR0 j) (hR0 i) (hmR j hj) (hmR i hi)
    have b3 := eta_le (F := F)
    have b4 : (0 : ℝ) ≤ n * R i := mul_nonneg (Nat.cast_nonneg n) (hR0 i)
    have b5 : (0 : ℝ) ≤ n * R j := mul_nonneg (Nat.cast_nonneg n) (hR0 j)
    have b6 : (n : ℝ) + 2 * R i + 2 * R j + eta F ≤ (n + 2) * (1 + R i) + (n + 2) * (1 + R j) := by
      have : (0 : ℝ) ≤ n := Nat.cast_nonneg n
      nlinarith
    have b7 := mul_le_mul_of_nonneg_left b6 (show 0 ≤ (1 + relErr F n) * eta F by positivity)
    have b8 : (1 + relErr F n) * eta F * ((n : ℝ) + 2 * R i + 2 * R j + eta F) ≤ 2 * relErr F n * (R i * R j) := by nlinarith
    have b9 := mul_le_mul_of_nonneg_right b8 (abs_nonneg (x j).val)
    nlinarith
  have hX0 : 0 ≤ ∑ j ∈ range n, (n + 2 * R i + 2 * R j + eta F) * |(x j).val| := sum_nonneg fun j _ => by
    have := hR0 i; have := hR0 j; positivity
  have hsq : 0 < Real.sqrt m := Real.sqrt_pos.2 h.m0
  have hDm : ∀ j < n, Real.sqrt m ≤ D j := fun j hj => by rw [← hD]; exact Real.sqrt_le_sqrt (h.low j hj)
  have ht : (n : ℝ) + R i + R i * (∑ l ∈ range n, (n + R l)) ≤
      5 / 2 * (D i * (n / Real.sqrt m + 1 + ∑ l ∈ range n, (n + D l))) := by
    have c1 : (n : ℝ) ≤ D i * (n / Real.sqrt m) := by
      rw [mul_div_assoc', le_div_iff₀ hsq, mul_comm (D i)]
      exact mul_le_mul_of_nonneg_left (hDm i hi) (Nat.cast_nonneg n)
    have c2 : ∑ l ∈ range n, ((n : ℝ) + R l) ≤ 29 / 25 * ∑ l ∈ range n, (n + D l) := by
      rw [mul_sum]
      refine sum_le_sum fun l hl => ?_
      have := hRD l (mem_range.1 hl)
      have : (0 : ℝ) ≤ n := Nat.cast_nonneg n
      linarith
    have c3 := hRD i hi
    have c4 : 0 ≤ ∑ l ∈ range n, ((n : ℝ) + D l) := sum_nonneg fun j _ => add_nonneg (Nat.cast_nonneg n) (hD0 j)
    have c5 : R i * (∑ l ∈ range n, ((n : ℝ) + R l)) ≤ (29 / 25 * D i) * (29 / 25 * ∑ l ∈ range n, (n + D l)) :=
      mul_le_mul c3 c2 hA0 (by have := hD0 i; positivity)
    have c6 := mul_nonneg (hD0 i) c4
    have c7 := hD0 i
    have c8 : 0 ≤ D i * (n / Real.sqrt m) := by positivity
    nlinarith
  have h1 := resid_safe (S := ∑ j ∈ range n, R j * |(x j).val|) (A := ∑ l ∈ range n, ((n : ℝ) + R l)) hε0 hε hη.le
    (mul_nonneg (hR0 i) hS0) (by have := hR0 i; have := mul_nonneg (hR0 i) hA0; positivity) hX0 hX ht
  refine h1.trans ?_
  have c1 : ∑ j ∈ range n, R j * |(x j).val| ≤ 29 / 25 * ∑ j ∈ range n, D j * |(x j).val| := by
    rw [mul_sum]
    refine sum_le_sum fun j hj => ?_
    have := mul_le_mul_of_nonneg_right (hRD j (mem_range.1 hj)) (abs_nonneg (x j).val)
    linarith
  have c2 : R i * (∑ j ∈ range n, R j * |(x j).val|) ≤ (29 / 25 * D i) * (29 / 25 * ∑ j ∈ range n, D j * |(x j).val|) :=
    mul_le_mul (hRD i hi) c1 hS0 (by have := hD0 i; positivity)
  have c3 := mul_le_mul_of_nonneg_left c2 (show 0 ≤ 21 / 4 * relErr F n by positivity)
  have c4 : 0 ≤ ∑ j ∈ range n, D j * |(x j).val| := sum_nonneg fun j _ => mul_nonneg (hD0 j) (abs_nonneg _)
  have c5 := mul_nonneg hε0 (mul_nonneg (hD0 i) c4)
  nlinarith

/-- The exact minimiser of the objective exists: its gradient is zero there. -/
theorem exists_min {M : ℕ → ℕ → ℝ} (hs : ∀ i j, M i j = M j i) (h : PosDefN n M) (a : ℕ → ℝ) :
    ∃ y : ℕ → ℝ, ∀ i < n, a i + ∑ j ∈ range n, M i j * y j = 0 := by
  have e : symLow M = M := by
    funext i j
    unfold symLow
    split_ifs
    · rfl
    · exact hs j i
  have hp := (posDefN_iff n M).1 (by rw [e]; exact h)
  rw [e] at hp
  have hu : IsUnit (Matrix.of fun i j : Fin n => M i j).det := (Matrix.isUnit_iff_isUnit_det _).1 (Matrix.PosDef.isUnit hp)
  let y := (Matrix.of fun i j : Fin n => M i j)⁻¹.mulVec (fun i : Fin n => -a i)
  have hy : (Matrix.of fun i j : Fin n => M i j).mulVec y = fun i : Fin n => -a i := by
    show Matrix.mulVec _ (Matrix.mulVec _ _) = _
    rw [Matrix.mulVec_mulVec, Matrix.mul_nonsing_inv _ hu, Matrix.one_mulVec]
  refine ⟨fun j => if hj : j < n then y ⟨j, hj⟩ else 0, fun i hi => ?_⟩
  have := congrFun hy ⟨i, hi⟩
  have e2 : ∑ j ∈ range n, M i j * (if hj : j < n then y ⟨j, hj⟩ else 0) = -a i := by
    rw [← this, Finset.sum_range]
    simp [Matrix.mulVec, dotProduct]
  rw [e2]
  ring

theorem quad_expand {M : ℕ → ℕ → ℝ} (hs : ∀ i j, M i j = M j i) {a y : ℕ → ℝ} (hy : ∀ i < n, a i + ∑ j ∈ range n, M i j * y j = 0)
    (x : ℕ → ℝ) :
    (1 / 2 * (∑ i ∈ range n, ∑ j ∈ range n, x i * M i j * x j) + ∑ i ∈ range n, a i * x i) =
      (1 / 2 * (∑ i ∈ range n, ∑ j ∈ range n, y i * M i j * y j) + ∑ i ∈ range n, a i * y i)
      + 1 / 2 * ∑ i ∈ range n, ∑ j ∈ range n, (x i - y i) * M i j * (x j - y j) := by
  have e1 : ∑ i ∈ range n, ∑ j ∈ range n, (x i - y i) * M i j * (x j - y j) =
      (∑ i ∈ range n, ∑ j ∈ range n, x i * M i j * x j) - (∑ i ∈ range n, ∑ j ∈ range n, x i * M i j * y j)
      - (∑ i ∈ range n, ∑ j ∈ range n, y i * M i j * x j) + ∑ i ∈ range n, ∑ j ∈ range n, y i * M i j * y j := by
    simp only [← sum_sub_distrib, ← sum_add_distrib]
    exact sum_congr rfl fun i _ => sum_congr rfl fun j _ => by ring
  have e2 : ∑ i ∈ range n, ∑ j ∈ range n, y i * M i j * x j = ∑ i ∈ range n, ∑ j ∈ range n, x i * M i j * y j := by
    rw [sum_comm]
    exact sum_congr rfl fun i _ => sum_congr rfl fun j _ => by rw [hs j i]; ring
  have e3 : ∀ v : ℕ → ℝ, ∑ i ∈ range n, ∑ j ∈ range n, v i * M i j * y j = -∑ i ∈ range n, a i * v i := by
    intro v
    rw [← sum_neg_distrib]
    refine sum_congr rfl fun i hi => ?_
    have := hy i (mem_range.1 hi)
    have e : ∑ j ∈ range n, v i * M i j * y j = v i * ∑ j ∈ range n, M i j * y j := by
      rw [mul_sum]; exact sum_congr rfl fun j _ => by ring
    rw [e]
    linear_combination v i * this
  rw [e1, e2, e3 x, e3 y]
  ring

/-- Cauchy-Schwarz: a weighted sum of absolute values and the weighted norm. -/
theorem sum_le_dnorm (hG : ∀ i < n, 0 ≤ (G i i).val) (x : ℕ → ℝ) :
    ∑ i ∈ range n, Real.sqrt (G i i).val * |x i| ≤ Real.sqrt n * dnorm n G x := by
  have h := Real.sum_mul_le_sqrt_mul_sqrt (range n) (fun _ => (1 : ℝ)) (fun i => Real.sqrt (G i i).val * |x i|)
  simp only [one_mul, one_pow, sum_const, card_range, nsmul_eq_mul, mul_one] at h
  refine h.trans (le_of_eq ?_)
  unfold dnorm
  congr 2
  refine sum_congr rfl fun i hi => ?_
  rw [mul_pow, Real.sq_sqrt (hG i (mem_range.1 hi)), sq_abs]

theorem dnorm_nonneg (x : ℕ → ℝ) : 0 ≤ dnorm n G x := Real.sqrt_nonneg _

theorem dnorm_sq (hG : ∀ i < n, 0 ≤ (G i i).val) (x : ℕ → ℝ) : dnorm n G x ^ 2 = ∑ i ∈ range n, (G i i).val * x i ^ 2 :=
  Real.sq_sqrt (sum_nonneg fun i hi => mul_nonneg (hG i (mem_range.1 hi)) (sq_nonneg _))

/-- Triangle inequality. -/
theorem dnorm_sub (hG : ∀ i < n, 0 ≤ (G i i).val) (x y : ℕ → ℝ) : dnorm n G x ≤ dnorm n G (fun i => x i - y i) + dnorm n G y := by
  have h1 := dnorm_sq hG x
  have h2 := dnorm_sq hG (fun i => x i - y i)
  have h3 := dnorm_sq hG y
  have h4 := Real.sum_mul_le_sqrt_mul_sqrt (range n) (fun i => Real.sqrt (G i i).val * (x i - y i)) (fun i => Real.sqrt (G i i).val * y i)
  have e : ∀ v : ℕ → ℝ, Real.sqrt (∑ i ∈ range n, (Real.sqrt (G i i).val * v i) ^ 2) = dnorm n G v := fun v => by
    unfold dnorm
    congr 1
    exact sum_congr rfl fun i hi => by rw [mul_pow, Real.sq_sqrt (hG i (mem_range.1 hi))]
  rw [e (fun i => x i - y i), e y] at h4
  have e2 : ∑ i ∈ range n, Real.sqrt (G i i).val * (x i - y i) * (Real.sqrt (G i i).val * y i) = ∑ i ∈ range n, (G i i).val * ((x i - y i) * y i) :=
    sum_congr rfl fun i hi => by
      have := Real.mul_self_sqrt (hG i (mem_range.1 hi))
      linear_combination (x i - y i) * y i * this
  rw [e2] at h4
  have e3 : ∑ i ∈ range n, (G i i).val * x i ^ 2 = ∑ i ∈ range n, (G i i).val * (x i - y i) ^ 2 + ∑ i ∈ range n, (G i i).val * y i ^ 2
      + 2 * ∑ i ∈ range n, (G i i).val * ((x i - y i) * y i) := by
    rw [mul_sum, ← sum_add_distrib, ← sum_add_distrib]
    exact sum_congr rfl fun i _ => by ring
  have h5 := dnorm_nonneg (n := n) (G := G) (fun i => x i - y i)
  have h6 := dnorm_nonneg (n := n) (G := G) y
  refine abs_le_of_sq_le_sq' ?_ (add_nonneg h5 h6) |>.2
  nlinarith

theorem err_final {lam ε N E X Y T : ℝ} (hE : 0 ≤ E) (hε : 12 * N * ε ≤ lam) (h : lam * E ^ 2 ≤ (8 * N * ε * X + 3 * T) * E)
    (hX : X ≤ E + Y) (hN : 0 ≤ N * ε) (hY : 0 ≤ Y) (hT : 0 ≤ T) : lam * E ≤ 24 * N * ε * Y + 9 * T := by
  rcases hE.lt_or_eq with h0 | h0
  · have h1 : lam * E ≤ 8 * N * ε * X + 3 * T := by
      have : (lam * E) * E ≤ (8 * N * ε * X + 3 * T) * E := by linarith
      exact le_of_mul_le_mul_right this h0
    have h2 := mul_le_mul_of_nonneg_left hX hN
    have h3 := mul_le_mul_of_nonneg_right hε hE
    nlinarith
  · rw [← h0]
    have := mul_nonneg hN hY
    nlinarith

/-- Distance of a nearly stationary point to the minimiser. -/
theorem SafeHessian.forward (h : SafeHessian F n G m lam) {H : ℕ → ℕ → ℝ} (hH : ∀ i < n, 0 ≤ H i i) (hc : Close n G H) {a x : ℕ → Fl F}
    (hs : Stationary n G a x H) {y : ℕ → ℝ} (hy : ∀ i < n, (a i).val + ∑ j ∈ range n, hessVal G i j * y j = 0) :
    lam * dnorm n G (fun i => (x i).val - y i) ≤ 48 * n * (n + 2) * u F * dnorm n G y + 9 * (Real.sqrt n * tiny n G m) := by
  have hu := u_pos (F := F)
  have hη := eta_pos (F := F)
  have hT : 0 ≤ tiny n G m := by
    unfold tiny
    have : 0 ≤ ∑ l ∈ range n, ((n : ℝ) + Real.sqrt (G l l).val) := sum_nonneg fun l _ => add_nonneg (Nat.cast_nonneg n) (Real.sqrt_nonneg _)
    positivity
  have hG : ∀ i < n, 0 ≤ (G i i).val := fun i hi => h.m0.le.trans (h.low i hi)
  rcases Nat.eq_zero_or_pos n with rfl | hn
  · have : dnorm 0 G (fun i => (x i).val - y i) = 0 := by simp [dnorm]
    rw [this]
    simp
  have hw := h.wellPosed hn
  have hε0 := relErr_nonneg (F := F) (n := n)
  generalize he : (fun i => (x i).val - y i) = e
  have he : ∀ i, (x i).val - y i = e i := fun i => congrFun he i
  have hr : ∀ i < n, |∑ j ∈ range n, hessVal G i j * e j| ≤
      Real.sqrt (G i i).val * (8 * relErr F n * (∑ j ∈ range n, Real.sqrt (G j j).val * |(x j).val|) + 3 * tiny n G m) := by
    intro i hi
    have h1 := h.resid hH hc hs hi
    have h2 := hy i hi
    have e1 : ∑ j ∈ range n, hessVal G i j * e j = ((a i).val + ∑ j ∈ range n, hessVal G i j * (x j).val) := by
      have : ∑ j ∈ range n, hessVal G i j * e j = ∑ j ∈ range n, hessVal G i j * (x j).val - ∑ j ∈ range n, hessVal G i j * y j := by
        rw [← sum_sub_distrib]
        exact sum_congr rfl fun j _ => by rw [← he]; ring
      rw [this]; linarith
    rw [e1]
    exact h1
  generalize hA : 8 * relErr F n * (∑ j ∈ range n, Real.sqrt (G j j).val * |(x j).val|) + 3 * tiny n G m = A at hr
  have hA0 : 0 ≤ A := by
    rw [← hA]
    have : 0 ≤ ∑ j ∈ range n, Real.sqrt (G j j).val * |(x j).val| := sum_nonneg fun j _ => by positivity
    positivity
  have h1 : lam * dnorm n G e ^ 2 ≤ A * (Real.sqrt n * dnorm n G e) := by
    rw [dnorm_sq hG]
    refine (h.margin e).trans ?_
    have : ∑ i ∈ range n, ∑ j ∈ range n, e i * hessVal G i j * e j ≤ A * ∑ i ∈ range n, Real.sqrt (G i i).val * |e i| := by
      rw [mul_sum]
      refine sum_le_sum fun i hi => ?_
      have e1 : ∑ j ∈ range n, e i * hessVal G i j * e j = e i * ∑ j ∈ range n, hessVal G i j * e j := by
        rw [mul_sum]; exact sum_congr rfl fun j _ => by ring
      rw [e1]
      refine (le_abs_self _).trans ?_
      rw [abs_mul]
      have := mul_le_mul_of_nonneg_left (hr i (mem_range.1 hi)) (abs_nonneg (e i))
      linarith
    exact this.trans (mul_le_mul_of_nonneg_left (sum_le_dnorm hG e) hA0)
  have hsn : Real.sqrt n * Real.sqrt n = n := Real.mul_self_sqrt (Nat.cast_nonneg n)
  have h2 : lam * dnorm n G e ^ 2 ≤ (8 * n * relErr F n * dnorm n G (fun i => (x i).val) + 3 * (Real.sqrt n * tiny n G m)) * dnorm n G e := by
    have h3 := mul_le_mul_of_nonneg_left (sum_le_dnorm hG (fun i => (x i).val)) (show 0 ≤ 8 * relErr F n by positivity)
    have h4 : A * Real.sqrt n ≤ 8 * n * relErr F n * dnorm n G (fun i => (x i).val) + 3 * (Real.sqrt n * tiny n G m) := by
      rw [← hA]
      have := mul_le_mul_of_nonneg_right h3 (Real.sqrt_nonneg n)
      have e2 : 8 * relErr F n * (Real.sqrt n * dnorm n G (fun i => (x i).val)) * Real.sqrt n = 8 * n * relErr F n * dnorm n G (fun i => (x i).val) := by
        linear_combination 8 * relErr F n * dnorm n G (fun i => (x i).val) * hsn
      rw [e2] at this
      linarith
    have := mul_le_mul_of_nonneg_right h4 (dnorm_nonneg (n := n) (G := G) e)
    linarith
  have h5 : dnorm n G (fun i => (x i).val) ≤ dnorm n G e + dnorm n G y := by
    have := dnorm_sub hG (fun i => (x i).val) y
    simp only [he] at this
    exact this
  have h6 := err_final (dnorm_nonneg e) hw.lam.le h2 h5 (by positivity) (dnorm_nonneg y) (mul_nonneg (Real.sqrt_nonneg _) hT)
  refine h6.trans ?_
  have h7 : relErr F n ≤ 2 * ((n + 2) * u F) := h.rel_le hn
  have h8 : 24 * n * relErr F n * dnorm n G y ≤ 24 * n * (2 * ((n + 2) * u F)) * dnorm n G y := by
    have := dnorm_nonneg (n := n) (G := G) y
    gcongr
  linarith

/-- `x` is the point where the objective given by `G` and `a` is the smallest. -/
def IsMin (n : ℕ) (G : ℕ → ℕ → Fl F) (a : ℕ → Fl F) (y : ℕ → ℝ) : Prop := ∀ x : ℕ → ℝ, (∃ i < n, x i ≠ y i) → objVal n G a y < objVal n G a x

theorem SafeHessian.exists_isMin (h : SafeHessian F n G m lam) (a : ℕ → Fl F) :
    ∃ y, IsMin n G a y ∧ ∀ i < n, (a i).val + ∑ j ∈ range n, hessVal G i j * y j = 0 := by
  obtain ⟨y, hy⟩ := exists_min (hessVal_comm G) h.posDef (fun i => (a i).val)
  refine ⟨y, fun x ⟨i, hi, hx⟩ => ?_, hy⟩
  have := quad_expand (hessVal_comm G) hy x
  have hp := h.posDef (fun i => x i - y i) ⟨i, hi, sub_ne_zero.2 hx⟩
  unfold objVal
  rw [this]
  linarith

/-- **C81.** After any history, on a problem without constraint whose Hessian is positive definite beyond the rounding errors, `solve` returns SUCCESS
without an iteration; and if the point returned is finite, it is within `48 n (n + 2) u / lam` of the exact minimiser, in relative value and in the norm
weighted by the diagonal of the Hessian, up to a multiple of the smallest number. -/
theorem C81_unconstrained_accuracy (cs : List (Call (Fl F) (Fl F))) (h : ∀ c ∈ cs, CallOk c) {o : Opts (Fl F)} (hit : 0 < o.maxIter)
    {pb : Pb (Fl F) (Fl F)} (hm : pb.m = 0) (hb : pb.useBnd = false) {m lam : ℝ} (hG : SafeHessian F pb.n pb.G m lam) :
    ∃ s s' y, calls cs (State.empty : State (Fl F)) = .ok s ∧ solve o pb s = .ok (.success, s') ∧ s'.it = 0 ∧ IsMin pb.n pb.G pb.a y ∧
      ((∀ i < pb.n, (s'.x i).Finite) →
        lam * dnorm pb.n pb.G (fun i => (s'.x i).val - y i) ≤
          48 * pb.n * (pb.n + 2) * u F * dnorm pb.n pb.G y + 9 * (Real.sqrt pb.n * tiny pb.n pb.G m)) := by
  obtain ⟨s, hs, hi⟩ := calls_inv cs h
  have hnb : pb.nb = 0 := by simp [Pb.nb, hb]
  obtain ⟨L, hL, hfin⟩ := hG.chol
  have hc : cholOk pb := by unfold cholOk; rw [hL]
  obtain ⟨s', h1, h2⟩ := solve_unconstrained hi hm hnb hc hit
  obtain ⟨y, hy1, hy2⟩ := hG.exists_isMin pb.a
  refine ⟨s, s', y, hs, h1, h2, hy1, fun hx => ?_⟩
  have hq : numEq pb = 0 := by simp [numEq, hm, hnb]
  have hf : ∀ i < pb.n, ∀ j ≤ i, (s'.G i j).Finite := by rw [(solve_chol hi h1).1, hL]; exact hfin
  obtain ⟨_, h3, h4⟩ := C79_stationary cs h hs hq h1 h2 hf hx
  exact hG.forward (fun i _ => gram_diag_nonneg _) h3 h4 hy2

end Ieee
end JrlQp
