import Verif.PropsIeeeSolve
import Mathlib.Algebra.QuadraticDiscriminant

/-!
# C82: what the objective value of an unconstrained problem is worth in IEEE arithmetic
-/

namespace JrlQp
namespace Ieee

open NumOps Finset

variable {F : Fmt}

theorem half_val : (half : Fl F).val = 1 / 2 ∧ (half : Fl F).Finite := ⟨rfl, trivial⟩

/-- Half of a scalar product, as computed. -/
theorem half_dot_err (st : Site) (a x : ℕ → Fl F) (n : ℕ) (h : ((half : Fl F) * esum st (fun i => a i * x i) n).Finite) :
    |((half : Fl F) * esum st (fun i => a i * x i) n).val - 1 / 2 * ∑ i ∈ range n, (a i).val * (x i).val| ≤
      1 / 2 * (((1 + u F) ^ (n + 2) - 1) * (∑ i ∈ range n, |(a i).val| * |(x i).val|) + n * eta F * (1 + u F) ^ (n + 1)) + eta F := by
  obtain ⟨-, h1, h2⟩ := mul_err h
  obtain ⟨-, h3⟩ := dot_err st a x n h1
  rw [half_val.1] at h2
  have hu := u_pos (F := F)
  have h4 : |∑ i ∈ range n, (a i).val * (x i).val| ≤ ∑ i ∈ range n, |(a i).val| * |(x i).val| :=
    (abs_sum_le_sum_abs _ _).trans (le_of_eq (sum_congr rfl fun i _ => abs_mul _ _))
  have h0 : 0 ≤ ∑ i ∈ range n, |(a i).val| * |(x i).val| := (abs_nonneg _).trans h4
  generalize ∑ i ∈ range n, (a i).val * (x i).val = T at *
  generalize ∑ i ∈ range n, |(a i).val| * |(x i).val| = S at *
  generalize (esum st (fun i => a i * x i) n : Fl F).val = V at *
  generalize ((half : Fl F) * esum st (fun i => a i * x i) n).val = W at *
  have h5 : |V| ≤ S + dotErr F n S := by
    have := abs_add_le (V - T) T
    rw [sub_add_cancel] at this
    linarith
  have h6 : |1 / 2 * V| = 1 / 2 * |V| := by rw [abs_mul, abs_of_pos (by norm_num : (0 : ℝ) < 1 / 2)]
  have h7 : |1 / 2 * V - 1 / 2 * T| = 1 / 2 * |V - T| := by rw [← mul_sub, abs_mul, abs_of_pos (by norm_num : (0 : ℝ) < 1 / 2)]
  have h8 := abs_add_le (W - 1 / 2 * V) (1 / 2 * V - 1 / 2 * T)
  rw [sub_add_sub_cancel, h7] at h8
  rw [h6] at h2
  have h9 := mul_le_mul_of_nonneg_left h5 hu.le
  have e : (1 + u F) * dotErr F n S + u F * S = ((1 + u F) ^ (n + 2) - 1) * S + n * eta F * (1 + u F) ^ (n + 1) := by
    unfold dotErr; ring
  linarith

/-- **C82, any SUCCESS without an iteration.** On a problem without equality, if `solve` returns SUCCESS without an iteration, the value returned, if finite,
is half of the product of the gradient at the origin and of the point returned, up to rounding errors. -/
theorem C82_value (cs : List (Call (Fl F) (Fl F))) (h : ∀ c ∈ cs, CallOk c) {o : Opts (Fl F)} {pb : Pb (Fl F) (Fl F)} {s : State (Fl F)}
    (hs : calls cs (State.empty : State (Fl F)) = .ok s) (hq : numEq pb = 0) {s'} (hr : solve o pb s = .ok (.success, s')) (hit : s'.it = 0)
    (hf : s'.f.Finite) :
    |s'.f.val - 1 / 2 * ∑ i ∈ range pb.n, (pb.a i).val * (s'.x i).val| ≤
      1 / 2 * (((1 + u F) ^ (pb.n + 2) - 1) * (∑ i ∈ range pb.n, |(pb.a i).val| * |(s'.x i).val|) + pb.n * eta F * (1 + u F) ^ (pb.n + 1)) + eta F := by
  obtain ⟨s1, h3, hi⟩ := calls_inv cs h
  rw [hs] at h3
  cases h3
  have e := (solve_first_both hi hq hr hit).2
  rw [e] at hf ⊢
  exact half_dot_err _ _ _ _ hf

variable {n : ℕ} {G : ℕ → ℕ → Fl F} {m lam : ℝ}

/-- The entries of a positive definite matrix are bounded by its diagonal. -/
theorem posDefN_minor {n : ℕ} {H : ℕ → ℕ → ℝ} (h : PosDefN n H) (hs : ∀ i j, H i j = H j i) {i j : ℕ} (hi : i < n) (hj : j < n) :
    H i j ^ 2 ≤ H i i * H j j := by
  by_cases hij : i = j
  · subst hij; rw [sq]
  have key : ∀ t : ℝ, 0 ≤ H j j * (t * t) + 2 * H i j * t + H i i := by
    intro t
    have h0 := quad_nonneg h (fun a => if a = i then 1 else if a = j then t else 0)
    have e : ∀ a, (∑ b ∈ range n, (if a = i then (1 : ℝ) else if a = j then t else 0) * H a b * (if b = i then 1 else if b = j then t else 0)) =
        (if a = i then (1 : ℝ) else if a = j then t else 0) * (H a i + H a j * t) := by
      intro a
      have : ∀ b, (if b = i then (1 : ℝ) else if b = j then t else 0) = (if b = i then 1 else 0) + (if b = j then t else 0) := by
        intro b
        by_cases h1 : b = i
        · rw [if_pos h1, if_pos h1, if_neg (by omega)]; ring
        · rw [if_neg h1, if_neg h1, zero_add]
      simp only [this]
      simp only [mul_add, sum_add_distrib, mul_ite, mul_one, mul_zero, sum_ite_eq', mem_range, hi, hj, if_true]
      ring
    simp only [e] at h0
    have : ∀ a, (if a = i then (1 : ℝ) else if a = j then t else 0) = (if a = i then 1 else 0) + (if a = j then t else 0) := by
      intro b
      by_cases h1 : b = i
      · rw [if_pos h1, if_pos h1, if_neg (by omega)]; ring
      · rw [if_neg h1, if_neg h1, zero_add]
    simp only [this, add_mul, sum_add_distrib, ite_mul, one_mul, zero_mul, sum_ite_eq', mem_range, hi, hj, if_true] at h0
    rw [hs j i] at h0
    linarith
  have := discrim_le_zero key
  unfold discrim at this
  nlinarith

theorem SafeHessian.off_le (h : SafeHessian F n G m lam) {i j : ℕ} (hi : i < n) (hj : j < n) :
    |hessVal G i j| ≤ Real.sqrt (G i i).val * Real.sqrt (G j j).val := by
  have hG : ∀ i < n, 0 ≤ (G i i).val := fun i hi => h.m0.le.trans (h.low i hi)
  have hd : ∀ i, hessVal G i i = (G i i).val := fun i => by simp [hessVal, symLow]
  rw [← Real.sqrt_mul (hG i hi)]
  refine Real.abs_le_sqrt ?_
  have := posDefN_minor h.posDef (hessVal_comm G) hi hj
  rwa [hd, hd] at this

/-- The gradient at the origin is zero minus the Hessian times the minimiser. -/
theorem SafeHessian.grad_le (h : SafeHessian F n G m lam) {a : ℕ → Fl F} {y : ℕ → ℝ}
    (hy : ∀ i < n, (a i).val + ∑ j ∈ range n, hessVal G i j * y j = 0) (v : ℕ → ℝ) :
    ∑ i ∈ range n, |(a i).val| * |v i| ≤ n * dnorm n G y * dnorm n G v := by
  have hG : ∀ i < n, 0 ≤ (G i i).val := fun i hi => h.m0.le.trans (h.low i hi)
  have h1 : ∀ i < n, |(a i).val| ≤ Real.sqrt (G i i).val * (Real.sqrt n * dnorm n G y) := by
    intro i hi
    rw [show (a i).val = -∑ j ∈ range n, hessVal G i j * y j by linarith [hy i hi], abs_neg]
    refine (abs_sum_le_sum_abs _ _).trans ?_
    refine le_trans ?_ (mul_le_mul_of_nonneg_left (sum_le_dnorm hG y) (Real.sqrt_nonneg _))
    rw [mul_sum]
    refine sum_le_sum fun j hj => ?_
    rw [abs_mul, ← mul_assoc]
    exact mul_le_mul_of_nonneg_right (h.off_le hi (mem_range.1 hj)) (abs_nonneg _)
  have h2 : ∑ i ∈ range n, |(a i).val| * |v i| ≤ Real.sqrt n * dnorm n G y * ∑ i ∈ range n, Real.sqrt (G i i).val * |v i| := by
    rw [mul_sum]
    refine sum_le_sum fun i hi => ?_
    have := mul_le_mul_of_nonneg_right (h1 i (mem_range.1 hi)) (abs_nonneg (v i))
    linarith
  refine h2.trans ?_
  have h3 := mul_le_mul_of_nonneg_left (sum_le_dnorm hG v) (mul_nonneg (Real.sqrt_nonneg n) (dnorm_nonneg (n := n) (G := G) y))
  refine h3.trans (le_of_eq ?_)
  have hsn : Real.sqrt n * Real.sqrt n = n := Real.mul_self_sqrt (Nat.cast_nonneg n)
  linear_combination dnorm n G y * dnorm n G v * hsn

/-- The minimum of the objective. -/
theorem objVal_min {a : ℕ → Fl F} {y : ℕ → ℝ} (hy : ∀ i < n, (a i).val + ∑ j ∈ range n, hessVal G i j * y j = 0) :
    objVal n G a y = 1 / 2 * (∑ i ∈ range n, (a i).val * y i) ∧
      objVal n G a y = -(1 / 2 * (∑ i ∈ range n, ∑ j ∈ range n, y i * hessVal G i j * y j)) := by
  have : ∑ i ∈ range n, ∑ j ∈ range n, y i * hessVal G i j * y j = -∑ i ∈ range n, (a i).val * y i := by
    rw [← sum_neg_distrib]
    refine sum_congr rfl fun i hi => ?_
    have e : ∑ j ∈ range n, y i * hessVal G i j * y j = y i * ∑ j ∈ range n, hessVal G i j * y j := by
      rw [mul_sum]; exact sum_congr rfl fun j _ => by ring
    rw [e]
    linear_combination y i * hy i (mem_range.1 hi)
  unfold objVal
  rw [this]
  constructor <;> ring

/-- The point where the objective is the smallest is unique, and the gradient is zero there. -/
theorem SafeHessian.grad_zero (h : SafeHessian F n G m lam) {a : ℕ → Fl F} {y : ℕ → ℝ} (hm : IsMin n G a y) :
    ∀ i < n, (a i).val + ∑ j ∈ range n, hessVal G i j * y j = 0 := by
  obtain ⟨z, hz, hg⟩ := h.exists_isMin a
  have e : ∀ i < n, z i = y i := by
    by_contra hc
    push Not at hc
    obtain ⟨i, hi, hne⟩ := hc
    have h1 := hm z ⟨i, hi, hne⟩
    have h2 := hz y ⟨i, hi, hne.symm⟩
    linarith
  intro i hi
  rw [← hg i hi]
  congr 1
  exact sum_congr rfl fun j hj => by rw [e j (mem_range.1 hj)]

theorem obj_num {lam g ρ N Y E X T S A B C Q η : ℝ} (hl : 0 < lam) (hl1 : lam ≤ 1) (hg0 : 0 ≤ g) (hg : g ≤ 1 / 24) (hρ : ρ ≤ 2 * g) (hN : 1 ≤ N)
    (hY : 0 ≤ Y) (hE : 0 ≤ E) (hT : 0 ≤ T) (hX : X ≤ E + Y) (hS0 : 0 ≤ S) (hS : S ≤ N * Y * X) (hB : |A - B| ≤ N * Y * E)
    (hC : |C - 1 / 2 * A| ≤ 1 / 2 * (ρ * S + N * η * Q) + η) (hη : 0 ≤ η) (hQ : Q ≤ 13 / 12)
    (hf : lam * E ≤ 48 * N * g * Y + 9 * T) : lam * |C - 1 / 2 * B| ≤ 27 * N ^ 2 * g * Y ^ 2 + 5 * N * T * Y + (N + 1) * η := by
  have h1 : |C - 1 / 2 * B| ≤ 1 / 2 * (ρ * S + N * η * Q) + η + 1 / 2 * (N * Y * E) := by
    have := abs_add_le (C - 1 / 2 * A) (1 / 2 * A - 1 / 2 * B)
    rw [sub_add_sub_cancel, ← mul_sub, abs_mul, abs_of_pos (by norm_num : (0 : ℝ) < 1 / 2)] at this
    linarith
  have hNY : 0 ≤ N * Y := mul_nonneg (by linarith) hY
  have h2 : ρ * S ≤ 2 * g * (N * Y * (E + Y)) := by
    refine (mul_le_mul_of_nonneg_right hρ hS0).trans (mul_le_mul_of_nonneg_left ?_ (by linarith))
    exact hS.trans (mul_le_mul_of_nonneg_left hX hNY)
  have h3 : N * η * Q ≤ N * η * (13 / 12) := mul_le_mul_of_nonneg_left hQ (mul_nonneg (by linarith) hη)
  have h4 : |C - 1 / 2 * B| ≤ (g + 1 / 2) * (N * Y) * E + g * (N * Y) * Y + (N + 1) * η := by nlinarith
  have h5 : lam * |C - 1 / 2 * B| ≤ (g + 1 / 2) * (N * Y) * (lam * E) + lam * (g * (N * Y) * Y + (N + 1) * η) := by
    have := mul_le_mul_of_nonneg_left h4 hl.le
    linarith
  have h6 : lam * (g * (N * Y) * Y + (N + 1) * η) ≤ 1 * (g * (N * Y) * Y + (N + 1) * η) := by
    refine mul_le_mul_of_nonneg_right hl1 ?_
    have : 0 ≤ N + 1 := by linarith
    positivity
  have h7 : (g + 1 / 2) * (N * Y) * (lam * E) ≤ (13 / 24) * (N * Y) * (48 * N * g * Y + 9 * T) := by
    refine mul_le_mul (mul_le_mul_of_nonneg_right (by linarith) hNY) hf (by positivity) (by positivity)
  have h8 : g * (N * Y) * Y ≤ N * (g * (N * Y) * Y) := by
    have : 0 ≤ g * (N * Y) * Y := by positivity
    nlinarith
  have h9 : 0 ≤ N * Y * T := mul_nonneg hNY hT
  nlinarith

theorem dot_fin (st : Site) (a x : ℕ → Fl F) (n : ℕ) (hf : ∀ i < n, (a i).Finite ∧ (x i).Finite)
    (h : sumMag F n (∑ i ∈ range n, |(a i).val| * |(x i).val|) < top F) :
    (esum st (fun i => a i * x i) n : Fl F).Finite ∧
      |(esum st (fun i => a i * x i) n : Fl F).val| ≤ sumMag F n (∑ i ∈ range n, |(a i).val| * |(x i).val|) := by
  have hp := F.order_perm st n
  have e : ((F.order st n).leaves.map fun i => |(a i).val| * |(x i).val|).sum = ∑ i ∈ range n, |(a i).val| * |(x i).val| := by
    rw [(hp.map _).sum_eq, sum_range_list]
  have el : (F.order st n).leaves.length = n := by rw [hp.length_eq, List.length_range]
  have hfin := tree_fin a x (F.order st n) (fun i hi => hf i (List.mem_range.1 (hp.subset hi))) (by rw [e, el]; exact h)
  have hle := tree_val_le a x (F.order st n) hfin
  rw [e, el] at hle
  exact ⟨hfin, hle⟩

theorem one_add_u_pow_le (h : SafeHessian F n G m lam) (hn : 0 < n) {k : ℕ} (hk : k ≤ n + 2) : (1 + u F) ^ k ≤ 1 + relErr F n := by
  have hu := u_pos (F := F)
  have h1 : (1 + u F) ^ k ≤ (1 + u F) ^ (n + 2) := pow_le_pow_right₀ (by linarith) hk
  have h2 := pow_le_pow_left₀ (by linarith) (one_add_u_le_qf (F := F)) (n + 2)
  unfold relErr
  linarith

variable {L : ℕ → ℕ → Fl F} {a : ℕ → Fl F} {α : ℝ}

theorem fin_num {α P S s lam X K : ℝ} (hα : 1 ≤ α) (hP : 1 ≤ P) (hs0 : 0 ≤ s) (hs : s ≤ lam * P) (hl : 0 < lam) (hX : lam * X ≤ 6 * (P * α))
    (hX0 : 0 ≤ X) (hS : S ≤ α * (s * X)) (hK : 25 * α * P ^ 3 ≤ K) : S ≤ 1 / 100 * K ^ 2 := by
  have h1 : s * X ≤ P * (6 * (P * α)) := by
    calc s * X ≤ lam * P * X := mul_le_mul_of_nonneg_right hs hX0
      _ = P * (lam * X) := by ring
      _ ≤ _ := mul_le_mul_of_nonneg_left hX (by linarith)
  have h2 : S ≤ 6 * (α * P) ^ 2 := by
    have := mul_le_mul_of_nonneg_left h1 (show 0 ≤ α by linarith)
    nlinarith
  have h3 : 25 * (α * P) ≤ K := by
    refine le_trans ?_ hK
    have : P ≤ P ^ 3 := le_self_pow₀ hP (by norm_num)
    nlinarith
  have h4 : 0 ≤ α * P := by positivity
  nlinarith

/-- The value computed at the unconstrained minimum is finite. -/
theorem Ready.value_fin (r : Ready F n G L a m lam α) (hF : F.Std) {x : ℕ → Fl F} (hx : ∀ i < n, x i = unconstrMin n L a i) (st : Site) :
    ((half : Fl F) * esum st (fun i => a i * x i) n).Finite := by
  have hG : ∀ i < n, 0 ≤ (G i i).val := fun i hi => r.h.m0.le.trans (r.h.low i hi)
  have hxf : ∀ i < n, (x i).Finite := fun i hi => by rw [hx i hi]; exact r.min_fin hF i hi
  obtain ⟨p1, p2, p3⟩ := r.P1
  have hl := r.h.lam_pos
  have hw := r.h.wellPosed r.hn
  have hu := u_pos (F := F)
  have he := eta_pos (F := F)
  have he1 := eta_le (F := F)
  have htop := two_le_top (F := F)
  have hbz : ∀ j, 0 ≤ j → j < n → (backSub (fun i j => L j i) n (fwdSub L a n) j).Finite := fun j _ hj =>
    r.bwd_fin hF r.fwd_fin r.fwd_le (n - j) j (by omega) (by omega)
  have hb := r.bwd_norm hF r.fwd_le (Nat.zero_le n) hbz
  have ed : dnorm n G (fun j => if 0 ≤ j then (backSub (fun i j => L j i) n (fwdSub L a n) j).val else 0) = dnorm n G (fun j => (x j).val) := by
    unfold dnorm
    congr 1
    refine sum_congr rfl fun j hj => ?_
    have hj := mem_range.1 hj
    show _ * (if 0 ≤ j then _ else (0 : ℝ)) ^ 2 = _ * (x j).val ^ 2
    rw [if_pos (Nat.zero_le j), hx j hj]
    unfold unconstrMin
    rw [(neg_fin (hbz j (Nat.zero_le j) hj)).2]
    ring
  rw [ed] at hb
  have hS : ∑ i ∈ range n, |(a i).val| * |(x i).val| ≤ α * (Real.sqrt n * dnorm n G (fun j => (x j).val)) := by
    refine le_trans ?_ (mul_le_mul_of_nonneg_left (sum_le_dnorm hG _) (by have := r.hg.one_le; linarith))
    rw [mul_sum]
    refine sum_le_sum fun i hi => ?_
    have := mul_le_mul_of_nonneg_right (r.hg.bound i (mem_range.1 hi)) (abs_nonneg (x i).val)
    linarith
  have hn1 : (1 : ℝ) ≤ n := by exact_mod_cast r.hn
  have hsq : Real.sqrt n ≤ lam * (n / lam) := by
    rw [p3]
    exact Real.sqrt_le_iff.2 ⟨by linarith, by nlinarith⟩
  have hK : 25 * α * (n / lam) ^ 3 ≤ Real.sqrt (top F) := by
    refine r.hg.range.trans ?_
    have := (r.s1 r.hn).1
    have h0 := Real.sqrt_nonneg (top F)
    show Real.sqrt m * Real.sqrt (top F) ≤ _
    nlinarith
  have hSt := fin_num r.hg.one_le p1 (Real.sqrt_nonneg n) hsq hl hb (dnorm_nonneg _) hS hK
  rw [Ready.K1.2] at hSt
  have hS0 : 0 ≤ ∑ i ∈ range n, |(a i).val| * |(x i).val| := sum_nonneg fun i _ => by positivity
  have hq := one_add_u_pow_le r.h r.hn (show n + 1 ≤ n + 2 by omega)
  have hε := hw.err_le r.hn
  have hε0 := relErr_nonneg (F := F) (n := n)
  have hen : n * eta F ≤ 1 / 48 := by
    have := hw.eta_n r.hn
    have h0 : 0 ≤ relErr F n * (eta F * (n + 2)) := by positivity
    linarith
  have hmag : sumMag F n (∑ i ∈ range n, |(a i).val| * |(x i).val|) ≤ 1 / 2 * top F := by
    unfold sumMag
    have h1 : (1 + u F) ^ (n + 1) ≤ 13 / 12 := by linarith
    have h2 := mul_le_mul h1 (show (∑ i ∈ range n, |(a i).val| * |(x i).val|) + n * eta F ≤ 1 / 100 * top F + 1 / 48 by linarith)
      (by positivity) (by norm_num)
    linarith
  obtain ⟨d1, d2⟩ := dot_fin st a x n (fun i hi => ⟨r.hg.fin i hi, hxf i hi⟩) (by linarith)
  apply mul_fin half_val.2 d1
  rw [half_val.1, abs_mul, abs_of_pos (by norm_num : (0 : ℝ) < 1 / 2)]
  have h3 := hw.u_le r.hn
  have h4 := mul_le_mul h3 (show 1 / 2 * |(esum st (fun i => a i * x i) n : Fl F).val| ≤ 1 / 4 * top F by linarith) (by positivity) (by norm_num)
  linarith

/-- **C82.** In the situation of C81, the objective value is finite and within rounding errors of the minimum of the objective: the first bound is in terms
of the size of the minimiser, the second one in terms of the minimum itself. -/
theorem C82_objective_accuracy (hF : F.Std) (cs : List (Call (Fl F) (Fl F))) (h : ∀ c ∈ cs, CallOk c) {o : Opts (Fl F)} (hit : 0 < o.maxIter)
    {pb : Pb (Fl F) (Fl F)} (hm : pb.m = 0) (hb : pb.useBnd = false) {m lam α : ℝ} (hG : SafeHessian F pb.n pb.G m lam)
    (ha : SafeGradient F pb.n pb.G pb.a m lam α) :
    ∃ s s' y, calls cs (State.empty : State (Fl F)) = .ok s ∧ solve o pb s = .ok (.success, s') ∧ IsMin pb.n pb.G pb.a y ∧ s'.f.Finite ∧
      lam * |s'.f.val - objVal pb.n pb.G pb.a y| ≤
        27 * pb.n ^ 2 * ((pb.n + 2) * u F) * dnorm pb.n pb.G y ^ 2 + 5 * pb.n * (Real.sqrt pb.n * tiny pb.n pb.G m) * dnorm pb.n pb.G y
          + (pb.n + 1) * eta F ∧
      lam ^ 2 * |s'.f.val - objVal pb.n pb.G pb.a y| ≤
        54 * pb.n ^ 2 * ((pb.n + 2) * u F) * |objVal pb.n pb.G pb.a y|
          + lam * (5 * pb.n * (Real.sqrt pb.n * tiny pb.n pb.G m) * dnorm pb.n pb.G y + (pb.n + 1) * eta F) := by
  obtain ⟨s, s', y, h1, h2, h3, hx, h4, h5⟩ := C81_unconstrained_solved hF cs h hit hm hb hG ha
  obtain ⟨s1, hs1, hi⟩ := calls_inv cs h
  rw [h1] at hs1
  cases hs1
  have hnb : pb.nb = 0 := by simp [Pb.nb, hb]
  have hq : numEq pb = 0 := by simp [numEq, hm, hnb]
  obtain ⟨hx', hf'⟩ := solve_first_both hi hq h2 h3
  have hl := hG.lam_pos
  have hη := eta_pos (F := F)
  refine ⟨s, s', y, h1, h2, h4, ?_⟩
  have hgy := hG.grad_zero h4
  have hGd : ∀ i < pb.n, 0 ≤ (pb.G i i).val := fun i hi => hG.m0.le.trans (hG.low i hi)
  have hmain : s'.f.Finite ∧ lam * |s'.f.val - objVal pb.n pb.G pb.a y| ≤
        27 * pb.n ^ 2 * ((pb.n + 2) * u F) * dnorm pb.n pb.G y ^ 2 + 5 * pb.n * (Real.sqrt pb.n * tiny pb.n pb.G m) * dnorm pb.n pb.G y
          + (pb.n + 1) * eta F := by
    rcases Nat.eq_zero_or_pos pb.n with h0 | hn
    · have e : s'.f = (0 : Fl F) := by
        rw [hf', h0, esum_nil]
        show ofReal _ _ = Fl.fin false m0
        rw [val_zero, mul_zero]
        exact ofReal_zero false
      rw [(objVal_min hgy).1, e]
      refine ⟨trivial, ?_⟩
      rw [show ((0 : Fl F)).val = 0 from val_zero false, h0]
      simp only [range_zero, sum_empty, mul_zero, sub_zero, abs_zero]
      simp only [Nat.cast_zero, zero_add, one_mul]
      have := hη.le
      simpa using this
    obtain ⟨L, hL, hfin⟩ := hG.chol
    have e : s'.G = L := by rw [(solve_chol hi h2).1, hL]
    obtain ⟨g1, _, g3⟩ := chol_close hL hfin
    have r : Ready F pb.n pb.G L pb.a m lam α := ⟨hG, ha, g3, g1, hfin, hn⟩
    rw [e] at hx'
    have hff : s'.f.Finite := by rw [hf']; exact r.value_fin hF hx' _
    refine ⟨hff, ?_⟩
    have hC := C82_value cs h h1 hq h2 h3 hff
    have hw := hG.wellPosed hn
    obtain ⟨hg1, hr⟩ := hG.rel_le' hn
    have hu := u_pos (F := F)
    rw [(objVal_min hgy).1]
    have hT : 0 ≤ tiny pb.n pb.G m := by
      unfold tiny
      have : 0 ≤ ∑ l ∈ range pb.n, ((pb.n : ℝ) + Real.sqrt (pb.G l l).val) := sum_nonneg fun l _ => add_nonneg (Nat.cast_nonneg _) (Real.sqrt_nonneg _)
      positivity
    have hq2 := one_add_u_pow_le hG hn (le_refl (pb.n + 2))
    have hq1 := one_add_u_pow_le hG hn (show pb.n + 1 ≤ pb.n + 2 by omega)
    have hε := hw.err_le hn
    refine obj_num (X := dnorm pb.n pb.G (fun i => (s'.x i).val)) (E := dnorm pb.n pb.G (fun i => (s'.x i).val - y i))
      (S := ∑ i ∈ range pb.n, |(pb.a i).val| * |(s'.x i).val|) (A := ∑ i ∈ range pb.n, (pb.a i).val * (s'.x i).val)
      (Q := (1 + u F) ^ (pb.n + 1)) (ρ := (1 + u F) ^ (pb.n + 2) - 1)
      hl (hw.lam_le hn) (by positivity) hg1 (by linarith) (by exact_mod_cast hn) (dnorm_nonneg _) (dnorm_nonneg _)
      (mul_nonneg (Real.sqrt_nonneg _) hT) (dnorm_sub hGd _ _) (sum_nonneg fun i _ => by positivity) (hG.grad_le hgy _) ?_ hC hη.le
      (by linarith) (by linarith)
    rw [← sum_sub_distrib]
    refine (abs_sum_le_sum_abs _ _).trans (le_trans (le_of_eq ?_) (hG.grad_le hgy (fun i => (s'.x i).val - y i)))
    exact sum_congr rfl fun i _ => by rw [← mul_sub, abs_mul]
  refine ⟨hmain.1, hmain.2, ?_⟩
  have hd : lam * dnorm pb.n pb.G y ^ 2 ≤ 2 * |objVal pb.n pb.G pb.a y| := by
    rw [dnorm_sq hGd]
    refine (hG.margin y).trans ?_
    have := neg_le_abs (objVal pb.n pb.G pb.a y)
    have e := (objVal_min hgy).2
    linarith
  have hu := u_pos (F := F)
  have k1 := mul_le_mul_of_nonneg_left hmain.2 hl.le
  have k2 := mul_le_mul_of_nonneg_left hd (show 0 ≤ 27 * (pb.n : ℝ) ^ 2 * ((pb.n + 2) * u F) by positivity)
  generalize |s'.f.val - objVal pb.n pb.G pb.a y| = W at *
  generalize dnorm pb.n pb.G y = D at *
  nlinarith

/-- Hypotheses of C82, for `double` and any size up to `2^22`: those of C81; the minimum is then negative as soon as there is a variable. -/
theorem C82_hypotheses_met {n : ℕ} (h0 : 0 < n) (hn : n ≤ 2 ^ 22) : ∃ (G : ℕ → ℕ → Fl binary64) (a : ℕ → Fl binary64),
    SafeHessian binary64 n G 1 (1 / 2) ∧ SafeGradient binary64 n G a 1 (1 / 2) 1 ∧ ∃ y, IsMin n G a y ∧ objVal n G a y < 0 := by
  obtain ⟨G, a, h1, h2, h3, h4⟩ := C81_hypotheses_met hn
  refine ⟨G, a, h1, h2, ?_⟩
  obtain ⟨y, hy, hg⟩ := h1.exists_isMin a
  refine ⟨y, hy, ?_⟩
  rw [(objVal_min hg).2]
  have hne : ∃ i < n, y i ≠ 0 := by
    by_contra hc
    push Not at hc
    have := hg 0 h0
    rw [h4, sum_eq_zero fun j hj => by rw [hc j (mem_range.1 hj), mul_zero]] at this
    norm_num at this
  have := h1.posDef y hne
  linarith

end Ieee
end JrlQp
