import Verif.IeeeSubst

/-!
# C79: what an unconstrained minimum is worth in IEEE arithmetic
-/

namespace JrlQp
namespace Ieee

open NumOps Finset

variable {F : Fmt}

/-- The gradient of the objective at `x` is zero up to rounding errors. `G` (lower triangle) and `a` define the objective, `H` is a positive definite
matrix, `ε = q^(n+2) - 1` and `η` is half of the smallest positive number. -/
def Stationary (n : ℕ) (G : ℕ → ℕ → Fl F) (a x : ℕ → Fl F) (H : ℕ → ℕ → ℝ) : Prop :=
  ∀ i < n, (a i).Finite ∧
    |(a i).val + ∑ j ∈ range n, hessVal G i j * (x j).val| ≤
      (3 * relErr F n + relErr F n ^ 2) * (Real.sqrt (H i i) * ∑ j ∈ range n, Real.sqrt (H j j) * |(x j).val|)
      + (1 + relErr F n) ^ 2 * eta F * (n + Real.sqrt (H i i) + Real.sqrt (H i i) * (∑ l ∈ range n, (n + Real.sqrt (H l l)))
        + ∑ j ∈ range n, (n + 2 * Real.sqrt (H i i) + 2 * Real.sqrt (H j j) + eta F) * |(x j).val|)

theorem low_le_sqrt {n i l : Nat} (hl : l < n) (L : Nat → Nat → Fl F) : |lowVal L i l| ≤ Real.sqrt (gram n L i i) := by
  apply Real.abs_le_sqrt
  rw [gram_diag]
  exact single_le_sum (f := fun l => lowVal L i l ^ 2) (fun l _ => by positivity) (mem_range.2 hl)

theorem Close.entry {n : ℕ} {G : ℕ → ℕ → Fl F} {H : ℕ → ℕ → ℝ} (h : Close n G H) (hs : ∀ i j, H i j = H j i) {i j : ℕ} (hi : i < n) (hj : j < n) :
    |H i j - hessVal G i j| ≤ relErr F n * (Real.sqrt (H i i * H j j))
      + (1 + relErr F n) * eta F * (n + 2 * Real.sqrt (H i i) + 2 * Real.sqrt (H j j) + eta F) := by
  have h1 := relErr_nonneg (F := F) (n := n)
  have h2 := eta_pos (F := F)
  have h3 : 0 ≤ (1 + relErr F n) * eta F := by positivity
  have h4 := mul_nonneg h3 (Real.sqrt_nonneg (H i i))
  have h5 := mul_nonneg h3 (Real.sqrt_nonneg (H j j))
  unfold hessVal
  split_ifs with hji
  · refine (h i hi j hji).2.trans ?_
    linarith
  · rw [hs i j, mul_comm (H i i)]
    refine (h j hj i (by omega)).2.trans ?_
    linarith

theorem stationary {n : ℕ} {G L : ℕ → ℕ → Fl F} {a : ℕ → Fl F} (hL : ∀ i < n, (L i i).Finite)
    (h : ∀ i < n, (unconstrMin n L a i).Finite) (hc : Close n G (gram n L)) : Stationary n G a (unconstrMin n L a) (gram n L) := by
  intro i hi
  obtain ⟨h1, h2⟩ := unconstrMin_err hL h hi
  refine ⟨h1, ?_⟩
  generalize hx : (fun j => (unconstrMin n L a j).val) = x at *
  have hx : ∀ j, (unconstrMin n L a j).val = x j := fun j => congrFun hx j
  simp only [hx] at h2 ⊢
  have hε := relErr_nonneg (F := F) (n := n)
  have hη := eta_pos (F := F)
  generalize hR : (fun j => Real.sqrt (gram n L j j)) = R
  have hR : ∀ j, Real.sqrt (gram n L j j) = R j := fun j => congrFun hR j
  have hR0 : ∀ j, 0 ≤ R j := fun j => by rw [← hR]; exact Real.sqrt_nonneg _
  have a1 : ∑ j ∈ range n, (∑ l ∈ range n, |lowVal L i l| * |lowVal L j l|) * |x j| ≤ R i * ∑ j ∈ range n, R j * |x j| := by
    rw [mul_sum]
    refine sum_le_sum fun j _ => ?_
    have := mul_le_mul_of_nonneg_right (gram_abs (n := n) (i := i) (j := j) L) (abs_nonneg (x j))
    rw [hR, hR] at this
    linarith
  have a2 : ∀ l < n, tau n L l ≤ (1 + relErr F n) * eta F * (n + R l) := by
    intro l hl
    have := diag_le_sqrt hl L
    rw [hR] at this
    unfold tau
    gcongr
  have a3 : ∑ l ∈ range n, |lowVal L i l| * tau n L l ≤ (1 + relErr F n) * eta F * (R i * ∑ l ∈ range n, (n + R l)) := by
    rw [mul_sum, mul_sum]
    refine sum_le_sum fun l hl => ?_
    have hl := mem_range.1 hl
    have b1 := low_le_sqrt (i := i) hl L
    rw [hR] at b1
    have b2 : 0 ≤ (1 + relErr F n) * eta F * (n + R l) := by have := hR0 l; positivity
    calc |lowVal L i l| * tau n L l ≤ |lowVal L i l| * ((1 + relErr F n) * eta F * (n + R l)) :=
          mul_le_mul_of_nonneg_left (a2 l hl) (abs_nonneg _)
      _ ≤ R i * ((1 + relErr F n) * eta F * (n + R l)) := mul_le_mul_of_nonneg_right b1 b2
      _ = _ := by ring
  have a4 : |∑ j ∈ range n, hessVal G i j * x j - ∑ j ∈ range n, gram n L i j * x j| ≤
      relErr F n * (R i * ∑ j ∈ range n, R j * |x j|) + (1 + relErr F n) * eta F * ∑ j ∈ range n, (n + 2 * R i + 2 * R j + eta F) * |x j| := by
    rw [← sum_sub_distrib]
    refine (abs_sum_le_sum_abs _ _).trans ?_
    rw [mul_sum, mul_sum, mul_sum, ← sum_add_distrib]
    refine sum_le_sum fun j hj => ?_
    have b1 := hc.entry (gram_comm n L) hi (mem_range.1 hj)
    rw [Real.sqrt_mul (gram_diag_nonneg L), hR, hR, abs_sub_comm] at b1
    rw [← sub_mul, abs_mul]
    have := mul_le_mul_of_nonneg_right b1 (abs_nonneg (x j))
    linarith
  simp only [hR]
  have e : (a i).val + ∑ j ∈ range n, hessVal G i j * x j = ((a i).val + ∑ j ∈ range n, gram n L i j * x j)
      + (∑ j ∈ range n, hessVal G i j * x j - ∑ j ∈ range n, gram n L i j * x j) := by ring
  rw [e]
  refine (abs_add_le _ _).trans ?_
  have a5 := a2 i hi
  have s1 : 0 ≤ R i * ∑ j ∈ range n, R j * |x j| := mul_nonneg (hR0 i) (sum_nonneg fun j _ => mul_nonneg (hR0 j) (abs_nonneg _))
  have s2 : 0 ≤ R i * ∑ l ∈ range n, (n + R l) := mul_nonneg (hR0 i) (sum_nonneg fun j _ => add_nonneg (Nat.cast_nonneg n) (hR0 j))
  have s3 : 0 ≤ ∑ j ∈ range n, (n + 2 * R i + 2 * R j + eta F) * |x j| := sum_nonneg fun j _ => by
    have := hR0 i; have := hR0 j; positivity
  have s4 : (0 : ℝ) ≤ n + R i := add_nonneg (Nat.cast_nonneg n) (hR0 i)
  have a6 := mul_le_mul_of_nonneg_left a1 (show 0 ≤ 2 * relErr F n + relErr F n ^ 2 by positivity)
  have a7 := mul_le_mul_of_nonneg_left a3 (show 0 ≤ 1 + relErr F n by positivity)
  have w : 0 ≤ relErr F n * ((1 + relErr F n) * eta F) := by positivity
  have w1 := mul_nonneg w s3
  have w2 := mul_nonneg w s4
  linear_combination h2 + a4 + a5 + a6 + a7 + w1 + w2

/-- **C79.** After any history, if `solve` returns SUCCESS without an iteration on a problem without equality, and the point and
the lower triangle it leaves in the user's matrix are finite, then the gradient of the objective given by the user vanishes at the point returned
up to an explicit multiple of the unit roundoff and of the smallest number. -/
theorem C79_stationary (cs : List (Call (Fl F) (Fl F))) (h : ∀ c ∈ cs, CallOk c) {o : Opts (Fl F)} {pb : Pb (Fl F) (Fl F)} {s : State (Fl F)}
    (hs : calls cs (State.empty : State (Fl F)) = .ok s) (hq : numEq pb = 0) {s'} (hr : solve o pb s = .ok (.success, s')) (hit : s'.it = 0)
    (hfin : ∀ i < pb.n, ∀ j ≤ i, (s'.G i j).Finite) (hx : ∀ i < pb.n, (s'.x i).Finite) :
    PosDefN pb.n (gram pb.n s'.G) ∧ Close pb.n pb.G (gram pb.n s'.G) ∧ Stationary pb.n pb.G pb.a s'.x (gram pb.n s'.G) := by
  obtain ⟨_, h1, h2⟩ := C78_accepted_hessian cs h hs hr (by simp) hfin
  obtain ⟨s1, h3, hi⟩ := calls_inv cs h
  rw [hs] at h3
  cases h3
  have hx' := solve_first hi hq hr hit
  have h4 := stationary (a := pb.a) (fun i hi => hfin i hi i le_rfl) (fun i hi => by rw [← hx' i hi]; exact hx i hi) h2
  refine ⟨h1, h2, fun i hi => ?_⟩
  obtain ⟨h5, h6⟩ := h4 i hi
  have e : ∀ (c : ℕ → ℝ) (φ : ℝ → ℝ), ∑ j ∈ range pb.n, c j * φ (unconstrMin pb.n s'.G pb.a j).val = ∑ j ∈ range pb.n, c j * φ (s'.x j).val :=
    fun c φ => sum_congr rfl fun j hj => by rw [hx' j (mem_range.1 hj)]
  refine ⟨h5, ?_⟩
  have e1 := e (fun j => hessVal pb.G i j) id
  have e2 := e (fun j => Real.sqrt (gram pb.n s'.G j j)) (fun t => |t|)
  have e3 := e (fun j => pb.n + 2 * Real.sqrt (gram pb.n s'.G i i) + 2 * Real.sqrt (gram pb.n s'.G j j) + eta F) (fun t => |t|)
  simp only [id] at e1
  rw [e1, e2, e3] at h6
  exact h6

end Ieee
end JrlQp
