import Verif.IeeeErr
import Verif.RealLin

/-!
# Backward error of the operations used by the factorisation and the triangular solves

`esub_err`: a computed `y - Σ c x`. `div_err`, `esub_div_err`: the same divided by a number. `sqrt_err`: the pivot of a
Cholesky factorisation. All the bounds hold whatever the order of the additions.
-/

namespace JrlQp
namespace Ieee

open NumOps Finset

variable {F : Fmt}

/-- `1 / (1 - u)`. -/
noncomputable def qf (F : Fmt) : ℝ := 1 / (1 - u F)

theorem u_le_half : u F ≤ 1 / 2 := by
  have h2 : (2 : ℝ) ^ (-(F.p : ℤ)) ≤ 2 ^ (-1 : ℤ) := zpow_le_zpow_right₀ (by norm_num) (by have := F.hp; omega)
  have h3 : (2 : ℝ) ^ (-1 : ℤ) = 1 / 2 := by norm_num
  rw [h3] at h2; exact h2

theorem qf_mul : qf F * (1 - u F) = 1 := by
  have := u_le_half (F := F)
  unfold qf
  rw [one_div, inv_mul_cancel₀ (by linarith)]

theorem one_le_qf : 1 ≤ qf F := by
  have h1 := u_le_half (F := F)
  have h2 := u_pos (F := F)
  unfold qf
  rw [le_div_iff₀ (by linarith)]; linarith

theorem one_add_u_le_qf : 1 + u F ≤ qf F := by
  have h1 := u_le_half (F := F)
  have h2 := u_pos (F := F)
  unfold qf
  rw [le_div_iff₀ (by linarith)]; nlinarith

theorem u_qf : u F * qf F = qf F - 1 := by have := qf_mul (F := F); linarith

/-- From an error relative to the exact value to one relative to the computed value. -/
theorem rel_swap {c e η : ℝ} (h : |c - e| ≤ u F * |e| + η) : |e| ≤ qf F * (|c| + η) ∧ |c - e| ≤ (qf F - 1) * |c| + qf F * η := by
  have h1 := u_le_half (F := F)
  have h2 := u_pos (F := F)
  have h3 := qf_mul (F := F)
  have h4 := one_le_qf (F := F)
  have h5 := u_qf (F := F)
  have t : |e| ≤ |c| + |c - e| := by
    have : e = c - (c - e) := by ring
    calc |e| = |c - (c - e)| := by rw [← this]
      _ ≤ _ := by rw [sub_eq_add_neg]; exact (abs_add_le _ _).trans (by rw [abs_neg])
  have h6 : (1 - u F) * |e| ≤ |c| + η := by linarith
  have h7 : |e| ≤ qf F * (|c| + η) := by
    have := mul_le_mul_of_nonneg_left h6 (by linarith : 0 ≤ qf F)
    rwa [← mul_assoc, h3, one_mul] at this
  refine ⟨h7, h.trans ?_⟩
  have := mul_le_mul_of_nonneg_left h7 h2.le
  rw [← mul_assoc, h5] at this
  linarith

theorem neg_finite {a : Fl F} (h : (-a).Finite) : a.Finite ∧ (-a).val = -a.val := by
  cases a with
  | nan => exact h.elim
  | inf s => exact h.elim
  | fin s m => exact ⟨trivial, neg_val s m⟩

theorem sub_err {a b : Fl F} (h : (a - b).Finite) :
    a.Finite ∧ b.Finite ∧ |(a - b).val - (a.val - b.val)| ≤ u F * |a.val - b.val| := by
  change (a + -b).Finite at h
  obtain ⟨h1, h2, h3⟩ := add_err h
  obtain ⟨h4, h5⟩ := neg_finite h2
  rw [h5, ← sub_eq_add_neg] at h3
  exact ⟨h1, h4, h3⟩

theorem sub_zero_val {b : Fl F} (hb : (b - 0).Finite) : (b - (0 : Fl F)).val = b.val := by
  have hf := (sub_err hb).1
  obtain ⟨s, m, rfl⟩ := (finite_iff b).1 hf
  change (ofReal _ ((Fl.fin s m : Fl F).val + (Fl.fin true m0 : Fl F).val) : Fl F).Finite at hb
  show (ofReal _ ((Fl.fin s m : Fl F).val + (Fl.fin true m0 : Fl F).val) : Fl F).val = _
  rw [val_zero, add_zero] at hb ⊢
  have hm : 0 ≤ m.1 := by rw [← abs_val s m]; exact abs_nonneg _
  have h1 : rnd F |(Fl.fin s m : Fl F).val| = m.1 := by rw [abs_val]; exact rnd_exact hm m.2.1
  have h2 := ofReal_err hb (b := 0) (by rw [h1, abs_val, sub_self, abs_zero])
  exact sub_eq_zero.1 (abs_nonpos_iff.1 h2)

/-- Bound on `|y - Σ c x - z|` for the computed value `z` of `y - Σ c x`, relative to `z`. -/
noncomputable def subErr (F : Fmt) (n : ℕ) (S z : ℝ) : ℝ := (qf F ^ (n + 1) - 1) * (S + |z|) + n * eta F * qf F ^ n

theorem list_sum_abs (c x : Nat → Fl F) (l : List Nat) : 0 ≤ (l.map fun i => |(c i).val| * |(x i).val|).sum ∧
    |(l.map fun i => (c i).val * (x i).val).sum| ≤ (l.map fun i => |(c i).val| * |(x i).val|).sum := by
  induction l with
  | nil => simp
  | cons j js ih =>
    simp only [List.map_cons, List.sum_cons]
    have : 0 ≤ |(c j).val| * |(x j).val| := by positivity
    refine ⟨by linarith [ih.1], (abs_add_le _ _).trans ?_⟩
    rw [abs_mul]; linarith [ih.2]

theorem dotErr_le_qf {n : ℕ} {S : ℝ} (hS : 0 ≤ S) : dotErr F n S ≤ (qf F ^ (n + 1) - 1) * S + n * eta F * qf F ^ n := by
  have hu := u_pos (F := F)
  have he := eta_pos (F := F)
  have h := one_add_u_le_qf (F := F)
  have h1 : (1 + u F) ^ (n + 1) ≤ qf F ^ (n + 1) := pow_le_pow_left₀ (by linarith) h _
  have h2 : (1 + u F) ^ n ≤ qf F ^ n := pow_le_pow_left₀ (by linarith) h _
  unfold dotErr
  have a := mul_le_mul_of_nonneg_right h1 hS
  have b := mul_le_mul_of_nonneg_left h2 (show 0 ≤ n * eta F by positivity)
  nlinarith

theorem foldl_err (c x : Nat → Fl F) (ts : List SumTree) : ∀ y : Fl F,
    (ts.foldl (fun acc t => acc - t.eval fun i => c i * x i) y).Finite →
    y.Finite ∧ (∀ i ∈ ts.flatMap SumTree.leaves, (c i).Finite ∧ (x i).Finite) ∧
    |y.val - ((ts.flatMap SumTree.leaves).map fun i => (c i).val * (x i).val).sum
        - (ts.foldl (fun acc t => acc - t.eval fun i => c i * x i) y).val|
      ≤ subErr F (ts.flatMap SumTree.leaves).length ((ts.flatMap SumTree.leaves).map fun i => |(c i).val| * |(x i).val|).sum
          (ts.foldl (fun acc t => acc - t.eval fun i => c i * x i) y).val := by
  induction ts with
  | nil =>
    intro y h
    refine ⟨h, by simp, ?_⟩
    simp only [List.foldl_nil, List.flatMap_nil, List.map_nil, List.sum_nil, sub_zero, sub_self, abs_zero, subErr, List.length_nil]
    have := one_le_qf (F := F)
    have h1 : 0 ≤ (qf F ^ (0 + 1) - 1) * (0 + |y.val|) := mul_nonneg (by simpa using this) (by positivity)
    simpa using h1
  | cons t ts ih =>
    intro y h
    rw [List.foldl_cons] at h
    obtain ⟨h1, h2, h3⟩ := ih _ h
    obtain ⟨h4, h5, h6⟩ := sub_err h1
    obtain ⟨h7, h8⟩ := tree_err c x t h5
    refine ⟨h4, ?_, ?_⟩
    · intro i hi
      rw [List.flatMap_cons] at hi
      exact (List.mem_append.1 hi).elim (h7 i) (h2 i)
    · rw [List.foldl_cons, List.flatMap_cons, List.map_append, List.map_append, List.sum_append, List.sum_append, List.length_append]
      obtain ⟨a1, a2⟩ := list_sum_abs c x t.leaves
      obtain ⟨b1, b2⟩ := list_sum_abs c x (ts.flatMap SumTree.leaves)
      by_cases hl : t.leaves = []
      · have e0 := tree_nil hl (fun i => c i * x i)
        have e1 : (y - t.eval fun i => c i * x i).val = y.val := by
          rw [e0] at h1 ⊢
          exact sub_zero_val h1
        rw [e1] at h3
        simp only [hl, List.map_nil, List.sum_nil, zero_add, List.length_nil]
        exact h3
      · have hm := List.length_pos_iff.2 hl
        have q1 := one_le_qf (F := F)
        have he := eta_pos (F := F)
        have d := dotErr_le_qf (F := F) (n := t.leaves.length) a1
        have hs := (rel_swap (F := F) (c := (y - t.eval fun i => c i * x i).val) (e := y.val - (t.eval fun i => c i * x i).val)
          (η := 0) (by rw [add_zero]; exact h6)).2
        rw [mul_zero, add_zero] at hs
        generalize (List.foldl (fun acc t => acc - t.eval fun i => c i * x i) (y - t.eval fun i => c i * x i) ts).val = z at *
        generalize (y - t.eval fun i => c i * x i).val = y1 at *
        generalize (t.eval fun i => c i * x i).val = T at *
        generalize (t.leaves.map fun i => (c i).val * (x i).val).sum = A1 at *
        generalize (t.leaves.map fun i => |(c i).val| * |(x i).val|).sum = St at *
        generalize ((ts.flatMap SumTree.leaves).map fun i => (c i).val * (x i).val).sum = A2 at *
        generalize ((ts.flatMap SumTree.leaves).map fun i => |(c i).val| * |(x i).val|).sum = Ss at *
        generalize (ts.flatMap SumTree.leaves).length = N at *
        generalize t.leaves.length = m at *
        generalize y.val = Y at *
        have hd := h8.trans d
        unfold subErr at h3 ⊢
        have t1 : |Y - (A1 + A2) - z| ≤ |y1 - (Y - T)| + |T - A1| + |y1 - A2 - z| := by
          have : Y - (A1 + A2) - z = -(y1 - (Y - T)) + (T - A1) + (y1 - A2 - z) := by ring
          rw [this]
          refine (abs_add_le _ _).trans ?_
          have := abs_add_le (-(y1 - (Y - T))) (T - A1)
          rw [abs_neg] at this
          linarith
        have t2 : |y1| ≤ |y1 - A2 - z| + Ss + |z| := by
          have : y1 = (y1 - A2 - z) + (A2 + z) := by ring
          have a := abs_add_le (y1 - A2 - z) (A2 + z)
          rw [← this] at a
          have b := abs_add_le A2 z
          linarith
        have t3 := mul_le_mul_of_nonneg_left t2 (by linarith : 0 ≤ qf F - 1)
        have t4 := mul_le_mul_of_nonneg_left h3 (by linarith : 0 ≤ qf F)
        have p1 : qf F ^ (N + 1 + 1) ≤ qf F ^ (m + N + 1) := pow_le_pow_right₀ q1 (by omega)
        have p2 : qf F ^ (m + 1) ≤ qf F ^ (m + N + 1) := pow_le_pow_right₀ q1 (by omega)
        have p3 : qf F ^ (N + 1) ≤ qf F ^ (m + N) := pow_le_pow_right₀ q1 (by omega)
        have p4 : qf F ^ m ≤ qf F ^ (m + N) := pow_le_pow_right₀ q1 (by omega)
        have r1 := mul_le_mul_of_nonneg_right p1 (show 0 ≤ Ss + |z| by positivity)
        have r2 := mul_le_mul_of_nonneg_right p2 a1
        have r3 := mul_le_mul_of_nonneg_left p3 (show 0 ≤ N * eta F by positivity)
        have r4 := mul_le_mul_of_nonneg_left p4 (show 0 ≤ m * eta F by positivity)
        have e1 : qf F * ((qf F ^ (N + 1) - 1) * (Ss + |z|) + N * eta F * qf F ^ N)
            = qf F ^ (N + 1 + 1) * (Ss + |z|) - qf F * (Ss + |z|) + N * eta F * qf F ^ (N + 1) := by ring
        rw [e1] at t4
        push_cast
        linarith

/-- A computed `y - Σ c x`: error relative to the result and to the terms. -/
theorem esub_err (st : Site) (c x : Nat → Fl F) (y : Fl F) (n : ℕ) (h : (esub st y (fun i => c i * x i) n).Finite) :
    y.Finite ∧ (∀ i < n, (c i).Finite ∧ (x i).Finite) ∧
    |y.val - (∑ i ∈ range n, (c i).val * (x i).val) - (esub st y (fun i => c i * x i) n).val|
      ≤ subErr F n (∑ i ∈ range n, |(c i).val| * |(x i).val|) (esub st y (fun i => c i * x i) n).val := by
  have hp := F.orderSub_perm st n
  obtain ⟨h0, h1, h2⟩ := foldl_err c x (F.orderSub st n) y h
  rw [(hp.map _).sum_eq, (hp.map _).sum_eq, hp.length_eq, List.length_range, sum_range_list, sum_range_list] at h2
  exact ⟨h0, fun i hi => h1 i (hp.symm.subset (List.mem_range.2 hi)), h2⟩

/-- Division: relative and absolute errors. -/
theorem div_err {a b : Fl F} (hb : b.Finite) (h : (a / b).Finite) :
    a.Finite ∧ b.val ≠ 0 ∧ |(a / b).val - a.val / b.val| ≤ u F * |a.val / b.val| + eta F := by
  change (Fl.div a b).Finite at h
  show _ ∧ _ ∧ |(Fl.div a b).val - _| ≤ _
  cases b with
  | nan => exact hb.elim
  | inf t => exact hb.elim
  | fin t k =>
    cases a with
    | nan => exact h.elim
    | inf s => exact h.elim
    | fin s m =>
      by_cases hk : k.1 = 0
      · unfold Fl.div at h
        simp only [hk, if_true] at h
        split_ifs at h <;> exact h.elim
      · unfold Fl.div at h ⊢
        simp only [hk, if_false] at h ⊢
        refine ⟨trivial, ?_, ofReal_err h (rnd_error (abs_nonneg _))⟩
        intro h0
        apply hk
        rw [← abs_val t k, h0, abs_zero]

/-- The rounding of a quotient, in terms of real numbers. -/
theorem div_real {n : ℕ} {S y T z s L : ℝ} (hS : 0 ≤ S) (h2 : s ≠ 0) (h3 : |L - z / s| ≤ u F * |z / s| + eta F)
    (h6 : |y - T - z| ≤ subErr F n S z) :
    |y - T - s * L| ≤ (qf F ^ (n + 2) - 1) * (S + |s| * |L|) + n * eta F * qf F ^ n + qf F ^ (n + 2) * eta F * |s| := by
  obtain ⟨e1, e2⟩ := rel_swap h3
  have q1 := one_le_qf (F := F)
  have he := eta_pos (F := F)
  have hs0 : 0 < |s| := abs_pos.2 h2
  have f1 : |z| ≤ qf F * (|L| + eta F) * |s| := by
    rw [abs_div, div_le_iff₀ hs0] at e1; exact e1
  have f2 : |z - s * L| ≤ ((qf F - 1) * |L| + qf F * eta F) * |s| := by
    have : z - s * L = -(L - z / s) * s := by field_simp; ring
    rw [this, abs_mul, abs_neg]
    exact mul_le_mul_of_nonneg_right e2 hs0.le
  unfold subErr at h6
  have t1 : |y - T - s * L| ≤ |y - T - z| + |z - s * L| := by
    have : y - T - s * L = (y - T - z) + (z - s * L) := by ring
    rw [this]; exact abs_add_le _ _
  have p0 : 1 ≤ qf F ^ (n + 1) := one_le_pow₀ q1
  have r1 := mul_le_mul_of_nonneg_left f1 (by linarith : 0 ≤ qf F ^ (n + 1) - 1)
  have p1 : qf F ^ (n + 1) ≤ qf F ^ (n + 2) := pow_le_pow_right₀ q1 (by omega)
  have r2 := mul_le_mul_of_nonneg_right p1 hS
  have e3 : (qf F ^ (n + 1) - 1) * (qf F * (|L| + eta F) * |s|)
      = qf F ^ (n + 2) * (|s| * |L|) + qf F ^ (n + 2) * eta F * |s| - qf F * (|s| * |L|) - qf F * eta F * |s| := by ring
  rw [e3] at r1
  nlinarith [r1, r2, f2, h6, t1]

/-- A computed `(y - Σ c x) / s`: backward error. -/
theorem esub_div_err (st : Site) (c x : Nat → Fl F) (y s : Fl F) (n : ℕ) (hs : s.Finite)
    (h : (esub st y (fun i => c i * x i) n / s).Finite) :
    y.Finite ∧ (∀ i < n, (c i).Finite ∧ (x i).Finite) ∧ s.val ≠ 0 ∧
    |y.val - (∑ i ∈ range n, (c i).val * (x i).val) - s.val * (esub st y (fun i => c i * x i) n / s).val|
      ≤ (qf F ^ (n + 2) - 1) * ((∑ i ∈ range n, |(c i).val| * |(x i).val|) + |s.val| * |(esub st y (fun i => c i * x i) n / s).val|)
        + n * eta F * qf F ^ n + qf F ^ (n + 2) * eta F * |s.val| := by
  obtain ⟨h1, h2, h3⟩ := div_err hs h
  obtain ⟨h4, h5, h6⟩ := esub_err st c x y n h1
  exact ⟨h4, h5, h2, div_real (sum_nonneg fun i _ => by positivity) h2 h3 h6⟩

/-- The square root of a positive number: positive, with a backward error. -/
theorem sqrt_err {a : Fl F} (ha : Fl.le a 0 = false) (h : (Fl.sqrt a).Finite) :
    a.Finite ∧ 0 < a.val ∧ 0 < (Fl.sqrt a).val ∧
      |a.val - (Fl.sqrt a).val ^ 2| ≤ (qf F ^ 2 - 1) * (Fl.sqrt a).val ^ 2 + qf F ^ 2 * (2 * (Fl.sqrt a).val * eta F + eta F ^ 2) := by
  cases a with
  | nan => exact h.elim
  | inf s => cases s <;> exact h.elim
  | fin s m =>
    have e0 : (0 : Fl F).ext = some ((0 : ℝ) : EReal) := rfl
    have hpos : 0 < (Fl.fin s m : Fl F).val := by
      unfold Fl.le at ha
      rw [ext_fin, e0] at ha
      simp only [EReal.coe_le_coe_iff, decide_eq_false_iff_not, not_le] at ha
      exact ha
    cases s with
    | true =>
      exfalso
      have : 0 ≤ m.1 := by rw [← abs_val true m]; exact abs_nonneg _
      have : (Fl.fin true m : Fl F).val = -m.1 := rfl
      linarith
    | false =>
      have hm : (Fl.fin false m : Fl F).val = m.1 := rfl
      rw [hm] at hpos ⊢
      refine ⟨trivial, hpos, ?_⟩
      change (ofReal false (Real.sqrt m.1) : Fl F).Finite at h
      show 0 < (ofReal false (Real.sqrt m.1) : Fl F).val ∧ |m.1 - (ofReal false (Real.sqrt m.1) : Fl F).val ^ 2| ≤ _ * (ofReal false (Real.sqrt m.1) : Fl F).val ^ 2 + _ * (2 * (ofReal false (Real.sqrt m.1) : Fl F).val * eta F + eta F ^ 2)
      have hr : 0 < Real.sqrt m.1 := Real.sqrt_pos.2 hpos
      rw [(ofReal_val h).2.1 hr]
      have herr : |rnd F (Real.sqrt m.1) - Real.sqrt m.1| ≤ u F * Real.sqrt m.1 + eta F := rnd_error hr.le
      have hss := Real.sq_sqrt hpos.le
      have q1 := one_le_qf (F := F)
      have he := eta_pos (F := F)
      have hsp : 0 < rnd F (Real.sqrt m.1) := by
        -- the argument is at least the smallest positive number
        obtain ⟨k, hk⟩ := rep_multiple m.2.1
        have hE := two_zpow_pos F.emin
        have hk1 : 1 ≤ k := by
          by_contra hcon
          have : (k : ℝ) ≤ 0 := by exact_mod_cast (by omega : k ≤ 0)
          have := mul_nonpos_of_nonpos_of_nonneg this hE.le
          linarith
        have hk2 : (2 : ℝ) ^ F.emin ≤ m.1 := by
          have : (1 : ℝ) ≤ k := by exact_mod_cast hk1
          rw [hk]; nlinarith
        have hE1 : (2 : ℝ) ^ F.emin ≤ 1 := zpow_le_one_of_nonpos₀ (by norm_num) (by have := F.hmin; omega)
        have hE2 : (2 : ℝ) ^ F.emin ≤ Real.sqrt m.1 := by
          apply Real.le_sqrt_of_sq_le
          nlinarith
        rcases hE2.eq_or_lt with h0 | h0
        · have hrep : Rep F ((2 : ℝ) ^ F.emin) :=
            ⟨1, F.emin, Nat.one_lt_two_pow (by have := F.hp; omega), le_refl _, by simp⟩
          rw [← h0, rnd_exact hE.le hrep]; exact hE
        · have hu := u_le_half (F := F)
          have e : eta F = 2 ^ F.emin / 2 := by
            unfold eta
            rw [zpow_sub₀ (by norm_num)]; norm_num
          have := (abs_le.1 herr).1
          rw [e] at this
          nlinarith
      refine ⟨hsp, ?_⟩
      rw [← hss]
      rw [Real.sqrt_sq hr.le]
      generalize Real.sqrt m.1 = r at *
      generalize rnd F r = s at *
      have hu := u_le_half (F := F)
      have hu0 := u_pos (F := F)
      rw [← abs_of_pos hr] at herr
      nth_rewrite 1 [abs_of_pos hr] at herr
      obtain ⟨a1, -⟩ := rel_swap herr
      rw [abs_of_pos hr] at herr
      rw [abs_of_pos hr, abs_of_pos hsp] at a1
      have b1 := (abs_le.1 herr).2
      have hq := one_add_u_le_qf (F := F)
      have b2 : s ≤ qf F * r + eta F := by nlinarith
      rw [abs_le]
      have hq2 : 1 ≤ qf F ^ 2 := one_le_pow₀ q1
      constructor
      · -- s² - r²
        have c1 : (s - eta F) ≤ qf F * r := by linarith
        by_cases hc : eta F ≤ s
        · have c2 : (s - eta F) ^ 2 ≤ (qf F * r) ^ 2 := pow_le_pow_left₀ (by linarith) c1 2
          have c3 : 0 ≤ (qf F ^ 2 - 1) * (qf F ^ 2 - 1) * s ^ 2 := by positivity
          have hne : 0 < qf F ^ 2 := by positivity
          have c4 : qf F ^ 2 * (s ^ 2 - r ^ 2) ≤ qf F ^ 2 * ((qf F ^ 2 - 1) * s ^ 2 + qf F ^ 2 * (2 * s * eta F + eta F ^ 2)) := by
            have d1 : 0 ≤ s * eta F := by positivity
            have d2 : 1 ≤ qf F ^ 2 * qf F ^ 2 := by nlinarith
            have d3 := mul_le_mul_of_nonneg_right d2 (by positivity : 0 ≤ 2 * s * eta F + eta F ^ 2)
            nlinarith
          have := le_of_mul_le_mul_left c4 hne
          linarith
        · have hc := not_le.1 hc
          have d1 : s * s ≤ s * eta F := mul_le_mul_of_nonneg_left hc.le hsp.le
          have d0 : 0 ≤ 2 * s * eta F + eta F ^ 2 := by positivity
          have d3 := mul_le_mul_of_nonneg_right hq2 d0
          have d4 : 0 ≤ (qf F ^ 2 - 1) * s ^ 2 := mul_nonneg (by linarith) (by positivity)
          have d5 : 0 ≤ r ^ 2 := by positivity
          have d6 : 0 ≤ s * eta F := by positivity
          have d7 : 0 ≤ eta F ^ 2 := by positivity
          nlinarith
      · have c2 : r ^ 2 ≤ (qf F * (s + eta F)) ^ 2 := pow_le_pow_left₀ hr.le a1 2
        nlinarith

/-- The matrix whose lower triangle is stored in `G`, as real numbers. -/
noncomputable def hessVal (G : Nat → Nat → Fl F) (i j : Nat) : ℝ := if j ≤ i then (G i j).val else (G j i).val

/-- Relative error of the factorisation of a matrix of size `n`: about `(n + 2) u`. -/
noncomputable def relErr (F : Fmt) (n : Nat) : ℝ := qf F ^ (n + 2) - 1

theorem relErr_nonneg {n : Nat} : 0 ≤ relErr F n := by
  have : 1 ≤ qf F ^ (n + 2) := one_le_pow₀ one_le_qf
  unfold relErr; linarith

/-! ## The factorisation -/

/-- Bound on the error of an entry of `L Lᵀ` of size `r`: `Λ` is the sum of the absolute values of the terms, `s` the diagonal entry of
the column. -/
noncomputable def cholBound (F : Fmt) (r : ℕ) (Λ s : ℝ) : ℝ := (qf F ^ (r + 2) - 1) * Λ + qf F ^ (r + 2) * eta F * (r + 2 * s + eta F)

theorem cholBound_entry {r j : ℕ} (hj : j < r) {S P s : ℝ} (hS : 0 ≤ S) (hP : 0 ≤ P) (hs : 0 ≤ s) :
    (qf F ^ (j + 2) - 1) * (S + P) + j * eta F * qf F ^ j + qf F ^ (j + 2) * eta F * s ≤ cholBound F r (S + P) s := by
  have q1 := one_le_qf (F := F)
  have he := eta_pos (F := F)
  have p1 : qf F ^ (j + 2) ≤ qf F ^ (r + 2) := pow_le_pow_right₀ q1 (by omega)
  have p2 : qf F ^ j ≤ qf F ^ (r + 2) := pow_le_pow_right₀ q1 (by omega)
  have hjr : (j : ℝ) ≤ r := by exact_mod_cast hj.le
  have hp : 0 < qf F ^ (r + 2) := by positivity
  have r1 := mul_le_mul_of_nonneg_right p1 (add_nonneg hS hP)
  have r2 := mul_le_mul_of_nonneg_left p2 (show 0 ≤ j * eta F by positivity)
  have r3 := mul_le_mul_of_nonneg_right p1 (show 0 ≤ eta F * s by positivity)
  have r4 := mul_le_mul_of_nonneg_right hjr (show 0 ≤ eta F * qf F ^ (r + 2) by positivity)
  have r5 : 0 ≤ qf F ^ (r + 2) * eta F * (s + eta F) := by positivity
  unfold cholBound
  nlinarith

theorem cholBound_pivot {r j : ℕ} (hj : j < r) {S s x y : ℝ} (hS : 0 ≤ S) (hs : 0 < s) (hx : 0 < x)
    (h1 : |x - s ^ 2| ≤ (qf F ^ 2 - 1) * s ^ 2 + qf F ^ 2 * (2 * s * eta F + eta F ^ 2))
    (h2 : |y - x| ≤ subErr F j S x) : |y - s ^ 2| ≤ cholBound F r (S + s ^ 2) s := by
  have q1 := one_le_qf (F := F)
  have he := eta_pos (F := F)
  unfold subErr at h2
  rw [abs_of_pos hx] at h2
  set D := qf F ^ 2 * (2 * s * eta F + eta F ^ 2) with hD
  have hx2 : x ≤ qf F ^ 2 * s ^ 2 + D := by have := (abs_le.1 h1).2; linarith
  have t1 : |y - s ^ 2| ≤ |y - x| + |x - s ^ 2| := by
    have : y - s ^ 2 = (y - x) + (x - s ^ 2) := by ring
    rw [this]; exact abs_add_le _ _
  have p0 : 1 ≤ qf F ^ (j + 1) := one_le_pow₀ q1
  have r1 := mul_le_mul_of_nonneg_left hx2 (by linarith : 0 ≤ qf F ^ (j + 1) - 1)
  have p1 : qf F ^ (j + 1) ≤ qf F ^ (r + 2) := pow_le_pow_right₀ q1 (by omega)
  have p3 : qf F ^ (j + 3) ≤ qf F ^ (r + 2) := pow_le_pow_right₀ q1 (by omega)
  have p2 : qf F ^ j ≤ qf F ^ (r + 2) := pow_le_pow_right₀ q1 (by omega)
  have hjr : (j : ℝ) ≤ r := by exact_mod_cast hj.le
  have r2 := mul_le_mul_of_nonneg_right p1 hS
  have r3 := mul_le_mul_of_nonneg_right p3 (show 0 ≤ s ^ 2 by positivity)
  have r4 := mul_le_mul_of_nonneg_right p3 (show 0 ≤ 2 * s * eta F + eta F ^ 2 by positivity)
  have r5 := mul_le_mul_of_nonneg_left p2 (show 0 ≤ j * eta F by positivity)
  have r6 := mul_le_mul_of_nonneg_right hjr (show 0 ≤ eta F * qf F ^ (r + 2) by positivity)
  have e1 : (qf F ^ (j + 1) - 1) * (qf F ^ 2 * s ^ 2 + D) = qf F ^ (j + 3) * s ^ 2 + qf F ^ (j + 3) * (2 * s * eta F + eta F ^ 2) - qf F ^ 2 * s ^ 2 - D := by
    rw [hD]; ring
  rw [e1] at r1
  unfold cholBound
  nlinarith

/-- Loop invariant of the Cholesky factorisation in IEEE arithmetic, for the rows below `r`. -/
theorem chol_fl_inv (n : Nat) (M : Nat → Nat → Fl F) (r : Nat) (hr : r ≤ n) (k : Nat) (hk : k ≤ r) (L : Nat → Nat → Fl F)
    (h : chol n M k = (L, none)) (hfin : ∀ j < k, ∀ i, j ≤ i → i < r → (L i j).Finite) :
    (∀ i, ∀ j, k ≤ j → L i j = M i j) ∧ (∀ j < k, 0 < (L j j).val) ∧
    (∀ j < k, ∀ i, j ≤ i → i < r → (M i j).Finite ∧
      |(M i j).val - ∑ l ∈ range (j + 1), (L i l).val * (L j l).val|
        ≤ cholBound F r (∑ l ∈ range (j + 1), |(L i l).val| * |(L j l).val|) (L j j).val) := by
  induction k generalizing L with
  | zero =>
    simp only [chol, Prod.mk.injEq, and_true] at h
    subst h
    exact ⟨fun _ _ _ => rfl, fun _ h => by omega, fun _ h => by omega⟩
  | succ k ih =>
    simp only [chol] at h
    rcases hc : chol n M k with ⟨P, o⟩
    rw [hc] at h
    cases o with
    | some c => simp at h
    | none =>
      simp only at h
      cases hcc : cholCol n k P with
      | none => rw [hcc] at h; simp at h
      | some Q =>
        rw [hcc] at h
        simp only [Prod.mk.injEq, and_true] at h
        subst h
        unfold cholCol at hcc
        simp only [] at hcc
        by_cases hx : leb (esub (.llt n k k) (P k k) (fun j => P k j * P k j) k) 0 = true
        · rw [if_pos hx] at hcc; cases hcc
        · rw [if_neg hx] at hcc
          simp only [Option.some.injEq] at hcc
          have hx' : Fl.le (esub (.llt n k k) (P k k) (fun j => P k j * P k j) k) 0 = false := by
            rw [Bool.not_eq_true] at hx; exact hx
          have hQ : ∀ i j, Q i j = if j = k then
              if i = k then Fl.sqrt (esub (.llt n k k) (P k k) (fun j => P k j * P k j) k)
              else if k < i ∧ i < n then esub (.llt n i k) (P i k) (fun j => P i j * P k j) k /
                Fl.sqrt (esub (.llt n k k) (P k k) (fun j => P k j * P k j) k)
              else P i j
            else P i j := by
            intro i j; rw [← hcc]; rfl
          have hQlt : ∀ i j, j ≠ k → Q i j = P i j := fun i j hj => by rw [hQ, if_neg hj]
          have hkk : Q k k = Fl.sqrt (esub (.llt n k k) (P k k) (fun j => P k j * P k j) k) := by rw [hQ, if_pos rfl, if_pos rfl]
          obtain ⟨h1, h2, h3⟩ := ih (by omega) P hc (fun j hj i hi hir => by
            rw [← hQlt i j (by omega)]; exact hfin j (by omega) i hi hir)
          have hsf := hfin k (by omega) k le_rfl (by omega)
          rw [hkk] at hsf
          obtain ⟨s1, s2, s3, s4⟩ := sqrt_err hx' hsf
          obtain ⟨e1, e2, e3⟩ := esub_err _ _ _ _ _ s1
          have hsum : ∀ (i j m : Nat), m ≤ k → ∑ l ∈ range m, (Q i l).val * (Q j l).val = ∑ l ∈ range m, (P i l).val * (P j l).val := by
            intro i j m hm
            apply sum_congr rfl
            intro l hl
            have := mem_range.1 hl
            rw [hQlt _ _ (by omega), hQlt _ _ (by omega)]
          have hsumA : ∀ (i j m : Nat), m ≤ k → ∑ l ∈ range m, |(Q i l).val| * |(Q j l).val| = ∑ l ∈ range m, |(P i l).val| * |(P j l).val| := by
            intro i j m hm
            apply sum_congr rfl
            intro l hl
            have := mem_range.1 hl
            rw [hQlt _ _ (by omega), hQlt _ _ (by omega)]
          refine ⟨?_, ?_, ?_⟩
          · intro i j hj
            rw [hQlt _ _ (by omega)]
            exact h1 i j (by omega)
          · intro j hj
            by_cases he : j = k
            · subst he; rw [hkk]; exact s3
            · rw [hQlt _ _ he]; exact h2 j (by omega)
          · intro j hj i hji hir
            by_cases he : j = k
            · subst he
              rw [sum_range_succ, hsum _ _ _ le_rfl, sum_range_succ, hsumA _ _ _ le_rfl]
              by_cases hij : i = j
              · subst hij
                rw [hkk, ← h1 i i le_rfl]
                refine ⟨e1, ?_⟩
                have hA : ∀ l, |(P i l).val| * |(P i l).val| = (P i l).val * (P i l).val := fun l => abs_mul_abs_self _
                rw [abs_mul_abs_self, ← sub_sub, ← pow_two]
                exact cholBound_pivot hir (sum_nonneg fun l _ => by positivity) s3 s2 s4 e3
              · have hQij : Q i j = esub (.llt n i j) (P i j) (fun l => P i l * P j l) j /
                    Fl.sqrt (esub (.llt n j j) (P j j) (fun l => P j l * P j l) j) := by
                  rw [hQ, if_pos rfl, if_neg hij, if_pos ⟨by omega, by omega⟩]
                have hqf := hfin j (by omega) i hji hir
                rw [hkk, ← h1 i j le_rfl]
                rw [hQij] at hqf ⊢
                obtain ⟨f1, f2, f3, f4⟩ := esub_div_err _ _ _ _ _ _ hsf hqf
                refine ⟨f1, ?_⟩
                rw [← sub_sub, mul_comm (esub (.llt n i j) (P i j) (fun l => P i l * P j l) j / _ : Fl F).val,
                  mul_comm |(esub (.llt n i j) (P i j) (fun l => P i l * P j l) j / _ : Fl F).val|]
                refine f4.trans ?_
                rw [abs_of_pos s3]
                exact cholBound_entry (by omega) (sum_nonneg fun l _ => by positivity) (by positivity) s3.le
            · rw [hsum _ _ _ (by omega), hsumA _ _ _ (by omega), hQlt j j he]
              exact h3 j (by omega) i hji hir

end Ieee
end JrlQp
