import Verif.IeeeCholOk

/-!
# No overflow

The numbers computed by the factorisation of a matrix that is positive definite with a margin stay finite, and the factorisation succeeds.
-/

namespace JrlQp
namespace Ieee

open NumOps Finset

variable {F : Fmt}

/-- Magnitudes from this one on overflow (before rounding, a little below). -/
noncomputable def top (F : Fmt) : ℝ := 2 ^ (F.emax + 1)

theorem two_le_top : 2 ≤ top F := by
  have : (2 : ℝ) ^ (1 : ℤ) ≤ 2 ^ (F.emax + 1) := zpow_le_zpow_right₀ (by norm_num) (by have := F.hmax; omega)
  rwa [zpow_one] at this

theorem eta_le : eta F ≤ 1 / 4 := by
  have : (2 : ℝ) ^ (F.emin - 1) ≤ 2 ^ (-2 : ℤ) := zpow_le_zpow_right₀ (by norm_num) (by have := F.hmin; omega)
  have h : (2 : ℝ) ^ (-2 : ℤ) = 1 / 4 := by norm_num
  rw [h] at this; exact this

theorem ofReal_finite {z : Bool} {x : ℝ} (h : rnd F |x| < top F) : (ofReal z x : Fl F).Finite := by
  unfold ofReal
  unfold top at h
  rw [dif_pos h]; trivial

theorem rnd_le {x : ℝ} (hx : 0 ≤ x) : rnd F x ≤ (1 + u F) * x + eta F := by
  have h : |rnd F x - x| ≤ u F * x + eta F := rnd_error hx
  have := (abs_le.1 h).2
  linarith

theorem add_fin {a b : Fl F} (ha : a.Finite) (hb : b.Finite) (h : (1 + u F) * |a.val + b.val| < top F) : (a + b).Finite := by
  obtain ⟨s, m, rfl⟩ := (finite_iff a).1 ha
  obtain ⟨t, k, rfl⟩ := (finite_iff b).1 hb
  apply ofReal_finite
  obtain ⟨j, hj⟩ := abs_grid (sum_grid s t m k)
  generalize (Fl.fin s m : Fl F).val + (Fl.fin t k : Fl F).val = w at *
  have h1 : |(rnd F |w|) - (|w|)| ≤ u F * |w| := rnd_error_grid (abs_nonneg _) j hj
  have := (abs_le.1 h1).2
  linarith

theorem neg_fin {a : Fl F} (ha : a.Finite) : (-a).Finite ∧ (-a).val = -a.val := by
  obtain ⟨s, m, rfl⟩ := (finite_iff a).1 ha
  exact ⟨trivial, neg_val s m⟩

theorem sub_fin {a b : Fl F} (ha : a.Finite) (hb : b.Finite) (h : (1 + u F) * |a.val - b.val| < top F) : (a - b).Finite := by
  obtain ⟨h1, h2⟩ := neg_fin hb
  show (a + -b).Finite
  apply add_fin ha h1
  rw [h2, ← sub_eq_add_neg]; exact h

theorem mul_fin {a b : Fl F} (ha : a.Finite) (hb : b.Finite) (h : (1 + u F) * |a.val * b.val| + eta F < top F) : (a * b).Finite := by
  obtain ⟨s, m, rfl⟩ := (finite_iff a).1 ha
  obtain ⟨t, k, rfl⟩ := (finite_iff b).1 hb
  apply ofReal_finite
  have := rnd_le (F := F) (abs_nonneg ((Fl.fin s m : Fl F).val * (Fl.fin t k : Fl F).val))
  linarith

/-- A number keeps its value when a zero is added. -/
theorem ofReal_val_finite {s : Bool} {m : Mag F} (z : Bool) : (ofReal z (Fl.fin s m : Fl F).val : Fl F).Finite := by
  apply ofReal_finite
  have hm : 0 ≤ m.1 := by rw [← abs_val s m]; exact abs_nonneg _
  rw [abs_val, rnd_exact hm m.2.1]
  exact m.2.2

theorem zero_add_fin {b : Fl F} (hb : b.Finite) : ((0 : Fl F) + b).Finite ∧ (b + (0 : Fl F)).Finite ∧ (b - (0 : Fl F)).Finite := by
  obtain ⟨s, m, rfl⟩ := (finite_iff b).1 hb
  refine ⟨?_, ?_, ?_⟩
  · show (ofReal _ ((Fl.fin false m0 : Fl F).val + (Fl.fin s m : Fl F).val) : Fl F).Finite
    rw [val_zero, zero_add]; exact ofReal_val_finite _
  · show (ofReal _ ((Fl.fin s m : Fl F).val + (Fl.fin false m0 : Fl F).val) : Fl F).Finite
    rw [val_zero, add_zero]; exact ofReal_val_finite _
  · show (ofReal _ ((Fl.fin s m : Fl F).val + (Fl.fin true m0 : Fl F).val) : Fl F).Finite
    rw [val_zero, add_zero]; exact ofReal_val_finite _

/-- Bound on the magnitude of a computed sum of `n` products. -/
noncomputable def sumMag (F : Fmt) (n : ℕ) (S : ℝ) : ℝ := (1 + u F) ^ (n + 1) * (S + n * eta F)

theorem dotErr_sumMag {n : ℕ} {S : ℝ} : S + dotErr F n S ≤ sumMag F n S := by
  have hu := u_pos (F := F)
  have he := eta_pos (F := F)
  have h2 : (1 + u F) ^ n ≤ (1 + u F) ^ (n + 1) := pow_le_pow_right₀ (by linarith) (by omega)
  unfold dotErr sumMag
  have := mul_le_mul_of_nonneg_left h2 (show 0 ≤ n * eta F by positivity)
  nlinarith

theorem sumMag_mono {a n : ℕ} {S T : ℝ} (h : a ≤ n) (hS : 0 ≤ S) (hST : S ≤ T) : sumMag F a S ≤ sumMag F n T := by
  have hu := u_pos (F := F)
  have he := eta_pos (F := F)
  have h2 : (1 + u F) ^ (a + 1) ≤ (1 + u F) ^ (n + 1) := pow_le_pow_right₀ (by linarith) (by omega)
  have hn : (a : ℝ) ≤ n := by exact_mod_cast h
  have := mul_le_mul_of_nonneg_right hn he.le
  exact mul_le_mul h2 (by linarith) (by positivity) (by positivity)

theorem tree_val_le (c x : Nat → Fl F) (t : SumTree) (h : (t.eval fun i => c i * x i).Finite) :
    |(t.eval fun i => c i * x i).val| ≤ sumMag F t.leaves.length (t.leaves.map fun i => |(c i).val| * |(x i).val|).sum := by
  obtain ⟨_, h2⟩ := tree_err c x t h
  obtain ⟨_, h3⟩ := list_sum_abs c x t.leaves
  refine le_trans ?_ dotErr_sumMag
  have : (t.eval fun i => c i * x i).val = ((t.eval fun i => c i * x i).val - (t.leaves.map fun i => (c i).val * (x i).val).sum)
      + (t.leaves.map fun i => (c i).val * (x i).val).sum := by ring
  rw [this]
  refine (abs_add_le _ _).trans ?_
  linarith

theorem tree_fin (c x : Nat → Fl F) (t : SumTree) (hf : ∀ i ∈ t.leaves, (c i).Finite ∧ (x i).Finite)
    (h : sumMag F t.leaves.length (t.leaves.map fun i => |(c i).val| * |(x i).val|).sum < top F) :
    (t.eval fun i => c i * x i).Finite := by
  have hu := u_pos (F := F)
  have he := eta_pos (F := F)
  induction t with
  | zero => trivial
  | leaf i =>
    obtain ⟨h1, h2⟩ := hf i (by simp [SumTree.leaves])
    apply mul_fin h1 h2
    refine lt_of_le_of_lt ?_ h
    simp only [SumTree.leaves, List.map_cons, List.map_nil, List.sum_cons, List.sum_nil, add_zero, List.length_cons, List.length_nil,
      zero_add, sumMag]
    rw [abs_mul]
    have hP : 0 ≤ |(c i).val| * |(x i).val| := by positivity
    generalize |(c i).val| * |(x i).val| = P at *
    have a1 : 0 ≤ u F * P := by positivity
    have a2 : 0 ≤ u F * (u F * P) := by positivity
    have a3 : 0 ≤ u F * eta F := by positivity
    have a4 : 0 ≤ u F * (u F * eta F) := by positivity
    push_cast
    nlinarith
  | node l r ihl ihr =>
    obtain ⟨sl, _⟩ := list_sum_abs c x l.leaves
    obtain ⟨sr, _⟩ := list_sum_abs c x r.leaves
    simp only [SumTree.leaves, List.map_append, List.sum_append, List.length_append] at h
    have h1 := ihl (fun i hi => hf i (List.mem_append_left _ hi)) (lt_of_le_of_lt (sumMag_mono (by omega) sl (by linarith)) h)
    have h2 := ihr (fun i hi => hf i (List.mem_append_right _ hi)) (lt_of_le_of_lt (sumMag_mono (by omega) sr (by linarith)) h)
    by_cases hl : l.leaves = []
    · have e0 := tree_nil hl (fun i => c i * x i)
      rw [SumTree.eval, e0]
      exact (zero_add_fin h2).1
    by_cases hr : r.leaves = []
    · have e0 := tree_nil hr (fun i => c i * x i)
      rw [SumTree.eval, e0]
      exact (zero_add_fin h1).2.1
    have kl := List.length_pos_iff.2 hl
    have kr := List.length_pos_iff.2 hr
    have v1 := tree_val_le c x l h1
    have v2 := tree_val_le c x r h2
    rw [SumTree.eval]
    apply add_fin h1 h2
    refine lt_of_le_of_lt ?_ h
    have v3 := (abs_add_le (l.eval fun i => c i * x i).val (r.eval fun i => c i * x i).val).trans (add_le_add v1 v2)
    refine (mul_le_mul_of_nonneg_left v3 (by linarith)).trans ?_
    generalize (l.leaves.map fun i => |(c i).val| * |(x i).val|).sum = S at *
    generalize (r.leaves.map fun i => |(c i).val| * |(x i).val|).sum = P at *
    generalize l.leaves.length = a at *
    generalize r.leaves.length = b at *
    unfold sumMag
    have p1 : (1 + u F) ^ (a + 1 + 1) ≤ (1 + u F) ^ (a + b + 1) := pow_le_pow_right₀ (by linarith) (by omega)
    have p2 : (1 + u F) ^ (b + 1 + 1) ≤ (1 + u F) ^ (a + b + 1) := pow_le_pow_right₀ (by linarith) (by omega)
    have r1 := mul_le_mul_of_nonneg_right p1 (show 0 ≤ S + a * eta F by positivity)
    have r2 := mul_le_mul_of_nonneg_right p2 (show 0 ≤ P + b * eta F by positivity)
    have e : (1 + u F) * ((1 + u F) ^ (a + 1) * (S + a * eta F) + (1 + u F) ^ (b + 1) * (P + b * eta F))
        = (1 + u F) ^ (a + 1 + 1) * (S + a * eta F) + (1 + u F) ^ (b + 1 + 1) * (P + b * eta F) := by ring
    rw [e]
    push_cast
    linarith

/-- Bound on the magnitude of a computed `y - Σ c x`. -/
noncomputable def subMag (F : Fmt) (n : ℕ) (S : ℝ) : ℝ := (1 + u F) ^ (3 * n + 1) * (S + n * eta F)

theorem foldl_fin (c x : Nat → Fl F) (ts : List SumTree) : ∀ y : Fl F, y.Finite →
    (∀ i ∈ ts.flatMap SumTree.leaves, (c i).Finite ∧ (x i).Finite) →
    subMag F (ts.flatMap SumTree.leaves).length (|y.val| + ((ts.flatMap SumTree.leaves).map fun i => |(c i).val| * |(x i).val|).sum) < top F →
    (ts.foldl (fun acc t => acc - t.eval fun i => c i * x i) y).Finite ∧
    |(ts.foldl (fun acc t => acc - t.eval fun i => c i * x i) y).val|
      ≤ subMag F (ts.flatMap SumTree.leaves).length (|y.val| + ((ts.flatMap SumTree.leaves).map fun i => |(c i).val| * |(x i).val|).sum) := by
  have hu := u_pos (F := F)
  have he := eta_pos (F := F)
  induction ts with
  | nil =>
    intro y hy _ _
    refine ⟨hy, ?_⟩
    simp only [List.foldl_nil, List.flatMap_nil, List.map_nil, List.sum_nil, List.length_nil, subMag]
    have : 0 ≤ u F * |y.val| := by positivity
    push_cast
    nlinarith
  | cons t ts ih =>
    intro y hy hf h
    rw [List.flatMap_cons, List.map_append, List.sum_append, List.length_append] at h ⊢
    rw [List.foldl_cons]
    obtain ⟨st, _⟩ := list_sum_abs c x t.leaves
    obtain ⟨ss, _⟩ := list_sum_abs c x (ts.flatMap SumTree.leaves)
    have hft : ∀ i ∈ t.leaves, (c i).Finite ∧ (x i).Finite := fun i hi => hf i (by rw [List.flatMap_cons]; exact List.mem_append_left _ hi)
    have hfs : ∀ i ∈ ts.flatMap SumTree.leaves, (c i).Finite ∧ (x i).Finite := fun i hi => hf i (by rw [List.flatMap_cons]; exact List.mem_append_right _ hi)
    by_cases hl : t.leaves = []
    · have e0 := tree_nil hl (fun i => c i * x i)
      rw [e0]
      have hz := (zero_add_fin hy).2.2
      have hv := sub_zero_val hz
      have := ih (y - 0) hz hfs
      rw [hv] at this
      simp only [hl, List.map_nil, List.sum_nil, zero_add, List.length_nil] at h ⊢
      exact this h
    · have hm := List.length_pos_iff.2 hl
      -- the tree
      have ht : (t.eval fun i => c i * x i).Finite := by
        apply tree_fin c x t hft
        refine lt_of_le_of_lt ?_ h
        unfold sumMag subMag
        have p : (1 + u F) ^ (t.leaves.length + 1) ≤ (1 + u F) ^ (3 * (t.leaves.length + (ts.flatMap SumTree.leaves).length) + 1) :=
          pow_le_pow_right₀ (by linarith) (by omega)
        apply mul_le_mul p _ (by positivity) (by positivity)
        push_cast
        have : 0 ≤ ((ts.flatMap SumTree.leaves).length : ℝ) * eta F := by positivity
        have := abs_nonneg y.val
        nlinarith
      have v1 := tree_val_le c x t ht
      generalize hS : (t.leaves.map fun i => |(c i).val| * |(x i).val|).sum = S at *
      generalize hP : ((ts.flatMap SumTree.leaves).map fun i => |(c i).val| * |(x i).val|).sum = P at *
      generalize hN : (ts.flatMap SumTree.leaves).length = N at *
      generalize hM : t.leaves.length = m at *
      have hmain : (1 + u F) ^ (3 * N + 1) * ((1 + u F) * (|y.val| + sumMag F m S) + P + N * eta F) ≤ subMag F (m + N) (|y.val| + (S + P)) := by
        unfold subMag sumMag
        have hY := abs_nonneg y.val
        generalize |y.val| = Y at *
        have p1 : (1 + u F) ^ (3 * N + 1 + (m + 2)) ≤ (1 + u F) ^ (3 * (m + N) + 1) := pow_le_pow_right₀ (by linarith) (by omega)
        have p2 : (1 + u F) ^ (3 * N + 1 + 1) ≤ (1 + u F) ^ (3 * (m + N) + 1) := pow_le_pow_right₀ (by linarith) (by omega)
        have p3 : (1 + u F) ^ (3 * N + 1) ≤ (1 + u F) ^ (3 * (m + N) + 1) := pow_le_pow_right₀ (by linarith) (by omega)
        have r1 := mul_le_mul_of_nonneg_right p1 (show 0 ≤ S + m * eta F by positivity)
        have r2 := mul_le_mul_of_nonneg_right p2 hY
        have r3 := mul_le_mul_of_nonneg_right p3 (show 0 ≤ P + N * eta F by positivity)
        have e : (1 + u F) ^ (3 * N + 1) * ((1 + u F) * (Y + (1 + u F) ^ (m + 1) * (S + m * eta F)) + P + N * eta F)
            = (1 + u F) ^ (3 * N + 1 + 1) * Y + (1 + u F) ^ (3 * N + 1 + (m + 2)) * (S + m * eta F) + (1 + u F) ^ (3 * N + 1) * (P + N * eta F) := by ring
        rw [e]
        push_cast
        linarith
      have hone : 1 ≤ (1 + u F) ^ (3 * N + 1) := one_le_pow₀ (by linarith)
      have hsm : 0 ≤ sumMag F m S := by unfold sumMag; positivity
      have hle : (1 + u F) * (|y.val| + sumMag F m S) ≤ subMag F (m + N) (|y.val| + (S + P)) := by
        have hx : 0 ≤ (1 + u F) * (|y.val| + sumMag F m S) + P + N * eta F := by positivity
        have := mul_le_mul_of_nonneg_right hone hx
        have : 0 ≤ N * eta F := by positivity
        linarith
      have hd : |y.val - (t.eval fun i => c i * x i).val| ≤ |y.val| + sumMag F m S := by
        rw [sub_eq_add_neg]
        refine (abs_add_le _ _).trans ?_
        rw [abs_neg]; linarith
      have hd2 := mul_le_mul_of_nonneg_left hd (show 0 ≤ 1 + u F by linarith)
      have h1 : (y - t.eval fun i => c i * x i).Finite := sub_fin hy ht (by linarith)
      obtain ⟨_, _, h4⟩ := sub_err h1
      have h5 : |(y - t.eval fun i => c i * x i).val| ≤ (1 + u F) * (|y.val| + sumMag F m S) := by
        have : (y - t.eval fun i => c i * x i).val = ((y - t.eval fun i => c i * x i).val - (y.val - (t.eval fun i => c i * x i).val))
          + (y.val - (t.eval fun i => c i * x i).val) := by ring
        rw [this]
        refine (abs_add_le _ _).trans ?_
        linarith
      have hbnd : subMag F N (|(y - t.eval fun i => c i * x i).val| + P) ≤ subMag F (m + N) (|y.val| + (S + P)) := by
        refine le_trans ?_ hmain
        unfold subMag
        apply mul_le_mul_of_nonneg_left _ (by positivity)
        linarith
      obtain ⟨h6, h7⟩ := ih _ h1 hfs (lt_of_le_of_lt hbnd h)
      exact ⟨h6, h7.trans hbnd⟩

theorem esub_fin (st : Site) (c x : Nat → Fl F) (y : Fl F) (n : ℕ) (hy : y.Finite) (hf : ∀ i < n, (c i).Finite ∧ (x i).Finite)
    (h : subMag F n (|y.val| + ∑ i ∈ range n, |(c i).val| * |(x i).val|) < top F) :
    (esub st y (fun i => c i * x i) n).Finite ∧
    |(esub st y (fun i => c i * x i) n).val| ≤ subMag F n (|y.val| + ∑ i ∈ range n, |(c i).val| * |(x i).val|) := by
  have hp := F.orderSub_perm st n
  have h1 := foldl_fin c x (F.orderSub st n) y hy (fun i hi => hf i (List.mem_range.1 (hp.subset hi)))
  rw [(hp.map _).sum_eq, hp.length_eq, List.length_range, sum_range_list] at h1
  exact h1 h

/-! ## The factorisation -/

/-- The `n x n` matrix stored in `G` is finite, its diagonal lies between `m` and a quarter of the overflow threshold, it is positive
definite with a margin `lam` relative to its diagonal, and the margin is larger than the rounding errors. -/
structure WellPosed (F : Fmt) (n : ℕ) (G : ℕ → ℕ → Fl F) (m lam : ℝ) : Prop where
  fin : ∀ i < n, ∀ j ≤ i, (G i j).Finite
  m0 : 0 < m
  m1 : m ≤ 1
  low : ∀ i < n, m ≤ (G i i).val
  high : ∀ i < n, (G i i).val ≤ 2 ^ (F.emax - 1)
  margin : ∀ v : ℕ → ℝ, lam * (∑ i ∈ range n, (G i i).val * v i ^ 2) ≤ ∑ i ∈ range n, ∑ j ∈ range n, v i * hessVal G i j * v j
  lam : 12 * n * relErr F n < lam
  under : 4 * ((1 + relErr F n) * eta F * (n + 2)) ≤ relErr F n * m

theorem sum_two {k i n : ℕ} (hk : k ≤ i) (hi : i < n) (f : ℕ → ℝ) (hf : ∀ a, k ≤ a → a ≠ i → f a = 0) :
    ∑ a ∈ range n, f a = ∑ a ∈ range k, f a + f i := by
  have h : i ∉ range k := by simp; omega
  rw [add_comm, ← sum_insert h]
  symm
  apply sum_subset
  · intro a ha
    rcases mem_insert.1 ha with rfl | ha
    · exact mem_range.2 hi
    · have := mem_range.1 ha
      exact mem_range.2 (by omega)
  · intro a _ ha
    apply hf
    · by_contra hc
      exact ha (mem_insert_of_mem (mem_range.2 (by omega)))
    · rintro rfl
      exact ha (mem_insert_self _ _)

variable {n : ℕ} {G : ℕ → ℕ → Fl F} {m lam : ℝ}

theorem hessVal_comm (G : ℕ → ℕ → Fl F) (i j : ℕ) : hessVal G i j = hessVal G j i := symLow_comm (fun i j => (G i j).val) i j

theorem WellPosed.row (h : WellPosed F n G m lam) {k i : ℕ} (hk : k ≤ i) (hi : i < n) (v : ℕ → ℝ) :
    lam * ((∑ a ∈ range k, (G a a).val * v a ^ 2) + (G i i).val)
      ≤ (∑ a ∈ range k, ∑ b ∈ range k, v a * (if b ≤ a then (G a b).val else (G b a).val) * v b)
        + 2 * (∑ a ∈ range k, v a * (G i a).val) + (G i i).val := by
  have hm := h.margin (fun a => if a < k then v a else if a = i then 1 else 0)
  have hV : ∀ a, a < k → (if a < k then v a else if a = i then (1 : ℝ) else 0) = v a := fun a ha => if_pos ha
  have hVi : (if i < k then v i else if i = i then (1 : ℝ) else 0) = 1 := by rw [if_neg (by omega), if_pos rfl]
  have hV0 : ∀ a, k ≤ a → a ≠ i → (if a < k then v a else if a = i then (1 : ℝ) else 0) = 0 := fun a h1 h2 => by
    rw [if_neg (by omega), if_neg h2]
  rw [sum_two hk hi _ (fun a h1 h2 => by rw [hV0 a h1 h2]; ring), sum_two hk hi _ (fun a h1 h2 => by
    apply sum_eq_zero
    intro b _
    rw [hV0 a h1 h2]; ring)] at hm
  have e1 : ∑ a ∈ range k, (G a a).val * (if a < k then v a else if a = i then (1 : ℝ) else 0) ^ 2 = ∑ a ∈ range k, (G a a).val * v a ^ 2 :=
    sum_congr rfl fun a ha => by rw [hV a (mem_range.1 ha)]
  have e2 : ∀ a ∈ range k, ∑ j ∈ range n, (if a < k then v a else if a = i then (1 : ℝ) else 0) * hessVal G a j *
        (if j < k then v j else if j = i then (1 : ℝ) else 0)
      = (∑ b ∈ range k, v a * (if b ≤ a then (G a b).val else (G b a).val) * v b) + v a * (G i a).val := by
    intro a ha
    have ha := mem_range.1 ha
    rw [sum_two hk hi _ (fun b h1 h2 => by rw [hV0 b h1 h2, mul_zero]), hV a ha, hVi, mul_one]
    congr 1
    · exact sum_congr rfl fun b hb => by rw [hV b (mem_range.1 hb)]; rfl
    · rw [hessVal, if_neg (by omega)]
  have e3 : ∑ j ∈ range n, (if i < k then v i else if i = i then (1 : ℝ) else 0) * hessVal G i j *
        (if j < k then v j else if j = i then (1 : ℝ) else 0) = (∑ a ∈ range k, v a * (G i a).val) + (G i i).val := by
    rw [sum_two hk hi _ (fun b h1 h2 => by rw [hV0 b h1 h2, mul_zero]), hVi]
    congr 1
    · apply sum_congr rfl
      intro b hb
      have hb := mem_range.1 hb
      rw [hV b hb, hessVal, if_pos (by omega)]; ring
    · rw [hessVal, if_pos le_rfl]; ring
  rw [e1, sum_congr rfl e2, e3, sum_add_distrib, hVi, one_pow, mul_one] at hm
  linarith

theorem WellPosed.lam_le (h : WellPosed F n G m lam) (hn : 0 < n) : lam ≤ 1 := by
  have := h.row (k := 0) (i := 0) le_rfl hn (fun _ => 0)
  simp only [range_zero, sum_empty, zero_add, mul_zero] at this
  have h1 := h.low 0 hn
  have h2 := h.m0
  by_contra hc
  have hc := not_le.1 hc
  nlinarith

theorem WellPosed.err_le (h : WellPosed F n G m lam) (hn : 0 < n) : relErr F n ≤ 1 / 12 := by
  have h1 := h.lam_le hn
  have h2 := h.lam
  have h3 : (1 : ℝ) ≤ n := by exact_mod_cast hn
  have h4 := mul_le_mul_of_nonneg_right h3 (relErr_nonneg (F := F) (n := n))
  linarith

theorem WellPosed.small (h : WellPosed F n G m lam) (hn : 0 < n) : Small (relErr F n) ((1 + relErr F n) * eta F * (n + 2)) m := by
  have h1 := relErr_nonneg (F := F) (n := n)
  have h2 := eta_pos (F := F)
  exact ⟨h1, h.err_le hn, by positivity, h.m0, h.m1, h.under⟩

theorem WellPosed.off (h : WellPosed F n G m lam) {i j : ℕ} (hi : i < n) (hj : j ≤ i) : |(G i j).val| ≤ 2 ^ (F.emax - 1) := by
  have hn : 0 < n := by omega
  have hl : 0 ≤ lam := le_trans (by have := relErr_nonneg (F := F) (n := n); positivity) h.lam.le
  have hii := h.high i hi
  have hii0 := h.low i hi
  have hjj := h.high j (by omega)
  have hjj0 := h.low j (by omega)
  have hm := h.m0
  rcases hj.eq_or_lt with rfl | hj
  · rw [abs_of_pos (by linarith)]; exact hii
  have key : ∀ t : ℝ, t ^ 2 = 1 → 0 ≤ (G j j).val + 2 * (t * (G i j).val) + (G i i).val := by
    intro t ht
    have := h.row (k := i) le_rfl hi (fun a => if a = j then t else 0)
    rw [sum_eq_single j (fun b _ hb => by rw [if_neg hb]; ring) (fun hb => absurd (mem_range.2 hj) hb),
      sum_eq_single j (fun b _ hb => by
        apply sum_eq_zero
        intro c _
        rw [if_neg hb]; ring) (fun hb => absurd (mem_range.2 hj) hb),
      sum_eq_single j (fun b _ hb => by rw [if_neg hb]; ring) (fun hb => absurd (mem_range.2 hj) hb),
      sum_eq_single j (fun b _ hb => by rw [if_neg hb]; ring) (fun hb => absurd (mem_range.2 hj) hb)] at this
    simp only [if_true, le_refl] at this
    rw [ht] at this
    have e : t * (G j j).val * t = (G j j).val := by
      calc t * (G j j).val * t = t ^ 2 * (G j j).val := by ring
        _ = _ := by rw [ht, one_mul]
    rw [e] at this
    have h0 : 0 ≤ lam * ((G j j).val * 1 + (G i i).val) := mul_nonneg hl (by linarith)
    linarith
  have k1 := key 1 (by norm_num)
  have k2 := key (-1) (by norm_num)
  rw [abs_le]
  constructor <;> linarith

theorem cholBound_le {r : ℕ} (hr : r ≤ n) {Λ s : ℝ} (hΛ : 0 ≤ Λ) (hs : 0 ≤ s) :
    cholBound F r Λ s ≤ relErr F n * Λ + (1 + relErr F n) * eta F * (n + 2) * (1 + s) := by
  have q1 := one_le_qf (F := F)
  have he := eta_pos (F := F)
  have he1 := eta_le (F := F)
  have p1 : qf F ^ (r + 2) ≤ qf F ^ (n + 2) := pow_le_pow_right₀ q1 (by omega)
  have hrn : (r : ℝ) ≤ n := by exact_mod_cast hr
  have e : 1 + relErr F n = qf F ^ (n + 2) := by unfold relErr; ring
  rw [e]
  unfold cholBound relErr
  have a1 := mul_le_mul_of_nonneg_right p1 hΛ
  have hq : 0 ≤ qf F ^ (r + 2) := by positivity
  have a2 : qf F ^ (r + 2) * eta F * (r + 2 * s + eta F) ≤ qf F ^ (n + 2) * eta F * ((n + 2) * (1 + s)) := by
    have h0 : (0 : ℝ) ≤ n := by positivity
    have h1 : (r : ℝ) + 2 * s + eta F ≤ (n + 2) * (1 + s) := by nlinarith
    apply mul_le_mul (mul_le_mul_of_nonneg_right p1 he.le) h1 (by positivity) (by positivity)
  nlinarith

theorem top_quarter : (2 : ℝ) ^ (F.emax - 1) = top F / 4 := by
  unfold top
  rw [show F.emax - 1 = (F.emax + 1) - 2 by ring, zpow_sub₀ (by norm_num)]
  norm_num

/-- Magnitudes of the numbers computed by the factorisation. -/
theorem WellPosed.subMag_lt (h : WellPosed F n G m lam) {k : ℕ} (hk : k < n) {S : ℝ} (hS0 : 0 ≤ S) (hS : S ≤ 2 * 2 ^ (F.emax - 1)) :
    subMag F k S ≤ 2 / 3 * top F := by
  have hn : 0 < n := by omega
  have he := eta_pos (F := F)
  have hε := h.err_le hn
  have hε0 := relErr_nonneg (F := F) (n := n)
  have hu := u_pos (F := F)
  have hq := one_add_u_le_qf (F := F)
  rw [top_quarter] at hS
  have h2 := two_le_top (F := F)
  have hkn : (k : ℝ) ≤ n := by exact_mod_cast hk.le
  have hkη : (k : ℝ) * eta F ≤ top F / 48 := by
    have h5 := h.under
    have h6 : relErr F n * m ≤ 1 / 12 := by
      have := mul_le_mul hε h.m1 h.m0.le (by norm_num : (0:ℝ) ≤ 1/12)
      linarith
    have h7 : (k : ℝ) * eta F ≤ (n + 2) * eta F := mul_le_mul_of_nonneg_right (by linarith) he.le
    have h8 : ((n : ℝ) + 2) * eta F ≤ (1 + relErr F n) * eta F * (n + 2) := by
      have : 0 ≤ relErr F n * (eta F * (n + 2)) := by positivity
      nlinarith
    linarith
  have hp : (1 + u F) ^ (3 * k + 1) ≤ (13 / 12) ^ 3 := by
    calc (1 + u F) ^ (3 * k + 1) ≤ qf F ^ (3 * k + 1) := pow_le_pow_left₀ (by linarith) hq _
      _ ≤ qf F ^ (3 * (n + 2)) := pow_le_pow_right₀ one_le_qf (by omega)
      _ = (qf F ^ (n + 2)) ^ 3 := by rw [mul_comm, pow_mul]
      _ ≤ (13 / 12) ^ 3 := by
        apply pow_le_pow_left₀ (by have := one_le_qf (F := F); positivity)
        unfold relErr at hε; linarith
  unfold subMag
  have : (1 + u F) ^ (3 * k + 1) * (S + k * eta F) ≤ (13 / 12) ^ 3 * (top F / 2 + top F / 48) :=
    mul_le_mul hp (by linarith) (by positivity) (by positivity)
  linarith

theorem le_zero_false {a : Fl F} (ha : a.Finite) (h : 0 < a.val) : Fl.le a 0 = false := by
  have e0 : (0 : Fl F).ext = some ((0 : ℝ) : EReal) := rfl
  obtain ⟨s, m, rfl⟩ := (finite_iff a).1 ha
  unfold Fl.le
  rw [ext_fin, e0]
  simp only [EReal.coe_le_coe_iff, decide_eq_false_iff_not, not_le]
  exact h

theorem sqrt_fin {a : Fl F} (ha : a.Finite) (h : 0 < a.val) (hb : a.val ≤ 2 / 3 * top F) (hu : u F ≤ 1 / 12) : (Fl.sqrt a).Finite := by
  obtain ⟨s, m, rfl⟩ := (finite_iff a).1 ha
  cases s with
  | true =>
    exfalso
    have : 0 ≤ m.1 := by rw [← abs_val true m]; exact abs_nonneg _
    have : (Fl.fin true m : Fl F).val = -m.1 := rfl
    linarith
  | false =>
    have hm : (Fl.fin false m : Fl F).val = m.1 := rfl
    rw [hm] at h hb
    show (ofReal false (Real.sqrt m.1) : Fl F).Finite
    apply ofReal_finite
    rw [abs_of_nonneg (Real.sqrt_nonneg _)]
    refine lt_of_le_of_lt (rnd_le (Real.sqrt_nonneg _)) ?_
    have hs := Real.sq_sqrt h.le
    have hs0 := Real.sqrt_nonneg m.1
    have h1 : Real.sqrt m.1 ≤ (1 + m.1) / 2 := by nlinarith [sq_nonneg (Real.sqrt m.1 - 1)]
    have h2 := two_le_top (F := F)
    have h3 := eta_le (F := F)
    have h4 := u_pos (F := F)
    have h5 : (1 + u F) * Real.sqrt m.1 ≤ 13 / 12 * ((1 + m.1) / 2) := mul_le_mul (by linarith) h1 hs0 (by norm_num)
    linarith

/-- Rounding of a quotient without an upper limit on the exponent. -/
noncomputable def rq (F : Fmt) (w : ℝ) : ℝ := if 0 ≤ w then rnd F w else -rnd F (-w)

theorem rq_err (w : ℝ) : |rq F w - w| ≤ u F * |w| + eta F := by
  unfold rq
  by_cases h : 0 ≤ w
  · rw [if_pos h, abs_of_nonneg h]; exact rnd_error h
  · rw [if_neg h, abs_of_neg (not_le.1 h)]
    have : -rnd F (-w) - w = -(rnd F (-w) - -w) := by ring
    rw [this, abs_neg]
    exact rnd_error (by linarith)

theorem rq_abs (w : ℝ) : |rq F w| = rnd F |w| := by
  unfold rq
  by_cases h : 0 ≤ w
  · rw [if_pos h, abs_of_nonneg h, abs_of_nonneg (rnd_nonneg h)]
  · have h := not_le.1 h
    rw [if_neg (not_le.2 h), abs_of_neg h, abs_neg, abs_of_nonneg (rnd_nonneg (by linarith))]

theorem div_fin {a b : Fl F} (ha : a.Finite) (hb : b.Finite) (hb0 : b.val ≠ 0) (h : |rq F (a.val / b.val)| < top F) : (a / b).Finite := by
  obtain ⟨s, m, rfl⟩ := (finite_iff a).1 ha
  obtain ⟨t, k, rfl⟩ := (finite_iff b).1 hb
  have hk : k.1 ≠ 0 := by
    intro h0
    apply hb0
    rw [← abs_eq_zero, abs_val]; exact h0
  show (Fl.div (.fin s m) (.fin t k)).Finite
  unfold Fl.div
  simp only [hk, if_false]
  apply ofReal_finite
  rw [← rq_abs]; exact h

/-- **The factorisation runs to its end**, with finite numbers. -/
theorem WellPosed.runs (h : WellPosed F n G m lam) (k : ℕ) (hk : k ≤ n) :
    ∃ L, chol n G k = (L, none) ∧ ∀ j < k, ∀ i, j ≤ i → i < n → (L i j).Finite := by
  induction k with
  | zero => exact ⟨G, rfl, fun j hj => by omega⟩
  | succ k ih =>
    obtain ⟨P, hP, hfin⟩ := ih (by omega)
    have hn : 0 < n := by omega
    have hN1 : (1 : ℝ) ≤ n := by exact_mod_cast hn
    have hsmall := h.small hn
    have hε := h.err_le hn
    have hε0 := relErr_nonneg (F := F) (n := n)
    have heta := eta_pos (F := F)
    have hqf := one_le_qf (F := F)
    obtain ⟨g1, g2, g3⟩ := chol_fl_inv n G n le_rfl k (by omega) P hP hfin
    -- rows so far
    have hlow := h.low
    have bnd : ∀ j < k, ∀ i, j ≤ i → i < n → |(G i j).val - ∑ l ∈ range (j + 1), (P i l).val * (P j l).val|
        ≤ relErr F n * (∑ l ∈ range (j + 1), |(P i l).val| * |(P j l).val|)
          + (1 + relErr F n) * eta F * (n + 2) * (1 + (P j j).val) := fun j hj i hji hi =>
      (g3 j hj i hji hi).2.trans (cholBound_le le_rfl (sum_nonneg fun l _ => by positivity) (g2 j hj).le)
    have hfact : Fact (relErr F n) ((1 + relErr F n) * eta F * (n + 2)) k (fun i j => (P i j).val) (fun i j => (G i j).val) :=
      ⟨g2, fun a ha b hb => bnd b (by omega) a hb (by omega)⟩
    have hnorm : ∀ i, k ≤ i → i < n → (1 + relErr F n) * (∑ l ∈ range k, (P i l).val ^ 2) + (1 + relErr F n) * eta F * (n + 2) < (G i i).val :=
      fun i hki hi => next_pivot (γ := fun j => (G i j).val) hsmall hfact (fun a ha => hlow a (by omega)) (hlow i hi)
        (fun b hb => bnd b hb i (by omega) hi) (by exact_mod_cast (by omega : k ≤ n)) hN1 h.lam (h.row hki hi)
    have hnorm1 : ∀ i, k ≤ i → i < n → ∑ l ∈ range k, (P i l).val ^ 2 ≤ 2 ^ (F.emax - 1) := by
      intro i hki hi
      have a := hnorm i hki hi
      have b := h.high i hi
      have c : 0 ≤ ∑ l ∈ range k, (P i l).val ^ 2 := sum_nonneg fun l _ => by positivity
      have d : 0 ≤ (1 + relErr F n) * eta F * (n + 2) := by positivity
      have e := mul_nonneg hε0 c
      linarith
    have hprod : ∀ i, k ≤ i → i < n → ∑ l ∈ range k, |(P i l).val| * |(P k l).val| ≤ 2 ^ (F.emax - 1) := by
      intro i hki hi
      have a := hnorm1 i hki hi
      have b := hnorm1 k le_rfl (by omega)
      have c : ∑ l ∈ range k, |(P i l).val| * |(P k l).val| ≤ ∑ l ∈ range k, ((P i l).val ^ 2 + (P k l).val ^ 2) / 2 := by
        apply sum_le_sum
        intro l _
        have := sq_nonneg (|(P i l).val| - |(P k l).val|)
        have e1 := sq_abs (P i l).val
        have e2 := sq_abs (P k l).val
        nlinarith
      rw [← sum_div, sum_add_distrib] at c
      linarith
    have hmag : ∀ i, k ≤ i → i < n → (esub (.llt n i k) (P i k) (fun j => P i j * P k j) k).Finite ∧
        |(esub (.llt n i k) (P i k) (fun j => P i j * P k j) k).val| ≤ 2 / 3 * top F := by
      intro i hki hi
      have hle : subMag F k (|(P i k).val| + ∑ l ∈ range k, |(P i l).val| * |(P k l).val|) ≤ 2 / 3 * top F := by
        apply h.subMag_lt (by omega)
        · have : 0 ≤ ∑ l ∈ range k, |(P i l).val| * |(P k l).val| := sum_nonneg fun l _ => by positivity
          positivity
        · rw [g1 i k le_rfl]
          have := h.off hi hki
          have := hprod i hki hi
          linarith
      have h2 := two_le_top (F := F)
      obtain ⟨a, b⟩ := esub_fin (.llt n i k) (fun j => P i j) (fun j => P k j) (P i k) k (by rw [g1 i k le_rfl]; exact h.fin i hi k hki)
        (fun j hj => ⟨hfin j hj i (by omega) hi, hfin j hj k (by omega) (by omega)⟩) (lt_of_le_of_lt hle (by linarith))
      exact ⟨a, b.trans hle⟩
    -- the pivot
    obtain ⟨x1, x2⟩ := hmag k le_rfl (by omega)
    have hxpos : 0 < (esub (.llt n k k) (P k k) (fun j => P k j * P k j) k).val := by
      by_contra hc
      have hc := not_lt.1 hc
      obtain ⟨_, _, e3⟩ := esub_err (.llt n k k) (fun j => P k j) (fun j => P k j) (P k k) k x1
      have a := hnorm k le_rfl (by omega)
      rw [← g1 k k le_rfl] at a
      unfold subErr at e3
      rw [abs_of_nonpos hc] at e3
      have s1 : ∑ l ∈ range k, (P k l).val * (P k l).val = ∑ l ∈ range k, (P k l).val ^ 2 := sum_congr rfl fun l _ => (pow_two _).symm
      have s2 : ∑ l ∈ range k, |(P k l).val| * |(P k l).val| = ∑ l ∈ range k, (P k l).val ^ 2 :=
        sum_congr rfl fun l _ => by rw [abs_mul_abs_self, pow_two]
      rw [s1, s2] at e3
      have e4 := (abs_le.1 e3).2
      have c : 0 ≤ ∑ l ∈ range k, (P k l).val ^ 2 := sum_nonneg fun l _ => by positivity
      generalize (∑ l ∈ range k, (P k l).val ^ 2) = S at *
      generalize (esub (.llt n k k) (P k k) (fun j => P k j * P k j) k).val = x at *
      have p1 : qf F ^ (k + 1) ≤ qf F ^ (n + 2) := pow_le_pow_right₀ hqf (by omega)
      have p2 : qf F ^ k ≤ qf F ^ (n + 2) := pow_le_pow_right₀ hqf (by omega)
      have p0 : 1 ≤ qf F ^ (k + 1) := one_le_pow₀ hqf
      have e : qf F ^ (n + 2) = 1 + relErr F n := by unfold relErr; ring
      rw [e] at p1 p2
      have hkn : (k : ℝ) ≤ n := by exact_mod_cast (by omega : k ≤ n)
      have r1 := mul_le_mul_of_nonneg_right p1 (show 0 ≤ S + -x by linarith)
      have r2 := mul_le_mul_of_nonneg_left p2 (show 0 ≤ (k : ℝ) * eta F by positivity)
      have r3 : (k : ℝ) * eta F * (1 + relErr F n) ≤ (1 + relErr F n) * eta F * (n + 2) := by
        have := mul_le_mul_of_nonneg_left (show (k : ℝ) ≤ n + 2 by linarith) (show 0 ≤ (1 + relErr F n) * eta F by positivity)
        linarith
      have r4 : 0 ≤ (1 - relErr F n) * -x := mul_nonneg (by linarith) (by linarith)
      linarith
    have hu : u F ≤ 1 / 12 := by
      have h1 := one_add_u_le_qf (F := F)
      have h2 : qf F ^ 1 ≤ qf F ^ (n + 2) := pow_le_pow_right₀ hqf (by omega)
      rw [pow_one] at h2
      unfold relErr at hε
      linarith
    have hle0 := le_zero_false x1 hxpos
    have hsf := sqrt_fin x1 hxpos (by rw [abs_of_pos hxpos] at x2; exact x2) hu
    obtain ⟨_, _, s3, s4⟩ := sqrt_err hle0 hsf
    -- the new column
    obtain ⟨Q, hcc, hQ⟩ : ∃ Q, cholCol n k P = some Q ∧ ∀ i j, Q i j = if j = k then
              if i = k then Fl.sqrt (esub (.llt n k k) (P k k) (fun j => P k j * P k j) k)
              else if k < i ∧ i < n then esub (.llt n i k) (P i k) (fun j => P i j * P k j) k /
                Fl.sqrt (esub (.llt n k k) (P k k) (fun j => P k j * P k j) k)
              else P i j
            else P i j := by
      refine ⟨_, ?_, fun _ _ => rfl⟩
      unfold cholCol
      simp only []
      rw [if_neg (by
        show ¬ Fl.le _ _ = true
        rw [hle0]; simp)]
      rfl
    have hchol : chol n G (k + 1) = (Q, none) := by simp only [chol, hP, hcc]
    have hQlt : ∀ i j, j ≠ k → Q i j = P i j := fun i j hj => by rw [hQ, if_neg hj]
    have hkk : Q k k = Fl.sqrt (esub (.llt n k k) (P k k) (fun j => P k j * P k j) k) := by rw [hQ, if_pos rfl, if_pos rfl]
    -- the leading block with the new row
    obtain ⟨_, q2, q3⟩ := chol_fl_inv n G (k + 1) hk (k + 1) le_rfl Q hchol (fun j hj i hji hi => by
      by_cases hjk : j = k
      · subst hjk
        have : i = j := by omega
        subst this
        rw [hkk]; exact hsf
      · rw [hQlt _ _ hjk]; exact hfin j (by omega) i hji (by omega))
    have hfactQ : Fact (relErr F n) ((1 + relErr F n) * eta F * (n + 2)) (k + 1) (fun i j => (Q i j).val) (fun i j => (G i j).val) :=
      ⟨q2, fun a ha b hb => (q3 b (by omega) a hb ha).2.trans
        (cholBound_le hk (sum_nonneg fun l _ => by positivity) (q2 b (by omega)).le)⟩
    refine ⟨Q, hchol, fun j hj i hji hi => ?_⟩
    by_cases hjk : j = k
    swap
    · rw [hQlt _ _ hjk]; exact hfin j (by omega) i hji hi
    subst hjk
    by_cases hij : i = j
    · subst hij; rw [hkk]; exact hsf
    -- an entry below the diagonal
    rw [hQ, if_pos rfl, if_neg hij, if_pos ⟨by omega, hi⟩]
    obtain ⟨z1, z2⟩ := hmag i hji hi
    apply div_fin z1 hsf s3.ne'
    obtain ⟨_, _, z3⟩ := esub_err (.llt n i j) (fun l => P i l) (fun l => P j l) (P i j) j z1
    have hS : 0 ≤ ∑ l ∈ range j, |(P i l).val| * |(P j l).val| := sum_nonneg fun l _ => by positivity
    have hd := div_real hS s3.ne' (rq_err _) z3
    generalize hl : rq F ((esub (.llt n i j) (P i j) (fun l => P i l * P j l) j).val / (Fl.sqrt (esub (.llt n j j) (P j j) (fun l => P j l * P j l) j)).val) = w at *
    rw [← hkk] at hd
    have hrow : FactRow (relErr F n) ((1 + relErr F n) * eta F * (n + 2)) (j + 1) (fun i j => (Q i j).val)
        (fun l => if l < j then (P i l).val else w) (fun l => (G i l).val) := by
      intro b hb
      by_cases hbj : b = j
      · subst hbj
        beta_reduce
        rw [sum_range_succ, sum_range_succ, if_neg (lt_irrefl b)]
        have e1 : ∑ l ∈ range b, (if l < b then (P i l).val else w) * (Q b l).val = ∑ l ∈ range b, (P i l).val * (P b l).val :=
          sum_congr rfl fun l hl => by
            have := mem_range.1 hl
            rw [if_pos this, hQlt _ _ (by omega)]
        have e2 : ∑ l ∈ range b, |if l < b then (P i l).val else w| * |(Q b l).val| = ∑ l ∈ range b, |(P i l).val| * |(P b l).val| :=
          sum_congr rfl fun l hl => by
            have := mem_range.1 hl
            rw [if_pos this, hQlt _ _ (by omega)]
        rw [e1, e2, ← sub_sub, mul_comm w, mul_comm |w|, ← g1 i b le_rfl]
        refine hd.trans ?_
        have q0 := q2 b (by omega)
        rw [abs_of_pos q0]
        refine (cholBound_entry (show b < n by omega) hS (by positivity) q0.le).trans ?_
        exact cholBound_le le_rfl (by positivity) q0.le
      · have e1 : ∑ l ∈ range (b + 1), (if l < j then (P i l).val else w) * (Q b l).val = ∑ l ∈ range (b + 1), (P i l).val * (P b l).val :=
          sum_congr rfl fun l hl => by
            have := mem_range.1 hl
            rw [if_pos (by omega), hQlt _ _ (by omega)]
        have e2 : ∑ l ∈ range (b + 1), |if l < j then (P i l).val else w| * |(Q b l).val| = ∑ l ∈ range (b + 1), |(P i l).val| * |(P b l).val| :=
          sum_congr rfl fun l hl => by
            have := mem_range.1 hl
            rw [if_pos (by omega), hQlt _ _ (by omega)]
        beta_reduce
        rw [e1, e2, hQlt b b hbj]
        exact bnd b (by omega) i (by omega) hi
    have hfinal := next_pivot (γ := fun l => (G i l).val) hsmall hfactQ (fun a ha => hlow a (by omega)) (hlow i hi) hrow
      (by exact_mod_cast hk) hN1 h.lam (h.row (k := j + 1) (by omega) hi)
    rw [sum_range_succ, if_neg (lt_irrefl j)] at hfinal
    have c : 0 ≤ ∑ l ∈ range j, (if l < j then (P i l).val else w) ^ 2 := sum_nonneg fun l _ => by positivity
    have d : 0 ≤ (1 + relErr F n) * eta F * (n + 2) := by positivity
    have hw2 : w ^ 2 ≤ top F / 4 := by
      have := h.high i hi
      rw [top_quarter] at this
      have e := mul_nonneg hε0 (add_nonneg c (sq_nonneg w))
      nlinarith
    have h2 := two_le_top (F := F)
    have h3 := sq_abs w
    nlinarith [abs_nonneg w, sq_nonneg (|w| - 1)]

end Ieee
end JrlQp
