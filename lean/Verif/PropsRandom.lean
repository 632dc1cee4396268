import Verif.RandomPb

/-!
# C44: the generated random problems have the advertised solution
-/

namespace JrlQp

open Finset

/-! ### Specification -/

/-- Karush-Kuhn-Tucker conditions of `min ½‖Ax - b‖²  s.t.  Ex = f, l ≤ Cx ≤ u, xl ≤ x ≤ xu` (matrices not transposed): a negative
multiplier goes with the lower side, a positive one with the upper side. -/
structure LsKKT (pb : SepLs) (x lamEq lamIneq lamBnd : Nat → ℝ) : Prop where
  feasible : pb.cstr.Holds x
  stationary : ∀ j < pb.cost.A.cols,
    ∑ k ∈ range pb.cost.A.rows, pb.cost.A.at' k j * (∑ i ∈ range pb.cost.A.cols, pb.cost.A.at' k i * x i - pb.cost.b.at' k)
      + ∑ i ∈ range pb.cstr.f.size, pb.cstr.E.at' i j * lamEq i + ∑ i ∈ range pb.cstr.l.size, pb.cstr.C.at' i j * lamIneq i
      + (if j < pb.cstr.xl.size then lamBnd j else 0) = 0
  lower : ∀ i < pb.cstr.l.size, lamIneq i < 0 → ((pb.cstr.C.val false pb.cstr.C.cols x i : ℝ) : EReal) = pb.cstr.l.at' i
  upper : ∀ i < pb.cstr.l.size, 0 < lamIneq i → ((pb.cstr.C.val false pb.cstr.C.cols x i : ℝ) : EReal) = pb.cstr.u.at' i
  lowerBnd : ∀ i < pb.cstr.xl.size, lamBnd i < 0 → ((x i : ℝ) : EReal) = pb.cstr.xl.at' i
  upperBnd : ∀ i < pb.cstr.xl.size, 0 < lamBnd i → ((x i : ℝ) : EReal) = pb.cstr.xu.at' i

theorem mul_term_nonneg {l u : EReal} {v w lam : ℝ} (h1 : l ≤ (w : EReal)) (h2 : (w : EReal) ≤ u) (hl : lam < 0 → (v : EReal) = l)
    (hu : 0 < lam → (v : EReal) = u) : lam * (w - v) ≤ 0 := by
  rcases lt_trichotomy lam 0 with h | h | h
  · have := hl h
    rw [← this] at h1
    have : v ≤ w := by exact_mod_cast h1
    nlinarith
  · rw [h]; simp
  · have := hu h
    rw [← this] at h2
    have : w ≤ v := by exact_mod_cast h2
    nlinarith

/-- The conditions are sufficient: `x` is a global minimiser. -/
theorem LsKKT.isMin {pb : SepLs} {x lamEq lamIneq lamBnd : Nat → ℝ} (h : LsKKT pb x lamEq lamIneq lamBnd) (htr : pb.cstr.tr = false)
    (hC : pb.cstr.C.cols = pb.cost.A.cols) (hB : pb.cstr.xl.size ≤ pb.cost.A.cols) :
    IsMin pb.cstr.Holds pb.cost.value x := by
  refine ⟨h.feasible, fun y hy => ?_⟩
  set n := pb.cost.A.cols with hn
  have hnv : pb.cstr.nvar = n := by unfold Feas.nvar; rw [htr]; simpa using hC
  obtain ⟨fe1, fe2, fe3⟩ := h.feasible
  obtain ⟨ye1, ye2, ye3⟩ := hy
  -- the sum of the stationarity conditions against `y - x`
  have hst : ∑ j ∈ range n, (∑ k ∈ range pb.cost.A.rows, pb.cost.A.at' k j * (∑ i ∈ range n, pb.cost.A.at' k i * x i - pb.cost.b.at' k)
      + ∑ i ∈ range pb.cstr.f.size, pb.cstr.E.at' i j * lamEq i + ∑ i ∈ range pb.cstr.l.size, pb.cstr.C.at' i j * lamIneq i
      + (if j < pb.cstr.xl.size then lamBnd j else 0)) * (y j - x j) = 0 :=
    Finset.sum_eq_zero fun j hj => by rw [h.stationary j (mem_range.1 hj), zero_mul]
  have hsplit : ∀ (m : Nat) (M : Nat → Nat → ℝ) (g : Nat → ℝ), ∑ j ∈ range n, (∑ k ∈ range m, M k j * g k) * (y j - x j)
      = ∑ k ∈ range m, g k * (∑ j ∈ range n, M k j * y j - ∑ j ∈ range n, M k j * x j) := by
    intro m M g
    simp only [Finset.sum_mul]
    rw [Finset.sum_comm]
    refine Finset.sum_congr rfl fun k _ => ?_
    rw [← Finset.sum_sub_distrib, Finset.mul_sum]
    exact Finset.sum_congr rfl fun j _ => by ring
  simp only [add_mul, Finset.sum_add_distrib] at hst
  rw [hsplit, hsplit, hsplit] at hst
  have hE : ∑ k ∈ range pb.cstr.f.size, lamEq k * (∑ j ∈ range n, pb.cstr.E.at' k j * y j - ∑ j ∈ range n, pb.cstr.E.at' k j * x j) = 0 := by
    refine Finset.sum_eq_zero fun k hk => ?_
    have e1 := fe1 k (mem_range.1 hk)
    have e2 := ye1 k (mem_range.1 hk)
    unfold Mx.val at e1 e2
    rw [htr, hnv] at e1 e2
    simp only [Bool.false_eq_true, if_false] at e1 e2
    rw [e1, e2, sub_self, mul_zero]
  have hI : ∑ k ∈ range pb.cstr.l.size, lamIneq k * (∑ j ∈ range n, pb.cstr.C.at' k j * y j - ∑ j ∈ range n, pb.cstr.C.at' k j * x j) ≤ 0 := by
    refine Finset.sum_nonpos fun k hk => ?_
    have e2 := ye2 k (mem_range.1 hk)
    have l1 := h.lower k (mem_range.1 hk)
    have l2 := h.upper k (mem_range.1 hk)
    unfold Mx.val at e2 l1 l2
    rw [htr, hnv] at e2
    rw [hC] at l1 l2
    simp only [Bool.false_eq_true, if_false] at e2 l1 l2
    exact mul_term_nonneg e2.1 e2.2 l1 l2
  have hBn : ∑ j ∈ range n, (if j < pb.cstr.xl.size then lamBnd j else 0) * (y j - x j) ≤ 0 := by
    refine Finset.sum_nonpos fun j hj => ?_
    split_ifs with h1
    · exact mul_term_nonneg (ye3 j h1).1 (ye3 j h1).2 (h.lowerBnd j h1) (h.upperBnd j h1)
    · rw [zero_mul]
  have hgrad : 0 ≤ ∑ k ∈ range pb.cost.A.rows, (∑ i ∈ range n, pb.cost.A.at' k i * x i - pb.cost.b.at' k) *
      (∑ j ∈ range n, pb.cost.A.at' k j * y j - ∑ j ∈ range n, pb.cost.A.at' k j * x j) := by linarith
  unfold LsCost.value
  have : ∑ k ∈ range pb.cost.A.rows, (∑ j ∈ range n, pb.cost.A.at' k j * x j - pb.cost.b.at' k) ^ 2 +
      2 * ∑ k ∈ range pb.cost.A.rows, (∑ i ∈ range n, pb.cost.A.at' k i * x i - pb.cost.b.at' k) *
      (∑ j ∈ range n, pb.cost.A.at' k j * y j - ∑ j ∈ range n, pb.cost.A.at' k j * x j)
      ≤ ∑ k ∈ range pb.cost.A.rows, (∑ j ∈ range n, pb.cost.A.at' k j * y j - pb.cost.b.at' k) ^ 2 := by
    rw [Finset.mul_sum, ← Finset.sum_add_distrib]
    refine Finset.sum_le_sum fun k _ => ?_
    nlinarith [sq_nonneg (∑ j ∈ range n, pb.cost.A.at' k j * y j - ∑ j ∈ range n, pb.cost.A.at' k j * x j)]
  linarith

/-- The QR of step 1 is a rank-revealing QR of a matrix of rank `rankTot` (what `ColPivHouseholderQR` computes in exact arithmetic), and
in the second case the number of rows is the number of columns. -/
structure Step1Ok (ch : Charac) (d : Draw1) : Prop where
  over : ch.nObj ≠ 0 → ch.nstrong ≠ 0 → ch.nVar < ch.colsTot →
    (∀ i, d.perm i < ch.colsTot ↔ i < ch.colsTot) ∧
    (∀ j < ch.nVar, ∀ i < ch.colsTot, stackRows ch.nObj d.A (setIdBottom ch.nstrong ch.nStrongBnd d.Ca) (d.perm i) j
      = ∑ k ∈ range ch.nVar, d.Q j k * (if k ≤ i then d.R k i else 0)) ∧
    (∀ k < min (ch.rankObj + ch.nstrong - ch.nSharedRank) ch.nVar, d.R k k ≠ 0) ∧
    (∀ k, min (ch.rankObj + ch.nstrong - ch.nSharedRank) ch.nVar ≤ k → k < ch.nVar → ∀ i, k ≤ i → d.R k i = 0)
  under : ch.nObj ≠ 0 → ch.nstrong ≠ 0 → ch.colsTot ≤ ch.nVar → ch.colsTot = ch.nVar ∧
    (∀ i, d.perm i < ch.nVar ↔ i < ch.nVar) ∧
    (∀ i < ch.colsTot, ∀ j < ch.nVar, stackRows ch.nObj d.A (setIdBottom ch.nstrong ch.nStrongBnd d.Ca) i (d.perm j)
      = ∑ k ∈ range ch.colsTot, d.Q i k * (if k ≤ j then d.R k j else 0)) ∧
    (∀ a < ch.colsTot, ∀ b < ch.colsTot, ∑ i ∈ range ch.colsTot, d.Q i a * d.Q i b = if a = b then 1 else 0) ∧
    (∀ k, (if ch.rankObj + ch.nstrong - ch.nSharedRank = ch.nVar then ch.nVar - 1 else ch.rankObj + ch.nstrong - ch.nSharedRank) ≤ k →
      k < ch.colsTot → ∀ i, k ≤ i → d.R k i = 0)

/-! ### Step 1 and 2: a vector of the null space -/

/-- What steps 1 and 2 establish. -/
structure Null (ch : Charac) (A Ca : Nat → Nat → ℝ) (mult : Nat → ℝ) : Prop where
  null : ∀ j < ch.nVar, ∑ k ∈ range ch.nObj, A k j * mult k + ∑ k ∈ range ch.nstrong, Ca k j * mult (ch.nObj + k) = 0
  bnd : ∀ k < ch.nStrongBnd, ∀ j, Ca (ch.nEq + ch.nStrongIneq + k) j * mult (ch.nObj + (ch.nEq + ch.nStrongIneq) + k)
    = (if j = k then 1 else 0) * mult (ch.nObj + (ch.nEq + ch.nStrongIneq) + k)

theorem sum_perm (σ : Equiv.Perm Nat) (n : Nat) (hσ : ∀ i, σ i < n ↔ i < n) (f : Nat → ℝ) :
    ∑ i ∈ range n, f (σ i) = ∑ i ∈ range n, f i :=
  Finset.sum_equiv σ (fun i => by simp only [mem_range]; exact (hσ i).symm) (fun i _ => rfl)

theorem stack_sum (nObj m : Nat) (A Ca : Nat → Nat → ℝ) (mult : Nat → ℝ) (j : Nat) :
    ∑ k ∈ range (nObj + m), stackRows nObj A Ca k j * mult k
      = ∑ k ∈ range nObj, A k j * mult k + ∑ k ∈ range m, Ca k j * mult (nObj + k) := by
  rw [Finset.sum_range_add]
  congr 1
  · exact Finset.sum_congr rfl fun k hk => by unfold stackRows; rw [if_pos (mem_range.1 hk)]
  · exact Finset.sum_congr rfl fun k _ => by unfold stackRows; rw [if_neg (by omega), Nat.add_sub_cancel_left]

theorem setIdBottom_bnd {ch : Charac} (Ca : Nat → Nat → ℝ) {k : Nat} (hk : k < ch.nStrongBnd) (j : Nat) :
    setIdBottom ch.nstrong ch.nStrongBnd Ca (ch.nEq + ch.nStrongIneq + k) j = if j = k then 1 else 0 := by
  unfold setIdBottom Charac.nstrong
  rw [if_pos (by omega), show ch.nEq + ch.nStrongIneq + k - (ch.nEq + ch.nStrongIneq + ch.nStrongBnd - ch.nStrongBnd) = k by omega]

theorem genStep1_null {ch : Charac} (d : Draw1) (ho : Step1Ok ch d) {A Ca : Nat → Nat → ℝ} {mult : Nat → ℝ}
    (h : genStep1 ch d = some (A, Ca, mult)) : Null ch A Ca mult := by
  unfold genStep1 at h
  by_cases h1 : ch.nObj = 0
  · rw [if_pos h1] at h
    simp only [Option.some.injEq, Prod.mk.injEq] at h
    obtain ⟨rfl, rfl, rfl⟩ := h
    exact ⟨fun j _ => by simp, fun k _ j => by simp⟩
  rw [if_neg h1] at h
  by_cases h2 : ch.nstrong = 0
  · rw [if_pos h2] at h
    simp only [Option.some.injEq, Prod.mk.injEq] at h
    obtain ⟨rfl, rfl, rfl⟩ := h
    exact ⟨fun j _ => by simp, fun k _ j => by simp⟩
  rw [if_neg h2] at h
  by_cases h3 : ch.nVar < ch.colsTot
  · rw [if_pos h3] at h
    obtain ⟨p1, p2, p3, p4⟩ := ho.over h1 h2 h3
    simp only [Option.some.injEq, Prod.mk.injEq] at h
    obtain ⟨rfl, rfl, rfl⟩ := h
    set rk := min (ch.rankObj + ch.nstrong - ch.nSharedRank) ch.nVar with hrk
    set u := backSub d.R rk (fun i => -sumTo (fun j => d.R i (rk + j) * d.rnd j) (ch.colsTot - rk)) with hu
    refine ⟨fun j hj => ?_, fun k hk j => by rw [setIdBottom_bnd _ hk]⟩
    rw [← stack_sum, show ch.nObj + ch.nstrong = ch.colsTot from rfl, ← sum_perm d.perm ch.colsTot p1]
    have : ∀ i ∈ range ch.colsTot, stackRows ch.nObj d.A (setIdBottom ch.nstrong ch.nStrongBnd d.Ca) (d.perm i) j *
        (if d.perm.symm (d.perm i) < rk then u (d.perm.symm (d.perm i)) else d.rnd (d.perm.symm (d.perm i) - rk))
        = ∑ k ∈ range ch.nVar, d.Q j k * ((if k ≤ i then d.R k i else 0) * (if i < rk then u i else d.rnd (i - rk))) := by
      intro i hi
      rw [p2 j hj i (mem_range.1 hi), Equiv.symm_apply_apply, Finset.sum_mul]
      exact Finset.sum_congr rfl fun k _ => by ring
    rw [Finset.sum_congr rfl this, Finset.sum_comm]
    refine Finset.sum_eq_zero fun k hk => ?_
    rw [← Finset.mul_sum]
    by_cases hkr : k < rk
    · have hb := backSub_spec d.R rk (fun i => -sumTo (fun j => d.R i (rk + j) * d.rnd j) (ch.colsTot - rk)) p3 k hkr
      rw [← hu, sumTo_eq] at hb
      have hrc : rk + (ch.colsTot - rk) = ch.colsTot := by
        have : rk ≤ ch.nVar := min_le_right _ _
        omega
      have e : ∑ i ∈ range ch.colsTot, (if k ≤ i then d.R k i else 0) * (if i < rk then u i else d.rnd (i - rk)) = 0 := by
        rw [← hrc, Finset.sum_range_add]
        have e1 : ∑ i ∈ range rk, (if k ≤ i then d.R k i else 0) * (if i < rk then u i else d.rnd (i - rk))
            = ∑ i ∈ range rk, (if k ≤ i then d.R k i else 0) * u i :=
          Finset.sum_congr rfl fun i hi => by rw [if_pos (mem_range.1 hi)]
        have e2 : ∑ i ∈ range (ch.colsTot - rk), (if k ≤ rk + i then d.R k (rk + i) else 0) *
            (if rk + i < rk then u (rk + i) else d.rnd (rk + i - rk))
            = ∑ i ∈ range (ch.colsTot - rk), d.R k (rk + i) * d.rnd i :=
          Finset.sum_congr rfl fun i _ => by rw [if_pos (by omega), if_neg (by omega), Nat.add_sub_cancel_left]
        rw [e1, e2, hb]
        ring
      rw [e, mul_zero]
    · rw [Finset.sum_eq_zero, mul_zero]
      intro i _
      split_ifs with hki
      · rw [p4 k (not_lt.1 hkr) (mem_range.1 hk) i hki, zero_mul]
      · rw [p4 k (not_lt.1 hkr) (mem_range.1 hk) i hki, zero_mul]
      all_goals rw [zero_mul]
  · rw [if_neg h3] at h
    obtain ⟨p0, p1, p2, p3, p4⟩ := ho.under h1 h2 (not_lt.1 h3)
    set rk := if ch.rankObj + ch.nstrong - ch.nSharedRank = ch.nVar then ch.nVar - 1 else ch.rankObj + ch.nstrong - ch.nSharedRank with hrk
    simp only [] at h
    by_cases h4 : ch.nVar - rk ≤ ch.colsTot
    swap
    · rw [if_neg h4] at h; cases h
    rw [if_pos h4] at h
    simp only [Option.some.injEq, Prod.mk.injEq] at h
    obtain ⟨rfl, rfl, rfl⟩ := h
    refine ⟨fun j hj => ?_, fun k hk j => by rw [setIdBottom_bnd _ hk]⟩
    rw [← stack_sum, show ch.nObj + ch.nstrong = ch.colsTot from rfl]
    obtain ⟨j', hj'⟩ : ∃ j', d.perm j' = j := ⟨d.perm.symm j, Equiv.apply_symm_apply _ _⟩
    have hj'n : j' < ch.nVar := (p1 j').1 (by rw [hj']; exact hj)
    rw [← hj']
    have : ∀ i ∈ range ch.colsTot, stackRows ch.nObj d.A (setIdBottom ch.nstrong ch.nStrongBnd d.Ca) i (d.perm j') *
        sumTo (fun t => d.Q i (ch.colsTot - (ch.nVar - rk) + t) * d.rnd t) (ch.nVar - rk)
        = ∑ t ∈ range (ch.nVar - rk), ∑ k ∈ range ch.colsTot,
          (if k ≤ j' then d.R k j' else 0) * d.rnd t * (d.Q i k * d.Q i (ch.colsTot - (ch.nVar - rk) + t)) := by
      intro i hi
      rw [p2 i (mem_range.1 hi) j' hj'n, sumTo_eq, Finset.mul_sum]
      refine Finset.sum_congr rfl fun t _ => ?_
      rw [Finset.sum_mul]
      exact Finset.sum_congr rfl fun k _ => by ring
    rw [Finset.sum_congr rfl this, Finset.sum_comm]
    refine Finset.sum_eq_zero fun t ht => ?_
    rw [Finset.sum_comm]
    refine Finset.sum_eq_zero fun k hk => ?_
    rw [← Finset.mul_sum]
    have htt := mem_range.1 ht
    rw [p3 k (mem_range.1 hk) _ (by omega)]
    split_ifs with a1 a2
    · rw [p4 k (by omega) (mem_range.1 hk) _ a1]; ring
    · ring
    · ring
    · ring

theorem genStep2_null {ch : Charac} {A Ca : Nat → Nat → ℝ} {mult : Nat → ℝ} (h : Null ch A Ca mult) :
    Null ch A (genStep2 ch Ca mult).1 (genStep2 ch Ca mult).2 ∧
      (ch.dbl = false → ∀ i < ch.nStrongIneq, 0 ≤ (genStep2 ch Ca mult).2 (ch.nObj + ch.nEq + i)) := by
  unfold genStep2
  cases hd : ch.dbl
  · simp only [Bool.false_eq_true, if_false]
    refine ⟨⟨fun j hj => ?_, fun k hk j => ?_⟩, fun _ i hi => ?_⟩
    · refine Eq.trans ?_ (h.null j hj)
      congr 1
      · refine Finset.sum_congr rfl fun k hk => ?_
        have := mem_range.1 hk
        rw [if_neg (by omega)]
      · refine Finset.sum_congr rfl fun k hk => ?_
        by_cases hc : ch.nEq ≤ k ∧ k < ch.nEq + ch.nStrongIneq ∧ mult (ch.nObj + k) < 0
        · rw [if_pos hc, if_pos ⟨by omega, by omega, hc.2.2⟩]; ring
        · rw [if_neg hc, if_neg]
          rintro ⟨a1, a2, a3⟩
          exact hc ⟨by omega, by omega, a3⟩
    · rw [if_neg (by omega), if_neg (by omega)]
      exact h.bnd k hk j
    · by_cases hc : mult (ch.nObj + ch.nEq + i) < 0
      · rw [if_pos ⟨by omega, by omega, hc⟩]; linarith
      · rw [if_neg (fun hh => hc hh.2.2)]; exact not_lt.1 hc
  · simp only [if_true]
    exact ⟨h, fun hh => by cases hh⟩

/-! ### Steps 3 to 5 -/

theorem genStep5_kkt {ch : Charac} (hc : ch.Check) (d : Draw2) {A Ca : Nat → Nat → ℝ} {mult : Nat → ℝ} (Cw : Nat → Nat → ℝ)
    (hN : Null ch A Ca mult) (hpos : ch.dbl = false → ∀ i < ch.nStrongIneq, 0 ≤ mult (ch.nObj + ch.nEq + i))
    (hw : ch.dbl = true → ∀ i, ch.nStrongIneq ≤ i → i < ch.nStrongIneq + ch.nWeakIneq → |d.ru i| < |d.rl i|) :
    LsKKT ((genStep5 ch d A Ca mult Cw).pb ch) (genStep5 ch d A Ca mult Cw).x (genStep5 ch d A Ca mult Cw).lamEq
      (genStep5 ch d A Ca mult Cw).lamIneq (genStep5 ch d A Ca mult Cw).lamBnd := by
  obtain ⟨C0, hC0⟩ : ∃ C0 : Nat → Nat → ℝ, C0 = fun i j => if i < ch.nStrongIneq then Ca (ch.nEq + i) j
    else if i < ch.nStrongIneq + ch.nWeakIneq then Cw (i - ch.nStrongIneq) j else d.Cin (i - (ch.nStrongIneq + ch.nWeakIneq)) j := ⟨_, rfl⟩
  obtain ⟨cx, hcx⟩ : ∃ cx : Nat → ℝ, cx = fun i => ∑ j ∈ range ch.nVar, C0 i j * d.x j := ⟨_, rfl⟩
  obtain ⟨p, hp⟩ : ∃ p, p = genStep5 ch d A Ca mult Cw := ⟨_, rfl⟩
  have hflip : ∀ i, ¬ (ch.nStrongIneq ≤ i ∧ i < ch.nStrongIneq + ch.nWeakIneq ∧ ch.dbl = true ∧ ¬ |d.ru i| < |d.rl i|) := by
    rintro i ⟨a1, a2, a3, a4⟩
    exact a4 (hw a3 i a1 a2)
  have eC : p.C = C0 := by
    funext i j
    rw [hp, hC0]
    unfold genStep5
    dsimp only
    rw [if_neg (hflip i)]
  have eI : p.lamIneq = fun i => if i < ch.nStrongIneq then mult (ch.nObj + ch.nEq + i) else 0 := by rw [hp]; rfl
  have eB : p.lamBnd = fun i => if i < ch.nStrongBnd then mult (ch.nObj + (ch.nEq + ch.nStrongIneq) + i) else 0 := by
    rw [hp]
    unfold genStep5 Charac.nstrong
    dsimp only
    rw [Nat.add_sub_cancel]
  have eEq : p.lamEq = fun i => mult (ch.nObj + i) := by rw [hp]; rfl
  have ex : p.x = d.x := by rw [hp]; rfl
  have eA : p.A = A := by rw [hp]; rfl
  have eE : p.E = Ca := by rw [hp]; rfl
  have eb : ∀ k, p.b k = ∑ j ∈ range ch.nVar, A k j * d.x j - mult k := by intro k; rw [hp, ← sumTo_eq]; rfl
  have ef : ∀ k, p.f k = ∑ j ∈ range ch.nVar, Ca k j * d.x j := by intro k; rw [hp, ← sumTo_eq]; rfl
  have ecx : (fun i => sumTo (fun j => (if i < ch.nStrongIneq then Ca (ch.nEq + i) j
      else if i < ch.nStrongIneq + ch.nWeakIneq then Cw (i - ch.nStrongIneq) j
      else d.Cin (i - (ch.nStrongIneq + ch.nWeakIneq)) j) * d.x j) ch.nVar) = cx := by
    rw [hcx, hC0]; funext i; rw [sumTo_eq]
  have el : ∀ i, p.l i = if ch.dbl then
        ((if i < ch.nStrongIneq then (if 0 < p.lamIneq i then cx i - |d.rl i| else cx i)
          else if i < ch.nStrongIneq + ch.nWeakIneq then (if |d.ru i| < |d.rl i| then cx i - |d.rl i| else cx i)
          else cx i - |d.rl i| : ℝ) : EReal)
      else ⊥ := by
    intro i; rw [hp, ← ecx]; rfl
  have eu : ∀ i, p.u i = if ch.dbl then
        (if i < ch.nStrongIneq then (if 0 < p.lamIneq i then cx i else cx i + |d.ru i|)
          else if i < ch.nStrongIneq + ch.nWeakIneq then (if |d.ru i| < |d.rl i| then cx i else -cx i + |d.ru i|)
          else cx i + |d.ru i|)
      else if i < ch.nStrongIneq + ch.nWeakIneq then cx i else cx i + |d.ru i| := by
    intro i; rw [hp, ← ecx]; rfl
  have exl : ∀ i, p.xl i = if i < ch.nStrongBnd then (if 0 < p.lamBnd i then d.x i - |d.r i| else d.x i)
      else if i < ch.nStrongBnd + ch.nWeakBnd then (if 0 < d.r i then d.x i - d.r i else d.x i)
      else d.x i - |d.rxl i| := by intro i; rw [hp]; rfl
  have exu : ∀ i, p.xu i = if i < ch.nStrongBnd then (if 0 < p.lamBnd i then d.x i else d.x i + |d.r i|)
      else if i < ch.nStrongBnd + ch.nWeakBnd then (if 0 < d.r i then d.x i else d.x i - d.r i)
      else d.x i + |d.rxu i| := by intro i; rw [hp]; rfl
  rw [← hp]
  clear hp ecx
  have hval : ∀ i, (⟨ch.nIneq, ch.nVar, C0⟩ : Mx).val false ch.nVar d.x i = cx i := by
    intro i; rw [hcx]; unfold Mx.val; simp
  have hnv : (p.pb ch).cstr.nvar = ch.nVar := rfl
  have hB : ch.nStrongBnd ≤ ch.nBounds := by
    unfold Charac.nBounds
    rcases hc.c4 with ⟨h1, h2⟩ | ⟨h1, h2, h3⟩
    · rw [h1]; simp; omega
    · omega
  have hB2 : ch.nBounds ≤ ch.nVar := by unfold Charac.nBounds; split_ifs <;> omega
  refine ⟨⟨fun i hi => ?_, fun i hi => ?_, fun i hi => ?_⟩, fun j hj => ?_, fun i hi h1 => ?_, fun i hi h1 => ?_, fun i hi h1 => ?_,
    fun i hi h1 => ?_⟩
  · change (⟨ch.nEq, ch.nVar, p.E⟩ : Mx).val false ch.nVar p.x i = p.f i
    rw [ex, eE, ef]
    unfold Mx.val; simp
  · change p.l i ≤ (((⟨ch.nIneq, ch.nVar, p.C⟩ : Mx).val false ch.nVar p.x i : ℝ) : EReal) ∧
      (((⟨ch.nIneq, ch.nVar, p.C⟩ : Mx).val false ch.nVar p.x i : ℝ) : EReal) ≤ ((p.u i : ℝ) : EReal)
    rw [eC, ex, hval, el, eu]
    have a1 := abs_nonneg (d.rl i)
    have a2 := abs_nonneg (d.ru i)
    have h2 := hw
    cases hd : ch.dbl
    · simp only [Bool.false_eq_true, if_false, bot_le, true_and, EReal.coe_le_coe_iff]
      split_ifs <;> linarith
    · simp only [if_true, EReal.coe_le_coe_iff]
      split_ifs with b1 b2 b3 b4 <;> constructor <;> first | linarith | skip
      exact absurd (hw hd i (by omega) b3) b4
  · change ((p.xl i : ℝ) : EReal) ≤ ((p.x i : ℝ) : EReal) ∧ ((p.x i : ℝ) : EReal) ≤ ((p.xu i : ℝ) : EReal)
    rw [ex, exl, exu]
    have a1 := abs_nonneg (d.r i)
    have a2 := abs_nonneg (d.rxl i)
    have a3 := abs_nonneg (d.rxu i)
    simp only [EReal.coe_le_coe_iff]
    split_ifs <;> constructor <;> linarith
  · change ∑ k ∈ range ch.nObj, p.A k j * (∑ i ∈ range ch.nVar, p.A k i * p.x i - p.b k)
      + ∑ i ∈ range ch.nEq, p.E i j * p.lamEq i + ∑ i ∈ range ch.nIneq, p.C i j * p.lamIneq i
      + (if j < ch.nBounds then p.lamBnd j else 0) = 0
    have hj' : j < ch.nVar := hj
    refine Eq.trans ?_ (hN.null j hj')
    rw [eA, ex, eE, eC, eEq, eI, eB]
    have e1 : ∑ k ∈ range ch.nObj, A k j * (∑ i ∈ range ch.nVar, A k i * d.x i - p.b k) = ∑ k ∈ range ch.nObj, A k j * mult k :=
      Finset.sum_congr rfl fun k _ => by rw [eb]; ring
    have e2 : ∑ i ∈ range ch.nIneq, C0 i j * (if i < ch.nStrongIneq then mult (ch.nObj + ch.nEq + i) else 0)
        = ∑ i ∈ range ch.nStrongIneq, Ca (ch.nEq + i) j * mult (ch.nObj + (ch.nEq + i)) := by
      have hle := hc.c3
      rw [show ch.nIneq = ch.nStrongIneq + (ch.nIneq - ch.nStrongIneq) by omega, Finset.sum_range_add]
      rw [Finset.sum_eq_zero (s := range (ch.nIneq - ch.nStrongIneq)) (fun i _ => by rw [if_neg (by omega), mul_zero]), add_zero]
      refine Finset.sum_congr rfl fun i hi => ?_
      rw [hC0]
      dsimp only
      rw [if_pos (mem_range.1 hi), if_pos (mem_range.1 hi), Nat.add_assoc]
    have e3 : (if j < ch.nBounds then (if j < ch.nStrongBnd then mult (ch.nObj + (ch.nEq + ch.nStrongIneq) + j) else 0) else 0)
        = ∑ k ∈ range ch.nStrongBnd, Ca (ch.nEq + ch.nStrongIneq + k) j * mult (ch.nObj + (ch.nEq + ch.nStrongIneq + k)) := by
      have : ∀ k ∈ range ch.nStrongBnd, Ca (ch.nEq + ch.nStrongIneq + k) j * mult (ch.nObj + (ch.nEq + ch.nStrongIneq + k))
          = if j = k then mult (ch.nObj + (ch.nEq + ch.nStrongIneq) + k) else 0 := by
        intro k hk
        rw [← Nat.add_assoc ch.nObj, hN.bnd k (mem_range.1 hk) j]
        split_ifs <;> ring
      rw [Finset.sum_congr rfl this, Finset.sum_ite_eq]
      simp only [mem_range]
      by_cases h5 : j < ch.nStrongBnd
      · rw [if_pos h5, if_pos (by omega)]
      · rw [if_neg h5]; simp
    rw [e1, e2]
    dsimp only
    rw [e3]
    unfold Charac.nstrong
    rw [Finset.sum_range_add, Finset.sum_range_add]
    ring
  · change (((⟨ch.nIneq, ch.nVar, p.C⟩ : Mx).val false ch.nVar p.x i : ℝ) : EReal) = p.l i
    change i < ch.nIneq at hi
    rw [eC, ex, hval, el]
    have h2 : i < ch.nStrongIneq := by
      by_contra h2; rw [eI] at h1; dsimp only at h1; rw [if_neg h2] at h1; exact absurd h1 (lt_irrefl _)
    have h3 : p.lamIneq i = mult (ch.nObj + ch.nEq + i) := by rw [eI]; dsimp only; rw [if_pos h2]
    cases hd : ch.dbl
    · rw [h3] at h1; exact absurd (hpos hd i h2) (not_le.2 h1)
    · simp only [if_true]
      rw [if_pos h2, if_neg (not_lt.2 h1.le)]
  · change (((⟨ch.nIneq, ch.nVar, p.C⟩ : Mx).val false ch.nVar p.x i : ℝ) : EReal) = ((p.u i : ℝ) : EReal)
    change i < ch.nIneq at hi
    rw [eC, ex, hval, eu]
    have h2 : i < ch.nStrongIneq := by
      by_contra h2; rw [eI] at h1; dsimp only at h1; rw [if_neg h2] at h1; exact absurd h1 (lt_irrefl _)
    rw [if_pos h2, if_pos h1, if_pos (show i < ch.nStrongIneq + ch.nWeakIneq by omega)]
    simp
  · change ((p.x i : ℝ) : EReal) = ((p.xl i : ℝ) : EReal)
    rw [ex, exl]
    have h2 : i < ch.nStrongBnd := by
      by_contra h2; rw [eB] at h1; dsimp only at h1; rw [if_neg h2] at h1; exact absurd h1 (lt_irrefl _)
    rw [if_pos h2, if_neg (not_lt.2 h1.le)]
  · change ((p.x i : ℝ) : EReal) = ((p.xu i : ℝ) : EReal)
    rw [ex, exu]
    have h2 : i < ch.nStrongBnd := by
      by_contra h2; rw [eB] at h1; dsimp only at h1; rw [if_neg h2] at h1; exact absurd h1 (lt_irrefl _)
    rw [if_pos h2, if_pos h1]

/-! ### Step 6: the shuffles -/

/-- The generated problem and solution satisfy the conditions. -/
def RLS.Good (ch : Charac) (p : RLS) : Prop := LsKKT (p.pb ch) p.x p.lamEq p.lamIneq p.lamBnd

theorem swap_lt {i j n : Nat} (hi : i < n) (hj : j < n) (k : Nat) : Equiv.swap i j k < n ↔ k < n := by
  by_cases h1 : k = i
  · rw [h1, Equiv.swap_apply_left]; exact ⟨fun _ => hi, fun _ => hj⟩
  · by_cases h2 : k = j
    · rw [h2, Equiv.swap_apply_right]; exact ⟨fun _ => hj, fun _ => hi⟩
    · rw [Equiv.swap_apply_of_ne_of_ne h1 h2]

theorem RLS.Good.swapRow {ch : Charac} {p : RLS} (h : p.Good ch) (hl : ch.dbl = false → ∀ i j, p.l i = p.l j) {i j : Nat}
    (hi : i < ch.nIneq) (hj : j < ch.nIneq) : (p.swapRow ch i j).Good ch := by
  obtain ⟨⟨f1, f2, f3⟩, st, lo, up, lb, ub⟩ := h
  have hs := swap_lt hi hj
  have el : ∀ k, (p.swapRow ch i j).l k = p.l (Equiv.swap i j k) := by
    intro k
    unfold RLS.swapRow
    cases hd : ch.dbl
    · simp only [Bool.false_eq_true, if_false]; exact hl hd _ _
    · simp
  refine ⟨⟨f1, fun k hk => ?_, f3⟩, fun a ha => ?_, fun k hk h1 => ?_, fun k hk h1 => ?_, lb, ub⟩
  · have := f2 (Equiv.swap i j k) ((hs k).2 hk)
    change (p.swapRow ch i j).l k ≤ _ ∧ _
    rw [el]
    exact this
  · refine Eq.trans ?_ (st a ha)
    have : ∑ k ∈ range ch.nIneq, p.C (Equiv.swap i j k) a * p.lamIneq (Equiv.swap i j k) = ∑ k ∈ range ch.nIneq, p.C k a * p.lamIneq k :=
      sum_perm (Equiv.swap i j) ch.nIneq hs (fun k => p.C k a * p.lamIneq k)
    change _ + ∑ k ∈ range ch.nIneq, p.C (Equiv.swap i j k) a * p.lamIneq (Equiv.swap i j k) + _ = _
    rw [this]
    rfl
  · have := lo (Equiv.swap i j k) ((hs k).2 hk) h1
    change _ = (p.swapRow ch i j).l k
    rw [el]
    exact this
  · exact up (Equiv.swap i j k) ((hs k).2 hk) h1

theorem RLS.Good.swapCol {ch : Charac} {p : RLS} (h : p.Good ch) (hb : ch.bounds = true) {i j : Nat} (hi : i < ch.nVar) (hj : j < ch.nVar) :
    (p.swapCol i j).Good ch := by
  obtain ⟨⟨f1, f2, f3⟩, st, lo, up, lb, ub⟩ := h
  have hs := swap_lt hi hj
  have hnB : ch.nBounds = ch.nVar := by unfold Charac.nBounds; rw [hb]; rfl
  have hsum : ∀ f : Nat → ℝ, ∑ a ∈ range ch.nVar, f (Equiv.swap i j a) = ∑ a ∈ range ch.nVar, f a := sum_perm _ _ hs
  have hval : ∀ (m : Nat) (M : Nat → Nat → ℝ) k, (⟨m, ch.nVar, fun k a => M k (Equiv.swap i j a)⟩ : Mx).val false ch.nVar
      (fun a => p.x (Equiv.swap i j a)) k = (⟨m, ch.nVar, M⟩ : Mx).val false ch.nVar p.x k := by
    intro m M k
    unfold Mx.val
    simp only [Bool.false_eq_true, if_false]
    exact hsum fun a => M k a * p.x a
  refine ⟨⟨fun k hk => ?_, fun k hk => ?_, fun k hk => ?_⟩, fun a ha => ?_, fun k hk h1 => ?_, fun k hk h1 => ?_, fun k hk h1 => ?_,
    fun k hk h1 => ?_⟩
  · exact (hval ch.nEq p.E k).trans (f1 k hk)
  · have := f2 k hk
    change p.l k ≤ (((⟨ch.nIneq, ch.nVar, fun k a => p.C k (Equiv.swap i j a)⟩ : Mx).val false ch.nVar
      (fun a => p.x (Equiv.swap i j a)) k : ℝ) : EReal) ∧ (((⟨ch.nIneq, ch.nVar, fun k a => p.C k (Equiv.swap i j a)⟩ : Mx).val false ch.nVar
      (fun a => p.x (Equiv.swap i j a)) k : ℝ) : EReal) ≤ ((p.u k : ℝ) : EReal)
    rw [hval ch.nIneq p.C k]
    exact this
  · change k < ch.nBounds at hk
    rw [hnB] at hk
    exact f3 (Equiv.swap i j k) (by change _ < ch.nBounds; rw [hnB]; exact (hs k).2 hk)
  · refine Eq.trans ?_ (st (Equiv.swap i j a) ((hs a).2 ha))
    change ∑ k ∈ range ch.nObj, p.A k (Equiv.swap i j a) * (∑ c ∈ range ch.nVar, p.A k (Equiv.swap i j c) * p.x (Equiv.swap i j c) - p.b k)
      + ∑ k ∈ range ch.nEq, p.E k (Equiv.swap i j a) * p.lamEq k + ∑ k ∈ range ch.nIneq, p.C k (Equiv.swap i j a) * p.lamIneq k
      + (if a < ch.nBounds then p.lamBnd (Equiv.swap i j a) else 0) =
      ∑ k ∈ range ch.nObj, p.A k (Equiv.swap i j a) * (∑ c ∈ range ch.nVar, p.A k c * p.x c - p.b k)
      + ∑ k ∈ range ch.nEq, p.E k (Equiv.swap i j a) * p.lamEq k + ∑ k ∈ range ch.nIneq, p.C k (Equiv.swap i j a) * p.lamIneq k
      + (if Equiv.swap i j a < ch.nBounds then p.lamBnd (Equiv.swap i j a) else 0)
    have ha' : a < ch.nVar := ha
    rw [hnB, if_pos ha', if_pos ((hs a).2 ha')]
    congr 3
    exact Finset.sum_congr rfl fun k _ => by rw [hsum fun c => p.A k c * p.x c]
  · have := lo k hk h1
    refine Eq.trans ?_ this
    exact congrArg _ (hval ch.nIneq p.C k)
  · have := up k hk h1
    refine Eq.trans ?_ this
    exact congrArg _ (hval ch.nIneq p.C k)
  · change k < ch.nBounds at hk
    rw [hnB] at hk
    exact lb (Equiv.swap i j k) (by change _ < ch.nBounds; rw [hnB]; exact (hs k).2 hk) h1
  · change k < ch.nBounds at hk
    rw [hnB] at hk
    exact ub (Equiv.swap i j k) (by change _ < ch.nBounds; rw [hnB]; exact (hs k).2 hk) h1

theorem shuffleRows_good {ch : Charac} (jRow : Nat → Nat) (hj : ∀ i, jRow i ≤ i) : ∀ (m : Nat) (p : RLS), m ≤ ch.nIneq - 1 → p.Good ch →
    (ch.dbl = false → ∀ i j, p.l i = p.l j) → (shuffleRows ch jRow m p).Good ch := by
  intro m
  induction m with
  | zero => intro p _ h _; exact h
  | succ m ih =>
    intro p hm h hl
    have := hj (m + 1)
    refine ih _ (by omega) (h.swapRow hl (by omega) (by omega)) ?_
    intro hd i j
    unfold RLS.swapRow
    rw [hd]
    exact hl hd i j

theorem shuffleCols_good {ch : Charac} (hb : ch.bounds = true) (jCol : Nat → Nat) (hj : ∀ i, jCol i ≤ i) : ∀ (m : Nat) (p : RLS),
    m ≤ ch.nVar - 1 → p.Good ch → (shuffleCols jCol m p).Good ch := by
  intro m
  induction m with
  | zero => intro p _ h; exact h
  | succ m ih =>
    intro p hm h
    have := hj (m + 1)
    exact ih _ (by omega) (h.swapCol hb (by omega) (by omega))

/-! ### The property -/

/-- **C44 (partial).** Let the characteristics pass `check()`, let the rank-revealing QR of step 1 find the rank `rankTot` (with as many
rows as columns if there are no more rows than variables), let no weakly active double-sided constraint be flipped. Then the vectors
`x`, `lambdaEq`, `lambdaIneq`, `lambdaBnd` of a generated problem satisfy its Karush-Kuhn-Tucker conditions, and `x` is a global
minimiser. -/
theorem C44_solution_partial {ch : Charac} (hc : ch.Check) {d1 : Draw1} (h1 : Step1Ok ch d1) {d2 : Draw2} (hr : ∀ i, d2.jRow i ≤ i)
    (hcol : ∀ i, d2.jCol i ≤ i)
    (hw : ch.dbl = true → ∀ i, ch.nStrongIneq ≤ i → i < ch.nStrongIneq + ch.nWeakIneq → |d2.ru i| < |d2.rl i|)
    {p : RLS} (hp : randomProblem ch d1 d2 = some p) :
    LsKKT (p.pb ch) p.x p.lamEq p.lamIneq p.lamBnd ∧ IsMin (p.pb ch).cstr.Holds (p.pb ch).cost.value p.x := by
  have hgood : p.Good ch := by
    unfold randomProblem at hp
    cases e1 : genStep1 ch d1 with
    | none => rw [e1] at hp; cases hp
    | some ACm =>
      obtain ⟨A, Ca, mult⟩ := ACm
      rw [e1] at hp
      simp only [Option.bind_some] at hp
      cases e2 : genWeak ch d2 (genStep2 ch Ca mult).1 (genStep2 ch Ca mult).2 with
      | none => rw [e2] at hp; cases hp
      | some Cw =>
        rw [e2] at hp
        simp only [Option.map_some, Option.some.injEq] at hp
        obtain ⟨n1, n2⟩ := genStep2_null (genStep1_null d1 h1 e1)
        have g1 : (genStep5 ch d2 A (genStep2 ch Ca mult).1 (genStep2 ch Ca mult).2 Cw).Good ch := genStep5_kkt hc d2 Cw n1 n2 hw
        have g2 := shuffleRows_good d2.jRow hr (ch.nIneq - 1) _ le_rfl g1 (by
          intro hd i j
          unfold genStep5
          simp only [hd, Bool.false_eq_true, if_false])
        rw [← hp]
        split_ifs with hb
        · exact shuffleCols_good hb d2.jCol hcol _ _ le_rfl g2
        · exact g2
  refine ⟨hgood, LsKKT.isMin hgood rfl rfl ?_⟩
  change ch.nBounds ≤ ch.nVar
  unfold Charac.nBounds
  split_ifs <;> omega

/-- Draws with every matrix and vector equal to one, no permutation. -/
noncomputable def onesDraw : Draw1 := ⟨fun _ _ => 1, fun _ _ => 1, 1, fun _ _ => 1, fun _ _ => 1, fun _ => 1⟩

/-- Draws with zero solution and unit offsets, no shuffle. -/
noncomputable def onesDraw2 (x ru rl : ℝ) : Draw2 :=
  ⟨fun _ _ => 1, fun _ _ => 1, fun _ => x, fun _ => rl, fun _ => ru, fun _ => 1, fun _ => 1, fun _ => 1, fun i => i, fun i => i⟩

/-- The hypotheses of `C44_solution_partial` are met by a problem with a strongly active inequality:
`min ½(x - 1)²  s.t.  x ≤ 0`, with solution `0` and multiplier `1`. -/
theorem C44_hypotheses_met : ∃ (ch : Charac) (d1 : Draw1) (d2 : Draw2) (p : RLS), ch.Check ∧ Step1Ok ch d1 ∧ (∀ i, d2.jRow i ≤ i) ∧
    (∀ i, d2.jCol i ≤ i) ∧ ch.dbl = false ∧ randomProblem ch d1 d2 = some p ∧ p.b 0 = 1 ∧ p.u 0 = 0 ∧ p.lamIneq 0 = 1 := by
  refine ⟨⟨1, 1, 0, 1, 1, 0, 1, 0, 0, 0, false, false, false⟩, onesDraw, onesDraw2 0 1 1, _, ?_, ?_, fun i => le_rfl, fun i => le_rfl, rfl, rfl, ?_⟩
  · constructor <;> simp
  · refine ⟨fun _ _ _ => ⟨fun i => Iff.rfl, ?_, ?_, ?_⟩, fun _ _ h => ?_⟩
    · intro j hj i hi
      have hj' : j < 1 := hj
      have hi' : i < 2 := hi
      interval_cases j <;> interval_cases i <;>
        norm_num [stackRows, setIdBottom, onesDraw, Charac.nstrong, Finset.sum_range_succ, -Finset.sum_boole]
    · intro k _; simp [onesDraw]
    · intro k h1 h2
      simp [Charac.nstrong] at h1 h2
      omega
    · simp [Charac.colsTot, Charac.nstrong] at h
  · simp [genStep5, genStep2, shuffleRows, onesDraw, onesDraw2, Charac.nstrong, Charac.colsTot, sumTo, esub_real, backSub, backSubK,
      show (Equiv.symm (1 : Equiv.Perm Nat)) = 1 from rfl, upd]

/-- **C44 fails when a weakly active constraint is flipped.** With double-sided constraints, the lower side is not negated when the sign
of a weakly active constraint is changed: the generated problem may have no feasible point at all. Here
`x = 1, 1 ≤ -x ≤ 0`, and the announced solution is `1`. -/
theorem C44_flip_false : ∃ (ch : Charac) (d1 : Draw1) (d2 : Draw2) (p : RLS), ch.Check ∧ Step1Ok ch d1 ∧ (∀ i, d2.jRow i ≤ i) ∧
    (∀ i, d2.jCol i ≤ i) ∧ randomProblem ch d1 d2 = some p ∧ ¬ ∃ y, (p.pb ch).cstr.Holds y := by
  refine ⟨⟨1, 0, 1, 1, 0, 0, 0, 1, 0, 0, false, true, false⟩, onesDraw, onesDraw2 1 1 1, _, ?_, ?_, fun i => le_rfl, fun i => le_rfl, rfl, ?_⟩
  · constructor <;> simp
  · exact ⟨fun h => absurd rfl h, fun h => absurd rfl h⟩
  · rintro ⟨y, h1, h2, _⟩
    have e1 := h1 0 (by simp [RLS.pb])
    have e2 := (h2 0 (by simp [RLS.pb])).1
    simp [genStep5, genStep2, shuffleRows, onesDraw, onesDraw2, Charac.nstrong, sumTo, RLS.pb, Mx.val, Feas.nvar] at e1 e2
    rw [e1] at e2
    have e3 : ((1 : ℝ) : EReal) ≤ ((-1 : ℝ) : EReal) := by simpa using e2
    have : (1 : ℝ) ≤ -1 := EReal.coe_le_coe_iff.1 e3
    norm_num at this

/-- Draws of the example below: `A = (3 0 0)`, `Ca = (4 1 0)`, and their QR. -/
noncomputable def qrDraw : Draw1 :=
  ⟨fun _ j => if j = 0 then 3 else 0, fun _ j => if j = 0 then 4 else if j = 1 then 1 else 0, 1,
   fun i k => if i = 0 then (if k = 0 then 3 / 5 else -4 / 5) else (if k = 0 then 4 / 5 else 3 / 5),
   fun k j => if k = 0 then (if j = 0 then 5 else if j = 1 then 4 / 5 else 0) else if k = 1 then (if j = 1 then 3 / 5 else 0) else 0,
   fun _ => 5⟩

/-- **C44 fails when there are fewer rows than variables.** `Q.rightCols(nVar - rankTot)` should be `rightCols(colsTot - rankTot)`: with one
row in `A`, one equality and three variables, all ranks full, the announced solution is not a minimiser. -/
theorem C44_rightCols_false : ∃ (ch : Charac) (d1 : Draw1) (d2 : Draw2) (p : RLS), ch.Check ∧ ch.colsTot < ch.nVar ∧
    (∀ i < ch.colsTot, ∀ j < ch.nVar, stackRows ch.nObj d1.A (setIdBottom ch.nstrong ch.nStrongBnd d1.Ca) i (d1.perm j)
      = ∑ k ∈ range ch.colsTot, d1.Q i k * (if k ≤ j then d1.R k j else 0)) ∧
    (∀ a < ch.colsTot, ∀ b < ch.colsTot, ∑ i ∈ range ch.colsTot, d1.Q i a * d1.Q i b = if a = b then 1 else 0) ∧
    (∀ k, ch.rankObj + ch.nstrong - ch.nSharedRank ≤ k → k < ch.colsTot → ∀ i, k ≤ i → d1.R k i = 0) ∧
    (∀ i, d2.jRow i ≤ i) ∧ (∀ i, d2.jCol i ≤ i) ∧ randomProblem ch d1 d2 = some p ∧
    ¬ IsMin (p.pb ch).cstr.Holds (p.pb ch).cost.value p.x := by
  refine ⟨⟨3, 1, 1, 0, 1, 0, 0, 0, 0, 0, false, false, false⟩, qrDraw, onesDraw2 0 1 1, _, ?_, ?_, ?_, ?_, ?_, fun i => le_rfl, fun i => le_rfl,
    rfl, ?_⟩
  · constructor <;> simp
  · simp [Charac.colsTot, Charac.nstrong]
  · intro i hi j hj
    simp only [Charac.colsTot, Charac.nstrong] at hi hj ⊢
    interval_cases i <;> interval_cases j <;> norm_num [stackRows, setIdBottom, qrDraw, Finset.sum_range_succ]
  · intro a ha b hb
    simp only [Charac.colsTot, Charac.nstrong] at ha hb ⊢
    interval_cases a <;> interval_cases b <;> norm_num [qrDraw, Finset.sum_range_succ]
  · intro k h1 h2
    simp only [Charac.colsTot, Charac.nstrong] at h1 h2
    omega
  · rintro ⟨_, h⟩
    have := h (fun j => if j = 0 then 4 / 3 else if j = 1 then -16 / 3 else 0) (by
      refine ⟨fun i hi => ?_, fun i hi => ?_, fun i hi => ?_⟩
      · have hi' : i < 1 := hi
        interval_cases i
        norm_num [genStep5, genStep2, shuffleRows, qrDraw, onesDraw2, Charac.nstrong, Charac.colsTot, sumTo, RLS.pb, Mx.val, Feas.nvar,
          setIdBottom, Finset.sum_range_succ]
      · exact absurd hi (by simp [RLS.pb])
      · exact absurd hi (by simp [RLS.pb, Charac.nBounds]))
    norm_num [genStep5, genStep2, shuffleRows, qrDraw, onesDraw2, Charac.nstrong, Charac.colsTot, sumTo, RLS.pb, LsCost.value,
          setIdBottom, Finset.sum_range_succ] at this

/-- **C44, `strictlyFeasible`.** When it is asked for, the generator stops on an assertion of Eigen (sizes of a product) unless there is exactly
one strongly active constraint. -/
theorem C44_strict_asserts {ch : Charac} (hs : ch.strict = true) (hn : ch.nstrong ≠ 1) (d1 : Draw1) (d2 : Draw2) :
    randomProblem ch d1 d2 = none := by
  unfold randomProblem
  cases genStep1 ch d1 with
  | none => rfl
  | some a =>
    simp only [Option.bind_some, genWeak, hs, if_true, if_neg hn, Option.map_none]

end JrlQp
