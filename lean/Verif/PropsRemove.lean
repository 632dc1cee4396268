import Verif.PropsAgree
import Verif.PropsChange

/-! C92, continued: a general constraint without multiplier can be deleted from the problem (exact arithmetic). -/

namespace JrlQp

open NumOps Finset Spec

/-- The `j`-th constraint of the problem without the constraint `j0`. -/
def skipAt (j0 j : Nat) : Nat := if j < j0 then j else j + 1

/-- Specification: `pb'` is `pb` without the general constraint `j0`. -/
structure Deleted (j0 : Nat) (pb pb' : Pb ℝ EReal) : Prop where
  le : j0 ≤ pb'.m
  n : pb'.n = pb.n
  m : pb.m = pb'.m + 1
  useBnd : pb'.useBnd = pb.useBnd
  G : pb'.G = pb.G
  a : pb'.a = pb.a
  C : ∀ i < pb.n, ∀ j < pb'.m, pb'.C i j = pb.C i (skipAt j0 j)
  bl : ∀ j < pb'.m, pb'.bl j = pb.bl (skipAt j0 j)
  bu : ∀ j < pb'.m, pb'.bu j = pb.bu (skipAt j0 j)
  xl : pb'.xl = pb.xl
  xu : pb'.xu = pb.xu

theorem sum_skipAt (f : Nat → ℝ) {j0 m : Nat} (h : j0 ≤ m) : ∑ i ∈ range (m + 1), f i = ∑ j ∈ range m, f (skipAt j0 j) + f j0 := by
  obtain ⟨r, rfl⟩ := Nat.exists_eq_add_of_le h
  have e1 : ∑ j ∈ range j0, f (skipAt j0 j) = ∑ j ∈ range j0, f j := sum_congr rfl fun j hj => by rw [skipAt, if_pos (mem_range.1 hj)]
  have e2 : ∑ k ∈ range r, f (skipAt j0 (j0 + k)) = ∑ k ∈ range r, f (j0 + (k + 1)) :=
    sum_congr rfl fun k _ => by rw [skipAt, if_neg (by omega), add_assoc]
  rw [add_assoc, sum_range_add, sum_range_add (fun j => f (skipAt j0 j)), e1, e2, sum_range_succ']
  simp only [Nat.add_zero]
  ring

theorem skipAt_lt {j0 j m : Nat} (h : j < m) : skipAt j0 j < m + 1 := by unfold skipAt; split_ifs <;> omega

theorem skipAt_bnd {j0 m : Nat} (h : j0 ≤ m) (i : Nat) : skipAt j0 (m + i) = m + 1 + i := by unfold skipAt; rw [if_neg (by omega)]; omega

theorem Deleted.kkt {j0 : Nat} {pb pb' : Pb ℝ EReal} (h : Deleted j0 pb pb') {x lam : Nat → ℝ} (k : KKT pb x lam) (h0 : lam j0 = 0) :
    KKT pb' x (fun j => lam (skipAt j0 j)) := by
  have hrow : ∀ {j}, j < pb'.m → row pb' x j = row pb x (skipAt j0 j) := fun {j} hj => by
    unfold row
    rw [h.n]
    exact sum_congr rfl fun i hi => by rw [h.C i (mem_range.1 hi) j hj]
  have hH : ∀ i j, hess pb' i j = hess pb i j := fun i j => by unfold hess; rw [h.G]
  have hlt : ∀ {j}, j < pb'.m → skipAt j0 j < pb.m := fun hj => by rw [h.m]; exact skipAt_lt hj
  have hb : ∀ i, skipAt j0 (pb'.m + i) = pb.m + i := fun i => by rw [h.m]; exact skipAt_bnd h.le i
  refine ⟨⟨fun j hj => ?_, fun hu i hi => ?_⟩, fun a ha => ?_, fun j hj hl => ?_, fun j hj hl => ?_, fun hu i hi hl => ?_, fun hu i hi hl => ?_⟩
  · rw [hrow hj, h.bl j hj, h.bu j hj]; exact k.feasible.gen _ (hlt hj)
  · rw [h.xl, h.xu]; exact k.feasible.bnd (h.useBnd ▸ hu) i (h.n ▸ hi)
  · have e := k.stationary a (h.n ▸ ha)
    rw [h.m, sum_skipAt (fun i => lam i * pb.C a i) h.le, h0, zero_mul, add_zero, ← h.m] at e
    rw [h.n, h.a, h.useBnd]
    simp only [hH, hb]
    have e2 : ∑ j ∈ range pb'.m, lam (skipAt j0 j) * pb'.C a j = ∑ j ∈ range pb'.m, lam (skipAt j0 j) * pb.C a (skipAt j0 j) :=
      sum_congr rfl fun j hj => by rw [h.C a (h.n ▸ ha) j (mem_range.1 hj)]
    rw [e2]
    exact e
  · rw [hrow hj, h.bl j hj]; exact k.lower _ (hlt hj) hl
  · rw [hrow hj, h.bu j hj]; exact k.upper _ (hlt hj) hl
  · rw [hb] at hl
    rw [h.xl]; exact k.lowerBnd (h.useBnd ▸ hu) i (h.n ▸ hi) hl
  · rw [hb] at hl
    rw [h.xu]; exact k.upperBnd (h.useBnd ▸ hu) i (h.n ▸ hi) hl

/-- **C92**, deleting a constraint: when `multipliers()` is zero for the general constraint `j0`, the problem without it has the same solution and the same
objective value. Any histories, any options with fine enough thresholds. -/
theorem C92_delete_constraint {j0 : Nat} {pb pb' : Pb ℝ EReal} (hr : StdPb pb) (hr' : StdPb pb') (h : Deleted j0 pb pb') :
    ∃ ε > 0, ∃ β : ℝ, ∀ o o', Fine ε β pb o → Fine ε β pb' o' → ∀ s t' s', Solves o pb .success s → Solves o' pb' t' s' →
      (multipliers s).u j0 = 0 → t' = .success ∧ (∀ i < pb.n, s'.x i = s.x i) ∧ s'.f = s.f := by
  obtain ⟨ε, hε, β, hh⟩ := two_answers hr hr'
  refine ⟨ε, hε, β, fun o o' ho ho' s t' s' h1 h2 h0 => ?_⟩
  obtain ⟨a1, a2⟩ := hh o o' ho ho' _ _ _ _ h1 h2
  have k := h.kkt (a1.kkt rfl) h0
  have ho := kkt_isOptimal hr' k
  have ht : t' = .success := a2.feasible_iff.2 ⟨_, k.feasible⟩
  have hx : ∀ i < pb.n, s'.x i = s.x i := fun i hi => ((a2.optimal ht).2 _ ho i (h.n ▸ hi)).symm
  refine ⟨ht, hx, ?_⟩
  have hobj : ∀ y, obj pb' y = obj pb y := fun y => by unfold obj hess; rw [h.n, h.G, h.a]
  rw [a2.value, a1.value, ← hobj]
  exact le_antisymm ((a2.optimal ht).1.2 _ ho.1) (ho.2 _ (a2.optimal ht).1.1)

/-- `boxFam 2` with one general constraint, `x₀ + x₁ ≤ 9`, that the solution of the box does not meet. -/
noncomputable def boxRow : Pb ℝ EReal :=
  { boxFam 2 (fun _ => 2) (fun _ => 1) (fun _ => ((1 : ℝ) : EReal)) (fun _ => ((3 : ℝ) : EReal)) with
    m := 1, C := fun _ _ => 1, bl := fun _ => ⊥, bu := fun _ => ((9 : ℝ) : EReal) }

/-- The hypotheses of `C92_delete_constraint` are met: the general constraint of `boxRow` has a zero multiplier at every solution. -/
theorem C92_delete_hypotheses_met :
    StdPb boxRow ∧ StdPb (boxFam 2 (fun _ => 2) (fun _ => 1) (fun _ => ((1 : ℝ) : EReal)) (fun _ => ((3 : ℝ) : EReal))) ∧
    Deleted 0 boxRow (boxFam 2 (fun _ => 2) (fun _ => 1) (fun _ => ((1 : ℝ) : EReal)) (fun _ => ((3 : ℝ) : EReal))) ∧
    (∃ y, Feasible boxRow y) ∧ ∀ x lam, KKT boxRow x lam → lam 0 = 0 := by
  have hlt : ((1 : ℝ) : EReal) ≠ ((3 : ℝ) : EReal) := by rw [Ne, EReal.coe_eq_coe_iff]; norm_num
  have hle : ((1 : ℝ) : EReal) ≤ ((3 : ℝ) : EReal) := by rw [EReal.coe_le_coe_iff]; norm_num
  have std : StdPb (boxFam 2 (fun _ => 2) (fun _ => 1) (fun _ => ((1 : ℝ) : EReal)) (fun _ => ((3 : ℝ) : EReal))) :=
    boxFam_std (e := 0) (fun _ _ => by norm_num) (fun _ _ => EReal.coe_ne_top _) (fun _ _ => EReal.coe_ne_bot _) (fun _ _ => hle) (Nat.zero_le _)
      (fun _ _ => ⟨fun h => absurd h hlt, fun h => absurd h (Nat.not_lt_zero _)⟩)
  have hn3 : boxRow.m + boxRow.nb = 3 := rfl
  have heq : ∀ i < 3, isEqB boxRow i = false := by
    intro i hi
    have hc : i = 0 ∨ i = 1 ∨ i = 2 := by omega
    rcases hc with rfl | rfl | rfl
    · have e1 : isEqB boxRow 0 = bEq ℝ (⊥ : EReal) ((9 : ℝ) : EReal) := rfl
      rw [e1]; exact decide_eq_false (EReal.coe_ne_bot 9).symm
    · exact decide_eq_false hlt
    · exact decide_eq_false hlt
  refine ⟨⟨⟨fun _ _ => by simp [boxRow], fun _ _ => EReal.coe_ne_bot _, std.proper.3, std.proper.4⟩, ⟨fun _ _ => bot_le, std.notCrossed.2⟩, std.posDef,
    ⟨0, Nat.zero_le _, ?_⟩, ?_⟩, std, ⟨le_rfl, rfl, rfl, rfl, rfl, rfl, ?_, ?_, ?_, rfl, rfl⟩, ⟨fun _ => 2, ?_, ?_⟩, ?_⟩
  · intro i hi
    rw [heq i (by rw [hn3] at hi; exact hi)]; simp
  · intro d hd _ i
    refine hd i fun hh => ?_
    have h10 : isEqB boxRow i = true := (isEqC_iff (pb := boxRow) (i := i)).2 hh.2
    rw [heq i (by rw [hn3] at hh; exact hh.1)] at h10
    cases h10
  · intro i _ j hj; exact absurd hj (Nat.not_lt_zero _)
  · intro j hj; exact absurd hj (Nat.not_lt_zero _)
  · intro j hj; exact absurd hj (Nat.not_lt_zero _)
  · intro i _
    refine ⟨bot_le, EReal.coe_le_coe_iff.2 ?_⟩
    simp [row, boxRow, boxFam, sum_range_succ]; norm_num
  · intro _ i _
    exact ⟨EReal.coe_le_coe_iff.2 (by norm_num), EReal.coe_le_coe_iff.2 (by norm_num)⟩
  · intro x lam k
    have hrow : row boxRow x 0 = x 0 + x 1 := by simp [row, boxRow, boxFam, sum_range_succ]
    have b0 : x 0 ≤ 3 := EReal.coe_le_coe_iff.1 (k.feasible.bnd rfl 0 (by show 0 < 2; norm_num)).2
    have b1 : x 1 ≤ 3 := EReal.coe_le_coe_iff.1 (k.feasible.bnd rfl 1 (by show 1 < 2; norm_num)).2
    rcases lt_trichotomy (lam 0) 0 with h | h | h
    · exact absurd (k.lower 0 (by show 0 < 1; norm_num) h) (EReal.coe_ne_bot _)
    · exact h
    · have e : ((row boxRow x 0 : ℝ) : EReal) = ((9 : ℝ) : EReal) := k.upper 0 (by show 0 < 1; norm_num) h
      rw [EReal.coe_eq_coe_iff, hrow] at e
      linarith

end JrlQp
