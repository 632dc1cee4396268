import Verif.PropsAgree
import Verif.BoxTerm

/-!
# C101: the answers of the box solver behave as projections
-/

namespace JrlQp

open NumOps Finset Spec

/-! ### Specification -/

/-- Options with small thresholds (given by `ε` and `β`) and enough iterations for the box solver with `n` variables. -/
def BoxFine (ε β : ℝ) (n : Nat) (o : Opts ℝ) : Prop := 0 ≤ o.tiny ∧ o.tiny < ε ∧ β < o.bigBnd ∧ 2 * n + 1 ≤ o.maxIter

/-! ### Proofs -/

section
variable {n : Nat} {c : Nat → ℝ} {bl : EReal} {xl xu : Nat → EReal}

theorem boxFeasible_segment {x y : Nat → ℝ} (hx : BoxFeasible n c bl xl xu x) (hy : BoxFeasible n c bl xl xu y) {t : ℝ} (h0 : 0 ≤ t)
    (h1 : t ≤ 1) : BoxFeasible n c bl xl xu (fun i => x i + t * (y i - x i)) := by
  have key : ∀ a b : ℝ, (∀ v : EReal, v ≤ (a : EReal) → v ≤ (b : EReal) → v ≤ ((a + t * (b - a) : ℝ) : EReal)) ∧
      ∀ v : EReal, (a : EReal) ≤ v → (b : EReal) ≤ v → ((a + t * (b - a) : ℝ) : EReal) ≤ v := by
    intro a b
    rcases le_total a b with h | h
    · refine ⟨fun v ha _ => ha.trans (EReal.coe_le_coe_iff.2 ?_), fun v _ hb => (EReal.coe_le_coe_iff.2 ?_).trans hb⟩ <;> nlinarith
    · refine ⟨fun v _ hb => hb.trans (EReal.coe_le_coe_iff.2 ?_), fun v ha _ => (EReal.coe_le_coe_iff.2 ?_).trans ha⟩ <;> nlinarith
  refine ⟨?_, fun i hi => ⟨(key _ _).1 _ (hx.2 i hi).1 (hy.2 i hi).1, (key _ _).2 _ (hx.2 i hi).2 (hy.2 i hi).2⟩⟩
  have e : ∑ i ∈ range n, c i * (x i + t * (y i - x i)) =
      ∑ i ∈ range n, c i * x i + t * (∑ i ∈ range n, c i * y i - ∑ i ∈ range n, c i * x i) := by
    rw [← sum_sub_distrib, mul_sum, ← sum_add_distrib]
    exact sum_congr rfl fun i _ => by ring
  rw [e]
  exact (key _ _).1 _ hx.1 hy.1

theorem nonneg_of_quad {a d : ℝ} (hd : 0 ≤ d) (h : ∀ t : ℝ, 0 ≤ t → t ≤ 1 → 0 ≤ 2 * t * a + t ^ 2 * d) : 0 ≤ a := by
  by_contra ha
  have ha : a < 0 := not_le.1 ha
  have h1 : 0 < -a / (d + 1) := div_pos (by linarith) (by linarith)
  have ht : 0 < min 1 (-a / (d + 1)) := lt_min one_pos h1
  have := h _ ht.le (min_le_left _ _)
  have h2 : min 1 (-a / (d + 1)) * (d + 1) ≤ -a := (le_div_iff₀ (by linarith)).1 (min_le_right 1 (-a / (d + 1)))
  set t := min 1 (-a / (d + 1))
  nlinarith

/-- The obtuse angle at a projection. -/
theorem projection_angle {x0 x y : Nat → ℝ} (hx : IsProjection n (BoxFeasible n c bl xl xu) x0 x) (hy : BoxFeasible n c bl xl xu y) :
    0 ≤ ∑ i ∈ range n, (x i - x0 i) * (y i - x i) := by
  refine nonneg_of_quad (d := dist2 n y x) (sum_nonneg fun i _ => sq_nonneg _) fun t h0 h1 => ?_
  have := (hx.2 _ (boxFeasible_segment hx.1 hy h0 h1)).1
  have e : dist2 n (fun i => x i + t * (y i - x i)) x0 =
      dist2 n x x0 + (2 * t * ∑ i ∈ range n, (x i - x0 i) * (y i - x i) + t ^ 2 * dist2 n y x) := by
    unfold dist2
    rw [mul_sum, mul_sum, ← sum_add_distrib, ← sum_add_distrib]
    exact sum_congr rfl fun i _ => by ring
  rw [e] at this
  linarith

theorem boxSolves_answer (hd : BoxData n bl xl xu) (x0 : Nat → ℝ) :
    ∃ ε > 0, ∃ β : ℝ, ∀ o, BoxFine ε β n o → ∀ t s, BoxSolves o n x0 c bl xl xu t s →
      (t = .success ∧ IsProjection n (BoxFeasible n c bl xl xu) x0 s.x ∧ s.f = 1 / 2 * dist2 n s.x x0) ∨
      (t = .infeasible ∧ ¬ ∃ y, BoxFeasible n c bl xl xu y) := by
  obtain ⟨ε, hε, β, hh⟩ := C52_linear x0 c hd
  refine ⟨ε, hε, β, fun o ho t s hs => ?_⟩
  obtain ⟨cs, s0, c1, c2, c3⟩ := hs
  obtain ⟨ys, u, ys', d1, d2, _, _, d4⟩ := hh o ho.1 ho.2.1 ho.2.2.1 cs c1
  rw [c2] at d1
  simp only [Except.ok.injEq] at d1
  subst d1
  rw [c3] at d2
  simp only [Except.ok.injEq, Prod.mk.injEq] at d2
  obtain ⟨rfl, rfl⟩ := d2
  exact d4 ho.2.2.2

/-- **C101, other feasible points.** With small thresholds and at least `2n + 1` iterations allowed, after any history, `SUCCESS` is returned as
soon as there is a feasible point `y`, the lines from the solution to `x0` and to `y` make an obtuse angle, and the squared distance of `y` to
`x0` is at least its squared distance to the solution plus `2 objectiveValue()`. -/
theorem C101_obtuse (hd : BoxData n bl xl xu) (x0 : Nat → ℝ) :
    ∃ ε > 0, ∃ β : ℝ, ∀ o, BoxFine ε β n o → ∀ t s, BoxSolves o n x0 c bl xl xu t s → ∀ y, BoxFeasible n c bl xl xu y →
      t = .success ∧ 0 ≤ ∑ i ∈ range n, (s.x i - x0 i) * (y i - s.x i) ∧ dist2 n y s.x + 2 * s.f ≤ dist2 n y x0 := by
  obtain ⟨ε, hε, β, hh⟩ := boxSolves_answer (c := c) hd x0
  refine ⟨ε, hε, β, fun o ho t s hs y hy => ?_⟩
  rcases hh o ho t s hs with ⟨h1, h2, h3⟩ | ⟨_, h1⟩
  · have ha := projection_angle h2 hy
    refine ⟨h1, ha, ?_⟩
    have e : dist2 n y x0 = dist2 n y s.x + dist2 n s.x x0 + 2 * ∑ i ∈ range n, (s.x i - x0 i) * (y i - s.x i) := by
      unfold dist2
      rw [mul_sum, ← sum_add_distrib, ← sum_add_distrib]
      exact sum_congr rfl fun i _ => by ring
    rw [e, h3]; linarith
  · exact absurd ⟨y, hy⟩ h1

/-- **C101, points that need no projection.** `SUCCESS` with the value 0 is returned exactly when the point given satisfies the constraints, and
the solution is then that point. -/
theorem C101_fixed_points (hd : BoxData n bl xl xu) (x0 : Nat → ℝ) :
    ∃ ε > 0, ∃ β : ℝ, ∀ o, BoxFine ε β n o → ∀ t s, BoxSolves o n x0 c bl xl xu t s →
      (BoxFeasible n c bl xl xu x0 ↔ t = .success ∧ s.f = 0) ∧ (BoxFeasible n c bl xl xu x0 → ∀ i < n, s.x i = x0 i) := by
  obtain ⟨ε, hε, β, hh⟩ := boxSolves_answer (c := c) hd x0
  refine ⟨ε, hε, β, fun o ho t s hs => ?_⟩
  have h00 : dist2 n x0 x0 = 0 := sum_eq_zero fun i _ => by ring
  rcases hh o ho t s hs with ⟨h1, h2, h3⟩ | ⟨h1, h2⟩
  · have hx : dist2 n s.x x0 = 0 → ∀ i < n, s.x i = x0 i := fun h i hi => by
      have := (sum_eq_zero_iff_of_nonneg fun i _ => sq_nonneg (s.x i - x0 i)).1 h i (mem_range.2 hi)
      exact sub_eq_zero.1 ((pow_eq_zero_iff two_ne_zero).1 this)
    have h0 : BoxFeasible n c bl xl xu x0 → dist2 n s.x x0 = 0 := fun hf => by
      have := (h2.2 x0 hf).1
      rw [h00] at this
      exact le_antisymm this (sum_nonneg fun i _ => sq_nonneg _)
    refine ⟨⟨fun hf => ⟨h1, by rw [h3, h0 hf, mul_zero]⟩, fun hf => ?_⟩, fun hf => hx (h0 hf)⟩
    have e := hx (by have := hf.2; rw [h3] at this; linarith)
    exact (projection_congr (x0 := x0) (fun i hi => e i hi) h2).1
  · refine ⟨⟨fun hf => absurd ⟨_, hf⟩ h2, fun hf => ?_⟩, fun hf => absurd ⟨_, hf⟩ h2⟩
    rw [h1] at hf; exact absurd hf.1 (by decide)

/-- **C101, contraction.** For two points given to the box solver with the same constraints: both calls return the same status, and on `SUCCESS`
the squared distance of the solutions is at most the scalar product of their difference with that of the points (firm nonexpansiveness); it is
at most the squared distance of the points. -/
theorem C101_contraction (hd : BoxData n bl xl xu) (x0 x0' : Nat → ℝ) :
    ∃ ε > 0, ∃ β : ℝ, ∀ o o', BoxFine ε β n o → BoxFine ε β n o' → ∀ t s t' s',
      BoxSolves o n x0 c bl xl xu t s → BoxSolves o' n x0' c bl xl xu t' s' →
      t = t' ∧ (t = .success → dist2 n s.x s'.x ≤ ∑ i ∈ range n, (s.x i - s'.x i) * (x0 i - x0' i) ∧
        dist2 n s.x s'.x ≤ dist2 n x0 x0') := by
  obtain ⟨ε1, hε1, β1, h1⟩ := boxSolves_answer (c := c) hd x0
  obtain ⟨ε2, hε2, β2, h2⟩ := boxSolves_answer (c := c) hd x0'
  refine ⟨min ε1 ε2, lt_min hε1 hε2, max β1 β2, fun o o' ho ho' t s t' s' hs hs' => ?_⟩
  have a := h1 o ⟨ho.1, ho.2.1.trans_le (min_le_left _ _), (le_max_left _ _).trans_lt ho.2.2.1, ho.2.2.2⟩ t s hs
  have b := h2 o' ⟨ho'.1, ho'.2.1.trans_le (min_le_right _ _), (le_max_right _ _).trans_lt ho'.2.2.1, ho'.2.2.2⟩ t' s' hs'
  rcases a with ⟨a1, a2, _⟩ | ⟨a1, a2⟩
  · rcases b with ⟨b1, b2, _⟩ | ⟨_, b2⟩
    · refine ⟨a1.trans b1.symm, fun _ => ?_⟩
      have k1 := projection_angle a2 b2.1
      have k2 := projection_angle b2 a2.1
      have e : ∑ i ∈ range n, (s.x i - s'.x i) * (x0 i - x0' i) = dist2 n s.x s'.x +
          (∑ i ∈ range n, (s.x i - x0 i) * (s'.x i - s.x i) + ∑ i ∈ range n, (s'.x i - x0' i) * (s.x i - s'.x i)) := by
        unfold dist2
        rw [← sum_add_distrib, ← sum_add_distrib]
        exact sum_congr rfl fun i _ => by ring
      have hp : dist2 n s.x s'.x ≤ ∑ i ∈ range n, (s.x i - s'.x i) * (x0 i - x0' i) := by rw [e]; linarith
      have e2 : dist2 n s.x s'.x - 2 * ∑ i ∈ range n, (s.x i - s'.x i) * (x0 i - x0' i) + dist2 n x0 x0' =
          ∑ i ∈ range n, ((s.x i - s'.x i) - (x0 i - x0' i)) ^ 2 := by
        unfold dist2
        rw [mul_sum, ← sum_sub_distrib, ← sum_add_distrib]
        exact sum_congr rfl fun i _ => by ring
      have h0 := sum_nonneg fun i (_ : i ∈ range n) => sq_nonneg ((s.x i - s'.x i) - (x0 i - x0' i))
      rw [← e2] at h0
      exact ⟨hp, by linarith⟩
    · exact absurd ⟨_, a2.1⟩ b2
  · rcases b with ⟨_, b2, _⟩ | ⟨b1, _⟩
    · exact absurd ⟨_, b2.1⟩ a2
    · exact ⟨a1.trans b1.symm, fun h => absurd (a1.symm.trans h) (by decide)⟩

end

/-! ### Example -/

/-- The hypotheses of the C101 theorems are met: a box with a half-space, a feasible point and an infeasible one, and fine options, with which both
are solved with status `SUCCESS`. -/
theorem C101_hypotheses_met : ∃ (n : Nat) (c : Nat → ℝ) (bl : EReal) (xl xu : Nat → EReal) (x0 x0' : Nat → ℝ), BoxData n bl xl xu ∧
    BoxFeasible n c bl xl xu x0 ∧ ¬ BoxFeasible n c bl xl xu x0' ∧
    ∀ ε > 0, ∀ β, ∃ o s s', BoxFine ε β n o ∧ BoxSolves o n x0 c bl xl xu .success s ∧ BoxSolves o n x0' c bl xl xu .success s' := by
  have hd : BoxData 2 ((1 / 2 : ℝ) : EReal) (fun _ => ((0 : ℝ) : EReal)) (fun _ => ((1 : ℝ) : EReal)) :=
    ⟨EReal.coe_ne_top _, fun _ _ => EReal.coe_ne_top _, fun _ _ => EReal.coe_ne_bot _, fun _ _ => EReal.coe_le_coe_iff.2 zero_le_one⟩
  have hf : BoxFeasible 2 (fun _ => 1) ((1 / 2 : ℝ) : EReal) (fun _ => ((0 : ℝ) : EReal)) (fun _ => ((1 : ℝ) : EReal)) fun _ => 1 := by
    refine ⟨EReal.coe_le_coe_iff.2 ?_, fun i _ => ⟨EReal.coe_le_coe_iff.2 zero_le_one, le_rfl⟩⟩
    simp [sum_range_succ]; norm_num
  refine ⟨2, fun _ => 1, _, _, _, fun _ => 1, fun i => if i = 0 then 2 else -1, hd, hf, fun h => ?_, ?_⟩
  · have := EReal.coe_le_coe_iff.1 (h.2 0 (by norm_num)).2
    norm_num at this
  · intro ε hε β
    obtain ⟨ε1, hε1, β1, h1⟩ := C52_linear (fun _ => 1) (fun _ => 1) hd
    obtain ⟨ε2, hε2, β2, h2⟩ := C52_linear (fun i => if i = 0 then 2 else -1) (fun _ => 1) hd
    obtain ⟨o, ho⟩ : ∃ o : Opts ℝ, o = ⟨5, max β (max β1 β2) + 1, false, 0, false⟩ := ⟨_, rfl⟩
    have e1 : o.tiny = 0 := by rw [ho]
    have e2 : o.bigBnd = max β (max β1 β2) + 1 := by rw [ho]
    have e3 : o.maxIter = 5 := by rw [ho]
    have b0 := le_max_left β (max β1 β2)
    have b1 := (le_max_left β1 β2).trans (le_max_right β (max β1 β2))
    have b2 := (le_max_right β1 β2).trans (le_max_right β (max β1 β2))
    obtain ⟨s, t, s', g1, g2, _, _, g3⟩ := h1 o e1.ge (by rw [e1]; exact hε1) (by rw [e2]; linarith) [] (by simp)
    obtain ⟨u, t', u', k1, k2, _, _, k3⟩ := h2 o e1.ge (by rw [e1]; exact hε2) (by rw [e2]; linarith) [] (by simp)
    have ht : t = .success := (g3 (by rw [e3])).elim (fun h => h.1) fun h => absurd ⟨_, hf⟩ h.2
    have ht' : t' = .success := (k3 (by rw [e3])).elim (fun h => h.1) fun h => absurd ⟨_, hf⟩ h.2
    subst ht ht'
    exact ⟨o, s', u', ⟨e1.ge, by rw [e1]; exact hε, by rw [e2]; linarith, by rw [e3]⟩, ⟨[], s, by simp, g1, g2⟩, ⟨[], u, by simp, k1, k2⟩⟩

end JrlQp
