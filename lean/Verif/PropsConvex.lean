import Verif.PropsMeta
import Mathlib.Data.EReal.Inv

/-! C90: how the optimal value depends on the bounds and on the objective vector (exact arithmetic): convex in the bounds, concave in the vector.
The statements are about three independent solves, with any histories and options with fine enough thresholds. -/

namespace JrlQp

open NumOps Finset Spec

/-! ## Specification -/

/-- Specification: the point at `t` between `l` and `l'`; for `0 < t < 1`, infinite as soon as one of the two is. -/
noncomputable def between (t : ℝ) (l l' : EReal) : EReal := (t : EReal) * l + ((1 - t : ℝ) : EReal) * l'

/-- Specification: `pm` is `pb` with each right-hand side and bound replaced by the point at `t` between those of `pb` and of `pb'`. -/
structure BetweenBounds (t : ℝ) (pb pb' pm : Pb ℝ EReal) : Prop where
  left : SameButBounds pb pm
  right : SameButBounds pb pb'
  bl : ∀ i < pb.m, pm.bl i = between t (pb.bl i) (pb'.bl i)
  bu : ∀ i < pb.m, pm.bu i = between t (pb.bu i) (pb'.bu i)
  xl : pb.useBnd = true → ∀ i < pb.n, pm.xl i = between t (pb.xl i) (pb'.xl i)
  xu : pb.useBnd = true → ∀ i < pb.n, pm.xu i = between t (pb.xu i) (pb'.xu i)

/-- Specification: `pm` is `pb` with the objective vector at `t` between those of `pb` and of `pb'`. -/
structure BetweenVectors (t : ℝ) (pb pb' pm : Pb ℝ EReal) : Prop where
  left : SameButVector pb pm
  right : SameButVector pb pb'
  a : ∀ i < pb.n, pm.a i = t * pb.a i + (1 - t) * pb'.a i

/-! ## Proof -/

theorem coe_between (t v v' : ℝ) : between t (v : EReal) (v' : EReal) = ((t * v + (1 - t) * v' : ℝ) : EReal) := by
  unfold between
  rw [← EReal.coe_mul, ← EReal.coe_mul, ← EReal.coe_add]

theorem between_mono {t : ℝ} (h0 : 0 ≤ t) (h1 : t ≤ 1) {l l' k k' : EReal} (h : l ≤ k) (h' : l' ≤ k') : between t l l' ≤ between t k k' := by
  unfold between
  exact add_le_add (mul_le_mul_of_nonneg_left h (by exact_mod_cast h0)) (mul_le_mul_of_nonneg_left h' (by exact_mod_cast sub_nonneg.2 h1))

theorem row_between (pb : Pb ℝ EReal) (t : ℝ) (x y : Nat → ℝ) (i : Nat) :
    row pb (fun j => t * x j + (1 - t) * y j) i = t * row pb x i + (1 - t) * row pb y i := by
  unfold row
  rw [mul_sum, mul_sum, ← sum_add_distrib]
  exact sum_congr rfl fun j _ => by ring

theorem feasible_between {t : ℝ} (h0 : 0 ≤ t) (h1 : t ≤ 1) {pb pb' pm : Pb ℝ EReal} (h : BetweenBounds t pb pb' pm) {x y : Nat → ℝ}
    (hx : Feasible pb x) (hy : Feasible pb' y) : Feasible pm (fun j => t * x j + (1 - t) * y j) := by
  refine ⟨fun i hi => ?_, fun hb i hi => ?_⟩
  · rw [h.left.m] at hi
    have e1 : row pm (fun j => t * x j + (1 - t) * y j) i = t * row pb x i + (1 - t) * row pb' y i := by
      rw [row_between]; unfold row; rw [h.left.n, h.left.C, h.right.n, h.right.C]
    have g := hx.gen i hi
    have g' := hy.gen i (by rw [h.right.m]; exact hi)
    rw [e1, ← coe_between, h.bl i hi, h.bu i hi]
    exact ⟨between_mono h0 h1 g.1 g'.1, between_mono h0 h1 g.2 g'.2⟩
  · rw [h.left.useBnd] at hb
    rw [h.left.n] at hi
    have g := hx.bnd hb i hi
    have g' := hy.bnd (by rw [h.right.useBnd]; exact hb) i (by rw [h.right.n]; exact hi)
    rw [← coe_between, h.xl hb i hi, h.xu hb i hi]
    exact ⟨between_mono h0 h1 g.1 g'.1, between_mono h0 h1 g.2 g'.2⟩

theorem obj_between (pb : Pb ℝ EReal) (t : ℝ) (x y : Nat → ℝ) :
    obj pb (fun j => t * x j + (1 - t) * y j)
      = t * obj pb x + (1 - t) * obj pb y - t * (1 - t) / 2 * quadForm pb (fun i => y i - x i) := by
  have e0 : ∀ s : ℝ, quadForm pb (fun i => s * (y i - x i)) = s ^ 2 * quadForm pb (fun i => y i - x i) := by
    intro s
    unfold quadForm
    rw [mul_sum]
    refine sum_congr rfl fun i _ => ?_
    rw [mul_sum]
    exact sum_congr rfl fun j _ => by ring
  have h1 := obj_taylor pb x y
  have h2 := obj_taylor pb x (fun j => t * x j + (1 - t) * y j)
  have e1 : (fun i => t * x i + (1 - t) * y i - x i) = fun i => (1 - t) * (y i - x i) := by funext i; ring
  have e2 : ∑ a ∈ range pb.n, (∑ b ∈ range pb.n, hess pb a b * x b + pb.a a) * (t * x a + (1 - t) * y a - x a)
      = (1 - t) * ∑ a ∈ range pb.n, (∑ b ∈ range pb.n, hess pb a b * x b + pb.a a) * (y a - x a) := by
    rw [mul_sum]; exact sum_congr rfl fun a _ => by ring
  rw [e1, e0, e2] at h2
  rw [h2]
  generalize ∑ a ∈ range pb.n, (∑ b ∈ range pb.n, hess pb a b * x b + pb.a a) * (y a - x a) = g at *
  rw [h1]
  ring

theorem three_answers {pb pb' pm : Pb ℝ EReal} (h : StdPb pb) (h' : StdPb pb') (hm : StdPb pm) :
    ∃ ε > 0, ∃ β : ℝ, ∀ o o' om, Fine ε β pb o → Fine ε β pb' o' → Fine ε β pm om → ∀ t s t' s' tm sm, Solves o pb t s → Solves o' pb' t' s' →
      Solves om pm tm sm → Answer pb t s ∧ Answer pb' t' s' ∧ Answer pm tm sm := by
  obtain ⟨ε, hε, β, hh⟩ := two_answers h h'
  obtain ⟨ε', hε', β', hh'⟩ := hm.answers
  refine ⟨min ε ε', lt_min hε hε', max β β', fun o o' om ho ho' hom t s t' s' tm sm g1 g2 g3 => ?_⟩
  have key : ∀ {pb o}, Fine (min ε ε') (max β β') pb o → Fine ε β pb o := fun ho =>
    ⟨ho.1, ho.2.1.trans_le (min_le_left _ _), (le_max_left _ _).trans_lt ho.2.2.1, ho.2.2.2⟩
  obtain ⟨a, b⟩ := hh o o' (key ho) (key ho') _ _ _ _ g1 g2
  exact ⟨a, b, hh' om ⟨hom.1, hom.2.1.trans_le (min_le_right _ _), (le_max_right _ _).trans_lt hom.2.2.1, hom.2.2.2⟩ _ _ g3⟩

/-- **C90, bounds.** The set of right-hand sides and bounds for which the solver succeeds is convex, and the objective value returned is a convex
function of them: when the solves of `pb` and of `pb'`, equal except for right-hand sides and bounds, return `SUCCESS` with solutions `x`, `x'`, the
solve of a problem `pm` whose right-hand sides and bounds are at `t` between the two returns `SUCCESS`, with
`f_m ≤ t f + (1-t) f' - ½ t(1-t) (x'-x)ᵀH(x'-x)`. -/
theorem C90_bounds {t : ℝ} (h0 : 0 ≤ t) (h1 : t ≤ 1) {pb pb' pm : Pb ℝ EReal} (hr : StdPb pb) (hr' : StdPb pb') (hm : StdPb pm)
    (h : BetweenBounds t pb pb' pm) :
    ∃ ε > 0, ∃ β : ℝ, ∀ o o' om, Fine ε β pb o → Fine ε β pb' o' → Fine ε β pm om → ∀ s s' tm sm, Solves o pb .success s → Solves o' pb' .success s' →
      Solves om pm tm sm → tm = .success ∧ sm.f ≤ t * s.f + (1 - t) * s'.f ∧
        sm.f ≤ t * s.f + (1 - t) * s'.f - t * (1 - t) / 2 *
          ∑ i ∈ range pb.n, ∑ j ∈ range pb.n, (s'.x i - s.x i) * hess pb i j * (s'.x j - s.x j) := by
  obtain ⟨ε, hε, β, hh⟩ := three_answers hr hr' hm
  refine ⟨ε, hε, β, fun o o' om ho ho' hom s s' tm sm g1 g2 g3 => ?_⟩
  obtain ⟨a1, a2, a3⟩ := hh o o' om ho ho' hom _ _ _ _ _ _ g1 g2 g3
  have hf := feasible_between h0 h1 h (a1.optimal rfl).1.1 (a2.optimal rfl).1.1
  have ht : tm = .success := a3.feasible_iff.2 ⟨_, hf⟩
  have hle := (a3.optimal ht).1.2 _ hf
  rw [obj_same h.left, obj_same h.left, obj_between] at hle
  have hf' : s'.f = obj pb s'.x := by rw [a2.value, obj_same h.right]
  rw [← a1.value, ← hf'] at hle
  have hsm : sm.f = obj pb sm.x := by rw [a3.value, obj_same h.left]
  rw [← hsm] at hle
  have hq := quadForm_nonneg hr (fun i => s'.x i - s.x i)
  refine ⟨ht, ?_, hle⟩
  have : 0 ≤ t * (1 - t) / 2 * quadForm pb (fun i => s'.x i - s.x i) := mul_nonneg (by have := mul_nonneg h0 (sub_nonneg.2 h1); linarith) hq
  linarith

/-- **C90, objective vector.** The objective value returned is a concave function of the objective vector: when the solves of `pb` and of `pb'`, with
the same Hessian and the same feasible set, return `SUCCESS`, the solve of a problem `pm` whose vector is at `t` between the two returns `SUCCESS`, with
`f_m ≥ t f + (1-t) f' + ½ (t (x-x_m)ᵀH(x-x_m) + (1-t) (x'-x_m)ᵀH(x'-x_m))`. -/
theorem C90_vector {t : ℝ} (h0 : 0 ≤ t) (h1 : t ≤ 1) {pb pb' pm : Pb ℝ EReal} (hr : StdPb pb) (hr' : StdPb pb') (hm : StdPb pm)
    (h : BetweenVectors t pb pb' pm) :
    ∃ ε > 0, ∃ β : ℝ, ∀ o o' om, Fine ε β pb o → Fine ε β pb' o' → Fine ε β pm om → ∀ s s' tm sm, Solves o pb .success s → Solves o' pb' .success s' →
      Solves om pm tm sm → tm = .success ∧ t * s.f + (1 - t) * s'.f ≤ sm.f ∧
        t * s.f + (1 - t) * s'.f + 1 / 2 * (t * ∑ i ∈ range pb.n, ∑ j ∈ range pb.n, (s.x i - sm.x i) * hess pb i j * (s.x j - sm.x j)
          + (1 - t) * ∑ i ∈ range pb.n, ∑ j ∈ range pb.n, (s'.x i - sm.x i) * hess pb i j * (s'.x j - sm.x j)) ≤ sm.f := by
  obtain ⟨ε, hε, β, hh⟩ := three_answers hr hr' hm
  refine ⟨ε, hε, β, fun o o' om ho ho' hom s s' tm sm g1 g2 g3 => ?_⟩
  obtain ⟨a1, a2, a3⟩ := hh o o' om ho ho' hom _ _ _ _ _ _ g1 g2 g3
  have hx := (a1.optimal rfl).1
  have hx' := (a2.optimal rfl).1
  have ht : tm = .success := a3.feasible_iff.2 ⟨_, (h.left.feasible _).2 hx.1⟩
  have hy := (a3.optimal ht).1.1
  have hy1 : Feasible pb sm.x := (h.left.feasible _).1 hy
  have hy2 : Feasible pb' sm.x := (h.right.feasible _).2 hy1
  have hH' : ∀ a b, hess pb' a b = hess pb a b := by intro a b; unfold hess; rw [h.right.G]
  have hHm : ∀ a b, hess pm a b = hess pb a b := by intro a b; unfold hess; rw [h.left.G]
  have k1 := grad_step hr hx hy1
  have k2 := grad_step hr' hx' hy2
  have t1 := obj_taylor pb s.x sm.x
  have t2 := obj_taylor pb' s'.x sm.x
  have q1 : quadForm pb (fun i => sm.x i - s.x i) = quadForm pb (fun i => s.x i - sm.x i) := by
    unfold quadForm; exact sum_congr rfl fun i _ => sum_congr rfl fun j _ => by ring
  have q2 : quadForm pb' (fun i => sm.x i - s'.x i) = quadForm pb (fun i => s'.x i - sm.x i) := by
    unfold quadForm; rw [h.right.n]; exact sum_congr rfl fun i _ => sum_congr rfl fun j _ => by rw [hH']; ring
  rw [q1] at t1
  rw [q2] at t2
  have em : obj pm sm.x = t * obj pb sm.x + (1 - t) * obj pb' sm.x := by
    unfold obj
    rw [h.left.n, h.right.n]
    simp only [hH', hHm]
    have e : ∑ i ∈ range pb.n, pm.a i * sm.x i = t * ∑ i ∈ range pb.n, pb.a i * sm.x i + (1 - t) * ∑ i ∈ range pb.n, pb'.a i * sm.x i := by
      rw [mul_sum, mul_sum, ← sum_add_distrib]
      exact sum_congr rfl fun i hi => by rw [h.a i (mem_range.1 hi)]; ring
    rw [e]; ring
  rw [← a1.value] at t1
  rw [← a2.value] at t2
  rw [← a3.value] at em
  have hq1 := quadForm_nonneg hr (fun i => s.x i - sm.x i)
  have hq2 := quadForm_nonneg hr (fun i => s'.x i - sm.x i)
  have b1 : s.f + 1 / 2 * quadForm pb (fun i => s.x i - sm.x i) ≤ obj pb sm.x := by linarith
  have b2 : s'.f + 1 / 2 * quadForm pb (fun i => s'.x i - sm.x i) ≤ obj pb' sm.x := by linarith
  have c1 := mul_le_mul_of_nonneg_left b1 h0
  have c2 := mul_le_mul_of_nonneg_left b2 (sub_nonneg.2 h1)
  have d1 := mul_nonneg h0 hq1
  have d2 := mul_nonneg (sub_nonneg.2 h1) hq2
  have main : t * s.f + (1 - t) * s'.f + 1 / 2 * (t * quadForm pb (fun i => s.x i - sm.x i) + (1 - t) * quadForm pb (fun i => s'.x i - sm.x i)) ≤ sm.f := by
    rw [em]; nlinarith
  exact ⟨ht, by linarith, main⟩

/-- The hypotheses of C90 are met at any `t` in `[0, 1]`, and the three problems are solved: the cut `x₀ ≥ c` moves with `t`, the vector too. -/
theorem C90_hypotheses_met {t : ℝ} (h0 : 0 ≤ t) (h1 : t ≤ 1) (c c' v v' : ℝ) :
    BetweenBounds t (famPb 1 c v) (famPb 1 c' v) (famPb 1 (t * c + (1 - t) * c') v) ∧
    BetweenVectors t (famPb 1 c v) (famPb 1 c v') (famPb 1 c (t * v + (1 - t) * v')) ∧
    ∀ c v, StdPb (famPb 1 c v) ∧ ∃ ε > 0, ∃ β : ℝ, ∀ o, Fine ε β (famPb 1 c v) o → ∃ s, Solves o (famPb 1 c v) .success s := by
  have hk : (1 : ℝ) ≠ 0 := one_ne_zero
  refine ⟨⟨⟨rfl, rfl, rfl, rfl, rfl, rfl⟩, ⟨rfl, rfl, rfl, rfl, rfl, rfl⟩, ?_, ?_, by simp [famPb], by simp [famPb]⟩,
    ⟨⟨rfl, rfl, ?_⟩, ⟨rfl, rfl, ?_⟩, ?_⟩, fun c v => ⟨famPb_std hk c v, StdPb.solved (famPb_std hk c v) (C59_hypotheses_met.2.1 1 c v hk)⟩⟩
  · intro i _
    simp only [famPb]
    split_ifs
    · rw [coe_between]; congr 1; ring
    · rw [coe_between]
  · intro i _
    simp only [famPb]
    split_ifs
    · rw [coe_between]; congr 1; ring
    · unfold between
      rcases h0.lt_or_eq with ht | ht
      · rw [EReal.coe_mul_top_of_pos ht]
        rcases (sub_nonneg.2 h1).lt_or_eq with hs | hs
        · rw [EReal.coe_mul_top_of_pos hs]; rfl
        · rw [← hs]; simp
      · rw [← ht]; simp
  · intro x; rw [famPb_feasible hk, famPb_feasible hk]
  · intro x; rw [famPb_feasible hk, famPb_feasible hk]
  · intro i _
    simp only [famPb]
    split_ifs <;> simp

end JrlQp
