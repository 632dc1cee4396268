import Verif.ExactThreshold
import Verif.PropsPipeline
import Mathlib.Data.Real.StarOrdered

/-!
# Relations between the results of two solves (C59-C62)

What a user compares: prices of the constraints, sensitivity to the objective vector, equivalent formulations of the same
problem, added and removed constraints. Exact arithmetic; every statement is about two runs of `solve`, each after its own
history and with its own options.
-/

namespace JrlQp

open NumOps Finset Spec

/-! ## Specification -/

/-- Specification: the problems the documentation allows (positive definite Hessian, bounds that do not cross) and for which
C07 holds (equality constraints first, linearly independent). -/
structure StdPb (pb : Pb ℝ EReal) : Prop where
  proper : Proper pb
  notCrossed : NotCrossed pb
  posDef : (Matrix.of fun i j : Fin pb.n => hess pb i j).PosDef
  eqFirst : ∃ e, EqFirst pb e
  indep : EqIndep pb

/-- Specification: some history of legal calls followed by `solve o pb` ends with status `t` in state `s'`. -/
def Solves (o : Opts ℝ) (pb : Pb ℝ EReal) (t : Term) (s' : State ℝ) : Prop :=
  ∃ (cs : List (Call ℝ EReal)) (s : State ℝ), (∀ c ∈ cs, c.Admissible) ∧ calls cs State.empty = .ok s ∧ solve o pb s = .ok (t, s')

/-- Specification: thresholds below `ε`, infinite bounds beyond `β`, and enough iterations for `pb`. -/
def Fine (ε β : ℝ) (pb : Pb ℝ EReal) (o : Opts ℝ) : Prop :=
  0 ≤ o.tiny ∧ o.tiny < ε ∧ β < o.bigBnd ∧ (pb.n + 1) * (7 ^ (pb.m + pb.nb) + 1) ≤ o.maxIter

/-- Everything C07, C08, C09, C18 give about one solve. -/
structure Answer (pb : Pb ℝ EReal) (t : Term) (s' : State ℝ) : Prop where
  status : t = .success ∨ t = .infeasible
  optimal : t = .success → IsUniqueOptimal pb s'.x
  kkt : t = .success → KKT pb s'.x (multipliers s').u
  infeasible : t = .infeasible → ¬ ∃ y, Feasible pb y
  value : s'.f = obj pb s'.x

theorem answer_of_sound {o : Opts ℝ} {pb : Pb ℝ EReal} (h : Sound o pb) (hm : (pb.n + 1) * (7 ^ (pb.m + pb.nb) + 1) ≤ o.maxIter)
    {t : Term} {s' : State ℝ} (hs : Solves o pb t s') : Answer pb t s' := by
  obtain ⟨cs, s, h1, h2, h3⟩ := hs
  obtain ⟨s0, t0, s0', g1, g2, g3, g4, g5, g6, g7, _⟩ := h cs h1
  rw [h2] at g1
  simp only [Except.ok.injEq] at g1
  subst g1
  rw [h3] at g2
  simp only [Except.ok.injEq, Prod.mk.injEq] at g2
  obtain ⟨rfl, rfl⟩ := g2
  refine ⟨?_, fun h => (g4 h).1, fun h => (g4 h).2, g5, g7⟩
  rcases g3 with h | h | h
  · exact Or.inl h
  · exact Or.inr h
  · exact absurd hm (by have := g6 h; omega)

/-- All small enough thresholds give an answer. -/
theorem StdPb.answers {pb : Pb ℝ EReal} (h : StdPb pb) :
    ∃ ε > 0, ∃ β : ℝ, ∀ o, Fine ε β pb o → ∀ t s', Solves o pb t s' → Answer pb t s' := by
  obtain ⟨e, he⟩ := h.eqFirst
  obtain ⟨ε, hε, β, hh⟩ := exists_thresholds h.proper h.notCrossed h.posDef he h.indep
  exact ⟨ε, hε, β, fun o ho t s' hs => answer_of_sound (hh o ho.1 ho.2.1 ho.2.2.1) ho.2.2.2 hs⟩

theorem Answer.feasible_iff {pb : Pb ℝ EReal} {t s'} (h : Answer pb t s') : t = .success ↔ ∃ y, Feasible pb y := by
  constructor
  · intro ht; exact ⟨_, (h.optimal ht).1.1⟩
  · intro hy
    rcases h.status with h1 | h1
    · exact h1
    · exact absurd hy (h.infeasible h1)

/-- Both problems at once. -/
theorem two_answers {pb pb' : Pb ℝ EReal} (h : StdPb pb) (h' : StdPb pb') :
    ∃ ε > 0, ∃ β : ℝ, ∀ o o', Fine ε β pb o → Fine ε β pb' o' → ∀ t s t' s', Solves o pb t s → Solves o' pb' t' s' →
      Answer pb t s ∧ Answer pb' t' s' := by
  obtain ⟨ε, hε, β, hh⟩ := h.answers
  obtain ⟨ε', hε', β', hh'⟩ := h'.answers
  refine ⟨min ε ε', lt_min hε hε', max β β', fun o o' ho ho' t s t' s' h1 h2 => ⟨hh o ?_ t s h1, hh' o' ?_ t' s' h2⟩⟩
  · exact ⟨ho.1, ho.2.1.trans_le (min_le_left _ _), (le_max_left _ _).trans_lt ho.2.2.1, ho.2.2.2⟩
  · exact ⟨ho'.1, ho'.2.1.trans_le (min_le_right _ _), (le_max_right _ _).trans_lt ho'.2.2.1, ho'.2.2.2⟩

/-! ## Algebra -/

theorem hess_comm' (pb : Pb ℝ EReal) (i j : Nat) : hess pb i j = hess pb j i := by
  unfold hess
  rcases lt_trichotomy i j with h | rfl | h
  · rw [if_neg (by omega), if_pos (by omega)]
  · rfl
  · rw [if_pos (by omega), if_neg (by omega)]

/-- Quadratic form of the Hessian. -/
noncomputable def quadForm (pb : Pb ℝ EReal) (v : Nat → ℝ) : ℝ := ∑ i ∈ range pb.n, ∑ j ∈ range pb.n, v i * hess pb i j * v j

theorem obj_taylor (pb : Pb ℝ EReal) (x y : Nat → ℝ) :
    obj pb y = obj pb x + ∑ a ∈ range pb.n, (∑ b ∈ range pb.n, hess pb a b * x b + pb.a a) * (y a - x a)
      + 1 / 2 * quadForm pb (fun i => y i - x i) := by
  have e1 : ∑ i ∈ range pb.n, ∑ j ∈ range pb.n, y i * hess pb i j * y j
      = ∑ i ∈ range pb.n, ∑ j ∈ range pb.n, x i * hess pb i j * x j
        + ∑ i ∈ range pb.n, ∑ j ∈ range pb.n, (y i - x i) * hess pb i j * x j
        + ∑ i ∈ range pb.n, ∑ j ∈ range pb.n, x i * hess pb i j * (y j - x j)
        + quadForm pb (fun i => y i - x i) := by
    unfold quadForm
    simp only [← sum_add_distrib]
    exact sum_congr rfl fun i _ => sum_congr rfl fun j _ => by ring
  have e2 : ∑ i ∈ range pb.n, ∑ j ∈ range pb.n, x i * hess pb i j * (y j - x j)
      = ∑ i ∈ range pb.n, ∑ j ∈ range pb.n, (y i - x i) * hess pb i j * x j := by
    rw [sum_comm]
    exact sum_congr rfl fun i _ => sum_congr rfl fun j _ => by rw [hess_comm' pb j i]; ring
  have e3 : ∑ a ∈ range pb.n, (∑ b ∈ range pb.n, hess pb a b * x b + pb.a a) * (y a - x a)
      = ∑ i ∈ range pb.n, ∑ j ∈ range pb.n, (y i - x i) * hess pb i j * x j + (∑ i ∈ range pb.n, pb.a i * y i - ∑ i ∈ range pb.n, pb.a i * x i) := by
    rw [← sum_sub_distrib, ← sum_add_distrib]
    refine sum_congr rfl fun i _ => ?_
    rw [add_mul, sum_mul]
    congr 1
    · exact sum_congr rfl fun j _ => by ring
    · ring
  unfold obj
  rw [e1, e2, e3]
  ring

theorem quadForm_nonneg {pb : Pb ℝ EReal} (h : StdPb pb) (v : Nat → ℝ) : 0 ≤ quadForm pb v := by
  have hpd : PosDefN pb.n (hess pb) := (posDefN_iff pb.n pb.G).2 h.posDef
  by_cases hv : ∃ i < pb.n, v i ≠ 0
  · exact (hpd v hv).le
  · push Not at hv
    refine (sum_eq_zero fun a ha => sum_eq_zero fun b _ => ?_).ge
    rw [hv a (mem_range.1 ha)]; ring

/-- Difference of objectives from a KKT point, in terms of the multipliers. -/
theorem kkt_expand {pb : Pb ℝ EReal} {x lam : Nat → ℝ} (h : KKT pb x lam) (y : Nat → ℝ) :
    obj pb y = obj pb x - ∑ i ∈ range pb.m, lam i * (row pb y i - row pb x i)
      - (if pb.useBnd then ∑ a ∈ range pb.n, lam (pb.m + a) * (y a - x a) else 0) + 1 / 2 * quadForm pb (fun i => y i - x i) := by
  rw [obj_taylor pb x y]
  have e : ∀ a ∈ range pb.n, (∑ b ∈ range pb.n, hess pb a b * x b + pb.a a) * (y a - x a)
      = - (∑ i ∈ range pb.m, lam i * pb.C a i * (y a - x a)) - (if pb.useBnd then lam (pb.m + a) * (y a - x a) else 0) := by
    intro a ha
    have := h.stationary a (mem_range.1 ha)
    rw [← sum_mul]
    have e2 : ∑ b ∈ range pb.n, hess pb a b * x b + pb.a a
        = - (∑ i ∈ range pb.m, lam i * pb.C a i) - (if pb.useBnd then lam (pb.m + a) else 0) := by linarith
    rw [e2]
    split_ifs <;> ring
  rw [sum_congr rfl e, sum_sub_distrib, sum_neg_distrib, sum_comm]
  have e3 : ∑ i ∈ range pb.m, ∑ a ∈ range pb.n, lam i * pb.C a i * (y a - x a)
      = ∑ i ∈ range pb.m, lam i * (row pb y i - row pb x i) := by
    refine sum_congr rfl fun i _ => ?_
    unfold row
    rw [← sum_sub_distrib, mul_sum]
    exact sum_congr rfl fun a _ => by ring
  rw [e3]
  have e4 : ∑ a ∈ range pb.n, (if pb.useBnd then lam (pb.m + a) * (y a - x a) else 0)
      = if pb.useBnd then ∑ a ∈ range pb.n, lam (pb.m + a) * (y a - x a) else 0 := by
    split_ifs <;> simp
  rw [e4]; ring

/-! ## C59: shadow prices -/

/-- Specification: `pb'` is `pb` with other right-hand sides and bounds. -/
structure SameButBounds (pb pb' : Pb ℝ EReal) : Prop where
  n : pb'.n = pb.n
  m : pb'.m = pb.m
  useBnd : pb'.useBnd = pb.useBnd
  G : pb'.G = pb.G
  a : pb'.a = pb.a
  C : pb'.C = pb.C

/-- Specification: the change of objective predicted by the multiplier `l` of a constraint whose sides move from `[lo, up]` to `[lo', up']`. -/
noncomputable def price (l : ℝ) (lo up lo' up' : EReal) : ℝ :=
  if l < 0 then -l * (lo'.toReal - lo.toReal) else if 0 < l then -l * (up'.toReal - up.toReal) else 0

/-- Specification: sum of the predicted changes. -/
noncomputable def prices (pb pb' : Pb ℝ EReal) (lam : Nat → ℝ) : ℝ :=
  ∑ i ∈ range pb.m, price (lam i) (pb.bl i) (pb.bu i) (pb'.bl i) (pb'.bu i)
    + if pb.useBnd then ∑ i ∈ range pb.n, price (lam (pb.m + i)) (pb.xl i) (pb.xu i) (pb'.xl i) (pb'.xu i) else 0

/-- Specification: the sides that carry a multiplier are still finite in `pb'`. -/
structure StillFinite (pb pb' : Pb ℝ EReal) (lam : Nat → ℝ) : Prop where
  bl : ∀ i < pb.m, lam i < 0 → pb'.bl i ≠ ⊥
  bu : ∀ i < pb.m, 0 < lam i → pb'.bu i ≠ ⊤
  xl : pb.useBnd = true → ∀ i < pb.n, lam (pb.m + i) < 0 → pb'.xl i ≠ ⊥
  xu : pb.useBnd = true → ∀ i < pb.n, 0 < lam (pb.m + i) → pb'.xu i ≠ ⊤

theorem price_le {l v w : ℝ} {lo up lo' up' : EReal} (h1 : l < 0 → ((v : ℝ) : EReal) = lo) (h2 : 0 < l → ((v : ℝ) : EReal) = up)
    (h3 : lo' ≤ ((w : ℝ) : EReal)) (h4 : ((w : ℝ) : EReal) ≤ up') (h5 : l < 0 → lo' ≠ ⊥) (h6 : 0 < l → up' ≠ ⊤) :
    price l lo up lo' up' ≤ -(l * (w - v)) := by
  unfold price
  split_ifs with hn hp
  · rw [← h1 hn, EReal.toReal_coe]
    have : lo'.toReal ≤ w := by
      have := EReal.toReal_le_toReal h3 (h5 hn) (EReal.coe_ne_top _)
      rwa [EReal.toReal_coe] at this
    nlinarith
  · rw [← h2 hp, EReal.toReal_coe]
    have : w ≤ up'.toReal := by
      have := EReal.toReal_le_toReal h4 (EReal.coe_ne_bot _) (h6 hp)
      rwa [EReal.toReal_coe] at this
    nlinarith
  · have : l = 0 := le_antisymm (not_lt.1 hp) (not_lt.1 hn)
    rw [this]; simp

theorem obj_same {pb pb' : Pb ℝ EReal} (h : SameButBounds pb pb') (y : Nat → ℝ) : obj pb' y = obj pb y := by
  unfold obj hess
  rw [h.n, h.G, h.a]

theorem prices_le_quad {pb pb' : Pb ℝ EReal} (h : SameButBounds pb pb') {x lam y : Nat → ℝ} (hk : KKT pb x lam)
    (hy : Feasible pb' y) (hf : StillFinite pb pb' lam) : obj pb x + prices pb pb' lam + 1 / 2 * quadForm pb (fun i => y i - x i) ≤ obj pb' y := by
  rw [obj_same h, kkt_expand hk y]
  have g1 : ∑ i ∈ range pb.m, price (lam i) (pb.bl i) (pb.bu i) (pb'.bl i) (pb'.bu i)
      ≤ - ∑ i ∈ range pb.m, lam i * (row pb y i - row pb x i) := by
    rw [← sum_neg_distrib]
    refine sum_le_sum fun i hi => ?_
    have hi := mem_range.1 hi
    have hrow : row pb' y i = row pb y i := by unfold row; rw [h.n, h.C]
    have hg := hy.gen i (by rw [h.m]; exact hi)
    rw [hrow] at hg
    exact price_le (hk.lower i hi) (hk.upper i hi) hg.1 hg.2 (hf.bl i hi) (hf.bu i hi)
  have g2 : (if pb.useBnd then ∑ i ∈ range pb.n, price (lam (pb.m + i)) (pb.xl i) (pb.xu i) (pb'.xl i) (pb'.xu i) else 0)
      ≤ - (if pb.useBnd then ∑ a ∈ range pb.n, lam (pb.m + a) * (y a - x a) else 0) := by
    by_cases hb : pb.useBnd = true
    · rw [if_pos hb, if_pos hb, ← sum_neg_distrib]
      refine sum_le_sum fun i hi => ?_
      have hi := mem_range.1 hi
      have hg := hy.bnd (by rw [h.useBnd]; exact hb) i (by rw [h.n]; exact hi)
      exact price_le (hk.lowerBnd hb i hi) (hk.upperBnd hb i hi) hg.1 hg.2 (hf.xl hb i hi) (hf.xu hb i hi)
    · rw [if_neg hb, if_neg hb]; simp
  unfold prices
  linarith

theorem prices_le {pb pb' : Pb ℝ EReal} (h : SameButBounds pb pb') (hr : StdPb pb) {x lam y : Nat → ℝ} (hk : KKT pb x lam)
    (hy : Feasible pb' y) (hf : StillFinite pb pb' lam) : obj pb x + prices pb pb' lam ≤ obj pb' y := by
  have h1 := prices_le_quad h hk hy hf
  have hq := quadForm_nonneg hr (fun i => y i - x i)
  linarith

/-- **C59.** The multipliers are prices: when the problem is solved again with other right-hand sides and bounds only (the sides carrying a
multiplier staying finite), the new `objectiveValue()` is at least the old one plus the change predicted by the old `multipliers()`,
`-λᵢ·Δlᵢ` for `λᵢ < 0` and `-λᵢ·Δuᵢ` for `λᵢ > 0`. Two solves with any histories and options with fine enough thresholds. -/
theorem C59_shadow_prices {pb pb' : Pb ℝ EReal} (hr : StdPb pb) (hr' : StdPb pb') (h : SameButBounds pb pb') :
    ∃ ε > 0, ∃ β : ℝ, ∀ o o', Fine ε β pb o → Fine ε β pb' o' → ∀ s s', Solves o pb .success s → Solves o' pb' .success s' →
      StillFinite pb pb' (multipliers s).u → s.f + prices pb pb' (multipliers s).u ≤ s'.f := by
  obtain ⟨ε, hε, β, hh⟩ := two_answers hr hr'
  refine ⟨ε, hε, β, fun o o' ho ho' s s' h1 h2 hf => ?_⟩
  obtain ⟨a1, a2⟩ := hh o o' ho ho' _ _ _ _ h1 h2
  rw [a1.value, a2.value]
  exact prices_le h hr (a1.kkt rfl) (a2.optimal rfl).1.1 hf

/-! ## C60: sensitivity to the objective vector -/

/-- Specification: `pb'` is `pb` with another objective vector. -/
structure SameButVector (pb pb' : Pb ℝ EReal) : Prop where
  n : pb'.n = pb.n
  G : pb'.G = pb.G
  feasible : ∀ x, Feasible pb' x ↔ Feasible pb x

theorem grad_step {pb : Pb ℝ EReal} (hr : StdPb pb) {x y : Nat → ℝ} (hx : IsOptimal pb x) (hy : Feasible pb y) :
    0 ≤ ∑ a ∈ range pb.n, (∑ b ∈ range pb.n, hess pb a b * x b + pb.a a) * (y a - x a) := by
  by_contra hc
  push Not at hc
  set g := ∑ a ∈ range pb.n, (∑ b ∈ range pb.n, hess pb a b * x b + pb.a a) * (y a - x a) with hg
  set q := quadForm pb (fun i => y i - x i) with hq
  have hq0 : 0 ≤ q := quadForm_nonneg hr _
  -- points of the segment are feasible
  have hseg : ∀ t : ℝ, 0 ≤ t → t ≤ 1 → obj pb x ≤ obj pb x + t * g + 1 / 2 * t ^ 2 * q := by
    intro t h0 h1
    have hfe : Feasible pb (fun i => x i + t * (y i - x i)) := by
      have key : ∀ (u v : ℝ) (lo up : EReal), lo ≤ (u : EReal) ∧ (u : EReal) ≤ up → lo ≤ (v : EReal) ∧ (v : EReal) ≤ up →
          lo ≤ ((u + t * (v - u) : ℝ) : EReal) ∧ ((u + t * (v - u) : ℝ) : EReal) ≤ up := by
        intro u v lo up hu hv
        constructor
        · rcases le_total u v with h | h
          · exact hu.1.trans (EReal.coe_le_coe_iff.2 (by nlinarith))
          · exact hv.1.trans (EReal.coe_le_coe_iff.2 (by nlinarith))
        · rcases le_total u v with h | h
          · exact le_trans (EReal.coe_le_coe_iff.2 (by nlinarith)) hv.2
          · exact le_trans (EReal.coe_le_coe_iff.2 (by nlinarith)) hu.2
      refine ⟨fun i hi => ?_, fun hb i hi => key _ _ _ _ (hx.1.bnd hb i hi) (hy.bnd hb i hi)⟩
      have e : row pb (fun i => x i + t * (y i - x i)) i = row pb x i + t * (row pb y i - row pb x i) := by
        unfold row
        rw [← sum_sub_distrib, mul_sum, ← sum_add_distrib]
        exact sum_congr rfl fun a _ => by ring
      rw [e]
      exact key _ _ _ _ (hx.1.gen i hi) (hy.gen i hi)
    have := hx.2 _ hfe
    rw [obj_taylor pb x (fun i => x i + t * (y i - x i))] at this
    have e1 : ∑ a ∈ range pb.n, (∑ b ∈ range pb.n, hess pb a b * x b + pb.a a) * (x a + t * (y a - x a) - x a) = t * g := by
      rw [hg, mul_sum]; exact sum_congr rfl fun a _ => by ring
    have e2 : quadForm pb (fun i => x i + t * (y i - x i) - x i) = t ^ 2 * q := by
      rw [hq]; unfold quadForm
      rw [mul_sum]
      refine sum_congr rfl fun a _ => ?_
      rw [mul_sum]
      exact sum_congr rfl fun b _ => by ring
    rw [e1, e2] at this
    linarith
  -- take t = min 1 (-g / (q+1))
  have hpos : 0 < -g / (q - g + 1) := div_pos (by linarith) (by linarith)
  have hle : -g / (q - g + 1) ≤ 1 := by rw [div_le_one (by linarith)]; linarith
  have h1 := hseg _ hpos.le hle
  set t := -g / (q - g + 1) with ht
  have h2 : t * (q - g + 1) = -g := by rw [ht]; exact div_mul_cancel₀ _ (by linarith)
  have h3 : 0 ≤ t * (g + 1 / 2 * (t * q)) := by nlinarith
  have h4 : 0 ≤ g + 1 / 2 * (t * q) := by
    by_contra hn
    push Not at hn
    have := mul_neg_of_pos_of_neg hpos hn
    linarith
  have h5 : t * q = -g - t * (1 - g) := by linarith
  have h6 : 0 < t * (1 - g) := mul_pos hpos (by linarith)
  linarith

theorem C60_aux {pb pb' : Pb ℝ EReal} (hr : StdPb pb) (hr' : StdPb pb') (h : SameButVector pb pb') {x x' : Nat → ℝ}
    (hx : IsOptimal pb x) (hx' : IsOptimal pb' x') :
    quadForm pb (fun i => x' i - x i) ≤ ∑ a ∈ range pb.n, (pb.a a - pb'.a a) * (x' a - x a) := by
  have h1 := grad_step hr hx ((h.feasible _).1 hx'.1)
  have h2 := grad_step hr' hx' ((h.feasible _).2 hx.1)
  have hH : ∀ a b, hess pb' a b = hess pb a b := by intro a b; unfold hess; rw [h.G]
  rw [h.n] at h2
  simp only [hH] at h2
  have e : ∑ a ∈ range pb.n, (∑ b ∈ range pb.n, hess pb a b * x b + pb.a a) * (x' a - x a)
      + ∑ a ∈ range pb.n, (∑ b ∈ range pb.n, hess pb a b * x' b + pb'.a a) * (x a - x' a)
      = - quadForm pb (fun i => x' i - x i) + ∑ a ∈ range pb.n, (pb.a a - pb'.a a) * (x' a - x a) := by
    unfold quadForm
    rw [← sum_add_distrib, ← sum_neg_distrib, ← sum_add_distrib]
    refine sum_congr rfl fun a _ => ?_
    have e2 : ∑ b ∈ range pb.n, (x' a - x a) * hess pb a b * (x' b - x b)
        = (x' a - x a) * (∑ b ∈ range pb.n, hess pb a b * x' b - ∑ b ∈ range pb.n, hess pb a b * x b) := by
      rw [← sum_sub_distrib, mul_sum]; exact sum_congr rfl fun b _ => by ring
    rw [e2]; ring
  linarith

theorem Answer.stability {pb pb' : Pb ℝ EReal} (hr : StdPb pb) (hr' : StdPb pb') (h : SameButVector pb pb') {s s' : State ℝ}
    (a1 : Answer pb .success s) (a2 : Answer pb' .success s') :
      (∑ i ∈ range pb.n, ∑ j ∈ range pb.n, (s'.x i - s.x i) * hess pb i j * (s'.x j - s.x j)
          ≤ ∑ a ∈ range pb.n, (pb.a a - pb'.a a) * (s'.x a - s.x a)) ∧
      ∀ μ > 0, (∀ v : Nat → ℝ, μ * ∑ i ∈ range pb.n, v i ^ 2 ≤ ∑ i ∈ range pb.n, ∑ j ∈ range pb.n, v i * hess pb i j * v j) →
        μ ^ 2 * ∑ i ∈ range pb.n, (s'.x i - s.x i) ^ 2 ≤ ∑ i ∈ range pb.n, (pb'.a i - pb.a i) ^ 2 := by
  have hm := C60_aux hr hr' h (a1.optimal rfl).1 (a2.optimal rfl).1
  refine ⟨hm, fun μ hμ hv => ?_⟩
  have h3 := (hv (fun i => s'.x i - s.x i)).trans hm
  -- (a-a')·d ≤ (1/(2μ))‖a'-a‖² + (μ/2)‖d‖²
  have h4 : ∑ a ∈ range pb.n, (pb.a a - pb'.a a) * (s'.x a - s.x a)
      ≤ ∑ a ∈ range pb.n, (1 / (2 * μ) * (pb'.a a - pb.a a) ^ 2 + μ / 2 * (s'.x a - s.x a) ^ 2) := by
    refine sum_le_sum fun a _ => ?_
    have hsq : 0 ≤ 1 / (2 * μ) * (pb'.a a - pb.a a + μ * (s'.x a - s.x a)) ^ 2 := by positivity
    have e : 1 / (2 * μ) * (pb'.a a - pb.a a + μ * (s'.x a - s.x a)) ^ 2
        = 1 / (2 * μ) * (pb'.a a - pb.a a) ^ 2 + (pb'.a a - pb.a a) * (s'.x a - s.x a) + μ / 2 * (s'.x a - s.x a) ^ 2 := by
      field_simp; ring
    rw [e] at hsq
    linarith
  rw [sum_add_distrib, ← mul_sum, ← mul_sum] at h4
  have h5 := h3.trans h4
  have h6 : μ / 2 * ∑ i ∈ range pb.n, (s'.x i - s.x i) ^ 2 ≤ 1 / (2 * μ) * ∑ i ∈ range pb.n, (pb'.a i - pb.a i) ^ 2 := by linarith
  have h7 := mul_le_mul_of_nonneg_left h6 (by positivity : (0:ℝ) ≤ 2 * μ)
  have e1 : 2 * μ * (μ / 2 * ∑ i ∈ range pb.n, (s'.x i - s.x i) ^ 2) = μ ^ 2 * ∑ i ∈ range pb.n, (s'.x i - s.x i) ^ 2 := by ring
  have e2 : 2 * μ * (1 / (2 * μ) * ∑ i ∈ range pb.n, (pb'.a i - pb.a i) ^ 2) = ∑ i ∈ range pb.n, (pb'.a i - pb.a i) ^ 2 := by field_simp
  rw [e1, e2] at h7
  exact h7

/-- **C60.** The solution depends on the objective vector in a Lipschitz way: for two problems with the same Hessian and the same feasible set,
objective vectors `a` and `a'`, two successful solves (any histories, any options with fine enough thresholds) return solutions `x` and `x'` with
`(x'-x)ᵀH(x'-x) ≤ (a-a')ᵀ(x'-x)`; hence `μ²‖x'-x‖² ≤ ‖a'-a‖²` for every positive lower bound `μ` of the Hessian. In particular
the same vector gives the same solution. -/
theorem C60_stability {pb pb' : Pb ℝ EReal} (hr : StdPb pb) (hr' : StdPb pb') (h : SameButVector pb pb') :
    ∃ ε > 0, ∃ β : ℝ, ∀ o o', Fine ε β pb o → Fine ε β pb' o' → ∀ s s', Solves o pb .success s → Solves o' pb' .success s' →
      (∑ i ∈ range pb.n, ∑ j ∈ range pb.n, (s'.x i - s.x i) * hess pb i j * (s'.x j - s.x j)
          ≤ ∑ a ∈ range pb.n, (pb.a a - pb'.a a) * (s'.x a - s.x a)) ∧
      ∀ μ > 0, (∀ v : Nat → ℝ, μ * ∑ i ∈ range pb.n, v i ^ 2 ≤ ∑ i ∈ range pb.n, ∑ j ∈ range pb.n, v i * hess pb i j * v j) →
        μ ^ 2 * ∑ i ∈ range pb.n, (s'.x i - s.x i) ^ 2 ≤ ∑ i ∈ range pb.n, (pb'.a i - pb.a i) ^ 2 := by
  obtain ⟨ε, hε, β, hh⟩ := two_answers hr hr'
  refine ⟨ε, hε, β, fun o o' ho ho' s s' h1 h2 => ?_⟩
  obtain ⟨a1, a2⟩ := hh o o' ho ho' _ _ _ _ h1 h2
  exact a1.stability hr hr' h a2

/-! ## C61: equivalent formulations -/

/-- **C61.** Only the mathematical problem matters: two formulations with the same number of variables, the same feasible set and objectives
equal up to a positive factor `r` and a constant on it (permuted or rescaled constraints, redundant ones, bounds written as constraints, rescaled
objective, ...) get the same status, and on success the same solution and the objective values related in the same way. Any histories, any options with fine
enough thresholds. -/
theorem C61_same_problem {pb pb' : Pb ℝ EReal} (hr : StdPb pb) (hr' : StdPb pb') (hn : pb'.n = pb.n)
    (hf : ∀ x, Feasible pb' x ↔ Feasible pb x) {r k : ℝ} (hrp : 0 < r) (ho : ∀ x, Feasible pb x → obj pb' x = r * obj pb x + k) :
    ∃ ε > 0, ∃ β : ℝ, ∀ o o', Fine ε β pb o → Fine ε β pb' o' → ∀ t s t' s', Solves o pb t s → Solves o' pb' t' s' →
      t' = t ∧ (t = .success → (∀ i < pb.n, s'.x i = s.x i) ∧ s'.f = r * s.f + k) := by
  obtain ⟨ε, hε, β, hh⟩ := two_answers hr hr'
  refine ⟨ε, hε, β, fun o o' ho1 ho' t s t' s' h1 h2 => ?_⟩
  obtain ⟨a1, a2⟩ := hh o o' ho1 ho' _ _ _ _ h1 h2
  have hiff : t' = .success ↔ t = .success := by
    rw [a1.feasible_iff, a2.feasible_iff]
    exact ⟨fun ⟨y, h⟩ => ⟨y, (hf y).1 h⟩, fun ⟨y, h⟩ => ⟨y, (hf y).2 h⟩⟩
  have ht : t' = t := by
    rcases a1.status with h | h
    · rw [h]; exact hiff.2 h
    · rcases a2.status with h' | h'
      · exact absurd (hiff.1 h') (by rw [h]; simp)
      · rw [h, h']
  refine ⟨ht, fun hs => ?_⟩
  have b1 := a1.optimal hs
  have b2 := a2.optimal (ht.trans hs)
  have hopt : IsOptimal pb s'.x := by
    refine ⟨(hf _).1 b2.1.1, fun y hy => ?_⟩
    have := b2.1.2 y ((hf y).2 hy)
    rw [ho _ ((hf _).1 b2.1.1), ho _ hy] at this
    nlinarith
  refine ⟨b1.2 _ hopt, ?_⟩
  rw [a1.value, a2.value, ho _ hopt.1]
  congr 2
  exact le_antisymm (hopt.2 _ b1.1.1) (b1.1.2 _ hopt.1)

/-! ## C62: more constraints -/

/-- **C62.** Adding constraints (same objective, smaller feasible set) never turns an infeasible problem into a feasible one and never lowers
`objectiveValue()`; and if the first solution satisfies the added constraints, the solution is unchanged. Any histories, any options with fine
enough thresholds. -/
theorem C62_more_constraints {pb pb' : Pb ℝ EReal} (hr : StdPb pb) (hr' : StdPb pb') (hn : pb'.n = pb.n)
    (hf : ∀ x, Feasible pb' x → Feasible pb x) (ho : ∀ x, obj pb' x = obj pb x) :
    ∃ ε > 0, ∃ β : ℝ, ∀ o o', Fine ε β pb o → Fine ε β pb' o' → ∀ t s t' s', Solves o pb t s → Solves o' pb' t' s' →
      (t = .infeasible → t' = .infeasible) ∧ (t = .success → t' = .success → s.f ≤ s'.f) ∧
      (t = .success → Feasible pb' s.x → t' = .success ∧ (∀ i < pb.n, s'.x i = s.x i) ∧ s'.f = s.f) := by
  obtain ⟨ε, hε, β, hh⟩ := two_answers hr hr'
  refine ⟨ε, hε, β, fun o o' ho1 ho' t s t' s' h1 h2 => ?_⟩
  obtain ⟨a1, a2⟩ := hh o o' ho1 ho' _ _ _ _ h1 h2
  refine ⟨fun h => ?_, fun h h' => ?_, fun h hfe => ?_⟩
  · rcases a2.status with h' | h'
    · exact absurd ⟨_, hf _ (a2.optimal h').1.1⟩ (a1.infeasible h)
    · exact h'
  · rw [a1.value, a2.value, ho]
    exact (a1.optimal h).1.2 _ (hf _ (a2.optimal h').1.1)
  · have ht' : t' = .success := a2.feasible_iff.2 ⟨_, hfe⟩
    have b1 := a1.optimal h
    have b2 := a2.optimal ht'
    have hle : obj pb s'.x ≤ obj pb s.x := by rw [← ho, ← ho]; exact b2.1.2 _ hfe
    have hopt : IsOptimal pb s'.x := ⟨hf _ b2.1.1, fun y hy => hle.trans (b1.1.2 y hy)⟩
    refine ⟨ht', b1.2 _ hopt, ?_⟩
    rw [a1.value, a2.value, ho]
    exact le_antisymm hle (b1.1.2 _ hopt.1)

/-! ## Concrete problems meeting the hypotheses -/

/-- `min ½‖x‖² + v·x₀ s.t. k·(x₀ + x₁) = k, x₀ ≥ c`. -/
noncomputable def famPb (k c v : ℝ) : Pb ℝ EReal where
  n := 2
  m := 2
  useBnd := false
  G := fun i j => if i = j then 1 else 0
  a := fun i => if i = 0 then v else 0
  C := fun a i => if i = 0 then k else if a = 0 then 1 else 0
  bl := fun i => if i = 0 then ((k : ℝ) : EReal) else ((c : ℝ) : EReal)
  bu := fun i => if i = 0 then ((k : ℝ) : EReal) else ⊤
  xl := fun _ => ⊥
  xu := fun _ => ⊤

theorem famPb_std {k : ℝ} (hk : k ≠ 0) (c v : ℝ) : StdPb (famPb k c v) := by
  refine ⟨⟨?_, ?_, by simp [famPb], by simp [famPb]⟩, ⟨?_, by simp [famPb]⟩, ?_, ⟨1, by simp [famPb, Pb.nb], ?_⟩, ?_⟩
  · intro i _; simp only [famPb]; split_ifs <;> exact EReal.coe_ne_top _
  · intro i _; simp only [famPb]; split_ifs
    · exact EReal.coe_ne_bot _
    · simp
  · intro i _; simp only [famPb]; split_ifs <;> simp
  · refine (posDefN_iff 2 (famPb k c v).G).1 ?_
    intro v hv
    simp only [sum_range_succ, sum_range_zero, symLow, famPb]
    norm_num
    obtain ⟨i, hi, hne⟩ := hv
    have : i = 0 ∨ i = 1 := by omega
    rcases this with rfl | rfl
    · have := mul_self_pos.2 hne; have := mul_self_nonneg (v 1); linarith
    · have := mul_self_pos.2 hne; have := mul_self_nonneg (v 0); linarith
  · intro i hi
    have hi : i < 2 := by simpa [famPb, Pb.nb] using hi
    have : i = 0 ∨ i = 1 := by omega
    rcases this with rfl | rfl <;> simp [isEqB, famPb, bEq]
  · intro c' h1 h2 i
    by_cases hi : i = 0
    · subst hi
      have h3 := h2 1 (by simp [famPb])
      simp [famPb, Pb.nb, grad, sum_range_succ] at h3
      exact h3.resolve_right hk
    · apply h1
      rintro ⟨a, b⟩
      have hi : i < 2 := by simpa [famPb, Pb.nb] using a
      have : i = 1 := by omega
      subst this
      rcases b with ⟨_, b⟩ | ⟨b, _⟩
      · simp [famPb] at b
      · simp [famPb] at b

theorem famPb_feasible {k : ℝ} (hk : k ≠ 0) (c v : ℝ) (x : Nat → ℝ) : Feasible (famPb k c v) x ↔ x 0 + x 1 = 1 ∧ c ≤ x 0 := by
  constructor
  · intro h
    have h0 := h.gen 0 (by simp [famPb])
    have h1 := h.gen 1 (by simp [famPb])
    simp only [row, famPb, sum_range_succ, sum_range_zero] at h0 h1
    norm_num at h0 h1
    have e : k * x 0 + k * x 1 = k := by
      apply le_antisymm
      · exact_mod_cast h0.2
      · exact_mod_cast h0.1
    refine ⟨mul_left_cancel₀ hk (by linarith), h1⟩
  · rintro ⟨h0, h1⟩
    refine ⟨fun i hi => ?_, by simp [famPb]⟩
    have hi : i < 2 := by simpa [famPb] using hi
    have : i = 0 ∨ i = 1 := by omega
    rcases this with rfl | rfl
    · have e : row (famPb k c v) x 0 = k := by
        simp only [row, famPb, sum_range_succ, sum_range_zero]
        have : k * x 0 + k * x 1 = k * 1 := by rw [← h0]; ring
        simpa using this
      rw [e]; simp [famPb]
    · have e : row (famPb k c v) x 1 = x 0 := by simp [row, famPb, sum_range_succ, sum_range_zero]
      rw [e]
      simp only [famPb]
      norm_num
      exact h1

/-- Standard feasible problems are solved: the `SUCCESS` hypothesis of C59-C62 is met by every solver that receives one. -/
theorem StdPb.solved {pb : Pb ℝ EReal} (h : StdPb pb) (hf : ∃ y, Feasible pb y) : ∃ ε > 0, ∃ β : ℝ, ∀ o, Fine ε β pb o → ∃ s, Solves o pb .success s := by
  obtain ⟨e, he⟩ := h.eqFirst
  obtain ⟨ε, hε, β, hh⟩ := C18_exact_solver_partial h.proper h.notCrossed h.posDef he h.indep
  refine ⟨ε, hε, β, fun o ho => ?_⟩
  obtain ⟨s, t, s', h1, h2, h3, _⟩ := hh o ho.1 ho.2.1 ho.2.2.1 ho.2.2.2 [] (by simp)
  obtain ⟨rfl, _⟩ := h3 hf
  exact ⟨s', [], s, by simp, h1, h2⟩

/-- The hypotheses of C59-C62 are met: other right-hand side, other vector, rescaled constraint, tighter constraint; all the problems are feasible. -/
theorem C59_hypotheses_met :
    (StdPb (famPb 1 0 0) ∧ StdPb (famPb 1 (3 / 4) 0) ∧ StdPb (famPb 1 0 1) ∧ StdPb (famPb 5 0 0)) ∧
    (∀ k c v, k ≠ 0 → ∃ y, Feasible (famPb k c v) y) ∧
    SameButBounds (famPb 1 0 0) (famPb 1 (3 / 4) 0) ∧ SameButVector (famPb 1 0 0) (famPb 1 0 1) ∧
    (∀ x, Feasible (famPb 5 0 0) x ↔ Feasible (famPb 1 0 0) x) ∧ (∀ x, obj (famPb 5 0 0) x = 1 * obj (famPb 1 0 0) x + 0) ∧
    (∀ x, Feasible (famPb 1 (3 / 4) 0) x → Feasible (famPb 1 0 0) x) ∧ (∀ x, obj (famPb 1 (3 / 4) 0) x = obj (famPb 1 0 0) x) := by
  have h1 : (1 : ℝ) ≠ 0 := one_ne_zero
  have h5 : (5 : ℝ) ≠ 0 := by norm_num
  refine ⟨⟨famPb_std h1 _ _, famPb_std h1 _ _, famPb_std h1 _ _, famPb_std h5 _ _⟩, ?_, ⟨rfl, rfl, rfl, rfl, rfl, rfl⟩, ⟨rfl, rfl, ?_⟩, ?_, ?_, ?_, fun x => rfl⟩
  · intro k c v hk
    exact ⟨fun i => if i = 0 then c else 1 - c, (famPb_feasible hk _ _ _).2 ⟨by simp, by simp⟩⟩
  · intro x; rw [famPb_feasible h1, famPb_feasible h1]
  · intro x; rw [famPb_feasible h1, famPb_feasible h5]
  · intro x
    have : obj (famPb 5 0 0) x = obj (famPb 1 0 0) x := rfl
    rw [this]; ring
  · intro x; rw [famPb_feasible h1, famPb_feasible h1]
    exact fun h => ⟨h.1, by have := h.2; linarith⟩

end JrlQp
