import Verif.PropsAgree
import Verif.PropsChange

/-! C98: what is proved of the solutions and multipliers of cold solves (C59, C60, C93, C96) holds for warm-started solves, in particular for a sequence of
neighbouring problems each started from any active set (exact arithmetic). -/

namespace JrlQp

open NumOps Finset Spec

/-- Specification: `Fine`, the given value of the option, and enough iterations for the warm-started solver. -/
def WFine (ε β : ℝ) (warm : Bool) (pb : Pb ℝ EReal) (o : Opts ℝ) : Prop :=
  Fine ε β pb o ∧ o.warmStart = warm ∧ pb.n + (pb.n + 1) * (7 ^ (pb.m + pb.nb) + 1) ≤ o.maxIter

theorem WFine.mono {ε β ε' β' : ℝ} {warm : Bool} {pb : Pb ℝ EReal} {o : Opts ℝ} (h : WFine ε β warm pb o) (he : ε ≤ ε') (hb : β' ≤ β) :
    WFine ε' β' warm pb o :=
  ⟨⟨h.1.1, h.1.2.1.trans_le he, hb.trans_lt h.1.2.2.1, h.1.2.2.2⟩, h.2⟩

/-- A warm-started solve either succeeds, with everything known of a cold solve, or tells that no point is feasible. -/
theorem warm_answers {pb : Pb ℝ EReal} (hr : StdPb pb) {warm : Bool} {as : List Status} (ha : GoodWarm warm pb as) :
    ∃ ε > 0, ∃ β : ℝ, ∀ o, WFine ε β warm pb o → ∀ t s, WarmSolves o pb as t s →
      (t = .success ∧ Answer pb .success s) ∨ (t = .infeasible ∧ ¬ ∃ y, Feasible pb y) := by
  obtain ⟨e, he⟩ := hr.eqFirst
  obtain ⟨ε, hε, β, hh⟩ := C24_thresholds_partial (o0 := ⟨0, 0, warm, 0, false⟩) hr.proper hr.notCrossed hr.posDef he ha.explicit ha.arg ha.noFalseEq
    (ha.eqAct e he) ha.indep
  refine ⟨ε, hε, β, fun o ho t s h => ?_⟩
  obtain ⟨cs, xs, xs', c1, c2, c3, rfl⟩ := h
  obtain ⟨ys, u, ys', d1, d2, d3, d4, d5, d6⟩ := hh o ho.2.1 ho.1.1 ho.1.2.1 ho.1.2.2.1 cs c1
  rw [c2] at d1
  simp only [Except.ok.injEq] at d1
  subst d1
  rw [c3] at d2
  simp only [Except.ok.injEq, Prod.mk.injEq] at d2
  obtain ⟨rfl, rfl⟩ := d2
  rcases d3 with g | g | g
  · left
    obtain ⟨k1, k2, k3⟩ := d4 g
    exact ⟨g, ⟨.inl rfl, fun _ => k1, fun _ => k2, (fun h => nomatch h), k3⟩⟩
  · exact .inr ⟨g, d5 g⟩
  · exact absurd (d6 g) (not_lt.2 ho.2.2)

theorem two_warm_answers {pb pb' : Pb ℝ EReal} (hr : StdPb pb) (hr' : StdPb pb') {warm warm' : Bool} {as as' : List Status} (ha : GoodWarm warm pb as)
    (ha' : GoodWarm warm' pb' as') :
    ∃ ε > 0, ∃ β : ℝ, ∀ o o', WFine ε β warm pb o → WFine ε β warm' pb' o' → ∀ s s', WarmSolves o pb as .success s → WarmSolves o' pb' as' .success s' →
      Answer pb .success s ∧ Answer pb' .success s' := by
  obtain ⟨ε1, hε1, β1, hh1⟩ := warm_answers hr ha
  obtain ⟨ε2, hε2, β2, hh2⟩ := warm_answers hr' ha'
  refine ⟨min ε1 ε2, lt_min hε1 hε2, max β1 β2, fun o o' ho ho' s s' h1 h2 => ⟨?_, ?_⟩⟩
  · rcases hh1 o (ho.mono (min_le_left _ _) (le_max_left _ _)) _ _ h1 with ⟨_, g⟩ | ⟨g, _⟩
    · exact g
    · cases g
  · rcases hh2 o' (ho'.mono (min_le_right _ _) (le_max_right _ _)) _ _ h2 with ⟨_, g⟩ | ⟨g, _⟩
    · exact g
    · cases g

/-- **C98, duality.** After a warm-started solve returning `SUCCESS`, the multipliers are a certificate of optimality (see C93). -/
theorem C98_duality {pb : Pb ℝ EReal} (hr : StdPb pb) {warm : Bool} {as : List Status} (ha : GoodWarm warm pb as) :
    ∃ ε > 0, ∃ β : ℝ, ∀ o, WFine ε β warm pb o → ∀ s, WarmSolves o pb as .success s →
      DualFeasible pb s.x (multipliers s).u ∧ dualObj pb s.x (multipliers s).u = s.f ∧
      (∀ z mu, DualFeasible pb z mu → dualObj pb z mu ≤ s.f) ∧ ∀ y, Feasible pb y → s.f ≤ obj pb y := by
  obtain ⟨ε, hε, β, hh⟩ := warm_answers hr ha
  refine ⟨ε, hε, β, fun o ho s h => ?_⟩
  rcases hh o ho _ _ h with ⟨_, g⟩ | ⟨g, _⟩
  · exact g.duality hr
  · cases g

/-- **C98, shadow prices.** In a sequence of warm-started solves of problems that differ by their right-hand sides and bounds, the multipliers of a solve
predict the change of the objective value (see C59). -/
theorem C98_shadow_prices {pb pb' : Pb ℝ EReal} (hr : StdPb pb) (hr' : StdPb pb') (h : SameButBounds pb pb') {warm warm' : Bool} {as as' : List Status}
    (ha : GoodWarm warm pb as) (ha' : GoodWarm warm' pb' as') :
    ∃ ε > 0, ∃ β : ℝ, ∀ o o', WFine ε β warm pb o → WFine ε β warm' pb' o' → ∀ s s', WarmSolves o pb as .success s → WarmSolves o' pb' as' .success s' →
      StillFinite pb pb' (multipliers s).u → s.f + prices pb pb' (multipliers s).u ≤ s'.f := by
  obtain ⟨ε, hε, β, hh⟩ := two_warm_answers hr hr' ha ha'
  refine ⟨ε, hε, β, fun o o' ho ho' s s' h1 h2 hf => ?_⟩
  obtain ⟨a1, a2⟩ := hh o o' ho ho' _ _ h1 h2
  rw [a1.value, a2.value]
  exact prices_le h hr (a1.kkt rfl) (a2.optimal rfl).1.1 hf

/-- **C98, stability.** In a sequence of warm-started solves of problems that differ by their objective vector, the solution moves in a Lipschitz way,
whatever the warm starts (see C60). -/
theorem C98_stability {pb pb' : Pb ℝ EReal} (hr : StdPb pb) (hr' : StdPb pb') (h : SameButVector pb pb') {warm warm' : Bool} {as as' : List Status}
    (ha : GoodWarm warm pb as) (ha' : GoodWarm warm' pb' as') :
    ∃ ε > 0, ∃ β : ℝ, ∀ o o', WFine ε β warm pb o → WFine ε β warm' pb' o' → ∀ s s', WarmSolves o pb as .success s → WarmSolves o' pb' as' .success s' →
      ∀ μ > 0, (∀ v : Nat → ℝ, μ * ∑ i ∈ range pb.n, v i ^ 2 ≤ ∑ i ∈ range pb.n, ∑ j ∈ range pb.n, v i * hess pb i j * v j) →
        μ ^ 2 * ∑ i ∈ range pb.n, (s'.x i - s.x i) ^ 2 ≤ ∑ i ∈ range pb.n, (pb'.a i - pb.a i) ^ 2 := by
  obtain ⟨ε, hε, β, hh⟩ := two_warm_answers hr hr' ha ha'
  refine ⟨ε, hε, β, fun o o' ho ho' s s' h1 h2 => ?_⟩
  obtain ⟨a1, a2⟩ := hh o o' ho ho' _ _ h1 h2
  exact (a1.stability hr hr' h a2).2

/-- Feasible problems are solved: with a good warm start and fine options, from every history, the status is `SUCCESS`. -/
theorem C98_solved {pb : Pb ℝ EReal} (hr : StdPb pb) {warm : Bool} {as : List Status} (ha : GoodWarm warm pb as) (hf : ∃ y, Feasible pb y) :
    ∃ ε > 0, ∃ β : ℝ, ∀ o, WFine ε β warm pb o → ∀ t s, WarmSolves o pb as t s → t = .success := by
  obtain ⟨ε, hε, β, hh⟩ := warm_answers hr ha
  refine ⟨ε, hε, β, fun o ho t s h => ?_⟩
  rcases hh o ho _ _ h with ⟨g, _⟩ | ⟨_, g⟩
  · exact g
  · exact absurd hf g

/-- A feasible warm-started solve exists for all fine options. -/
theorem warm_exists {pb : Pb ℝ EReal} (hr : StdPb pb) {warm : Bool} {as : List Status} (ha : GoodWarm warm pb as) :
    ∃ ε > 0, ∃ β : ℝ, ∀ o, WFine ε β warm pb o → ∃ t s, WarmSolves o pb as t s := by
  obtain ⟨e, he⟩ := hr.eqFirst
  obtain ⟨ε, hε, β, hh⟩ := C24_thresholds_partial (o0 := ⟨0, 0, warm, 0, false⟩) hr.proper hr.notCrossed hr.posDef he ha.explicit ha.arg ha.noFalseEq
    (ha.eqAct e he) ha.indep
  refine ⟨ε, hε, β, fun o ho => ?_⟩
  obtain ⟨ys, u, ys', d1, d2, _⟩ := hh o ho.2.1 ho.1.1 ho.1.2.1 ho.1.2.2.1 [] (by simp)
  exact ⟨u, ys'.s, [], ys, ys', by simp, d1, d2, rfl⟩

/-- `exPbW` with another objective vector. -/
noncomputable def exPbV (v : Nat → ℝ) : Pb ℝ EReal := { exPbW with a := v }

/-- The hypotheses of C98 are met: the example of C94 and the same with any other objective vector, warm-started from the same statuses. -/
theorem C98_hypotheses_met : StdPb exPbW ∧ GoodWarm true exPbW exAs ∧ (∃ y, Feasible exPbW y) ∧
    ∀ v, StdPb (exPbV v) ∧ GoodWarm true (exPbV v) exAs ∧ (∃ y, Feasible (exPbV v) y) ∧ SameButVector exPbW (exPbV v) := by
  obtain ⟨h1, h2, -⟩ := C94_hypotheses_met
  have hf : ∃ y, Feasible exPbW y := by
    obtain ⟨o, _, ho⟩ := exPbW_solved
    obtain ⟨_, xs', _, _, g⟩ := ho [] (by simp)
    exact ⟨_, g.1.1⟩
  have hfe : ∀ v y, Feasible (exPbV v) y ↔ Feasible exPbW y := fun v y => ⟨fun h => ⟨h.1, h.2⟩, fun h => ⟨h.1, h.2⟩⟩
  refine ⟨h1, h2, hf, fun v => ⟨⟨⟨h1.proper.1, h1.proper.2, h1.proper.3, h1.proper.4⟩, ⟨h1.notCrossed.1, h1.notCrossed.2⟩, h1.posDef, ?_, ?_⟩,
    ⟨h2.explicit, ⟨h2.arg.len, h2.arg.opt, h2.arg.kind.1, h2.arg.kind.2⟩, h2.noFalseEq, ?_, h2.indep⟩, ?_, ⟨rfl, rfl, fun x => hfe v x⟩⟩⟩
  · obtain ⟨e, he⟩ := h1.eqFirst
    exact ⟨e, he⟩
  · exact h1.indep
  · exact fun e he => h2.eqAct e he
  · obtain ⟨y, hy⟩ := hf
    exact ⟨y, (hfe v y).2 hy⟩

/-- `exPbW` with another right-hand side. -/
noncomputable def exPbC (c : ℝ) : Pb ℝ EReal := { exPbW with bl := fun _ => ((c : ℝ) : EReal) }

/-- The hypotheses of `C98_shadow_prices` are met: the same example with any right-hand side up to 3, for all multipliers that have a sign for the finite
side only. -/
theorem C98_shadow_hypotheses_met {c : ℝ} (hc : c ≤ 3) : StdPb (exPbC c) ∧ GoodWarm true (exPbC c) exAs ∧ (∃ y, Feasible (exPbC c) y) ∧
    SameButBounds exPbW (exPbC c) ∧ ∀ lam : Nat → ℝ, lam 0 ≤ 0 → StillFinite exPbW (exPbC c) lam := by
  obtain ⟨h1, h2, h3, -⟩ := C98_hypotheses_met
  have heq : ∀ i < 3, isEqB (exPbC c) i = false := by
    intro i hi
    by_cases h0 : i = 0
    · subst h0
      exact decide_eq_false (EReal.coe_ne_top c)
    · have e : isEqB (exPbC c) i = isEqB exPbW i := by
        have hi' : i = 1 ∨ i = 2 := by omega
        rcases hi' with rfl | rfl <;> rfl
      rw [e]; exact exPbW_isEq i hi
  have hn3 : (exPbC c).m + (exPbC c).nb = 3 := rfl
  have hno : ∀ i < 3, ¬ IsEqIdx (exPbC c) i := fun i hi hh => by
    have h10 : isEqB (exPbC c) i = true := (isEqC_iff (pb := exPbC c) (i := i)).2 hh
    rw [heq i hi] at h10
    cases h10
  refine ⟨⟨⟨fun _ _ => EReal.coe_ne_top _, h1.proper.2, h1.proper.3, h1.proper.4⟩, ⟨fun _ _ => le_top, h1.notCrossed.2⟩, h1.posDef, ⟨0, Nat.zero_le _, ?_⟩, ?_⟩,
    ⟨h2.explicit, ⟨h2.arg.len, h2.arg.opt, h2.arg.kind.1, h2.arg.kind.2⟩, ?_, ?_, ?_⟩, ?_, ⟨rfl, rfl, rfl, rfl, rfl, rfl⟩, fun lam hl => ⟨?_, ?_, ?_, ?_⟩⟩
  · intro i hi
    rw [heq i (by rw [hn3] at hi; exact hi)]; simp
  · intro d hd _ i
    refine hd i fun hh => ?_
    rw [hn3] at hh
    exact hno i hh.1 hh.2
  · intro _ i hi h
    have : i = 0 := by have : i < 1 := hi; omega
    subst this
    cases h
  · intro e he
    left
    by_contra hne
    have h := (he.2 0 (by rw [hn3]; norm_num)).2 (by omega)
    rw [heq 0 (by norm_num)] at h
    cases h
  · intro d hd hs
    refine h2.indep d (fun i hi => hd i fun hh => hi ⟨hh.1, ?_⟩) hs
    rcases hh.2 with g | g
    · exact absurd g (hno i (by rw [hn3] at hh; exact hh.1))
    · exact Or.inr g
  · obtain ⟨y, hy⟩ := h3
    exact ⟨y, fun i hi => ⟨(EReal.coe_le_coe_iff.2 hc).trans (hy.gen i hi).1, le_top⟩, hy.bnd⟩
  · intro i _ _; exact EReal.coe_ne_bot _
  · intro i hi h
    have : i = 0 := by have : i < 1 := hi; omega
    subst this
    exact absurd h (not_lt.2 hl)
  · intro _ i _ _; exact EReal.coe_ne_bot _
  · intro _ i _ _
    simp only [exPbC, exPbW]
    split_ifs <;> exact EReal.coe_ne_top _

end JrlQp
