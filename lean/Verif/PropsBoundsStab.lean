import Verif.PropsWarmMeta

/-! C99: sensitivity of the solution to the right-hand sides and bounds (exact arithmetic). -/

namespace JrlQp

open NumOps Finset Spec

/-! ## Specification -/

/-- A side of a constraint is moved by at most `δ`; infinite sides stay infinite. -/
def SideMoved (δ : ℝ) (b b' : EReal) : Prop := b' = b ∨ ∃ v v' : ℝ, b = (v : EReal) ∧ b' = (v' : EReal) ∧ |v' - v| ≤ δ

/-- All the sides of `pb'` are those of `pb`, moved by at most `δ`. -/
structure SidesMoved (δ : ℝ) (pb pb' : Pb ℝ EReal) : Prop where
  bl : ∀ i < pb.m, SideMoved δ (pb.bl i) (pb'.bl i)
  bu : ∀ i < pb.m, SideMoved δ (pb.bu i) (pb'.bu i)
  xl : pb.useBnd = true → ∀ i < pb.n, SideMoved δ (pb.xl i) (pb'.xl i)
  xu : pb.useBnd = true → ∀ i < pb.n, SideMoved δ (pb.xu i) (pb'.xu i)

/-- Sum of the absolute values of the multipliers. -/
def absSum (pb : Pb ℝ EReal) (lam : Nat → ℝ) : ℝ := ∑ i ∈ range (pb.m + pb.nb), |lam i|

/-! ## Lemmas -/

theorem SideMoved.symm {δ : ℝ} {b b' : EReal} (h : SideMoved δ b b') : SideMoved δ b' b := by
  rcases h with h | ⟨v, v', h1, h2, h3⟩
  · exact .inl h.symm
  · exact .inr ⟨v', v, h2, h1, by rwa [abs_sub_comm]⟩

theorem SideMoved.toReal {δ : ℝ} (hδ : 0 ≤ δ) {b b' : EReal} (h : SideMoved δ b b') : |b'.toReal - b.toReal| ≤ δ := by
  rcases h with h | ⟨v, v', h1, h2, h3⟩
  · rw [h, sub_self, abs_zero]; exact hδ
  · rw [h1, h2, EReal.toReal_coe, EReal.toReal_coe]; exact h3

theorem SideMoved.finite {δ : ℝ} {b b' : EReal} (h : SideMoved δ b b') {w : ℝ} (hw : ((w : ℝ) : EReal) = b) : ∃ w' : ℝ, b' = ((w' : ℝ) : EReal) := by
  rcases h with h | ⟨v, v', _, h2, _⟩
  · exact ⟨w, by rw [h, hw]⟩
  · exact ⟨v', h2⟩

theorem SidesMoved.symm {δ : ℝ} {pb pb' : Pb ℝ EReal} (hs : SameButBounds pb pb') (h : SidesMoved δ pb pb') : SidesMoved δ pb' pb :=
  ⟨fun i hi => (h.bl i (hs.m ▸ hi)).symm, fun i hi => (h.bu i (hs.m ▸ hi)).symm, fun hb i hi => (h.xl (hs.useBnd ▸ hb) i (hs.n ▸ hi)).symm,
    fun hb i hi => (h.xu (hs.useBnd ▸ hb) i (hs.n ▸ hi)).symm⟩

theorem price_ge {δ : ℝ} (hδ : 0 ≤ δ) (l : ℝ) {lo up lo' up' : EReal} (h1 : SideMoved δ lo lo') (h2 : SideMoved δ up up') :
    -(δ * |l|) ≤ price l lo up lo' up' := by
  have key : ∀ d : ℝ, |d| ≤ δ → -(δ * |l|) ≤ -l * d := by
    intro d hd
    have h3 : |l * d| ≤ |l| * δ := by rw [abs_mul]; exact mul_le_mul_of_nonneg_left hd (abs_nonneg _)
    have h4 := le_abs_self (l * d)
    linarith
  unfold price
  split_ifs
  · exact key _ (h1.toReal hδ)
  · exact key _ (h2.toReal hδ)
  · have := mul_nonneg hδ (abs_nonneg l); linarith

theorem prices_ge {δ : ℝ} (hδ : 0 ≤ δ) {pb pb' : Pb ℝ EReal} (h : SidesMoved δ pb pb') (lam : Nat → ℝ) : -(δ * absSum pb lam) ≤ prices pb pb' lam := by
  have g1 : -(δ * ∑ i ∈ range pb.m, |lam i|) ≤ ∑ i ∈ range pb.m, price (lam i) (pb.bl i) (pb.bu i) (pb'.bl i) (pb'.bu i) := by
    rw [mul_sum, ← sum_neg_distrib]
    exact sum_le_sum fun i hi => price_ge hδ _ (h.bl i (mem_range.1 hi)) (h.bu i (mem_range.1 hi))
  have g2 : -(δ * ∑ i ∈ range pb.nb, |lam (pb.m + i)|)
      ≤ if pb.useBnd then ∑ i ∈ range pb.n, price (lam (pb.m + i)) (pb.xl i) (pb.xu i) (pb'.xl i) (pb'.xu i) else 0 := by
    by_cases hb : pb.useBnd = true
    · have hnb : pb.nb = pb.n := by simp [Pb.nb, hb]
      rw [if_pos hb, hnb, mul_sum, ← sum_neg_distrib]
      exact sum_le_sum fun i hi => price_ge hδ _ (h.xl hb i (mem_range.1 hi)) (h.xu hb i (mem_range.1 hi))
    · have hnb : pb.nb = 0 := by simp [Pb.nb, hb]
      rw [if_neg hb, hnb]; simp
  unfold prices absSum
  rw [sum_range_add, mul_add]
  linarith

theorem SidesMoved.stillFinite {δ : ℝ} {pb pb' : Pb ℝ EReal} (h : SidesMoved δ pb pb') {x lam : Nat → ℝ} (k : KKT pb x lam) : StillFinite pb pb' lam := by
  refine ⟨fun i hi hl => ?_, fun i hi hl => ?_, fun hb i hi hl => ?_, fun hb i hi hl => ?_⟩
  · obtain ⟨w, e⟩ := (h.bl i hi).finite (k.lower i hi hl); rw [e]; exact EReal.coe_ne_bot _
  · obtain ⟨w, e⟩ := (h.bu i hi).finite (k.upper i hi hl); rw [e]; exact EReal.coe_ne_top _
  · obtain ⟨w, e⟩ := (h.xl hb i hi).finite (k.lowerBnd hb i hi hl); rw [e]; exact EReal.coe_ne_bot _
  · obtain ⟨w, e⟩ := (h.xu hb i hi).finite (k.upperBnd hb i hi hl); rw [e]; exact EReal.coe_ne_top _

theorem Answer.boundsStability {δ : ℝ} (hδ : 0 ≤ δ) {pb pb' : Pb ℝ EReal} (h : SameButBounds pb pb') (hm : SidesMoved δ pb pb') (hr : StdPb pb) {s s' : State ℝ}
    (a1 : Answer pb .success s) (a2 : Answer pb' .success s') :
    s.f - s'.f ≤ δ * absSum pb (multipliers s).u ∧ s'.f - s.f ≤ δ * absSum pb' (multipliers s').u ∧
      ∑ i ∈ range pb.n, ∑ j ∈ range pb.n, (s'.x i - s.x i) * hess pb i j * (s'.x j - s.x j)
        ≤ δ * (absSum pb (multipliers s).u + absSum pb' (multipliers s').u) := by
  have h' : SameButBounds pb' pb := ⟨h.n.symm, h.m.symm, h.useBnd.symm, h.G.symm, h.a.symm, h.C.symm⟩
  have hm' := hm.symm h
  have k1 := a1.kkt rfl
  have k2 := a2.kkt rfl
  have e1 := prices_le_quad h k1 k2.feasible (hm.stillFinite k1)
  have e2 := prices_le_quad h' k2 k1.feasible (hm'.stillFinite k2)
  have e3 := prices_ge hδ hm (multipliers s).u
  have e4 := prices_ge hδ hm' (multipliers s').u
  have hq : quadForm pb' (fun i => s.x i - s'.x i) = quadForm pb (fun i => s'.x i - s.x i) := by
    have hH : ∀ a b, hess pb' a b = hess pb a b := by intro a b; unfold hess; rw [h.G]
    unfold quadForm
    rw [h.n]
    exact sum_congr rfl fun i _ => sum_congr rfl fun j _ => by rw [hH]; ring
  rw [hq, ← a1.value, ← a2.value] at e2
  rw [← a1.value, ← a2.value] at e1
  have hq0 := quadForm_nonneg hr (fun i => s'.x i - s.x i)
  refine ⟨by linarith, by linarith, ?_⟩
  change quadForm pb (fun i => s'.x i - s.x i) ≤ _
  rw [mul_add]
  linarith

/-! ## Theorems -/

/-- **C99.** Moving the right-hand sides and bounds by at most `δ` moves `objectiveValue()` by at most `δ` times the sum of the multipliers, and the squared
distance between the two solutions, in the norm of the Hessian, is at most `δ` times the sum of the multipliers of both solves. Any histories, options
with fine enough thresholds. -/
theorem C99_bounds_stability {pb pb' : Pb ℝ EReal} (hr : StdPb pb) (hr' : StdPb pb') (h : SameButBounds pb pb') {δ : ℝ} (hδ : 0 ≤ δ)
    (hm : SidesMoved δ pb pb') :
    ∃ ε > 0, ∃ β : ℝ, ∀ o o', Fine ε β pb o → Fine ε β pb' o' → ∀ s s', Solves o pb .success s → Solves o' pb' .success s' →
      s.f - s'.f ≤ δ * absSum pb (multipliers s).u ∧ s'.f - s.f ≤ δ * absSum pb' (multipliers s').u ∧
      ∑ i ∈ range pb.n, ∑ j ∈ range pb.n, (s'.x i - s.x i) * hess pb i j * (s'.x j - s.x j)
        ≤ δ * (absSum pb (multipliers s).u + absSum pb' (multipliers s').u) := by
  obtain ⟨ε, hε, β, hh⟩ := two_answers hr hr'
  refine ⟨ε, hε, β, fun o o' ho ho' s s' h1 h2 => ?_⟩
  obtain ⟨a1, a2⟩ := hh o o' ho ho' _ _ _ _ h1 h2
  exact a1.boundsStability hδ h hm hr a2

/-- **C99** for two warm-started solves, whatever statuses they start from. -/
theorem C99_warm_bounds_stability {pb pb' : Pb ℝ EReal} (hr : StdPb pb) (hr' : StdPb pb') (h : SameButBounds pb pb') {δ : ℝ} (hδ : 0 ≤ δ)
    (hm : SidesMoved δ pb pb') {warm warm' : Bool} {as as' : List Status} (ha : GoodWarm warm pb as) (ha' : GoodWarm warm' pb' as') :
    ∃ ε > 0, ∃ β : ℝ, ∀ o o', WFine ε β warm pb o → WFine ε β warm' pb' o' → ∀ s s', WarmSolves o pb as .success s → WarmSolves o' pb' as' .success s' →
      s.f - s'.f ≤ δ * absSum pb (multipliers s).u ∧ s'.f - s.f ≤ δ * absSum pb' (multipliers s').u ∧
      ∑ i ∈ range pb.n, ∑ j ∈ range pb.n, (s'.x i - s.x i) * hess pb i j * (s'.x j - s.x j)
        ≤ δ * (absSum pb (multipliers s).u + absSum pb' (multipliers s').u) := by
  obtain ⟨ε, hε, β, hh⟩ := two_warm_answers hr hr' ha ha'
  refine ⟨ε, hε, β, fun o o' ho ho' s s' h1 h2 => ?_⟩
  obtain ⟨a1, a2⟩ := hh o o' ho ho' _ _ h1 h2
  exact a1.boundsStability hδ h hm hr a2

/-- The hypotheses of C99 are met: the example of C98 with its right-hand side moved from 3 to 5/2, for cold and warm-started solves. -/
theorem C99_hypotheses_met : StdPb exPbW ∧ StdPb (exPbC (5 / 2)) ∧ SameButBounds exPbW (exPbC (5 / 2)) ∧ SidesMoved (1 / 2) exPbW (exPbC (5 / 2)) ∧
    ¬ SidesMoved (1 / 4) exPbW (exPbC (5 / 2)) ∧ GoodWarm true exPbW exAs ∧ GoodWarm true (exPbC (5 / 2)) exAs ∧
    (∃ y, Feasible exPbW y) ∧ ∃ y, Feasible (exPbC (5 / 2)) y := by
  obtain ⟨h1, h2, h3, -⟩ := C98_hypotheses_met
  obtain ⟨g1, g2, g3, g4, -⟩ := C98_shadow_hypotheses_met (c := 5 / 2) (by norm_num)
  refine ⟨h1, g1, g4, ⟨fun i _ => .inr ⟨3, 5 / 2, rfl, rfl, ?_⟩, fun _ _ => .inl rfl, fun _ _ _ => .inl rfl, fun _ _ _ => .inl rfl⟩, fun hm => ?_, h2, g2, h3, g3⟩
  · rw [abs_le]; constructor <;> norm_num
  · rcases hm.bl 0 (by simp [exPbW]) with h | ⟨v, v', e1, e2, e3⟩
    · have h : ((5 / 2 : ℝ) : EReal) = ((3 : ℝ) : EReal) := h
      rw [EReal.coe_eq_coe_iff] at h
      norm_num at h
    · have e1 : ((3 : ℝ) : EReal) = v := e1
      have e2 : ((5 / 2 : ℝ) : EReal) = v' := e2
      rw [EReal.coe_eq_coe_iff] at e1 e2
      rw [← e1, ← e2, abs_le] at e3
      norm_num at e3

end JrlQp
