import Verif.PropsWarmMeta
import Verif.PropsChange

/-!
# C103: when the multipliers are unique
-/

namespace JrlQp

open NumOps Finset Spec

/-! ### Specification -/

/-- The gradients of the constraints and bounds with a tight side at `x` are linearly independent. -/
def TightIndep (pb : Pb ℝ EReal) (x : Nat → ℝ) : Prop :=
  ∀ c : Nat → ℝ, (∀ i < pb.m, ((row pb x i : ℝ) : EReal) ≠ pb.bl i → ((row pb x i : ℝ) : EReal) ≠ pb.bu i → c i = 0) →
    (pb.useBnd = true → ∀ i < pb.n, ((x i : ℝ) : EReal) ≠ pb.xl i → ((x i : ℝ) : EReal) ≠ pb.xu i → c (pb.m + i) = 0) →
    (∀ a < pb.n, ∑ i ∈ range pb.m, c i * pb.C a i + (if pb.useBnd then c (pb.m + a) else 0) = 0) →
    (∀ i < pb.m, c i = 0) ∧ (pb.useBnd = true → ∀ i < pb.n, c (pb.m + i) = 0)

/-- `mu` and `lam` are the same multipliers, for the constraints and for the bounds. -/
def SameMultipliers (pb : Pb ℝ EReal) (mu lam : Nat → ℝ) : Prop :=
  (∀ i < pb.m, mu i = lam i) ∧ (pb.useBnd = true → ∀ i < pb.n, mu (pb.m + i) = lam (pb.m + i))

/-! ### Proofs -/

theorem row_congr' (pb : Pb ℝ EReal) {x y : Nat → ℝ} (h : ∀ i < pb.n, x i = y i) (i : Nat) : row pb x i = row pb y i :=
  sum_congr rfl fun a ha => by rw [h a (mem_range.1 ha)]

theorem kkt_unique {pb : Pb ℝ EReal} {x y lam mu : Nat → ℝ} (hxy : ∀ i < pb.n, y i = x i) (k : KKT pb x lam) (k' : KKT pb y mu)
    (hi : TightIndep pb x) : SameMultipliers pb mu lam := by
  have h := hi (fun i => mu i - lam i) ?_ ?_ ?_
  · exact ⟨fun i hi => sub_eq_zero.1 (h.1 i hi), fun hb i hi => sub_eq_zero.1 (h.2 hb i hi)⟩
  · intro i hi hl hu
    have e : lam i = 0 := by
      rcases lt_trichotomy (lam i) 0 with g | g | g
      · exact absurd (k.lower i hi g) hl
      · exact g
      · exact absurd (k.upper i hi g) hu
    have e' : mu i = 0 := by
      rw [← row_congr' pb hxy] at hl hu
      rcases lt_trichotomy (mu i) 0 with g | g | g
      · exact absurd (k'.lower i hi g) hl
      · exact g
      · exact absurd (k'.upper i hi g) hu
    show mu i - lam i = 0
    rw [e, e', sub_zero]
  · intro hb i hi hl hu
    have e : lam (pb.m + i) = 0 := by
      rcases lt_trichotomy (lam (pb.m + i)) 0 with g | g | g
      · exact absurd (k.lowerBnd hb i hi g) hl
      · exact g
      · exact absurd (k.upperBnd hb i hi g) hu
    have e' : mu (pb.m + i) = 0 := by
      rw [← hxy i hi] at hl hu
      rcases lt_trichotomy (mu (pb.m + i)) 0 with g | g | g
      · exact absurd (k'.lowerBnd hb i hi g) hl
      · exact g
      · exact absurd (k'.upperBnd hb i hi g) hu
    show mu (pb.m + i) - lam (pb.m + i) = 0
    rw [e, e', sub_zero]
  · intro a ha
    have h1 := k.stationary a ha
    have h2 := k'.stationary a ha
    rw [sum_congr rfl (g := fun b => hess pb a b * x b) fun b hb => by rw [hxy b (mem_range.1 hb)]] at h2
    have e : ∑ i ∈ range pb.m, (mu i - lam i) * pb.C a i = ∑ i ∈ range pb.m, mu i * pb.C a i - ∑ i ∈ range pb.m, lam i * pb.C a i := by
      rw [← sum_sub_distrib]; exact sum_congr rfl fun i _ => by ring
    rw [e]
    split_ifs at h1 h2 ⊢ <;> linarith

/-- **C103.** When the gradients of the tight constraints and bounds at the solution are linearly independent, `multipliers()` after a successful
solve (any history, any options with fine enough thresholds) returns the only multipliers that satisfy the Karush-Kuhn-Tucker conditions. -/
theorem C103_unique {pb : Pb ℝ EReal} (hr : StdPb pb) {x lam : Nat → ℝ} (k : KKT pb x lam) (hi : TightIndep pb x) :
    ∃ ε > 0, ∃ β : ℝ, ∀ o, Fine ε β pb o → ∀ t s, Solves o pb t s → t = .success ∧ (∀ i < pb.n, s.x i = x i) ∧
      SameMultipliers pb (multipliers s).u lam := by
  obtain ⟨ε, hε, β, hh⟩ := hr.answers
  refine ⟨ε, hε, β, fun o ho t s hs => ?_⟩
  have a := hh o ho t s hs
  have ht : t = .success := a.feasible_iff.2 ⟨x, k.feasible⟩
  have hx : ∀ i < pb.n, s.x i = x i := fun i hi => ((a.optimal ht).2 x (kkt_isOptimal hr k) i hi).symm
  exact ⟨ht, hx, kkt_unique hx k (a.kkt ht) hi⟩

/-- **C103, warm start.** The same for the warm-started solver; so it returns the same multipliers as the other solver, whatever the warm start. -/
theorem C103_warm {pb : Pb ℝ EReal} (hr : StdPb pb) {x lam : Nat → ℝ} (k : KKT pb x lam) (hi : TightIndep pb x) {warm : Bool} {as : List Status}
    (ha : GoodWarm warm pb as) :
    ∃ ε > 0, ∃ β : ℝ, ∀ o, WFine ε β warm pb o → ∀ t s, WarmSolves o pb as t s → t = .success ∧ (∀ i < pb.n, s.x i = x i) ∧
      SameMultipliers pb (multipliers s).u lam := by
  obtain ⟨ε, hε, β, hh⟩ := warm_answers hr ha
  refine ⟨ε, hε, β, fun o ho t s hs => ?_⟩
  rcases hh o ho t s hs with ⟨ht, a⟩ | ⟨_, h⟩
  · have hx : ∀ i < pb.n, s.x i = x i := fun i hi => ((a.optimal rfl).2 x (kkt_isOptimal hr k) i hi).symm
    exact ⟨ht, hx, kkt_unique hx k (a.kkt rfl) hi⟩
  · exact absurd ⟨x, k.feasible⟩ h

/-- The hypotheses of the C103 theorems are met: the example of C94, with two tight sides. -/
theorem C103_hypotheses_met : ∃ x lam, StdPb exPbW ∧ GoodWarm true exPbW exAs ∧ KKT exPbW x lam ∧ TightIndep exPbW x ∧ lam 0 < 0 ∧ 0 < lam 1 := by
  obtain ⟨h1, h2, -⟩ := C98_hypotheses_met
  have hrow : row exPbW (fun i => if i = 0 then 1 else 2) 0 = 3 := by
    simp [row, exPbW, sum_range_succ]; norm_num
  refine ⟨fun i => if i = 0 then 1 else 2, fun i => if i = 0 then -2 else if i = 1 then 1 else 0, h1, h2, ⟨⟨?_, ?_⟩, ?_, ?_, ?_, ?_, ?_⟩, ?_, ?_, ?_⟩
  · intro i hi
    obtain rfl : i = 0 := by have : i < 1 := hi; omega
    rw [hrow]
    exact ⟨le_rfl, le_top⟩
  · intro _ i hi
    have hi : i < 2 := hi
    interval_cases i
    · refine ⟨EReal.coe_le_coe_iff.2 ?_, EReal.coe_le_coe_iff.2 ?_⟩ <;> norm_num
    · refine ⟨EReal.coe_le_coe_iff.2 ?_, EReal.coe_le_coe_iff.2 ?_⟩ <;> norm_num
  · intro a ha
    have ha : a < 2 := ha
    interval_cases a <;> simp [exPbW, hess, sum_range_succ] <;> norm_num
  · intro i hi _
    obtain rfl : i = 0 := by have : i < 1 := hi; omega
    rw [hrow]; rfl
  · intro i hi h
    obtain rfl : i = 0 := by have : i < 1 := hi; omega
    norm_num at h
  · intro _ i hi h
    have hi : i < 2 := hi
    interval_cases i <;> norm_num [exPbW] at h
  · intro _ i hi h
    have hi : i < 2 := hi
    interval_cases i
    · rfl
    · norm_num [exPbW] at h
  · intro c _ hc hs
    have h3 : c 2 = 0 := by
      refine hc rfl 1 (by decide : 1 < 2) (fun h => ?_) fun h => ?_
      · have := EReal.coe_eq_coe_iff.1 h; norm_num at this
      · have := EReal.coe_eq_coe_iff.1 h; norm_num at this
    have e0 := hs 0 (by decide : 0 < 2)
    have e1 := hs 1 (by decide : 1 < 2)
    simp [exPbW] at e0 e1
    rw [h3, add_zero] at e1
    rw [e1, zero_add] at e0
    refine ⟨fun i hi => ?_, fun _ i hi => ?_⟩
    · obtain rfl : i = 0 := by have : i < 1 := hi; omega
      exact e1
    · have hi : i < 2 := hi
      interval_cases i
      · exact e0
      · exact h3
  · norm_num
  · norm_num

end JrlQp
