import Verif.PropsExpEx
import Verif.PropsCounter
import Mathlib.LinearAlgebra.Dimension.Finite
import Mathlib.LinearAlgebra.Dimension.Constructions
import Mathlib.Data.Real.StarOrdered

/-!
# Warm start with an optimal active set (C51)

Specification, independent of the solver: `OptimalStart ws pb as x lam` says that `x`, `lam` is a KKT pair and that the
warm-start vector `as` names the sides at which the multipliers live.
-/

namespace JrlQp

open NumOps Finset Spec

namespace Spec

/-- Status given to constraint `i` (general constraints first, then bounds) by the warm start; none if the option is off. -/
def startStatus (ws : Bool) (as : List Status) (i : Nat) : Status := if ws then as.getD i .inactive else .inactive

/-- `x`, `lam` satisfy the KKT conditions, and for each inequality the warm-start vector is `INACTIVE` where the multiplier
is zero, or names a side that is reached by `x` and agrees with the sign of the multiplier. Nothing is asked for the
equalities. -/
structure OptimalStart (ws : Bool) (pb : Pb ℝ EReal) (as : List Status) (x lam : Nat → ℝ) : Prop where
  kkt : KKT pb x lam
  gen : ∀ i < pb.m, pb.bl i ≠ pb.bu i →
    (startStatus ws as i = .inactive ∧ lam i = 0) ∨
    (startStatus ws as i = .lower ∧ ((row pb x i : ℝ) : EReal) = pb.bl i ∧ lam i ≤ 0) ∨
    (startStatus ws as i = .upper ∧ ((row pb x i : ℝ) : EReal) = pb.bu i ∧ 0 ≤ lam i)
  bnd : pb.useBnd = true → ∀ i < pb.n, pb.xl i ≠ pb.xu i →
    (startStatus ws as (pb.m + i) = .inactive ∧ lam (pb.m + i) = 0) ∨
    (startStatus ws as (pb.m + i) = .lowerBound ∧ ((x i : ℝ) : EReal) = pb.xl i ∧ lam (pb.m + i) ≤ 0) ∨
    (startStatus ws as (pb.m + i) = .upperBound ∧ ((x i : ℝ) : EReal) = pb.xu i ∧ 0 ≤ lam (pb.m + i))

/-- The sides named by the warm-start vector are not infinite for the solver: their absolute values do not exceed `bigBnd`. -/
structure StartInRange (big : ℝ) (ws : Bool) (pb : Pb ℝ EReal) (as : List Status) : Prop where
  lower : ∀ i < pb.m, startStatus ws as i = .lower → ((-big : ℝ) : EReal) ≤ pb.bl i
  upper : ∀ i < pb.m, startStatus ws as i = .upper → pb.bu i ≤ ((big : ℝ) : EReal)
  lowerBnd : ∀ i < pb.n, startStatus ws as (pb.m + i) = .lowerBound → ((-big : ℝ) : EReal) ≤ pb.xl i
  upperBnd : ∀ i < pb.n, startStatus ws as (pb.m + i) = .upperBound → pb.xu i ≤ ((big : ℝ) : EReal)

end Spec

/-! ## Sums over the active set -/

/-- A sum over the active constraints is a sum over all constraints, if the inactive ones do not contribute. -/
theorem sum_active {pb : Pb ℝ EReal} {A : ActiveSet} (hw : A.WF) (hm : A.nbCstr = pb.m) (hb : A.nbBnd = pb.nb) (f : Nat → ℝ)
    (hz : ∀ i < pb.m + pb.nb, A.statusAt i = .inactive → f i = 0) :
    ∑ k ∈ range A.q, f (A.get k) = ∑ i ∈ range (pb.m + pb.nb), f i := by
  have hinj : ∀ j ∈ range A.q, ∀ k ∈ range A.q, A.get j = A.get k → j = k := by
    intro j hj k hk he
    rw [mem_range, hw.q_eq] at hj hk
    rw [ActiveSet.get, ActiveSet.get, List.getD_eq_getElem _ _ hj, List.getD_eq_getElem _ _ hk] at he
    exact (hw.nodup.getElem_inj_iff).1 he
  rw [← sum_image (f := f) (g := fun k => A.get k) hinj]
  apply sum_subset
  · intro i hi
    obtain ⟨k, hk, rfl⟩ := mem_image.1 hi
    rw [mem_range, hw.q_eq] at hk
    have h1 := (ActiveSet.get_lt A hw k hk).1
    rw [hw.size, hm, hb] at h1
    exact mem_range.2 h1
  · intro i hi hn
    have hi := mem_range.1 hi
    apply hz i hi
    by_contra hne
    apply hn
    have hmem := (hw.mem i).2 ⟨by rw [hw.size, hm, hb]; exact hi, hne⟩
    obtain ⟨k, hk, he⟩ := List.getElem_of_mem hmem
    refine mem_image.2 ⟨k, by rw [mem_range, hw.q_eq]; exact hk, ?_⟩
    rw [ActiveSet.get, List.getD_eq_getElem _ _ hk, he]

theorem grad_gen {pb : Pb ℝ EReal} {i : Nat} (hi : i < pb.m) (a : Nat) : grad pb i a = pb.C a i := by simp [grad, hi]

/-- The constraint part of the stationarity condition. -/
theorem sum_lam_grad (pb : Pb ℝ EReal) (lam : Nat → ℝ) {a : Nat} (ha : a < pb.n) :
    ∑ i ∈ range (pb.m + pb.nb), lam i * grad pb i a
      = ∑ i ∈ range pb.m, lam i * pb.C a i + (if pb.useBnd then lam (pb.m + a) else 0) := by
  rw [sum_range_add]
  congr 1
  · exact sum_congr rfl fun i hi => by rw [grad_gen (mem_range.1 hi)]
  · have e : ∀ j ∈ range pb.nb, lam (pb.m + j) * grad pb (pb.m + j) a = if a = j then lam (pb.m + a) else 0 := by
      intro j _
      have : ¬ pb.m + j < pb.m := by omega
      simp only [grad, this, if_false, Nat.add_sub_cancel_left]
      split_ifs with h
      · rw [h, mul_one]
      · rw [mul_zero]
    rw [sum_congr rfl e, sum_ite_eq]
    unfold Pb.nb
    cases pb.useBnd <;> simp [ha]

/-! ## The wanted statuses -/

theorem isEqC_iff {pb : Pb ℝ EReal} {i : Nat} : isEqC pb i = true ↔ IsEqIdx pb i := by
  unfold isEqC IsEqIdx
  split_ifs with h
  · have : ¬ pb.m ≤ i := by omega
    simp [bEq, h, this]
  · have : pb.m ≤ i := by omega
    simp [bEq, h, this]

/-- What the initial active set contains, for an optimal warm start. -/
theorem want_start {o : Opts ℝ} {pb : Pb ℝ EReal} {as : List Status} {x lam : Nat → ℝ}
    (hs : OptimalStart o.warmStart pb as x lam) (hr : StartInRange o.bigBnd o.warmStart pb as) {i : Nat} (hi : i < pb.m + pb.nb) :
    (IsEqIdx pb i ∧ want o pb as i = if i < pb.m then .equality else .fixed) ∨
    (¬ IsEqIdx pb i ∧ want o pb as i = startStatus o.warmStart as i) := by
  by_cases he : isEqC pb i = true
  · exact Or.inl ⟨isEqC_iff.1 he, by unfold want; rw [if_pos he]⟩
  right
  have hne : ¬ IsEqIdx pb i := fun h => he (isEqC_iff.2 h)
  refine ⟨hne, ?_⟩
  unfold want startStatus
  rw [if_neg he]
  cases hw : o.warmStart with
  | false => rfl
  | true =>
    simp only [if_true]
    rw [if_neg]
    have hb : ∀ a b : EReal, bLt ℝ a b = true ↔ a < b := by intro a b; simp [bLt]
    have hss : startStatus true as i = as.getD i .inactive := rfl
    by_cases hlt : i < pb.m
    · have h1 := hs.gen i hlt (fun e => hne (Or.inl ⟨hlt, e⟩))
      have hl := hr.lower i hlt
      have hu := hr.upper i hlt
      rw [hw] at h1 hl hu
      rw [hss] at h1 hl hu
      rcases h1 with ⟨h1, _⟩ | ⟨h1, _⟩ | ⟨h1, _⟩
      · rw [h1]; simp [infSide]
      · rw [h1]
        simp only [infSide, hb]
        rintro (h | h)
        · cases h
        · exact absurd (hl h1) (not_le.2 h)
      · rw [h1]
        simp only [infSide, hb]
        rintro (h | h)
        · cases h
        · exact absurd (hu h1) (not_le.2 h)
    · have hub : pb.useBnd = true ∧ i - pb.m < pb.n := by
        unfold Pb.nb at hi
        split_ifs at hi with h
        · exact ⟨h, by omega⟩
        · omega
      have hadd : pb.m + (i - pb.m) = i := by omega
      have h1 := hs.bnd hub.1 (i - pb.m) hub.2 (fun e => hne (Or.inr ⟨by omega, e⟩))
      have hl := hr.lowerBnd (i - pb.m) hub.2
      have hu := hr.upperBnd (i - pb.m) hub.2
      rw [hw, hadd] at h1 hl hu
      rw [hss] at h1 hl hu
      rcases h1 with ⟨h1, _⟩ | ⟨h1, _⟩ | ⟨h1, _⟩
      · rw [h1]; simp [infSide]
      · rw [h1]
        simp only [infSide, hb]
        rintro (h | h)
        · cases h
        · exact absurd (hl h1) (not_le.2 h)
      · rw [h1]
        simp only [infSide, hb]
        rintro (h | h)
        · cases h
        · exact absurd (hu h1) (not_le.2 h)

theorem want_active {o : Opts ℝ} {pb : Pb ℝ EReal} {as : List Status} {i : Nat} (h : want o pb as i ≠ .inactive) :
    IsEqIdx pb i ∨ (o.warmStart = true ∧ as.getD i .inactive ≠ .inactive) := by
  by_cases he : isEqC pb i = true
  · exact Or.inl (isEqC_iff.1 he)
  · right
    unfold want at h
    rw [if_neg he] at h
    split_ifs at h with hw hh
    · exact absurd rfl h
    · exact ⟨hw, h⟩
    · exact absurd rfl h

/-- Independent gradients: there are at most `n` of them. -/
theorem numWant_le {o : Opts ℝ} {pb : Pb ℝ EReal} {as : List Status} (hi : WarmIndep o.warmStart pb as) :
    numWant o pb as (· != .inactive) ≤ pb.n := by
  classical
  obtain ⟨S, hS⟩ : ∃ S, S = (range (pb.m + pb.nb)).filter (fun i => want o pb as i ≠ .inactive) := ⟨_, rfl⟩
  have hcard : numWant o pb as (· != .inactive) = S.card := by
    rw [hS, numWant, List.countP_eq_length_filter]
    have e : (List.range (pb.m + pb.nb)).filter (fun i => want o pb as i != .inactive)
        = (List.range (pb.m + pb.nb)).filter (fun i => decide (want o pb as i ≠ .inactive)) := by
      apply List.filter_congr; intro i _; cases want o pb as i <;> rfl
    rw [e]
    rfl
  rw [hcard]
  have hl : LinearIndependent ℝ (fun (i : S) (a : Fin pb.n) => grad pb i.1 a.1) := by
    rw [Fintype.linearIndependent_iff]
    intro g hg i
    have h0 := hi (fun j => if h : j ∈ S then g ⟨j, h⟩ else 0) ?_ ?_ i.1
    · simpa using h0
    · intro j hj
      rw [dif_neg]
      intro hjS
      rw [hS, mem_filter, mem_range] at hjS
      exact hj ⟨hjS.1, want_active hjS.2⟩
    · intro a ha
      have h1 := congrFun hg ⟨a, ha⟩
      simp only [Finset.sum_apply, Pi.smul_apply, smul_eq_mul, Pi.zero_apply] at h1
      refine Eq.trans ?_ h1
      have hsub : S ⊆ range (pb.m + pb.nb) := by rw [hS]; exact filter_subset _ _
      rw [← sum_subset hsub (fun j _ hj => by rw [dif_neg hj, zero_mul]), ← sum_coe_sort S]
      exact sum_congr rfl fun j _ => by rw [dif_pos j.2]
  have := hl.fintype_card_le_finrank
  rw [Fintype.card_coe, Module.finrank_fin_fun] at this
  exact this

/-! ## No removal, no violated constraint -/

theorem minMult_fold_none (A : ActiveSet) (u : Nat → ℝ) (t : ℝ) (l : List Nat)
    (h : ∀ k ∈ l, (A.statusAt (A.get k)).isEq = false → t ≤ u k) : l.foldl (minMult A u) (t, none) = (t, none) := by
  induction l with
  | nil => rfl
  | cons a l ih =>
    have e : minMult A u (t, none) a = (t, none) := by
      unfold minMult
      rw [if_neg]
      rintro ⟨h1, h2, h3⟩
      have h4 := h a (by simp) (by
        cases hs : A.statusAt (A.get a) <;> simp [hs, Status.isEq] at h2 h3 ⊢)
      have h1 : u a < t := by simpa [ltb] using h1
      linarith
    rw [List.foldl_cons, e]
    exact ih fun k hk => h k (by simp [hk])

theorem dropLoop_keep {o : Opts ℝ} {pb : Pb ℝ EReal} {xs : XState ℝ} (fuel : Nat)
    (h : ∀ k < xs.s.A.q, (xs.s.A.statusAt (xs.s.A.get k)).isEq = false → -o.tiny ≤ xs.s.u k) :
    dropLoop o pb fuel xs = .ok xs := by
  have hd : dropPos o xs = none := by
    unfold dropPos
    rw [minMult_fold_none]
    intro k hk
    exact h k (List.mem_range.1 hk)
  cases fuel with
  | zero => rw [dropLoop, hd]; rfl
  | succ f => rw [dropLoop, hd]

/-- At a feasible point no constraint is selected. -/
theorem select_feasible {pb : Pb ℝ EReal} {A : ActiveSet} (hm : A.nbCstr = pb.m) (hb : A.nbBnd = pb.nb) {x : Nat → ℝ}
    (hf : Feasible pb x) : (select pb pb.n A x).status = .inactive := by
  have hx : NotCrossed pb := ⟨fun i hi => (hf.gen i hi).1.trans (hf.gen i hi).2,
    fun hu i hi => (hf.bnd hu i hi).1.trans (hf.bnd hu i hi).2⟩
  obtain ⟨acc, h1, h2⟩ := select_inv hx hm hb x
  by_contra hne
  rw [← h1] at hne
  obtain ⟨g1, g2, g3, _⟩ := h2.some hne
  rw [g2] at g1
  unfold viol slackLo slackHi at g1
  rcases g3 with ⟨g3, _⟩ | ⟨g3, g4, _⟩
  · simp only [g3, if_true] at g1
    split_ifs at g1
    · rw [sub_coe_neg] at g1; exact absurd (hf.gen _ g3).2 (not_le.2 g1)
    · rw [coe_sub_neg] at g1; exact absurd (hf.gen _ g3).1 (not_le.2 g1)
  · have hub : pb.useBnd = true ∧ acc.sc.p - pb.m < pb.n := by
      unfold Pb.nb at g4
      split_ifs at g4 with h
      · exact ⟨h, by omega⟩
      · omega
    simp only [show ¬ acc.sc.p < pb.m by omega, if_false] at g1
    split_ifs at g1
    · rw [sub_coe_neg] at g1; exact absurd (hf.bnd hub.1 _ hub.2).2 (not_le.2 g1)
    · rw [coe_sub_neg] at g1; exact absurd (hf.bnd hub.1 _ hub.2).1 (not_le.2 g1)

/-- Feasibility depends on the first `n` entries. -/
theorem feasible_congr {pb : Pb ℝ EReal} {x y : Nat → ℝ} (h : ∀ i < pb.n, y i = x i) (hf : Feasible pb x) : Feasible pb y := by
  have hrow : ∀ i, row pb y i = row pb x i := fun i => sum_congr rfl fun a ha => by rw [h a (mem_range.1 ha)]
  refine ⟨fun i hi => by rw [hrow]; exact hf.gen i hi, fun hu i hi => by rw [h i hi]; exact hf.bnd hu i hi⟩

/-- The active set is the one of the optimal start. -/
def HasStart (ws : Bool) (pb : Pb ℝ EReal) (as : List Status) (A : ActiveSet) : Prop :=
  ∀ i < pb.m + pb.nb, (IsEqIdx pb i ∧ A.statusAt i = if i < pb.m then .equality else .fixed) ∨
    (¬ IsEqIdx pb i ∧ A.statusAt i = startStatus ws as i)

/-- What the start says about one constraint. -/
theorem Spec.OptimalStart.at {ws : Bool} {pb : Pb ℝ EReal} {as : List Status} {x lam : Nat → ℝ} (hs : OptimalStart ws pb as x lam)
    {A : ActiveSet} (hA : HasStart ws pb as A) {i : Nat} (hi : i < pb.m + pb.nb) :
    (A.statusAt i = .inactive → lam i = 0) ∧
    ((A.statusAt i).isEq = false → 0 ≤ -sgn (A.statusAt i) * lam i ∨ A.statusAt i = .inactive) ∧
    (A.statusAt i ≠ .inactive → scOk pb ⟨i, A.statusAt i⟩ = true → ndot pb ⟨i, A.statusAt i⟩ x = rhs pb ⟨i, A.statusAt i⟩) := by
  have hto : ∀ (r : ℝ) (b : EReal), (r : EReal) = b → r = b.toReal := by
    rintro r b rfl; simp
  rcases hA i hi with ⟨h1, h2⟩ | ⟨h1, h2⟩
  · rcases h1 with ⟨h1, h3⟩ | ⟨h1, h3⟩
    · rw [if_pos h1] at h2
      rw [h2]
      refine ⟨by simp, by simp [Status.isEq], fun _ hok => ?_⟩
      rw [ndot_cases pb _ hok]
      have := hs.kkt.feasible.gen i h1
      rw [← h3] at this
      exact hto _ _ (le_antisymm this.2 this.1)
    · rw [if_neg (by omega)] at h2
      rw [h2]
      refine ⟨by simp, by simp [Status.isEq], fun _ hok => ?_⟩
      rw [ndot_cases pb _ hok]
      obtain ⟨hu, _, hn⟩ := scOk_bnd hok (Or.inl rfl)
      have := hs.kkt.feasible.bnd hu (i - pb.m) hn
      rw [← h3] at this
      exact hto _ _ (le_antisymm this.2 this.1)
  · rw [h2]
    by_cases hlt : i < pb.m
    · rcases hs.gen i hlt (fun e => h1 (Or.inl ⟨hlt, e⟩)) with ⟨g1, g2⟩ | ⟨g1, g2, g3⟩ | ⟨g1, g2, g3⟩
      · rw [g1]; simp [g2]
      · rw [g1]
        refine ⟨by simp, fun _ => Or.inl ?_, fun _ hok => ?_⟩
        · simp only [sgn]; linarith
        · rw [ndot_cases pb _ hok]; exact hto _ _ g2
      · rw [g1]
        refine ⟨by simp, fun _ => Or.inl ?_, fun _ hok => ?_⟩
        · simp only [sgn]; linarith
        · rw [ndot_cases pb _ hok]; exact congrArg Neg.neg (hto _ _ g2)
    · have hub : pb.useBnd = true ∧ i - pb.m < pb.n := by
        unfold Pb.nb at hi
        split_ifs at hi with h
        · exact ⟨h, by omega⟩
        · omega
      have hadd : pb.m + (i - pb.m) = i := by omega
      have hb := hs.bnd hub.1 (i - pb.m) hub.2 (fun e => h1 (Or.inr ⟨by omega, e⟩))
      rw [hadd] at hb
      rcases hb with ⟨g1, g2⟩ | ⟨g1, g2, g3⟩ | ⟨g1, g2, g3⟩
      · rw [g1]; simp [g2]
      · rw [g1]
        refine ⟨by simp, fun _ => Or.inl ?_, fun _ hok => ?_⟩
        · simp only [sgn]; linarith
        · rw [ndot_cases pb _ hok]; exact hto _ _ g2
      · rw [g1]
        refine ⟨by simp, fun _ => Or.inl ?_, fun _ hok => ?_⟩
        · simp only [sgn]; linarith
        · rw [ndot_cases pb _ hok]; exact congrArg Neg.neg (hto _ _ g2)

/-- A state whose active set is the one of an optimal start holds the optimal pair. -/
theorem alg_optimalStart {ws : Bool} {pb : Pb ℝ EReal} (hpd : PosDefN pb.n (hess pb)) {as : List Status} {x lam : Nat → ℝ}
    (hs : OptimalStart ws pb as x lam) {s : State ℝ} (h : Alg pb s (fun _ => 0)) (hA : HasStart ws pb as s.A) :
    (∀ i < pb.n, s.x i = x i) ∧ (∀ k < s.A.q, (s.A.statusAt (s.A.get k)).isEq = false → 0 ≤ s.u k) ∧
    (s.needToExpand = true → ∀ i < pb.m + pb.nb, (multipliers s).u i = lam i) := by
  have hw := h.good.dim.wf
  have hm := h.good.dim.nbCstr
  have hb := h.good.dim.nbBnd
  have hmem : ∀ k < s.A.q, s.A.get k < pb.m + pb.nb ∧ s.A.statusAt (s.A.get k) ≠ .inactive := by
    intro k hk
    obtain ⟨a, b⟩ := ActiveSet.get_lt s.A hw k (by rw [← hw.q_eq]; exact hk)
    rw [hw.size, hm, hb] at a
    exact ⟨a, b⟩
  have hsg : ∀ st, sgn st * sgn st = 1 := by intro st; cases st <;> norm_num [sgn]
  have key := h.point hpd (x := x) (u := fun k => -sgn (s.A.statusAt (s.A.get k)) * lam (s.A.get k)) ?_ ?_
  · obtain ⟨p1, p2⟩ := key
    refine ⟨p1, fun k hk he => ?_, fun hne i hi => ?_⟩
    · rw [p2 k hk]
      obtain ⟨a, b⟩ := hmem k hk
      rcases (hs.at hA a).2.1 he with h1 | h1
      · exact h1
      · exact absurd h1 b
    · obtain ⟨c1, c2, c3, _⟩ := C06_multipliers s hw hne
      by_cases hst : s.A.statusAt i = .inactive
      · rw [c1 i hst, (hs.at hA hi).1 hst]
      · have hmem' := (hw.mem i).2 ⟨by rw [hw.size, hm, hb]; exact hi, hst⟩
        obtain ⟨k, hk, he⟩ := List.getElem_of_mem hmem'
        have hg : s.A.get k = i := by rw [ActiveSet.get, List.getD_eq_getElem _ _ hk, he]
        have hk' : k < s.A.q := by rw [hw.q_eq]; exact hk
        have h2 := c2 k hk'
        have h3 := c3 k hk'
        have h4 := p2 k hk'
        rw [hg] at h2 h3 h4
        rw [h4] at h2 h3
        cases hs' : s.A.statusAt i <;> rw [hs'] at h2 h3 hst <;> simp [sgn] at h2 h3 hst
        all_goals first | exact h2 | exact h3
  · intro a ha
    have e : ∀ k ∈ range s.A.q, -sgn (s.A.statusAt (s.A.get k)) * lam (s.A.get k) * normal pb (s.A.act k) a
        = (fun i => -(lam i * grad pb i a)) (s.A.get k) := by
      intro k hk
      rw [normal_eq_sgn (h.scOk (mem_range.1 hk))]
      have : (s.A.act k).status = s.A.statusAt (s.A.get k) := rfl
      have h2 : (s.A.act k).p = s.A.get k := rfl
      rw [this, h2]
      linear_combination (-(lam (s.A.get k) * grad pb (s.A.get k) a)) * hsg (s.A.statusAt (s.A.get k))
    rw [sum_congr rfl e, sum_active hw hm hb (fun i => -(lam i * grad pb i a))]
    · rw [sum_neg_distrib, sum_lam_grad pb lam ha]
      linarith [hs.kkt.stationary a ha]
    · intro i hi hst
      rw [(hs.at hA hi).1 hst]; simp
  · intro k hk
    obtain ⟨a, b⟩ := hmem k hk
    exact (hs.at hA a).2.2 b (h.scOk hk)

/-! ## The active set of a successful run is an optimal start -/

theorem EqFirst.idx {pb : Pb ℝ EReal} {e : Nat} (he : EqFirst pb e) {i : Nat} (hi : i < pb.m + pb.nb) : IsEqIdx pb i ↔ i < e := by
  rw [← he.2 i hi]; exact isEqC_iff.symm

/-- The final state of a successful run: its active set, point and multipliers form an optimal start. -/
theorem success_start {pb : Pb ℝ EReal} (hx : NotCrossed pb) {e : Nat} (he : EqFirst pb e) {s : State ℝ} {sc : SC}
    (h : LoopInv pb s sc false) (hD : DInv pb e s sc false) (hs : (select pb pb.n s.A s.x).status = .inactive)
    (hne : s.needToExpand = true) :
    OptimalStart true pb s.A.status s.x (multipliers s).u ∧ WarmIndep true pb s.A.status ∧
    ∀ A : ActiveSet, HasStart true pb s.A.status A → ∀ i < pb.m + pb.nb, A.statusAt i = s.A.statusAt i := by
  have hw := h.alg.good.dim.wf
  have hm := h.alg.good.dim.nbCstr
  have hnb := h.alg.good.dim.nbBnd
  have halg : Alg pb s (fun _ => 0) := h.alg.congr (by simp)
  obtain ⟨c1, c2, c3, _⟩ := C06_multipliers s hw hne
  have hpos : ∀ i < pb.m + pb.nb, s.A.statusAt i ≠ .inactive → ∃ k < s.A.q, s.A.get k = i := by
    intro i hi hst
    have hmem := (hw.mem i).2 ⟨by rw [hw.size, hm, hnb]; exact hi, hst⟩
    obtain ⟨k, hk, he⟩ := List.getElem_of_mem hmem
    exact ⟨k, by rw [hw.q_eq]; exact hk, by rw [ActiveSet.get, List.getD_eq_getElem _ _ hk, he]⟩
  have hto : ∀ (r v : ℝ) (b : EReal), b = (v : EReal) → r = b.toReal → (r : EReal) = b := by
    rintro r v b rfl h; rw [h]; simp
  have hin : ∀ i, startStatus true s.A.status i = s.A.statusAt i := fun i => rfl
  have hact : ∀ i < pb.m + pb.nb, ¬ IsEqIdx pb i → s.A.statusAt i ≠ .inactive →
      0 ≤ -sgn (s.A.statusAt i) * (multipliers s).u i ∧ (s.A.statusAt i).isEq = false ∧
      scOk pb ⟨i, s.A.statusAt i⟩ = true ∧
      ndot pb ⟨i, s.A.statusAt i⟩ s.x = rhs pb ⟨i, s.A.statusAt i⟩ ∧ BndFin pb ⟨i, s.A.statusAt i⟩ := by
    intro i hi hneq hst
    obtain ⟨k, hk, hg⟩ := hpos i hi hst
    have hA : s.A.act k = ⟨i, s.A.statusAt i⟩ := by rw [ActiveSet.act, hg]
    have hlt : ¬ i < e := fun h => hneq ((he.idx hi).2 h)
    have heq : (s.A.statusAt i).isEq = false := by
      have := (hD.pre.eq i).not.2 hlt
      simpa using this
    have hek : e ≤ k := by
      have := (hD.pre.act hw hk).not
      rw [hA] at this
      have := this.1 (by rw [heq]; simp)
      omega
    have hu := hD.pos k hk hek
    refine ⟨?_, heq, by rw [← hA]; exact halg.scOk hk, by rw [← hA]; exact halg.tight k hk, by rw [← hA]; exact h.fin k hk⟩
    have h2 := c2 k hk
    have h3 := c3 k hk
    rw [hg] at h2 h3
    cases hs' : s.A.statusAt i <;> rw [hs'] at h2 h3 hst <;> simp [sgn] at h2 h3 hst ⊢
    all_goals first | (rw [h2]; exact hu) | (rw [h3]; linarith)
  refine ⟨⟨success_KKT hx h hD hs hne, ?_, ?_⟩, ?_, ?_⟩
  · intro i hi hb
    rw [hin]
    by_cases hst : s.A.statusAt i = .inactive
    · exact Or.inl ⟨hst, c1 i hst⟩
    obtain ⟨a1, a2, a3, a4, a5⟩ := hact i (by omega) (by
      rintro (⟨_, h⟩ | ⟨h, _⟩)
      · exact hb h
      · omega) hst
    have hkind := hw.kindG i (by rw [hm]; exact hi) hst
    rw [ndot_cases pb _ a3] at a4
    cases hs' : s.A.statusAt i <;> rw [hs'] at a1 a2 hkind <;> simp [hs', BndFin, rhs] at a4 a5 <;>
      simp [Status.isGeneral, Status.isEq, sgn] at a1 a2 hkind
    · obtain ⟨r, hr⟩ := a5
      exact Or.inr (Or.inl ⟨rfl, hto _ r _ hr a4, by linarith⟩)
    · obtain ⟨r, hr⟩ := a5
      exact Or.inr (Or.inr ⟨rfl, hto _ r _ hr a4, a1⟩)
  · intro hub i hi hb
    have hnbn : pb.nb = pb.n := by simp [Pb.nb, hub]
    rw [hin]
    by_cases hst : s.A.statusAt (pb.m + i) = .inactive
    · exact Or.inl ⟨hst, c1 _ hst⟩
    obtain ⟨a1, a2, a3, a4, a5⟩ := hact (pb.m + i) (by omega) (by
      rintro (⟨h, _⟩ | ⟨_, h⟩)
      · omega
      · rw [Nat.add_sub_cancel_left] at h; exact hb h) hst
    have hkind := hw.kindB (pb.m + i) (by rw [hm]; omega) hst
    rw [ndot_cases pb _ a3] at a4
    cases hs' : s.A.statusAt (pb.m + i) <;> rw [hs'] at a1 a2 hkind <;> simp [hs', BndFin, rhs] at a4 a5 <;>
      simp [Status.isBound, Status.isEq, sgn] at a1 a2 hkind
    · obtain ⟨r, hr⟩ := a5
      exact Or.inr (Or.inl ⟨rfl, hto _ r _ hr a4, by linarith⟩)
    · obtain ⟨r, hr⟩ := a5
      exact Or.inr (Or.inr ⟨rfl, hto _ r _ hr a4, a1⟩)
  · intro c h1 h2
    have hq : s.A.q ≤ pb.n := by rw [← halg.good.dim.nbVar]; exact halg.good.q_le
    have hz : ∀ i, ¬ (i < pb.m + pb.nb ∧ s.A.statusAt i ≠ .inactive) → c i = 0 := by
      intro i hi
      apply h1
      rintro ⟨g1, g2⟩
      apply hi
      refine ⟨g1, ?_⟩
      rcases g2 with g2 | ⟨_, g2⟩
      · have := (hD.pre.eq i).2 ((he.idx g1).1 g2)
        intro hc
        rw [hc] at this
        cases this
      · exact g2
    have key := halg.fac.indep hq (fun k => c (s.A.get k) * sgn (s.A.statusAt (s.A.get k))) (by
      intro a ha
      refine Eq.trans ?_ (h2 a ha)
      rw [← sum_active hw hm hnb (fun i => c i * grad pb i a) (fun i hi hst => by
        rw [hz i (fun h => h.2 hst), zero_mul])]
      apply sum_congr rfl
      intro k hk
      beta_reduce
      rw [normal_eq_sgn (halg.scOk (mem_range.1 hk))]
      have hsg : sgn (s.A.statusAt (s.A.get k)) * sgn (s.A.statusAt (s.A.get k)) = 1 := by
        cases s.A.statusAt (s.A.get k) <;> norm_num [sgn]
      have e1 : (s.A.act k).status = s.A.statusAt (s.A.get k) := rfl
      have e2 : (s.A.act k).p = s.A.get k := rfl
      rw [e1, e2]
      linear_combination (c (s.A.get k) * grad pb (s.A.get k) a) * hsg)
    intro i
    by_cases hi : i < pb.m + pb.nb ∧ s.A.statusAt i ≠ .inactive
    · obtain ⟨k, hk, hg⟩ := hpos i hi.1 hi.2
      have := key k hk
      rw [hg] at this
      rcases mul_eq_zero.1 this with h | h
      · exact h
      · cases hs' : s.A.statusAt i <;> rw [hs'] at h <;> simp [sgn] at h
    · exact hz i hi
  · intro A hA i hi
    rcases hA i hi with ⟨g1, g2⟩ | ⟨_, g2⟩
    · rw [g2]
      have hlt := (he.idx hi).1 g1
      have heq := (hD.pre.eq i).2 hlt
      have hst : s.A.statusAt i ≠ .inactive := by intro hc; rw [hc] at heq; cases heq
      split_ifs with hlm
      · have := hw.kindG i (by rw [hm]; exact hlm) hst
        cases hs' : s.A.statusAt i <;> rw [hs'] at heq this <;> simp [Status.isEq, Status.isGeneral] at heq this ⊢
      · have := hw.kindB i (by rw [hm]; omega) hst
        cases hs' : s.A.statusAt i <;> rw [hs'] at heq this <;> simp [Status.isEq, Status.isBound] at heq this ⊢
    · exact g2

/-! ## Property theorems -/

/-- **C51.** In exact arithmetic, for every solver reached by legal calls, every problem with a positive definite Hessian and
every KKT pair `x`, `lam`: if the warm-start vector in force names the sides at which the multipliers live
(`OptimalStart`), these sides are not beyond `bigBnd`, and the gradients of the equalities and of the named constraints are
linearly independent, then the warm-started solver returns `SUCCESS` after zero iterations, whatever its thresholds, with the
point `x`, the multipliers `lam`, the objective value at `x`, and this active set. With the option off the vector counts as
`INACTIVE` everywhere. -/
theorem C51_optimal_start {o : Opts ℝ} (ht0 : 0 ≤ o.tiny) (hmax : 0 < o.maxIter) {pb : Pb ℝ EReal}
    (hpd : (Matrix.of fun i j : Fin pb.n => hess pb i j).PosDef) {as : List Status} {xs : XState ℝ} (h : XInv xs) (ha : ArgOk o pb as) {x lam : Nat → ℝ}
    (hs : OptimalStart o.warmStart pb (usedAs o pb as xs) x lam) (hr : StartInRange o.bigBnd o.warmStart pb (usedAs o pb as xs))
    (hi : WarmIndep o.warmStart pb (usedAs o pb as xs)) :
    ∃ xs', xsolve o pb as xs = .ok (.success, xs') ∧ XInv xs' ∧ xs'.s.it = 0 ∧ (∀ i < pb.n, xs'.s.x i = x i) ∧
      xs'.s.f = obj pb x ∧ (∀ i < pb.m + pb.nb, (multipliers xs'.s).u i = lam i) ∧
      HasStart o.warmStart pb (usedAs o pb as xs) xs'.s.A := by
  have hnum := numWant_le (o := o) hi
  have hwk := usedAs_warmOk h ha.kind
  have hle : numWant o pb (usedAs o pb as xs) (·.isEq) ≤ pb.n := by
    refine le_trans ?_ hnum
    unfold numWant
    apply List.countP_mono_left
    intro i _ h
    cases hs : want o pb (usedAs o pb as xs) i <;> simp [hs, Status.isEq] at h ⊢
  rcases xsolve_cases h ha with ⟨h1, _⟩ | ⟨_, h1, _⟩ | ⟨hc, A, xs1, e1, e2, e3, e4, e5⟩
  · omega
  · exact absurd ((cholOk_iff pb).2 hpd) h1
  have hAst : HasStart o.warmStart pb (usedAs o pb as xs) A := by
    intro i hi'
    rw [(e1.all hnum).2 i hi']
    exact want_start hs hr hi'
  have halg := (xstart_alg e2 hc (actIndep_of_warm hi hwk e1)).alg
  obtain ⟨p1, p2, p3⟩ := alg_optimalStart (posDef_of_chol hc) hs halg hAst
  have hk := dropLoop_keep (o := o) (pb := pb) A.q (fun k hk he => le_trans (by linarith) (p2 k hk he))
  rw [hk] at e3
  cases e3
  have hit : (xstart o pb (xsolveStart o pb as xs) A).s.it = 0 := rfl
  have hg := halg.good
  have hfeas : Feasible pb (xstart o pb (xsolveStart o pb as xs) A).s.x := feasible_congr p1 hs.kkt.feasible
  have hiter : iterate o pb (xstart o pb (xsolveStart o pb as xs) A).s ⟨0, .inactive⟩ false
      = .ok (.done .success (xstart o pb (xsolveStart o pb as xs) A).s) := by
    unfold iterate
    rw [if_neg (by simp), if_pos hg.selectOk]
    simp only []
    rw [hg.dim.nbVar, if_pos (select_feasible hg.dim.nbCstr hg.dim.nbBnd hfeas)]
  have hloop : loop o pb (o.maxIter - (xstart o pb (xsolveStart o pb as xs) A).s.it)
      (xstart o pb (xsolveStart o pb as xs) A).s ⟨0, .inactive⟩ false
      = .ok (.success, (xstart o pb (xsolveStart o pb as xs) A).s) := by
    rw [hit, show o.maxIter - 0 = (o.maxIter - 1) + 1 by omega]
    exact loop_done hiter
  rw [hloop] at e5
  refine ⟨xstart o pb (xsolveStart o pb as xs) A, by rw [e5]; simp [terminate], e2.xdim.inv, hit, p1, ?_, p3 rfl, hAst⟩
  rw [halg.f]
  exact obj_congr pb p1

theorem argOk_status {o : Opts ℝ} (hw : o.warmStart = true) {pb : Pb ℝ EReal} {s : State ℝ} (hd : Dim pb s) :
    ArgOk o pb s.A.status := by
  refine ⟨Or.inl (by rw [hd.wf.size, hd.nbCstr, hd.nbBnd]), Or.inl hw, ⟨fun _ _ i hi => ?_, fun _ _ i hi => ?_⟩⟩
  · by_cases h : s.A.statusAt i = .inactive
    · exact Or.inl h
    · exact Or.inr (hd.wf.kindG i (by rw [hd.nbCstr]; exact hi) h)
  · by_cases h : s.A.statusAt (pb.m + i) = .inactive
    · exact Or.inl h
    · exact Or.inr (hd.wf.kindB (pb.m + i) (by rw [hd.nbCstr]; omega) h)

/-- A problem of the same dimensions does not change the active set kept by the solver. -/
theorem resize_keep {pb : Pb ℝ EReal} {s : State ℝ} (hd : Dim pb s) : (resize s pb.n pb.m pb.useBnd).A = s.A := by
  have h1 := hd.nbVar
  have h2 := hd.nbCstr
  have h3 := hd.nbBnd
  unfold Pb.nb at h3
  unfold resize resize_ resizeP
  simp [h1, ActiveSet.nbAll, h2, h3]

/-- The vector in force is the active set of `s`. -/
theorem usedAs_status {o : Opts ℝ} (hw : o.warmStart = true) {pb : Pb ℝ EReal} {s : State ℝ} (hd : Dim pb s) (xs : XState ℝ) :
    usedAs o pb s.A.status xs = s.A.status ∨ (s.A.status = [] ∧ pb.m + pb.nb = 0) := by
  by_cases h : s.A.status = []
  · refine Or.inr ⟨h, ?_⟩
    have := hd.wf.size
    rw [h, hd.nbCstr, hd.nbBnd] at this
    exact this.symm
  · exact Or.inl (usedAs_explicit hw h)

/-- **C51, active set of another solver.** In exact arithmetic, after a `SUCCESS` of the solver without warm start (under the
hypotheses of `C07_success_optimal_partial`), giving its active set to a warm-started solver in any state makes the latter
return `SUCCESS` after zero iterations with the same point, multipliers, objective value and active set. -/
theorem C51_after_solve {o : Opts ℝ} {pb : Pb ℝ EReal} (hp : Proper pb) (hx : NotCrossed pb) {s : State ℝ}
    (hi : Inv s) {e : Nat} (he : EqFirst pb e) (hr : RegSolve o pb s) {s'} (h : solve o pb s = .ok (.success, s'))
    {o' : Opts ℝ} (hw : o'.warmStart = true) (ht0 : 0 ≤ o'.tiny) (hmax : 0 < o'.maxIter) {xs : XState ℝ} (hxi : XInv xs)
    (hrg : StartInRange o'.bigBnd true pb s'.A.status) :
    ∃ xs', xsolve o' pb s'.A.status xs = .ok (.success, xs') ∧ xs'.s.it = 0 ∧ (∀ i < pb.n, xs'.s.x i = s'.x i) ∧
      xs'.s.f = s'.f ∧ (∀ i < pb.m + pb.nb, (multipliers xs'.s).u i = (multipliers s').u i) ∧
      ∀ i < pb.m + pb.nb, xs'.s.A.statusAt i = s'.A.statusAt i := by
  obtain ⟨hc, hf, hne⟩ := solve_finalDual hp hx hi he hr h (by simp)
  rcases hf with ⟨_, h1, h2, h3⟩ | ⟨h1, _⟩ | ⟨h1, _⟩
  · obtain ⟨g1, g2, g3⟩ := success_start hx he h1 h3 h2 hne
    have hd := h1.alg.good.dim
    have hu : ∀ i < pb.m + pb.nb, (usedAs o' pb s'.A.status xs).getD i .inactive = s'.A.status.getD i .inactive := by
      intro i hi
      rcases usedAs_status hw hd xs with h | ⟨_, h⟩
      · rw [h]
      · omega
    have hss : ∀ i < pb.m + pb.nb, startStatus true (usedAs o' pb s'.A.status xs) i = startStatus true s'.A.status i := by
      intro i hi; simp only [startStatus, if_true]; exact hu i hi
    have hnb : pb.useBnd = true → pb.nb = pb.n := fun h => by simp [Pb.nb, h]
    have hlen : pb.m + pb.nb = 0 ∨ usedAs o' pb s'.A.status xs = s'.A.status := by
      rcases usedAs_status hw hd xs with h | ⟨_, h⟩
      · exact Or.inr h
      · exact Or.inl h
    obtain ⟨xs', k1, _, k2, k3, k4, k5, k6⟩ := C51_optimal_start ht0 hmax ((cholOk_iff pb).1 hc) hxi (argOk_status hw hd)
      (x := s'.x) (lam := (multipliers s').u) (by
        rw [hw]
        refine ⟨g1.kkt, fun i hi => ?_, fun hub i hi => ?_⟩
        · rw [hss i (by omega)]; exact g1.gen i hi
        · rw [hss _ (by have := hnb hub; omega)]; exact g1.bnd hub i hi) (by
        rw [hw]
        rcases hlen with hl | hl
        · have hE : usedAs o' pb s'.A.status xs = [] := by
            have hs0 : s'.A.status = [] := by
              apply List.eq_nil_of_length_eq_zero
              rw [hd.wf.size, hd.nbCstr, hd.nbBnd]; exact hl
            rcases usedAs_len (pb := pb) hxi (argOk_status hw hd).len hw with h | h
            · exact h
            · exact List.eq_nil_of_length_eq_zero (h.trans hl)
          rw [hE]
          constructor <;> intro i _ h <;> cases h
        · rw [hl]; exact hrg) (by
        rw [hw]
        intro c a1 a2
        exact g2 c (fun i hn => a1 i (fun ⟨b1, b2⟩ => hn ⟨b1, by rw [hu i b1] at b2; exact b2⟩)) a2)
    refine ⟨xs', k1, k2, k3, ?_, k5, ?_⟩
    · rw [k4, h1.alg.f]
    · apply g3
      intro i hi
      rw [hw] at k6
      have := k6 i hi
      rw [hss i hi] at this
      exact this
  · cases h1
  · cases h1

/-- **C51, the same problem again.** In exact arithmetic, after a `SUCCESS` of the warm-started solver (under the hypotheses of
`C24_success_optimal_partial`), solving the same problem again with the warm-start option and without an explicit vector
returns `SUCCESS` after zero iterations with the same point, multipliers, objective value and active set. -/
theorem C51_again {o : Opts ℝ} {pb : Pb ℝ EReal} (hp : Proper pb) (hx : NotCrossed pb) {as : List Status}
    {xs : XState ℝ} (h : XInv xs) (ha : ArgOk o pb as) (hf : NoFalseEq o pb (usedAs o pb as xs)) {e : Nat}
    (he : EqFirst pb e) (ho : EqActFirst o pb (usedAs o pb as xs) e) (hr : RegX o pb as xs) {xs'}
    (hs : xsolve o pb as xs = .ok (.success, xs'))
    {o' : Opts ℝ} (hw : o'.warmStart = true) (ht0 : 0 ≤ o'.tiny) (hmax : 0 < o'.maxIter)
    (hrg : StartInRange o'.bigBnd true pb xs'.s.A.status) :
    ∃ xs2, xsolve o' pb [] xs' = .ok (.success, xs2) ∧ xs2.s.it = 0 ∧ (∀ i < pb.n, xs2.s.x i = xs'.s.x i) ∧
      xs2.s.f = xs'.s.f ∧ (∀ i < pb.m + pb.nb, (multipliers xs2.s).u i = (multipliers xs'.s).u i) ∧
      ∀ i < pb.m + pb.nb, xs2.s.A.statusAt i = xs'.s.A.statusAt i := by
  obtain ⟨s1, hc, k1, k2, k3, _, k4, k5⟩ := xsolve_ready hp h ha hf he ho hr hs (by simp) (by simp)
  have hxi : XInv xs' := by
    have hnot : o.dbg = false ∨ numWant o pb (usedAs o pb as xs) (·.isEq) ≤ pb.n := by
      rcases xsolve_cases h ha with ⟨_, ⟨_, b⟩ | ⟨a, _⟩⟩ | ⟨a, _⟩ | ⟨_, A, _, a, _⟩
      · rw [hs] at b; cases b
      · exact Or.inl a
      · exact Or.inr a
      · exact Or.inr a.eqs
    obtain ⟨t, xs2, hv1, hv2⟩ := xsolve_safe (fpLaws_real o hr.tiny) h ha hnot
    rw [hs] at hv1; cases hv1; exact hv2
  rcases (loop_finalDual hp hx hr.tiny k1 k2 k3 k5).1 with ⟨_, h1, h2, h3⟩ | ⟨h1, _⟩ | ⟨h1, _⟩
  · obtain ⟨g1, g2, g3⟩ := success_start hx he h1 h3 h2 (by rw [loop_need _ k5]; exact k4)
    have hd := h1.alg.good.dim
    have hu : usedAs o' pb [] xs' = xs'.s.A.status := by
      unfold usedAs
      rw [if_pos hw, if_pos rfl]
      have : (xresize xs' pb.n pb.m pb.useBnd).s = resize xs'.s pb.n pb.m pb.useBnd := rfl
      rw [this, resize_keep hd]
    have hak : ArgOk o' pb [] := ⟨Or.inr rfl, Or.inr rfl, ⟨fun _ h => absurd rfl h, fun _ h => absurd rfl h⟩⟩
    obtain ⟨xs2, q1, _, q2, q3, q4, q5, q6⟩ := C51_optimal_start ht0 hmax ((cholOk_iff pb).1 hc) hxi hak
      (x := xs'.s.x) (lam := (multipliers xs'.s).u) (by rw [hw, hu]; exact g1) (by rw [hw, hu]; exact hrg)
      (by rw [hw, hu]; exact g2)
    rw [hw, hu] at q6
    exact ⟨xs2, q1, q2, q3, by rw [q4, h1.alg.f], q5, g3 _ q6⟩
  · cases h1
  · cases h1

/-! ### Without warm start -/

theorem solve_need {o : Opts ℝ} {pb : Pb ℝ EReal} {s s' : State ℝ} (h : solve o pb s = .ok (.success, s')) :
    s'.needToExpand = true := by
  rcases solve_cases h with ⟨t1, h1, h2, h3⟩ | ⟨s1, h1, h2⟩
  · exact absurd h3.symm h1
  · rw [loop_need _ h2, init_need h1]
    rfl

/-- The loop stops at once at a feasible point. -/
theorem loop_feasible {o : Opts ℝ} {pb : Pb ℝ EReal} (hmax : 0 < o.maxIter) {s : State ℝ} (hg : Good pb s)
    (hf : Feasible pb s.x) : loop o pb o.maxIter s ⟨0, .inactive⟩ false = .ok (.success, s) := by
  rw [show o.maxIter = (o.maxIter - 1) + 1 by omega]
  apply loop_done
  unfold iterate
  rw [if_neg (by simp), if_pos hg.selectOk]
  simp only []
  rw [hg.dim.nbVar, if_pos (select_feasible hg.dim.nbCstr hg.dim.nbBnd hf)]

/-- The state from which the main loop of the solver without warm start begins. -/
theorem solve_equalities {o : Opts ℝ} (ht0 : 0 ≤ o.tiny) {pb : Pb ℝ EReal} (hc : cholOk pb) {s : State ℝ} (hi : Inv s)
    (hreg : RegInitAll o pb (solveStart o pb s)) :
    ∃ s0, Alg pb s0 (fun _ => 0) ∧ s0.it = 0 ∧ HasStart false pb [] s0.A ∧
      ∀ t s', loop o pb o.maxIter s0 ⟨0, .inactive⟩ false = .ok (t, s') → solve o pb s = terminate o t s' := by
  obtain ⟨s0, A0, h1, h2, h3, h4, h5, h6, h7, h8, h9, h10⟩ := solve_start ht0 hc hi hreg
  obtain ⟨a1, a2, a3⟩ := init_act h2 h3 h6 h7
  refine ⟨s0, h1, h9, fun i hi' => ?_, h10⟩
  rw [h8]
  have hmem := mem_eqList (pb := pb) h4 h5
  by_cases he : IsEqIdx pb i
  · left
    refine ⟨he, ?_⟩
    have hin := (hmem ⟨i, if i < pb.m then .equality else .fixed⟩).2 ⟨hi', he, rfl⟩
    obtain ⟨k, hk, hkk⟩ := List.getElem_of_mem hin
    have := a2 k hk
    rw [hkk] at this
    have e1 : (A0.activateSCs (eqList pb A0)).get k = i := congrArg SC.p this
    have e2 := congrArg SC.status this
    simp only [ActiveSet.act, e1] at e2
    exact e2
  · right
    refine ⟨he, ?_⟩
    by_contra hne
    obtain ⟨sc, g1, g2⟩ := a3 i hne
    have := ((hmem sc).1 g1).2.1
    rw [g2] at this
    exact he this

/-- **C51, without warm start.** In exact arithmetic, if some KKT pair has zero multipliers for all inequalities (the
minimiser under the equalities alone satisfies the inequalities), then the solver returns `SUCCESS` after zero iterations
with this point and these multipliers, after any history, provided the thresholds do not interfere with the equalities. -/
theorem C51_inactive_inequalities {o : Opts ℝ} (ht0 : 0 ≤ o.tiny) (hmax : 0 < o.maxIter) {pb : Pb ℝ EReal}
    (hpd : (Matrix.of fun i j : Fin pb.n => hess pb i j).PosDef) {s : State ℝ} (hi : Inv s)
    (hreg : RegInitAll o pb (solveStart o pb s)) {x lam : Nat → ℝ} (hk : KKT pb x lam)
    (hz : ∀ i < pb.m + pb.nb, ¬ IsEqIdx pb i → lam i = 0) :
    ∃ s', solve o pb s = .ok (.success, s') ∧ s'.it = 0 ∧ (∀ i < pb.n, s'.x i = x i) ∧ s'.f = obj pb x ∧
      ∀ i < pb.m + pb.nb, (multipliers s').u i = lam i := by
  have hc := (cholOk_iff pb).2 hpd
  obtain ⟨s0, h1, h2, h3, h4⟩ := solve_equalities ht0 hc hi hreg
  have hs : OptimalStart false pb [] x lam := by
    refine ⟨hk, fun i hi hb => Or.inl ⟨rfl, hz i (by omega) ?_⟩, fun hub i hi hb => Or.inl ⟨rfl, hz _ ?_ ?_⟩⟩
    · rintro (⟨_, h⟩ | ⟨h, _⟩)
      · exact hb h
      · omega
    · have : pb.nb = pb.n := by simp [Pb.nb, hub]
      omega
    · rintro (⟨h, _⟩ | ⟨_, h⟩)
      · omega
      · rw [Nat.add_sub_cancel_left] at h; exact hb h
  obtain ⟨p1, _, p3⟩ := alg_optimalStart (posDef_of_chol hc) hs h1 h3
  have hl := loop_feasible (o := o) hmax h1.good (feasible_congr p1 hk.feasible)
  have hsol : solve o pb s = .ok (.success, s0) := by rw [h4 _ _ hl]; simp [terminate]
  refine ⟨s0, hsol, h2, p1, ?_, p3 (solve_need hsol)⟩
  rw [h1.f]
  exact obj_congr pb p1

/-- **C51, equality constraints only.** In exact arithmetic, a problem with a positive definite Hessian whose constraints are
all equalities is solved by the initialisation: `SUCCESS` after zero iterations, with the unique minimiser. -/
theorem C51_only_equalities {o : Opts ℝ} (ht0 : 0 ≤ o.tiny) (hmax : 0 < o.maxIter) {pb : Pb ℝ EReal} (hp : Proper pb)
    (hpd : (Matrix.of fun i j : Fin pb.n => hess pb i j).PosDef) (hall : ∀ i < pb.m + pb.nb, IsEqIdx pb i)
    {s : State ℝ} (hi : Inv s) (hreg : RegInitAll o pb (solveStart o pb s)) :
    ∃ s', solve o pb s = .ok (.success, s') ∧ s'.it = 0 ∧ IsUniqueOptimal pb s'.x ∧ s'.f = obj pb s'.x := by
  have hc := (cholOk_iff pb).2 hpd
  obtain ⟨s0, h1, h2, h3, h4⟩ := solve_equalities ht0 hc hi hreg
  have hw := h1.good.dim.wf
  have hm := h1.good.dim.nbCstr
  have hnb := h1.good.dim.nbBnd
  have hst : ∀ i < pb.m + pb.nb, s0.A.statusAt i = if i < pb.m then .equality else .fixed := by
    intro i hi
    rcases h3 i hi with ⟨_, h⟩ | ⟨h, _⟩
    · exact h
    · exact absurd (hall i hi) h
  have hact : ∀ i < pb.m + pb.nb, ndot pb ⟨i, s0.A.statusAt i⟩ s0.x = rhs pb ⟨i, s0.A.statusAt i⟩ ∧
      scOk pb ⟨i, s0.A.statusAt i⟩ = true := by
    intro i hi
    have hmem := (hw.mem i).2 ⟨by rw [hw.size, hm, hnb]; exact hi, by rw [hst i hi]; split_ifs <;> simp⟩
    obtain ⟨k, hk, he⟩ := List.getElem_of_mem hmem
    have hk' : k < s0.A.q := by rw [hw.q_eq]; exact hk
    have hg : s0.A.get k = i := by rw [ActiveSet.get, List.getD_eq_getElem _ _ hk, he]
    have hA : s0.A.act k = ⟨i, s0.A.statusAt i⟩ := by rw [ActiveSet.act, hg]
    rw [← hA]
    exact ⟨h1.tight k hk', h1.scOk hk'⟩
  have key : ∀ a b : EReal, a ≠ ⊤ → b ≠ ⊥ → a = b → ∀ r : ℝ, r = a.toReal → a ≤ (r : EReal) ∧ (r : EReal) ≤ b := by
    intro a b ha hb he r hr
    subst he
    rw [hr, EReal.coe_toReal ha hb]
    exact ⟨le_rfl, le_rfl⟩
  have hfeas : Feasible pb s0.x := by
    refine ⟨fun i hi => ?_, fun hub i hi => ?_⟩
    · obtain ⟨g1, g2⟩ := hact i (by omega)
      rw [ndot_cases pb _ g2, rhs] at g1
      rw [hst i (by omega), if_pos hi] at g1
      rcases hall i (by omega) with ⟨_, he⟩ | ⟨h, _⟩
      · exact key _ _ (hp.bl i hi) (hp.bu i hi) he _ g1
      · omega
    · have hn : pb.nb = pb.n := by simp [Pb.nb, hub]
      obtain ⟨g1, g2⟩ := hact (pb.m + i) (by omega)
      rw [ndot_cases pb _ g2, rhs] at g1
      rw [hst (pb.m + i) (by omega), if_neg (by omega)] at g1
      simp only [Nat.add_sub_cancel_left] at g1
      rcases hall (pb.m + i) (by omega) with ⟨h, _⟩ | ⟨_, he⟩
      · omega
      · rw [Nat.add_sub_cancel_left] at he
        exact key _ _ (hp.xl hub i hi) (hp.xu hub i hi) he _ g1
  have hl := loop_feasible (o := o) hmax h1.good hfeas
  have hsol : solve o pb s = .ok (.success, s0) := by rw [h4 _ _ hl]; simp [terminate]
  have hu := h1.uniqueMin (posDef_of_chol hc)
  have hon : ∀ y, Feasible pb y → ∀ k < s0.A.q, ndot pb (s0.A.act k) y = rhs pb (s0.A.act k) := by
    intro y hy k hk
    have hok := h1.scOk hk
    obtain ⟨hkl, hkn⟩ := ActiveSet.get_lt s0.A hw k (by rw [← hw.q_eq]; exact hk)
    rw [hw.size, hm, hnb] at hkl
    have hto : ∀ (r : ℝ) (a b : EReal), a = b → a ≤ (r : EReal) ∧ (r : EReal) ≤ b → r = a.toReal := by
      rintro r a b rfl ⟨q1, q2⟩
      rw [le_antisymm q1 q2]; simp
    rw [ndot_cases pb _ hok, rhs]
    have hs := hst _ hkl
    simp only [ActiveSet.act] at hok ⊢
    by_cases hlt : s0.A.get k < pb.m
    · rw [if_pos hlt] at hs
      rw [hs]
      rcases hall _ hkl with ⟨_, he⟩ | ⟨h, _⟩
      · exact hto _ _ _ he (hy.gen _ hlt)
      · omega
    · rw [if_neg hlt] at hs
      rw [hs] at hok ⊢
      obtain ⟨hub, _, hn⟩ := scOk_bnd hok (Or.inl rfl)
      rcases hall _ hkl with ⟨h, _⟩ | ⟨_, he⟩
      · omega
      · exact hto _ _ _ he (hy.bnd hub _ hn)
  refine ⟨s0, hsol, h2, ⟨⟨hfeas, fun y hy => (hu.2 y (hon y hy)).1⟩, fun y hy => ?_⟩, h1.f⟩
  exact (hu.2 y (hon y hy.1)).2 (hy.2 _ hfeas)

/-! ## Concrete cases -/

/-- The hypotheses of `C51_optimal_start` are met with the default thresholds by `exPbW` and its optimal active set: a fresh
warm-started solver returns the minimiser `(1, 2)` and the multipliers `-2, 1, 0` after zero iterations. -/
theorem C51_hypotheses_met : ∃ xs', xsolve exOptsW exPbW exAs XState.empty = .ok (.success, xs') ∧ xs'.s.it = 0 ∧
    xs'.s.x 0 = 1 ∧ xs'.s.x 1 = 2 ∧ (multipliers xs'.s).u 0 = -2 ∧ (multipliers xs'.s).u 1 = 1 := by
  obtain ⟨h1, h2, h3, h4, h5, h6, h7, h8⟩ := exPbW_hyps
  have hu : usedAs exOptsW exPbW exAs (XState.empty : XState ℝ) = exAs := usedAs_explicit rfl (by simp [exAs])
  have hrow : ∀ x : Nat → ℝ, ∀ i, row exPbW x i = x 0 + x 1 := by
    intro x i; simp [row, exPbW, sum_range_succ]
  have hbig : (0 : ℝ) ≤ 1e100 := by norm_num
  obtain ⟨xs', k1, _, k2, k3, _, k5, _⟩ := C51_optimal_start (o := exOptsW) (by norm_num [exOptsW]) (by norm_num [exOptsW])
    ((cholOk_iff exPbW).1 h3) XInv.empty h5 (x := fun i => if i = 0 then 1 else 2)
    (lam := fun i => if i = 0 then -2 else if i = 1 then 1 else 0)
    (by
      rw [hu]
      refine ⟨⟨⟨fun i hi => ?_, fun _ i hi => ?_⟩, fun a ha => ?_, fun i hi _ => ?_, fun i hi h => ?_, fun _ i hi h => ?_,
        fun _ i hi h => ?_⟩, fun i hi _ => ?_, fun _ i hi _ => ?_⟩
      · rw [hrow]
        refine ⟨?_, le_top⟩
        show ((3 : ℝ) : EReal) ≤ _
        rw [EReal.coe_le_coe_iff]; norm_num
      · have hi : i < 2 := hi
        interval_cases i
        · show ((-10 : ℝ) : EReal) ≤ ((1 : ℝ) : EReal) ∧ ((1 : ℝ) : EReal) ≤ ((1 : ℝ) : EReal)
          simp only [EReal.coe_le_coe_iff]; norm_num
        · show ((-10 : ℝ) : EReal) ≤ ((2 : ℝ) : EReal) ∧ ((2 : ℝ) : EReal) ≤ ((10 : ℝ) : EReal)
          simp only [EReal.coe_le_coe_iff]; norm_num
      · have ha : a < 2 := ha
        interval_cases a <;> simp [exPbW, hess, sum_range_succ] <;> norm_num
      · rw [hrow]
        show _ = ((3 : ℝ) : EReal)
        rw [EReal.coe_eq_coe_iff]; norm_num
      · have : i = 0 := by have : i < 1 := hi; omega
        subst this
        norm_num at h
      · have hi : i < 2 := hi
        interval_cases i <;> norm_num [exPbW] at h
      · have hi : i < 2 := hi
        interval_cases i
        · rfl
        · norm_num [exPbW] at h
      · have : i = 0 := by have : i < 1 := hi; omega
        subst this
        refine Or.inr (Or.inl ⟨rfl, ?_, by norm_num⟩)
        rw [hrow]
        show _ = ((3 : ℝ) : EReal)
        rw [EReal.coe_eq_coe_iff]; norm_num
      · have hi : i < 2 := hi
        interval_cases i
        · exact Or.inr (Or.inr ⟨rfl, rfl, by norm_num [exPbW]⟩)
        · exact Or.inl ⟨rfl, by norm_num [exPbW]⟩)
    (by
      rw [hu]
      refine ⟨fun i hi _ => ?_, fun i hi h => ?_, fun i hi h => ?_, fun i hi h => ?_⟩
      · show (((-1e100 : ℝ)) : EReal) ≤ ((3 : ℝ) : EReal)
        rw [EReal.coe_le_coe_iff]; linarith
      · have : i = 0 := by have : i < 1 := hi; omega
        subst this
        cases h
      · have hi : i < 2 := hi
        interval_cases i <;> cases h
      · have hi : i < 2 := hi
        interval_cases i
        · show ((1 : ℝ) : EReal) ≤ ((1e100 : ℝ) : EReal)
          rw [EReal.coe_le_coe_iff]; norm_num
        · cases h)
    (by rw [hu]; exact h8)
  refine ⟨xs', k1, k2, by simpa using k3 0 (by simp [exPbW]), by simpa using k3 1 (by simp [exPbW]), ?_, ?_⟩
  · simpa using k5 0 (by simp [exPbW])
  · simpa using k5 1 (by simp [exPbW, Pb.nb])

/-- `min ½(x₀² + x₁²)` subject to `x₀ + x₁ = 2`. -/
noncomputable def exPbE : Pb ℝ EReal :=
  ⟨2, 1, false, fun i j => if i = j then 1 else 0, fun _ => 0, fun _ _ => 1, fun _ => ((2 : ℝ) : EReal),
    fun _ => ((2 : ℝ) : EReal), fun _ => ⊥, fun _ => ⊤⟩

/-- The hypotheses of `C51_only_equalities` are met by a problem with an equality constraint. -/
example : ∃ o : Opts ℝ, ∃ s', solve o exPbE State.empty = .ok (.success, s') ∧ s'.it = 0 ∧ IsUniqueOptimal exPbE s'.x := by
  have hp : Proper exPbE := ⟨fun i _ => EReal.coe_ne_top _, fun i _ => EReal.coe_ne_bot _, (fun h => by cases h), (fun h => by cases h)⟩
  have hx : NotCrossed exPbE := ⟨fun i _ => le_rfl, (fun h => by cases h)⟩
  have hall : ∀ i < exPbE.m + exPbE.nb, IsEqIdx exPbE i := by
    intro i hi
    have : i < 1 := by simpa [exPbE, Pb.nb] using hi
    exact Or.inl ⟨this, rfl⟩
  have hpd : (Matrix.of fun i j : Fin exPbE.n => hess exPbE i j).PosDef := by
    exact (posDefN_iff 2 _).1 (posDef_id (pb := exPbE) fun i j => rfl)
  have he : EqFirst exPbE 1 := ⟨by simp [exPbE, Pb.nb], fun i hi => by
    have h1 : i < 1 := by simpa [exPbE, Pb.nb] using hi
    have := isEqC_iff.2 (hall i hi)
    exact ⟨fun _ => h1, fun _ => this⟩⟩
  have hind : EqIndep exPbE := by
    intro c h1 h2 i
    by_cases hi : i < 1
    · have h3 := h2 0 (by simp [exPbE])
      have : i = 0 := by omega
      subst this
      simpa [exPbE, Pb.nb, grad] using h3
    · apply h1
      rintro ⟨h3, _⟩
      have : i < 1 := by simpa [exPbE, Pb.nb] using h3
      exact hi this
  obtain ⟨ε, he1, β, h⟩ := ev_regSolve (dbg := false) hp hx ((cholOk_iff _).2 hpd) he hind (inv_empty (K := ℝ))
  have hr := h ⟨1, β + 1, false, 0, false⟩ rfl le_rfl he1 (by simp) rfl
  obtain ⟨s', k1, k2, k3, _⟩ := C51_only_equalities (o := ⟨1, β + 1, false, 0, false⟩) le_rfl (by simp) hp hpd hall
    (inv_empty (K := ℝ)) hr.init
  exact ⟨_, s', k1, k2, k3⟩

end JrlQp
