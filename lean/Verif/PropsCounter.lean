import Verif.ExecKit

/-!
# Counterexamples to the unrestricted C07, C09, C15, C16

Each of them runs the model of the whole solver, from any state reached by legal calls, and shows that a hypothesis of the
corresponding partial theorem cannot be dropped.
-/

namespace JrlQp

open NumOps Finset Spec

theorem slackLow_coe (c b : ℝ) : (slackLow (K := ℝ) c ((b : ℝ) : EReal) : EReal) = ((c - b : ℝ) : EReal) := rfl
theorem slackUp_coe (c b : ℝ) : (slackUp (K := ℝ) ((b : ℝ) : EReal) c : EReal) = ((b - c : ℝ) : EReal) := rfl
theorem slackUp_top (c : ℝ) : (slackUp (K := ℝ) (⊤ : EReal) c : EReal) = ⊤ := rfl
theorem bZero_coe : (bZero ℝ : EReal) = ((0 : ℝ) : EReal) := rfl
theorem bLt_coe (a b : ℝ) : bLt ℝ ((a : ℝ) : EReal) ((b : ℝ) : EReal) = decide (a < b) := by simp [bLt]
theorem bLt_top (a : EReal) : bLt ℝ (⊤ : EReal) a = false := by simp [bLt]

/-- Selection among one general constraint. -/
theorem select_one {pb : Pb ℝ EReal} {A : ActiveSet} (hm : A.nbCstr = 1) (hb : A.nbBnd = 0) (n : Nat) (x : Nat → ℝ) :
    select pb n A x = (selGen pb n A x ⟨bZero ℝ, ⟨0, .inactive⟩⟩ 0).sc := by
  simp only [select, hm, hb, List.range_succ, List.range_zero, List.nil_append, List.foldl_cons, List.foldl_nil]

/-- Selection among two general constraints. -/
theorem select_two {pb : Pb ℝ EReal} {A : ActiveSet} (hm : A.nbCstr = 2) (hb : A.nbBnd = 0) (n : Nat) (x : Nat → ℝ) :
    select pb n A x = (selGen pb n A x (selGen pb n A x ⟨bZero ℝ, ⟨0, .inactive⟩⟩ 0) 1).sc := by
  simp only [select, hm, hb, List.range_succ, List.range_zero, List.nil_append, List.foldl_cons, List.foldl_nil, List.cons_append]

/-- Selection among three general constraints. -/
theorem select_three {pb : Pb ℝ EReal} {A : ActiveSet} (hm : A.nbCstr = 3) (hb : A.nbBnd = 0) (n : Nat) (x : Nat → ℝ) :
    select pb n A x = (selGen pb n A x (selGen pb n A x (selGen pb n A x ⟨bZero ℝ, ⟨0, .inactive⟩⟩ 0) 1) 2).sc := by
  simp only [select, hm, hb, List.range_succ, List.range_zero, List.nil_append, List.foldl_cons, List.foldl_nil, List.cons_append]

theorem selGen_active {pb : Pb ℝ EReal} {A : ActiveSet} {i : Nat} (h : A.statusAt i ≠ .inactive) (n : Nat) (x : Nat → ℝ)
    (acc : Sel EReal) : selGen pb n A x acc i = acc := by
  unfold selGen
  rw [if_pos (by simp [ActiveSet.isActive, h])]

theorem selGen_lower {pb : Pb ℝ EReal} {A : ActiveSet} {i : Nat} (h : A.statusAt i = .inactive) (x : Nat → ℝ) (acc : Sel EReal)
    {c b a : ℝ} (hc : row pb x i = c) (hb : pb.bl i = (b : EReal)) (ha : acc.smin = (a : EReal)) (hlt : c - b < a) :
    selGen pb pb.n A x acc i = ⟨((c - b : ℝ) : EReal), ⟨i, .lower⟩⟩ := by
  unfold selGen
  rw [if_neg (by simp [ActiveSet.isActive, h])]
  simp only []
  rw [colDot_eq, hc, hb, slackLow_coe, ha, bLt_coe, if_pos (by simpa using hlt)]

theorem selGen_none {pb : Pb ℝ EReal} {A : ActiveSet} {i : Nat} (h : A.statusAt i = .inactive) (x : Nat → ℝ) (acc : Sel EReal)
    {c b a : ℝ} (hc : row pb x i = c) (hb : pb.bl i = (b : EReal)) (hu : pb.bu i = ⊤) (ha : acc.smin = (a : EReal)) (hle : a ≤ c - b) :
    selGen pb pb.n A x acc i = acc := by
  unfold selGen
  rw [if_neg (by simp [ActiveSet.isActive, h])]
  simp only []
  rw [colDot_eq, hc, hb, hu, slackLow_coe, ha, bLt_coe, if_neg (by simpa using hle), slackUp_top, bLt_top, if_neg (by simp)]

/-! ### Crossed bounds -/

/-- `min ½x²` subject to `2 ≤ x ≤ 1`. -/
noncomputable def cexCrossed : Pb ℝ EReal :=
  ⟨1, 1, false, fun _ _ => 1, fun _ => 0, fun _ _ => 1, fun _ => ((2 : ℝ) : EReal), fun _ => ((1 : ℝ) : EReal), fun _ => 0, fun _ => 0⟩

/-- **C07 is false for crossed bounds.** For `2 ≤ x ≤ 1` the solver returns `SUCCESS` at `x = 2`, whatever its state, with
reasonable thresholds, although there is no feasible point. -/
theorem C07_crossed_false {o : Opts ℝ} (ht0 : 0 ≤ o.tiny) (ht : o.tiny < 1) (hb : 2 < o.bigBnd) (hm : 2 ≤ o.maxIter)
    {s : State ℝ} (hi : Inv s) :
    (∃ s', solve o cexCrossed s = .ok (.success, s') ∧ s'.x 0 = 2) ∧ ¬ ∃ y, Feasible cexCrossed y := by
  have hc : cholOk cexCrossed := chol_one (by norm_num [cexCrossed])
  have hpd := posDef_of_chol hc
  have hn : cexCrossed.n = 1 := rfl
  have hne : bEq ℝ ((2 : ℝ) : EReal) ((1 : ℝ) : EReal) = false := by
    simp only [bEq, decide_eq_false_iff_not, EReal.coe_eq_coe_iff]; norm_num
  have heq : ∀ A : ActiveSet, A.nbCstr = cexCrossed.m → A.nbBnd = cexCrossed.nb → eqList cexCrossed A = [] := by
    intro A h1 h2
    rw [show cexCrossed.m = 1 from rfl] at h1
    rw [show cexCrossed.nb = 0 from rfl] at h2
    simp [eqList, h1, h2, cexCrossed, hne]
  obtain ⟨s0, h1, hq, h6, h9, h10⟩ := solve_start_nil ht0 hc hi heq
  have hx0 : s0.x 0 = 0 :=
    (Alg.point hpd h1 (x := fun _ => 0) (u := fun _ => 0) (by intro a _; rw [hq]; simp [cexCrossed])
      (by intro k hk; omega)).1 0 (by rw [hn]; omega)
  have hsel : select cexCrossed cexCrossed.n s0.A s0.x = ⟨0, .lower⟩ := by
    rw [select_one h1.good.dim.nbCstr h1.good.dim.nbBnd, selGen_lower (h6 0) (c := 0) (b := 2) (a := 0) _ _ ?_ rfl rfl (by norm_num)]
    simp [row, hn, hx0]
  have law := fpLaws_real o ht0
  obtain ⟨s1, g1, g2, g3, g4, g5, g6, g7⟩ := exec_full law ht0 hpd (sc0 := ⟨0, .inactive⟩) h1 hsel (by simp) (z := fun _ => 1) (r := fun _ => 0) (t := 2)
    ⟨by intro a _; rw [hq]; simp [hn, normal, cexCrossed, hess], by intro k hk; omega⟩
    (by simp [rhs, ndot, normal, hn, hx0]; simp [cexCrossed])
    (by rw [hn]; simp [normn, dotn, esum_real, sumTo, sqrt_real]; exact ht) hb (by intro k hk; omega)
  rw [hq] at g3 g5
  have hx1 : s1.x 0 = 2 := by
    refine (Alg.point hpd g2 (x := fun _ => 2) (u := fun _ => 2) ?_ ?_).1 0 (by rw [hn]; omega)
    · intro a ha
      rw [g3, hn]
      simp [g5, normal, cexCrossed, hess]
    · intro k hk
      have : k = 0 := by omega
      subst this
      rw [g5]
      simp [rhs, ndot, normal, hn]; simp [cexCrossed]
  constructor
  · refine ⟨{ s1 with it := s1.it + 1 }, ?_, hx1⟩
    obtain ⟨m, hm'⟩ : ∃ m, o.maxIter = m + 1 + 1 := ⟨o.maxIter - 2, by omega⟩
    rw [h10 .success { s1 with it := s1.it + 1 }]
    · rfl
    · have g2' : Alg cexCrossed { s1 with it := s1.it + 1 } (fun _ => 0) := g2.setIt _
      rw [hm', loop_cont g1, loop_done (exec_success g2'.good ?_)]
      rw [select_one g2'.good.dim.nbCstr g2'.good.dim.nbBnd, selGen_active (by
        show s1.A.statusAt 0 ≠ .inactive
        rw [g6 0]; simp)]
  · rintro ⟨y, hy⟩
    obtain ⟨a, b⟩ := hy.gen 0 (by simp [cexCrossed])
    have := a.trans b
    rw [show cexCrossed.bl 0 = ((2 : ℝ) : EReal) from rfl, show cexCrossed.bu 0 = ((1 : ℝ) : EReal) from rfl,
      EReal.coe_le_coe_iff] at this
    norm_num at this

/-- **C16 is false for crossed bounds**: at `x = 0`, for the single constraint `1 ≤ x ≤ -5` the lower side is selected
although the upper side is more violated. -/
theorem C16_crossed_false : ∃ (pb : Pb ℝ EReal) (A : ActiveSet) (x : Nat → ℝ), Proper pb ∧ A.nbCstr = pb.m ∧ A.nbBnd = pb.nb ∧
    A.statusAt 0 = .inactive ∧ select pb pb.n A x = ⟨0, .lower⟩ ∧ slackHi pb x 0 < slackLo pb x 0 := by
  refine ⟨⟨1, 1, false, fun _ _ => 1, fun _ => 0, fun _ _ => 1, fun _ => ((1 : ℝ) : EReal), fun _ => ((-5 : ℝ) : EReal),
    fun _ => 0, fun _ => 0⟩, ActiveSet.mk' 1 0, fun _ => 0, ⟨?_, ?_, ?_, ?_⟩, rfl, rfl, rfl, ?_, ?_⟩
  · intro i _; exact EReal.coe_ne_top _
  · intro i _; exact EReal.coe_ne_bot _
  · intro h; simp at h
  · intro h; simp at h
  · rw [select_one rfl rfl, selGen_lower rfl (c := 0) (b := 1) (a := 0) _ _ ?_ rfl rfl (by norm_num)]
    simp [row]
  · have e1 : slackLo ⟨1, 1, false, fun _ _ => 1, fun _ => 0, fun _ _ => 1, fun _ => ((1 : ℝ) : EReal), fun _ => ((-5 : ℝ) : EReal),
        fun _ => 0, fun _ => 0⟩ (fun _ => 0) 0 = ((0 : ℝ) : EReal) - ((1 : ℝ) : EReal) := by simp [slackLo, row]
    have e2 : slackHi ⟨1, 1, false, fun _ _ => 1, fun _ => 0, fun _ _ => 1, fun _ => ((1 : ℝ) : EReal), fun _ => ((-5 : ℝ) : EReal),
        fun _ => 0, fun _ => 0⟩ (fun _ => 0) 0 = ((-5 : ℝ) : EReal) - ((0 : ℝ) : EReal) := by simp [slackHi, row]
    rw [e1, e2, ← EReal.coe_sub, ← EReal.coe_sub, EReal.coe_lt_coe_iff]
    norm_num

/-! ### Thresholds -/

/-- `min ½x²` subject to `c x ≥ b`. -/
noncomputable def cexOne (c b : ℝ) : Pb ℝ EReal :=
  ⟨1, 1, false, fun _ _ => 1, fun _ => 0, fun _ _ => c, fun _ => (b : EReal), fun _ => ⊤, fun _ => 0, fun _ => 0⟩

/-- **C09 is false without a condition on the thresholds.** For one variable and the constraint `c x ≥ b` with `b > 0`, which
is feasible as soon as `c > 0`, the solver returns `INFEASIBLE` whenever `c` does not exceed the threshold on the direction
(`1e-14`), and whenever the solution's multiplier `b / c²` reaches `bigBnd`. -/
theorem C09_threshold_false {o : Opts ℝ} (ht0 : 0 ≤ o.tiny) (hm : 1 ≤ o.maxIter) {c b : ℝ} (hc0 : 0 < c) (hb0 : 0 < b)
    (h : c ≤ o.tiny ∨ o.bigBnd ≤ b / (c * c)) {s : State ℝ} (hi : Inv s) :
    (∃ s', solve o (cexOne c b) s = .ok (.infeasible, s')) ∧ ∃ y, Feasible (cexOne c b) y := by
  have hc : cholOk (cexOne c b) := chol_one (by norm_num [cexOne])
  have hpd := posDef_of_chol hc
  have hn : (cexOne c b).n = 1 := rfl
  have heq : ∀ A : ActiveSet, A.nbCstr = (cexOne c b).m → A.nbBnd = (cexOne c b).nb → eqList (cexOne c b) A = [] := by
    intro A h1 h2
    rw [show (cexOne c b).m = 1 from rfl] at h1
    rw [show (cexOne c b).nb = 0 from rfl] at h2
    simp [eqList, h1, h2, cexOne, bEq]
  obtain ⟨s0, h1, hq, h6, h9, h10⟩ := solve_start_nil ht0 hc hi heq
  have hx0 : s0.x 0 = 0 :=
    (Alg.point hpd h1 (x := fun _ => 0) (u := fun _ => 0) (by intro a _; rw [hq]; simp [cexOne])
      (by intro k hk; omega)).1 0 (by rw [hn]; omega)
  have hsel : select (cexOne c b) (cexOne c b).n s0.A s0.x = ⟨0, .lower⟩ := by
    rw [select_one h1.good.dim.nbCstr h1.good.dim.nbBnd, selGen_lower (h6 0) (c := 0) (b := b) (a := 0) _ _ ?_ rfl rfl (by linarith)]
    simp [row, hn, hx0]
  have law := fpLaws_real o ht0
  obtain ⟨s1, g1⟩ := exec_threshold law hpd (sc0 := ⟨0, .inactive⟩) h1 hq hsel (by simp) (z := fun _ => c)
    (by intro a _; simp [hn, normal, cexOne, hess]) (by
      rcases h with h | h
      · left
        rw [hn]
        simp only [normn, dotn, esum_real, sumTo, sqrt_real, zero_add]
        rw [Real.sqrt_mul_self hc0.le]; exact h
      · right
        simp [rhs, ndot, normal, hn, hx0]; simp [cexOne]; exact h)
  constructor
  · refine ⟨s1, ?_⟩
    obtain ⟨m, hm'⟩ : ∃ m, o.maxIter = m + 1 := ⟨o.maxIter - 1, by omega⟩
    rw [h10 .infeasible s1]
    · rfl
    · rw [hm', loop_done g1]
  · refine ⟨fun _ => b / c, ?_, ?_⟩
    · intro i _
      refine ⟨?_, le_top⟩
      rw [show (cexOne c b).bl i = (b : EReal) from rfl, EReal.coe_le_coe_iff]
      have : row (cexOne c b) (fun _ => b / c) i = b := by
        simp [row, hn, cexOne, mul_div_cancel₀ _ hc0.ne']
      rw [this]
    · intro h; simp [cexOne] at h

/-! ### Equality constraints after inequality constraints -/

theorem selGen_upper {pb : Pb ℝ EReal} {A : ActiveSet} {i : Nat} (h : A.statusAt i = .inactive) (x : Nat → ℝ) (acc : Sel EReal)
    {c b b' a : ℝ} (hc : row pb x i = c) (hb : pb.bl i = (b : EReal)) (hu : pb.bu i = (b' : EReal)) (ha : acc.smin = (a : EReal))
    (hle : a ≤ c - b) (hlt : b' - c < a) : selGen pb pb.n A x acc i = ⟨((b' - c : ℝ) : EReal), ⟨i, .upper⟩⟩ := by
  unfold selGen
  rw [if_neg (by simp [ActiveSet.isActive, h])]
  simp only []
  rw [colDot_eq, hc, hb, hu, slackLow_coe, ha, bLt_coe, if_neg (by simpa using hle), slackUp_coe, bLt_coe,
    if_pos (by simpa using hlt)]

theorem lt_normn {n : Nat} {z : Nat → ℝ} {t : ℝ} (h0 : 0 ≤ t) (h : t * t < ∑ i ∈ range n, z i * z i) : t < normn n z := by
  unfold normn
  rw [dotn_eq, sqrt_real]
  apply Real.lt_sqrt_of_sq_lt
  rw [pow_two]; exact h

theorem posDef_id {pb : Pb ℝ EReal} (hG : ∀ i j, pb.G i j = if i = j then 1 else 0) : PosDefN pb.n (hess pb) := by
  rintro v ⟨i, hi, hv⟩
  have e : ∀ a ∈ range pb.n, ∑ b ∈ range pb.n, v a * hess pb a b * v b = v a * v a := by
    intro a ha
    rw [sum_eq_single a]
    · simp [hess, hG]
    · intro b _ hne
      simp [hess, hG, hne, Ne.symm hne]
    · intro h; exact absurd ha h
  rw [sum_congr rfl e]
  refine lt_of_lt_of_le (mul_self_pos.2 hv) ?_
  exact single_le_sum (f := fun i => v i * v i) (fun i _ => mul_self_nonneg _) (mem_range.2 hi)

theorem eqList_mid {pb : Pb ℝ EReal} (hb : pb.useBnd = false) (hm : pb.m = 2 ∨ pb.m = 3) (h0 : pb.bl 0 ≠ pb.bu 0)
    (h1 : pb.bl 1 = pb.bu 1) (h2 : pb.m = 3 → pb.bl 2 ≠ pb.bu 2) :
    ∀ A : ActiveSet, A.nbCstr = pb.m → A.nbBnd = pb.nb → eqList pb A = [⟨1, .equality⟩] := by
  intro A a1 a2
  have a3 : A.nbBnd = 0 := by rw [a2]; simp [Pb.nb, hb]
  rcases hm with hm | hm
  · simp [eqList, a1, a3, hm, List.range_succ, h0, h1]
  · simp [eqList, a1, a3, hm, List.range_succ, h0, h1, h2 hm]

/-- `min ½(x₀² + x₁²)` subject to `x₀ ≥ 1` and `x₀ + x₁ = 0`. -/
noncomputable def cexEq : Pb ℝ EReal :=
  ⟨2, 2, false, fun i j => if i = j then 1 else 0, fun _ => 0, fun a i => if i = 0 then (if a = 0 then 1 else 0) else 1,
    fun i => if i = 0 then ((1 : ℝ) : EReal) else ((0 : ℝ) : EReal), fun i => if i = 0 then ⊤ else ((0 : ℝ) : EReal),
    fun _ => 0, fun _ => 0⟩

/-- **C15 is false for an equality constraint after an inequality constraint.** For `x₀ ≥ 1`, `x₀ + x₁ = 0`, whatever the state
of the solver, `solve` returns `SUCCESS` at `(1, -1)` and reports the equality constraint as `UPPER`: the equality was dropped
from the active set and added again later. -/
theorem C15_equality_dropped {o : Opts ℝ} (ht0 : 0 ≤ o.tiny) (ht : o.tiny ≤ 1 / 2) (hb : 2 < o.bigBnd) (hm : 4 ≤ o.maxIter)
    {s : State ℝ} (hi : Inv s) :
    ∃ s', solve o cexEq s = .ok (.success, s') ∧ cexEq.bl 1 = cexEq.bu 1 ∧ s'.A.statusAt 1 = .upper ∧
      s'.x 0 = 1 ∧ s'.x 1 = -1 := by
  have hpd : PosDefN cexEq.n (hess cexEq) := posDef_id (fun i j => rfl)
  have hc : cholOk cexEq := cholOk_of_posDefN hpd
  have law := fpLaws_real o ht0
  have hn : cexEq.n = 2 := rfl
  have heq := eqList_mid (pb := cexEq) rfl (Or.inl rfl) (by simp only [cexEq, if_true]; exact EReal.coe_ne_top _) rfl
    (by intro h; simp [cexEq] at h)
  have htt : o.tiny * o.tiny ≤ 1 / 4 := by nlinarith
  obtain ⟨s0, h1, hq0, hact0, hst0, hit0, hrun⟩ := solve_start_one ht0 hc hi heq (z := fun _ => 1)
    (by intro a ha; rw [hn] at ha ⊢; interval_cases a <;> simp [normal, cexEq, hess, sum_range_succ])
    (lt_normn ht0 (by rw [hn]; simp; linarith))
  obtain ⟨hx0, hu0⟩ := Alg.point hpd h1 (x := fun _ => 0) (u := fun _ => 0)
    (by intro a _; simp [cexEq]) (by
      intro k hk
      have : k = 0 := by omega
      subst this
      rw [hact0]; simp [rhs, ndot]; simp [cexEq])
  have ex0 := hx0 0 (by rw [hn]; omega)
  have ex1 := hx0 1 (by rw [hn]; omega)
  have eu0 := hu0 0 (by omega)
  have es1 : s0.A.statusAt 1 = .equality := by
    have h : s0.A.get 0 = 1 := congrArg SC.p hact0
    have h' : s0.A.statusAt (s0.A.get 0) = .equality := congrArg SC.status hact0
    rwa [h] at h'
  -- first iteration: the equality constraint is dropped
  have hsel0 : select cexEq cexEq.n s0.A s0.x = ⟨0, .lower⟩ := by
    rw [select_two h1.good.dim.nbCstr h1.good.dim.nbBnd,
      selGen_lower (hst0 0 (by simp)) (c := 0) (b := 1) (a := 0) _ _ ?_ rfl rfl (by norm_num), selGen_active (by rw [es1]; simp)]
    simp [row, hn, sum_range_succ, ex0, ex1]
  obtain ⟨hc0, h1', henter⟩ := iterate_enter (o := o) (sc0 := ⟨0, .inactive⟩) h1 hsel0 (by simp)
  have eu0' : upd s0.u s0.A.q 0 0 = 0 := by rw [hq0]; simp [upd, eu0]
  obtain ⟨s1, g1, g2, g3, g4, g5, g6⟩ := body_dropFull law ht0 hpd (s := { s0 with u := upd s0.u s0.A.q 0 }) (sc := ⟨0, .lower⟩) h1' hc0
    (z := fun i => if i = 0 then 1 / 2 else -1 / 2) (r := fun _ => 1 / 2) (t2 := 2) ⟨by
      intro a ha
      show _ = ∑ k ∈ range s0.A.q, _ * normal cexEq (s0.A.act k) a + _
      rw [hq0, hn] at *
      simp only [sum_range_succ, sum_range_zero, hact0]
      interval_cases a <;> simp [normal, cexEq, hess] <;> norm_num, by
      intro k hk
      have hk : k < s0.A.q := hk
      have : k = 0 := by omega
      subst this
      show ndot cexEq (s0.A.act 0) _ = 0
      rw [hact0]; simp [ndot, normal, hn, sum_range_succ]; simp [cexEq]; norm_num⟩
    (by simp [rhs, ndot, normal, hn, sum_range_succ, ex0, ex1]; simp [cexEq])
    (lt_normn ht0 (by rw [hn]; simp [sum_range_succ]; norm_num; linarith)) hb (l := 0) (by show 0 < s0.A.q; omega)
    (by show elig s0.A 0; simp [elig, hst0 0 (by simp)]) (by norm_num)
    (by show upd s0.u s0.A.q 0 0 / _ < _; rw [eu0']; norm_num) (by
      intro k hk _ _
      have hk : k < s0.A.q := hk
      have : k = 0 := by omega
      subst this
      refine ⟨?_, Or.inl rfl⟩
      show upd s0.u s0.A.q 0 0 / _ < _
      rw [eu0']; norm_num; linarith)
  have g3 : s1.A = s0.A.deactivate 0 := g3
  have g4 : s1.A.q = 0 := by rw [g4]; show s0.A.q - 1 = 0; omega
  have fx0 : s1.x 0 = 0 := by
    rw [g5 0 (by rw [hn]; omega)]; show s0.x 0 + upd s0.u s0.A.q 0 0 / _ * _ = 0; rw [eu0', ex0]; simp
  have fx1 : s1.x 1 = 0 := by
    rw [g5 1 (by rw [hn]; omega)]; show s0.x 1 + upd s0.u s0.A.q 0 0 / _ * _ = 0; rw [eu0', ex1]; simp
  have fst : ∀ i, s1.A.statusAt i = .inactive := by
    intro i
    have hw := h1.good.dim.wf
    have hget : s0.A.get 0 = 1 := congrArg SC.p hact0
    rw [g3, ActiveSet.deactivate_statusAt _ hw _ _ (by rw [← hw.q_eq]; omega), hget]
    split_ifs with hi
    · rfl
    · exact hst0 i hi
  -- second iteration: the inequality constraint is added
  have k2 : Alg cexEq { s1 with it := s1.it + 1 } (fun a => s1.u s1.A.q * normal cexEq ⟨0, .lower⟩ a) := g2.setIt _
  have kc : Cand s1.A ⟨0, .lower⟩ := by
    refine ⟨(ActiveSet.activatePre_iff _ _ _).2 ⟨?_, fst 0, by simp, Or.inl ⟨?_, rfl⟩⟩, rfl⟩
    · rw [g2.good.dim.nbCstr]; simp [cexEq]
    · rw [g2.good.dim.nbCstr]; simp [cexEq]
  obtain ⟨s2, l1, l2, l3, l4, l5, l6, l7⟩ := body_full law ht0 hpd (s := { s1 with it := s1.it + 1 }) (sc := ⟨0, .lower⟩) k2 kc
    (z := fun i => if i = 0 then 1 else 0) (r := fun _ => 0) (t := 1) ⟨by
      intro a ha
      show _ = ∑ k ∈ range s1.A.q, _ + _
      rw [g4, hn] at *
      interval_cases a <;> simp [normal, cexEq, hess, sum_range_succ], by
      intro k hk
      have hk : k < s1.A.q := hk
      omega⟩
    (by simp [rhs, ndot, normal, hn, sum_range_succ, fx0, fx1]; simp [cexEq])
    (lt_normn ht0 (by rw [hn]; simp [sum_range_succ]; linarith)) (by linarith) (by
      intro k hk
      have hk : k < s1.A.q := hk
      omega)
  have l3 : s2.A.q = 1 := by rw [l3]; show s1.A.q + 1 = 1; omega
  have l5 : s2.A.act 0 = ⟨0, .lower⟩ := by
    have : s2.A.act s1.A.q = ⟨0, .lower⟩ := l5
    rwa [g4] at this
  have ls1 : s2.A.statusAt 1 = .inactive := by rw [l6 1]; exact fst 1
  have ls0 : s2.A.statusAt 0 = .lower := by rw [l6 0]; rfl
  obtain ⟨px, pu⟩ := Alg.point hpd l2 (x := fun i => if i = 0 then 1 else 0) (u := fun _ => 1)
    (by
      intro a ha
      rw [l3, hn] at *
      simp only [sum_range_succ, sum_range_zero, l5]
      interval_cases a <;> simp [normal, cexEq, hess]) (by
      intro k hk
      have : k = 0 := by omega
      subst this
      rw [l5]; simp [rhs, ndot, normal, hn, sum_range_succ]; simp [cexEq])
  have px0 := px 0 (by rw [hn]; omega)
  have px1 := px 1 (by rw [hn]; omega)
  simp at px0 px1
  -- third iteration: the former equality constraint is added as `UPPER`
  have m2 : Alg cexEq { s2 with it := s2.it + 1 } (fun _ => 0) := l2.setIt _
  have hsel2 : select cexEq cexEq.n s2.A s2.x = ⟨1, .upper⟩ := by
    rw [select_two l2.good.dim.nbCstr l2.good.dim.nbBnd, selGen_active (i := 0) (by rw [ls0]; simp),
      selGen_upper ls1 (c := 1) (b := 0) (b' := 0) (a := 0) _ _ ?_ rfl rfl rfl (by norm_num) (by norm_num)]
    simp [row, hn, sum_range_succ, px0, px1, cexEq]
  obtain ⟨s3, n1, n2, n3, n4, n5, n6, n7⟩ := exec_full law ht0 hpd (s := { s2 with it := s2.it + 1 }) (sc0 := ⟨0, .lower⟩) (sc := ⟨1, .upper⟩)
    m2 hsel2 (by simp) (z := fun i => if i = 0 then 0 else -1) (r := fun _ => -1) (t := 1) ⟨by
      intro a ha
      show _ = ∑ k ∈ range s2.A.q, _ * normal cexEq (s2.A.act k) a + _
      rw [l3, hn] at *
      simp only [sum_range_succ, sum_range_zero, l5]
      interval_cases a <;> simp [normal, cexEq, hess], by
      intro k hk
      have hk : k < s2.A.q := hk
      have : k = 0 := by omega
      subst this
      show ndot cexEq (s2.A.act 0) _ = 0
      rw [l5]; simp [ndot, normal, hn, sum_range_succ]; simp [cexEq]⟩
    (by simp [rhs, ndot, normal, hn, sum_range_succ, px0, px1]; simp [cexEq])
    (lt_normn ht0 (by rw [hn]; simp [sum_range_succ]; linarith)) (by linarith) (by
      intro k _ _ h; norm_num at h)
  have n3 : s3.A.q = 2 := by rw [n3]; show s2.A.q + 1 = 2; omega
  have n4 : s3.A.act 0 = ⟨0, .lower⟩ := by
    rw [n4 0 (by show 0 < s2.A.q; omega)]; exact l5
  have n5 : s3.A.act 1 = ⟨1, .upper⟩ := by
    have : s3.A.act s2.A.q = ⟨1, .upper⟩ := n5
    rwa [l3] at this
  have ns1 : s3.A.statusAt 1 = .upper := by rw [n6 1]; rfl
  have ns0 : s3.A.statusAt 0 = .lower := by rw [n6 0]; exact ls0
  obtain ⟨qx, _⟩ := Alg.point hpd n2 (x := fun i => if i = 0 then 1 else -1) (u := fun k => if k = 0 then 2 else 1)
    (by
      intro a ha
      rw [n3, hn] at *
      simp only [sum_range_succ, sum_range_zero, n4, n5]
      interval_cases a <;> simp [normal, cexEq, hess]; norm_num) (by
      intro k hk
      have hk : k < 2 := by omega
      interval_cases k
      · rw [n4]; simp [rhs, ndot, normal, hn, sum_range_succ]; simp [cexEq]
      · rw [n5]; simp [rhs, ndot, normal, hn, sum_range_succ]; simp [cexEq])
  have qx0 := qx 0 (by rw [hn]; omega)
  have qx1 := qx 1 (by rw [hn]; omega)
  simp at qx0 qx1
  -- the loop ends
  have r2 : Alg cexEq { s3 with it := s3.it + 1 } (fun _ => 0) := n2.setIt _
  refine ⟨{ s3 with it := s3.it + 1 }, ?_, rfl, ns1, qx0, qx1⟩
  obtain ⟨m, hm'⟩ : ∃ m, o.maxIter = m + 1 + 1 + 1 + 1 := ⟨o.maxIter - 4, by omega⟩
  rw [hrun .success { s3 with it := s3.it + 1 }]
  · rfl
  · have it2 : iterate o cexEq { s1 with it := s1.it + 1 } ⟨0, .lower⟩ true = .ok (.cont s2 ⟨0, .lower⟩ false) := l1
    rw [hm', loop_cont (henter g1), loop_cont it2, loop_cont n1, loop_done (exec_success r2.good ?_)]
    rw [select_two r2.good.dim.nbCstr r2.good.dim.nbBnd, selGen_active (i := 0) (by show s3.A.statusAt 0 ≠ _; rw [ns0]; simp),
      selGen_active (by show s3.A.statusAt 1 ≠ _; rw [ns1]; simp)]

/-- `min ½‖x‖²` subject to `x₀ ≥ 1`, `x₂ = 0` and `(x₀ + x₁) / 4 ≥ 1`. -/
noncomputable def cexOrd : Pb ℝ EReal :=
  ⟨3, 3, false, fun i j => if i = j then 1 else 0, fun _ => 0,
    fun a i => if i = 0 then (if a = 0 then 1 else 0) else if i = 1 then (if a = 2 then 1 else 0) else (if a = 2 then 0 else 1 / 4),
    fun i => if i = 1 then ((0 : ℝ) : EReal) else ((1 : ℝ) : EReal), fun i => if i = 1 then ((0 : ℝ) : EReal) else ⊤,
    fun _ => 0, fun _ => 0⟩

/-- **C07 is false for an equality constraint after an inequality constraint.** For `x₀ ≥ 1`, `x₂ = 0`, `(x₀ + x₁)/4 ≥ 1`,
whatever the state of the solver, `solve` returns `SUCCESS` at `(1, 3, 0)`, although the feasible point `(2, 2, 0)` is better. -/
theorem C07_order_false {o : Opts ℝ} (ht0 : 0 ≤ o.tiny) (ht : o.tiny < 1 / 4) (hb : 12 < o.bigBnd) (hm : 3 ≤ o.maxIter)
    {s : State ℝ} (hi : Inv s) :
    Proper cexOrd ∧ NotCrossed cexOrd ∧ ∃ s', solve o cexOrd s = .ok (.success, s') ∧ (s'.x 0 = 1 ∧ s'.x 1 = 3 ∧ s'.x 2 = 0) ∧
      ∃ y, Feasible cexOrd y ∧ obj cexOrd y < obj cexOrd s'.x := by
  have hpd : PosDefN cexOrd.n (hess cexOrd) := posDef_id (fun i j => rfl)
  have hc : cholOk cexOrd := cholOk_of_posDefN hpd
  have law := fpLaws_real o ht0
  have hn : cexOrd.n = 3 := rfl
  have heq := eqList_mid (pb := cexOrd) rfl (Or.inr rfl) (EReal.coe_ne_top _) rfl
    (fun _ => EReal.coe_ne_top _)
  have htt : o.tiny * o.tiny < 1 / 16 := by nlinarith
  obtain ⟨s0, h1, hq0, hact0, hst0, hit0, hrun⟩ := solve_start_one ht0 hc hi heq (z := fun i => if i = 2 then 1 else 0)
    (by intro a ha; rw [hn] at ha ⊢; interval_cases a <;> simp [normal, cexOrd, hess, sum_range_succ])
    (lt_normn ht0 (by rw [hn]; simp [sum_range_succ]; linarith))
  obtain ⟨hx0, hu0⟩ := Alg.point hpd h1 (x := fun _ => 0) (u := fun _ => 0)
    (by intro a _; simp [cexOrd]) (by
      intro k hk
      have : k = 0 := by omega
      subst this
      rw [hact0]; simp [rhs, ndot]; simp [cexOrd])
  have ex0 := hx0 0 (by rw [hn]; omega)
  have ex1 := hx0 1 (by rw [hn]; omega)
  have ex2 := hx0 2 (by rw [hn]; omega)
  have es1 : s0.A.statusAt 1 = .equality := by
    have h : s0.A.get 0 = 1 := congrArg SC.p hact0
    have h' : s0.A.statusAt (s0.A.get 0) = .equality := congrArg SC.status hact0
    rwa [h] at h'
  -- first iteration: constraint 0 is added
  have hsel0 : select cexOrd cexOrd.n s0.A s0.x = ⟨0, .lower⟩ := by
    rw [select_three h1.good.dim.nbCstr h1.good.dim.nbBnd,
      selGen_lower (i := 0) (hst0 0 (by simp)) (c := 0) (b := 1) (a := 0) _ _ ?_ rfl rfl (by norm_num), selGen_active (i := 1) (by rw [es1]; simp),
      selGen_none (i := 2) (hst0 2 (by simp)) (c := 0) (b := 1) (a := 0 - 1) _ _ ?_ rfl rfl rfl (by norm_num)]
    all_goals simp [row, hn, sum_range_succ, ex0, ex1, ex2]
  obtain ⟨s1, l1, l2, l3, l4, l5, l6, l7⟩ := exec_full law ht0 hpd (sc0 := ⟨0, .inactive⟩) (sc := ⟨0, .lower⟩) h1 hsel0 (by simp)
    (z := fun i => if i = 0 then 1 else 0) (r := fun _ => 0) (t := 1) ⟨by
      intro a ha
      rw [hq0, hn] at *
      simp only [sum_range_succ, sum_range_zero, hact0]
      interval_cases a <;> simp [normal, cexOrd, hess], by
      intro k hk
      have : k = 0 := by omega
      subst this
      rw [hact0]; simp [ndot, normal, hn, sum_range_succ]; simp [cexOrd]⟩
    (by simp [rhs, ndot, normal, hn, sum_range_succ, ex0, ex1, ex2]; simp [cexOrd])
    (lt_normn ht0 (by rw [hn]; simp [sum_range_succ]; linarith)) (by linarith) (by intro k _ _ h; norm_num at h)
  rw [hq0] at l3 l5
  have l4 : s1.A.act 0 = ⟨1, .equality⟩ := by rw [l4 0 (by omega)]; exact hact0
  have ls0 : s1.A.statusAt 0 = .lower := by rw [l6 0]; rfl
  have ls1 : s1.A.statusAt 1 = .equality := by rw [l6 1]; exact es1
  have ls2 : s1.A.statusAt 2 = .inactive := by rw [l6 2]; exact hst0 2 (by simp)
  obtain ⟨px, _⟩ := Alg.point hpd l2 (x := fun i => if i = 0 then 1 else 0) (u := fun k => if k = 0 then 0 else 1)
    (by
      intro a ha
      rw [l3, hn] at *
      simp only [sum_range_succ, sum_range_zero, l4, l5]
      interval_cases a <;> simp [normal, cexOrd, hess]) (by
      intro k hk
      have hk : k < 2 := by omega
      interval_cases k
      · rw [l4]; simp [rhs, ndot, normal, hn, sum_range_succ]; simp [cexOrd]
      · rw [l5]; simp [rhs, ndot, normal, hn, sum_range_succ]; simp [cexOrd])
  have px0 := px 0 (by rw [hn]; omega)
  have px1 := px 1 (by rw [hn]; omega)
  have px2 := px 2 (by rw [hn]; omega)
  simp at px0 px1 px2
  -- second iteration: constraint 2 is added, constraint 0 is not dropped
  have m2 : Alg cexOrd { s1 with it := s1.it + 1 } (fun _ => 0) := l2.setIt _
  have hsel1 : select cexOrd cexOrd.n s1.A s1.x = ⟨2, .lower⟩ := by
    rw [select_three l2.good.dim.nbCstr l2.good.dim.nbBnd, selGen_active (i := 0) (by rw [ls0]; simp),
      selGen_active (i := 1) (by rw [ls1]; simp),
      selGen_lower (i := 2) ls2 (c := 1 / 4) (b := 1) (a := 0) _ _ ?_ rfl rfl (by norm_num)]
    simp [row, hn, sum_range_succ, px0, px1, px2, cexOrd]
  obtain ⟨s2, n1, n2, n3, n4, n5, n6, n7⟩ := exec_full law ht0 hpd (s := { s1 with it := s1.it + 1 }) (sc0 := ⟨0, .lower⟩) (sc := ⟨2, .lower⟩)
    m2 hsel1 (by simp) (z := fun i => if i = 1 then 1 / 4 else 0) (r := fun k => if k = 0 then 0 else 1 / 4) (t := 12) ⟨by
      intro a ha
      show _ = ∑ k ∈ range s1.A.q, _ * normal cexOrd (s1.A.act k) a + _
      rw [l3, hn] at *
      simp only [sum_range_succ, sum_range_zero, l4, l5]
      interval_cases a <;> simp [normal, cexOrd, hess], by
      intro k hk
      have hk : k < s1.A.q := hk
      have hk : k < 2 := by omega
      show ndot cexOrd (s1.A.act k) _ = 0
      interval_cases k
      · rw [l4]; simp [ndot, normal, hn, sum_range_succ]; simp [cexOrd]
      · rw [l5]; simp [ndot, normal, hn, sum_range_succ]; simp [cexOrd]⟩
    (by simp [rhs, ndot, normal, hn, sum_range_succ, px0, px1, px2]; simp [cexOrd]; norm_num)
    (lt_normn ht0 (by rw [hn]; simp [sum_range_succ]; linarith)) hb (by
      intro k hk he hr
      have hk : k < s1.A.q := hk
      have hk : k < 2 := by omega
      interval_cases k
      · simp at hr
      · exact absurd ls1 he.1)
  have n3 : s2.A.q = 3 := by rw [n3]; show s1.A.q + 1 = 3; omega
  have n40 : s2.A.act 0 = ⟨1, .equality⟩ := by rw [n4 0 (by show 0 < s1.A.q; omega)]; exact l4
  have n41 : s2.A.act 1 = ⟨0, .lower⟩ := by rw [n4 1 (by show 1 < s1.A.q; omega)]; exact l5
  have n5 : s2.A.act 2 = ⟨2, .lower⟩ := by
    have : s2.A.act s1.A.q = ⟨2, .lower⟩ := n5
    rwa [l3] at this
  obtain ⟨qx, _⟩ := Alg.point hpd n2 (x := fun i => if i = 0 then 1 else if i = 1 then 3 else 0)
    (u := fun k => if k = 0 then 0 else if k = 1 then -2 else 12)
    (by
      intro a ha
      rw [n3, hn] at *
      simp only [sum_range_succ, sum_range_zero, n40, n41, n5]
      interval_cases a <;> simp [normal, cexOrd, hess] <;> norm_num) (by
      intro k hk
      have hk : k < 3 := by omega
      interval_cases k
      · rw [n40]; simp [rhs, ndot, normal, hn, sum_range_succ]; simp [cexOrd]
      · rw [n41]; simp [rhs, ndot, normal, hn, sum_range_succ]; simp [cexOrd]
      · rw [n5]; simp [rhs, ndot, normal, hn, sum_range_succ]; simp [cexOrd]; norm_num)
  have qx0 := qx 0 (by rw [hn]; omega)
  have qx1 := qx 1 (by rw [hn]; omega)
  have qx2 := qx 2 (by rw [hn]; omega)
  simp at qx0 qx1 qx2
  have r2 : Alg cexOrd { s2 with it := s2.it + 1 } (fun _ => 0) := n2.setIt _
  refine ⟨⟨?_, ?_, ?_, ?_⟩, ⟨?_, ?_⟩, { s2 with it := s2.it + 1 }, ?_, ⟨qx0, qx1, qx2⟩, fun i => if i = 2 then 0 else 2, ⟨?_, ?_⟩, ?_⟩
  · intro i _; simp only [cexOrd]; split_ifs <;> exact EReal.coe_ne_top _
  · intro i _; simp only [cexOrd]; split_ifs
    · exact EReal.coe_ne_bot _
    · simp
  · intro h; simp [cexOrd] at h
  · intro h; simp [cexOrd] at h
  · intro i _; simp only [cexOrd]; split_ifs
    · exact le_rfl
    · exact le_top
  · intro h; simp [cexOrd] at h
  · obtain ⟨m, hm'⟩ : ∃ m, o.maxIter = m + 1 + 1 + 1 := ⟨o.maxIter - 3, by omega⟩
    rw [hrun .success { s2 with it := s2.it + 1 }]
    · rfl
    · rw [hm', loop_cont l1, loop_cont n1, loop_done (exec_success r2.good ?_)]
      rw [select_three r2.good.dim.nbCstr r2.good.dim.nbBnd,
        selGen_active (i := 0) (by show s2.A.statusAt 0 ≠ _; rw [n6 0]; simp [ls0]),
        selGen_active (i := 1) (by show s2.A.statusAt 1 ≠ _; rw [n6 1]; simp [ls1]),
        selGen_active (i := 2) (by show s2.A.statusAt 2 ≠ _; rw [n6 2]; simp)]
  · intro i hi
    have hi : i < 3 := hi
    have e : row cexOrd (fun i => if i = 2 then 0 else 2) i = if i = 0 then 2 else if i = 1 then 0 else 1 := by
      interval_cases i <;> simp [row, hn, sum_range_succ, cexOrd] <;> norm_num
    rw [e]
    interval_cases i
    · exact ⟨EReal.coe_le_coe_iff.2 (by norm_num), le_top⟩
    · exact ⟨EReal.coe_le_coe_iff.2 (by norm_num), EReal.coe_le_coe_iff.2 (by norm_num)⟩
    · exact ⟨EReal.coe_le_coe_iff.2 (by norm_num), le_top⟩
  · intro h; simp [cexOrd] at h
  · show obj cexOrd _ < obj cexOrd s2.x
    simp [obj, hn, sum_range_succ, hess, qx0, qx1, qx2]
    simp [cexOrd]
    norm_num

/-- `min ½‖x‖²` subject to `10 x₀ ≥ 10`, `x₁ = 0` and `x₀ ≥ 2`. -/
noncomputable def cexInf : Pb ℝ EReal :=
  ⟨2, 3, false, fun i j => if i = j then 1 else 0, fun _ => 0,
    fun a i => if i = 0 then (if a = 0 then 10 else 0) else if i = 1 then (if a = 1 then 1 else 0) else (if a = 0 then 1 else 0),
    fun i => if i = 0 then ((10 : ℝ) : EReal) else if i = 1 then ((0 : ℝ) : EReal) else ((2 : ℝ) : EReal),
    fun i => if i = 1 then ((0 : ℝ) : EReal) else ⊤, fun _ => 0, fun _ => 0⟩

/-- **C09 is false for an equality constraint after an inequality constraint.** For `10 x₀ ≥ 10`, `x₁ = 0`, `x₀ ≥ 2`,
whatever the state of the solver, `solve` returns `INFEASIBLE`, although `(2, 0)` is feasible. -/
theorem C09_order_false {o : Opts ℝ} (ht0 : 0 ≤ o.tiny) (ht : o.tiny < 1) (hb : 1 < o.bigBnd) (hm : 2 ≤ o.maxIter)
    {s : State ℝ} (hi : Inv s) :
    Proper cexInf ∧ NotCrossed cexInf ∧ (∃ s', solve o cexInf s = .ok (.infeasible, s')) ∧ ∃ y, Feasible cexInf y := by
  have hpd : PosDefN cexInf.n (hess cexInf) := posDef_id (fun i j => rfl)
  have hc : cholOk cexInf := cholOk_of_posDefN hpd
  have law := fpLaws_real o ht0
  have hn : cexInf.n = 2 := rfl
  have heq := eqList_mid (pb := cexInf) rfl (Or.inr rfl) (by simp only [cexInf, if_true]; exact EReal.coe_ne_top _) rfl
    (by intro _; simp only [cexInf]; exact EReal.coe_ne_top _)
  have htt : o.tiny * o.tiny < 1 := by nlinarith
  obtain ⟨s0, h1, hq0, hact0, hst0, hit0, hrun⟩ := solve_start_one ht0 hc hi heq (z := fun i => if i = 1 then 1 else 0)
    (by intro a ha; rw [hn] at ha ⊢; interval_cases a <;> simp [normal, cexInf, hess, sum_range_succ])
    (lt_normn ht0 (by rw [hn]; simp [sum_range_succ]; linarith))
  obtain ⟨hx0, hu0⟩ := Alg.point hpd h1 (x := fun _ => 0) (u := fun _ => 0)
    (by intro a _; simp [cexInf]) (by
      intro k hk
      have : k = 0 := by omega
      subst this
      rw [hact0]; simp [rhs, ndot]; simp [cexInf])
  have ex0 := hx0 0 (by rw [hn]; omega)
  have ex1 := hx0 1 (by rw [hn]; omega)
  have es1 : s0.A.statusAt 1 = .equality := by
    have h : s0.A.get 0 = 1 := congrArg SC.p hact0
    have h' : s0.A.statusAt (s0.A.get 0) = .equality := congrArg SC.status hact0
    rwa [h] at h'
  have hsel0 : select cexInf cexInf.n s0.A s0.x = ⟨0, .lower⟩ := by
    rw [select_three h1.good.dim.nbCstr h1.good.dim.nbBnd,
      selGen_lower (i := 0) (hst0 0 (by simp)) (c := 0) (b := 10) (a := 0) _ _ ?_ rfl rfl (by norm_num), selGen_active (i := 1) (by rw [es1]; simp),
      selGen_none (i := 2) (hst0 2 (by simp)) (c := 0) (b := 2) (a := 0 - 10) _ _ ?_ rfl rfl rfl (by norm_num)]
    all_goals simp [row, hn, sum_range_succ, ex0, ex1]
  obtain ⟨s1, l1, l2, l3, l4, l5, l6, l7⟩ := exec_full law ht0 hpd (sc0 := ⟨0, .inactive⟩) (sc := ⟨0, .lower⟩) h1 hsel0 (by simp)
    (z := fun i => if i = 0 then 10 else 0) (r := fun _ => 0) (t := 1 / 10) ⟨by
      intro a ha
      rw [hq0, hn] at *
      simp only [sum_range_succ, sum_range_zero, hact0]
      interval_cases a <;> simp [normal, cexInf, hess], by
      intro k hk
      have : k = 0 := by omega
      subst this
      rw [hact0]; simp [ndot, normal, hn, sum_range_succ]; simp [cexInf]⟩
    (by simp [rhs, ndot, normal, hn, sum_range_succ, ex0, ex1]; simp [cexInf])
    (lt_normn ht0 (by rw [hn]; simp [sum_range_succ]; linarith)) (by linarith) (by intro k _ _ h; norm_num at h)
  rw [hq0] at l3 l5
  have l4 : s1.A.act 0 = ⟨1, .equality⟩ := by rw [l4 0 (by omega)]; exact hact0
  have ls0 : s1.A.statusAt 0 = .lower := by rw [l6 0]; rfl
  have ls1 : s1.A.statusAt 1 = .equality := by rw [l6 1]; exact es1
  have ls2 : s1.A.statusAt 2 = .inactive := by rw [l6 2]; exact hst0 2 (by simp)
  obtain ⟨px, _⟩ := Alg.point hpd l2 (x := fun i => if i = 0 then 1 else 0) (u := fun k => if k = 0 then 0 else 1 / 10)
    (by
      intro a ha
      rw [l3, hn] at *
      simp only [sum_range_succ, sum_range_zero, l4, l5]
      interval_cases a <;> simp [normal, cexInf, hess]) (by
      intro k hk
      have hk : k < 2 := by omega
      interval_cases k
      · rw [l4]; simp [rhs, ndot, normal, hn, sum_range_succ]; simp [cexInf]
      · rw [l5]; simp [rhs, ndot, normal, hn, sum_range_succ]; simp [cexInf])
  have px0 := px 0 (by rw [hn]; omega)
  have px1 := px 1 (by rw [hn]; omega)
  simp at px0 px1
  have m2 : Alg cexInf { s1 with it := s1.it + 1 } (fun _ => 0) := l2.setIt _
  have hsel1 : select cexInf cexInf.n s1.A s1.x = ⟨2, .lower⟩ := by
    rw [select_three l2.good.dim.nbCstr l2.good.dim.nbBnd, selGen_active (i := 0) (by rw [ls0]; simp),
      selGen_active (i := 1) (by rw [ls1]; simp),
      selGen_lower (i := 2) ls2 (c := 1) (b := 2) (a := 0) _ _ ?_ rfl rfl (by norm_num)]
    simp [row, hn, sum_range_succ, px0, px1, cexInf]
  obtain ⟨s2, n1, _, _⟩ := exec_infeasible law ht0 hpd (s := { s1 with it := s1.it + 1 }) (sc0 := ⟨0, .lower⟩) (sc := ⟨2, .lower⟩)
    m2 hsel1 (by simp) (r := fun k => if k = 0 then 0 else 1 / 10) ⟨by
      intro a ha
      show _ = ∑ k ∈ range s1.A.q, _ * normal cexInf (s1.A.act k) a + _
      rw [l3, hn] at *
      simp only [sum_range_succ, sum_range_zero, l4, l5]
      interval_cases a <;> simp [normal, cexInf, hess], by
      intro k hk
      simp [ndot]⟩
    (by
      intro k hk he
      have hk : k < s1.A.q := hk
      have hk : k < 2 := by omega
      interval_cases k
      · simp
      · exact absurd ls1 he.1)
  refine ⟨⟨?_, ?_, ?_, ?_⟩, ⟨?_, ?_⟩, ⟨s2, ?_⟩, fun i => if i = 0 then 2 else 0, ⟨?_, ?_⟩⟩
  · intro i _; simp only [cexInf]; split_ifs <;> exact EReal.coe_ne_top _
  · intro i _; simp only [cexInf]; split_ifs
    · exact EReal.coe_ne_bot _
    · simp
  · intro h; simp [cexInf] at h
  · intro h; simp [cexInf] at h
  · intro i hi
    have hi : i < 3 := hi
    interval_cases i
    · exact le_top
    · exact le_rfl
    · exact le_top
  · intro h; simp [cexInf] at h
  · obtain ⟨m, hm'⟩ : ∃ m, o.maxIter = m + 1 + 1 := ⟨o.maxIter - 2, by omega⟩
    rw [hrun .infeasible s2]
    · rfl
    · rw [hm', loop_cont l1, loop_done n1]
  · intro i hi
    have hi : i < 3 := hi
    have e : row cexInf (fun i => if i = 0 then 2 else 0) i = if i = 0 then 20 else if i = 1 then 0 else 2 := by
      interval_cases i <;> simp [row, hn, sum_range_succ, cexInf] <;> norm_num
    rw [e]
    interval_cases i
    · exact ⟨EReal.coe_le_coe_iff.2 (by norm_num), le_top⟩
    · exact ⟨EReal.coe_le_coe_iff.2 (by norm_num), EReal.coe_le_coe_iff.2 (by norm_num)⟩
    · exact ⟨EReal.coe_le_coe_iff.2 (by norm_num), le_top⟩
  · intro h; simp [cexInf] at h

end JrlQp
