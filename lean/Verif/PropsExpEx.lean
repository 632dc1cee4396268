import Verif.PropsExpSim

/-!
# Experimental solver: concrete cases of C21 - C24 and counterexamples to their unrestricted statements
-/

namespace JrlQp

open NumOps Finset Spec

/-! ## A warm start that works -/

/-- `min ½(x₀² + x₁²)` subject to `x₀ + x₁ ≥ 3`, `-10 ≤ x₀ ≤ 1`, `-10 ≤ x₁ ≤ 10`. -/
noncomputable def exPbW : Pb ℝ EReal :=
  ⟨2, 1, true, fun i j => if i = j then 1 else 0, fun _ => 0, fun _ _ => 1, fun _ => ((3 : ℝ) : EReal), fun _ => ⊤,
    fun _ => ((-10 : ℝ) : EReal), fun i => if i = 0 then ((1 : ℝ) : EReal) else ((10 : ℝ) : EReal)⟩

/-- Warm start: the general constraint and the upper bound of `x₀`. -/
def exAs : List Status := [.lower, .upperBound, .inactive]

noncomputable def exOptsW : Opts ℝ := ⟨1000, 1e100, true, 1e-14, false⟩

theorem exPbW_isEq (i : Nat) (hi : i < 3) : isEqB exPbW i = false := by
  have h1 : ((3 : ℝ) : EReal) ≠ ⊤ := EReal.coe_ne_top _
  have h2 : ((-10 : ℝ) : EReal) ≠ ((1 : ℝ) : EReal) := by rw [Ne, EReal.coe_eq_coe_iff]; norm_num
  have h3 : ((-10 : ℝ) : EReal) ≠ ((10 : ℝ) : EReal) := by rw [Ne, EReal.coe_eq_coe_iff]; norm_num
  have e1 : isEqB exPbW 0 = bEq ℝ ((3 : ℝ) : EReal) ⊤ := rfl
  have e2 : isEqB exPbW 1 = bEq ℝ ((-10 : ℝ) : EReal) ((1 : ℝ) : EReal) := rfl
  have e3 : isEqB exPbW 2 = bEq ℝ ((-10 : ℝ) : EReal) ((10 : ℝ) : EReal) := rfl
  interval_cases i
  · rw [e1]; exact decide_eq_false h1
  · rw [e2]; exact decide_eq_false h2
  · rw [e3]; exact decide_eq_false h3

theorem cholOk_of_posDefN {pb : Pb ℝ EReal} (h : PosDefN pb.n (hess pb)) : cholOk pb := by
  rcases hch : (chol pb.n pb.G pb.n) with ⟨P, _ | c⟩
  · unfold cholOk; rw [hch]
  · exact absurd h (chol_not_posDef hch)

theorem exPbW_hyps : Proper exPbW ∧ NotCrossed exPbW ∧ cholOk exPbW ∧ EqFirst exPbW 0 ∧ ArgOk exOptsW exPbW exAs ∧
    NoFalseEq exOptsW exPbW exAs ∧ EqActFirst exOptsW exPbW exAs 0 ∧ WarmIndep true exPbW exAs := by
  have hc1 : ((-10 : ℝ) : EReal) ≤ ((1 : ℝ) : EReal) := by rw [EReal.coe_le_coe_iff]; norm_num
  have hc2 : ((-10 : ℝ) : EReal) ≤ ((10 : ℝ) : EReal) := by rw [EReal.coe_le_coe_iff]; norm_num
  refine ⟨⟨?_, ?_, ?_, ?_⟩, ⟨?_, ?_⟩, ?_, ⟨by simp [exPbW], ?_⟩, ⟨?_, Or.inl rfl, ⟨?_, ?_⟩⟩, ?_, Or.inl rfl, ?_⟩
  · intro i _; exact EReal.coe_ne_top _
  · intro i _; simp [exPbW]
  · intro _ i _; exact EReal.coe_ne_top _
  · intro _ i _; simp only [exPbW]; split_ifs <;> exact EReal.coe_ne_bot _
  · intro i _; exact le_top
  · intro _ i _; simp only [exPbW]; split_ifs
    · exact hc1
    · exact hc2
  · apply cholOk_of_posDefN
    rintro v ⟨i, hi, hv⟩
    have hi : i < 2 := hi
    have e : ∑ a ∈ range exPbW.n, ∑ b ∈ range exPbW.n, v a * hess exPbW a b * v b = v 0 * v 0 + v 1 * v 1 := by
      simp [exPbW, sum_range_succ, hess, symLow]
    rw [e]
    interval_cases i
    · have := mul_self_pos.2 hv; nlinarith [mul_self_nonneg (v 1)]
    · have := mul_self_pos.2 hv; nlinarith [mul_self_nonneg (v 0)]
  · intro i hi
    have : i < 3 := by simpa [exPbW, Pb.nb] using hi
    rw [exPbW_isEq i this]; simp
  · left; rfl
  · intro _ _ i hi
    have : i = 0 := by have : i < 1 := hi; omega
    subst this; right; rfl
  · intro _ _ i hi
    have : i < 2 := by simpa [exPbW, Pb.nb] using hi
    interval_cases i
    · right; rfl
    · left; rfl
  · intro _ i hi h
    have : i = 0 := by have : i < 1 := hi; omega
    subst this
    cases h
  · intro c h1 h2
    have hn : exPbW.m + exPbW.nb = 3 := rfl
    have hz : ∀ i, 2 ≤ i → c i = 0 := by
      intro i hi
      apply h1
      rintro ⟨h, hor⟩
      rw [hn] at h
      have : i = 2 := by omega
      subst this
      rcases hor with hor | ⟨_, hor⟩
      · have h3 : ((-10 : ℝ) : EReal) ≠ ((10 : ℝ) : EReal) := by rw [Ne, EReal.coe_eq_coe_iff]; norm_num
        rcases hor with ⟨hor, _⟩ | ⟨_, hor⟩
        · simp [exPbW] at hor
        · exact h3 hor
      · exact hor rfl
    have e0 := h2 0 (by simp [exPbW])
    have e1 := h2 1 (by simp [exPbW])
    rw [hn] at e0 e1
    simp [sum_range_succ, grad, exPbW, hz 2 le_rfl] at e0 e1
    intro i
    by_cases h : 2 ≤ i
    · exact hz i h
    · have : i = 0 ∨ i = 1 := by omega
      rcases this with rfl | rfl
      · exact e1
      · linarith

/-- Non-vacuity of the hypotheses of C21 - C24 and of `C24_thresholds_partial`: on the example, for harmless thresholds and
`maxIter` large enough, the warm-started solver returns `SUCCESS` with the minimiser, after any history. -/
theorem exPbW_solved : ∃ o : Opts ℝ, o.warmStart = true ∧ ∀ cs : List (XCall ℝ EReal), (∀ c ∈ cs, c.Admissible) →
    ∃ xs xs', xcalls cs (XState.empty : XState ℝ) = .ok xs ∧ xsolve o exPbW exAs xs = .ok (.success, xs') ∧
      IsUniqueOptimal exPbW xs'.s.x := by
  obtain ⟨h1, h2, h3, h4, h5, h6, h7, h8⟩ := exPbW_hyps
  obtain ⟨ε, hε, β, hS⟩ := C24_thresholds_partial (o0 := exOptsW) h1 h2 ((cholOk_iff exPbW).1 h3) h4 (fun _ => by simp [exAs]) h5 h6 h7 h8
  refine ⟨⟨2 + 3 * (7 ^ 3 + 1), β + 1, true, 0, false⟩, rfl, fun cs hcs => ?_⟩
  obtain ⟨xs, t, xs', g1, g2, g3, g4, g5, g6⟩ := hS ⟨2 + 3 * (7 ^ 3 + 1), β + 1, true, 0, false⟩ rfl le_rfl hε (by simp) cs hcs
  have ht : t = .success := by
    rcases g3 with h | h | h
    · exact h
    · exfalso
      apply g5 h
      refine ⟨fun i => if i = 0 then 1 else 2, ?_, ?_⟩
      · intro i hi
        have : row exPbW (fun i => if i = 0 then 1 else 2) i = 3 := by
          simp [row, exPbW, sum_range_succ]; norm_num
        rw [this]
        exact ⟨le_rfl, le_top⟩
      · intro _ i hi
        have : i < 2 := hi
        interval_cases i
        · simp only [exPbW, if_true]
          exact ⟨EReal.coe_le_coe_iff.2 (by norm_num), EReal.coe_le_coe_iff.2 (by norm_num)⟩
        · simp only [exPbW]
          exact ⟨EReal.coe_le_coe_iff.2 (by norm_num), EReal.coe_le_coe_iff.2 (by norm_num)⟩
    · have := g6 h
      have hn : exPbW.m + exPbW.nb = 3 := rfl
      have hn2 : exPbW.n = 2 := rfl
      rw [hn, hn2] at this
      norm_num at this
  subst ht
  exact ⟨xs, xs', g1, g2, (g4 rfl).1⟩

/-! ## Wrong `EQUALITY` in the warm start -/

/-- `min ½x²` subject to `-1 ≤ x ≤ 5`, once or twice. -/
noncomputable def exPbF (m : Nat) : Pb ℝ EReal :=
  ⟨1, m, false, fun _ _ => 1, fun _ => 0, fun _ _ => 1, fun _ => ((-1 : ℝ) : EReal), fun _ => ((5 : ℝ) : EReal),
    fun _ => 0, fun _ => 0⟩

theorem exPbF_chol (m : Nat) : cholOk (exPbF m) := chol_one (by norm_num [exPbF])

theorem exPbF_neq : bEq ℝ (((-1 : ℝ) : EReal)) (((5 : ℝ) : EReal)) = false := by
  simp only [bEq, decide_eq_false_iff_not, EReal.coe_eq_coe_iff]; norm_num

theorem exPbF_arg (m : Nat) (o : Opts ℝ) (hw : o.warmStart = true) : ArgOk o (exPbF m) (List.replicate m .equality) := by
  refine ⟨Or.inl (by simp [exPbF, Pb.nb]), Or.inl hw, ⟨?_, ?_⟩⟩
  · intro _ _ i hi
    right
    have : i < m := hi
    rw [List.getD_eq_getElem _ _ (by simpa using this)]
    simp [Status.isGeneral]
  · intro _ _ i hi; simp [exPbF, Pb.nb] at hi

theorem exPbF_want (m : Nat) (o : Opts ℝ) (hw : o.warmStart = true) (i : Nat) (hi : i < m) :
    want o (exPbF m) (List.replicate m .equality) i = .equality := by
  have h1 : isEqC (exPbF m) i = false := by
    simp only [isEqC, exPbF, hi, if_true]; exact exPbF_neq
  have h2 : (List.replicate m Status.equality).getD i .inactive = .equality := by
    rw [List.getD_eq_getElem _ _ (by simpa using hi)]; simp
  simp [want, h1, hw, infSide, hi]

/-- The unrestricted C21 is false: for one variable and two constraints `-1 ≤ x ≤ 5`, none of them an equality, the warm
start `[EQUALITY, EQUALITY]` makes a release build return `OVERCONSTRAINED_PROBLEM`, whatever the state of the solver. -/
theorem C21_spurious_overconstrained (o : Opts ℝ) (hw : o.warmStart = true) (hd : o.dbg = false) (xs : XState ℝ) (h : XInv xs) :
    numEq (exPbF 2) = 0 ∧ ArgOk o (exPbF 2) [.equality, .equality] ∧
    ∃ xs', xsolve o (exPbF 2) [.equality, .equality] xs = .ok (.overconstrainedProblem, xs') := by
  have ha := exPbF_arg 2 o hw
  have hu : usedAs o (exPbF 2) [.equality, .equality] xs = List.replicate 2 .equality := usedAs_explicit hw (by simp)
  have hnum : numWant o (exPbF 2) (List.replicate 2 .equality) (·.isEq) = 2 := by
    have h0 := exPbF_want 2 o hw 0 (by omega)
    have h1 := exPbF_want 2 o hw 1 (by omega)
    have hr : (exPbF 2).m + (exPbF 2).nb = 2 := rfl
    unfold numWant
    rw [hr]
    simp only [List.range_succ, List.range_zero, List.nil_append, List.countP_append, List.countP_cons, List.countP_nil, h0, h1,
      Status.isEq]
    rfl
  refine ⟨?_, ha, ?_⟩
  · have e : numEq (exPbF 2) = (List.range 2).countP (fun _ => bEq ℝ ((-1 : ℝ) : EReal) ((5 : ℝ) : EReal)) + 0 := rfl
    rw [e, exPbF_neq]; rfl
  · rcases xsolve_cases (as := [.equality, .equality]) h ha with ⟨h1, h2 | h2⟩ | ⟨h1, _⟩ | ⟨_, A, _, hA, _⟩
    · rw [hd] at h2; simp at h2
    · obtain ⟨_, xs', _, h3⟩ := h2
      exact ⟨xs', h3⟩
    · rw [hu, hnum] at h1
      have : (exPbF 2).n = 1 := rfl
      omega
    · have := hA.eqs
      rw [hu, hnum] at this
      have h2 : (exPbF 2).n = 1 := rfl
      omega

/-- The unrestricted C24 is false: for `min ½x²` subject to `-1 ≤ x ≤ 5`, with the warm start `[EQUALITY]`, the solver
returns `SUCCESS` at `x = -1`, whatever its state and thresholds, although the minimiser is `x = 0`. -/
theorem C24_false_equality (o : Opts ℝ) (hw : o.warmStart = true) (hm : 0 < o.maxIter) (xs : XState ℝ) (h : XInv xs) :
    ArgOk o (exPbF 1) [.equality] ∧ (∃ xs', xsolve o (exPbF 1) [.equality] xs = .ok (.success, xs') ∧ xs'.s.x 0 = -1) ∧
    IsUniqueOptimal (exPbF 1) (fun _ => 0) := by
  have ha := exPbF_arg 1 o hw
  have hu : usedAs o (exPbF 1) [.equality] xs = List.replicate 1 .equality := usedAs_explicit hw (by simp)
  have hw0 := exPbF_want 1 o hw 0 (by omega)
  have hr : (exPbF 1).m + (exPbF 1).nb = 1 := rfl
  have hn : (exPbF 1).n = 1 := rfl
  have hnum : ∀ P, numWant o (exPbF 1) (List.replicate 1 .equality) P = if P .equality then 1 else 0 := by
    intro P
    unfold numWant
    rw [hr]
    simp only [List.range_succ, List.range_zero, List.nil_append, List.countP_cons, List.countP_nil, hw0]
    simp
  refine ⟨ha, ?_, ?_⟩
  · rcases xsolve_cases (as := [.equality]) h ha with ⟨h1, _⟩ | ⟨_, h1, _⟩ | ⟨hc, A, xs1, hA, hg, hdl, hDR, hx⟩
    · rw [hu, hnum] at h1; simp [Status.isEq, hn] at h1
    · exact absurd (exPbF_chol 1) h1
    · rw [hu] at hA
      have hq : A.q = 1 := by rw [hA.q, hnum, hn]; rfl
      have hst : A.statusAt 0 = .equality := by
        rw [(hA.all (by rw [hnum, hn]; simp)).2 0 (by rw [hr]; omega), hw0]
      have hget : A.get 0 = 0 := by
        have := (ActiveSet.get_lt A hA.wf 0 (by rw [← hA.wf.q_eq, hq]; omega)).1
        rw [hA.wf.size, hA.nbCstr, hA.nbBnd, hr] at this
        omega
      have hact : A.act 0 = ⟨0, .equality⟩ := by simp [ActiveSet.act, hget, hst]
      have hind : ActIndep (exPbF 1) A := by
        intro c hc k hk
        have h0 := hc 0 (by rw [hn]; omega)
        rw [hq] at h0 hk
        have : k = 0 := by omega
        subst this
        simpa [hact, normal, exPbF] using h0
      have halg := (xstart_alg hg hc hind).alg
      -- nothing is removed
      have hdp : dropPos o (xstart o (exPbF 1) (xsolveStart o (exPbF 1) [.equality] xs) A) = none := by
        cases hdp : dropPos o (xstart o (exPbF 1) (xsolveStart o (exPbF 1) [.equality] xs) A) with
        | none => rfl
        | some l =>
          exfalso
          obtain ⟨hl, hs⟩ := dropPos_some hdp
          have hAe : (xstart o (exPbF 1) (xsolveStart o (exPbF 1) [.equality] xs) A).s.A = A := rfl
          rw [hAe] at hl hs
          have : l = 0 := by omega
          subst this
          rw [hget, hst] at hs
          cases hs
      rw [hq] at hdl
      unfold dropLoop at hdl
      rw [hdp] at hdl
      cases hdl
      have hAe : (xstart o (exPbF 1) (xsolveStart o (exPbF 1) [.equality] xs) A).s.A = A := rfl
      have hit : (xstart o (exPbF 1) (xsolveStart o (exPbF 1) [.equality] xs) A).s.it = 0 := rfl
      have hsel : (select (exPbF 1) (xstart o (exPbF 1) (xsolveStart o (exPbF 1) [.equality] xs) A).s.nbVar A
          (xstart o (exPbF 1) (xsolveStart o (exPbF 1) [.equality] xs) A).s.x).status = .inactive := by
        have b1 : A.nbCstr = 1 := hA.nbCstr
        have b2 : A.nbBnd = 0 := hA.nbBnd
        have b3 : A.isActive 0 = true := by simp [ActiveSet.isActive, hst]
        simp [select, b1, b2, List.range_succ, selGen, b3]
      have hloop : loop o (exPbF 1) (o.maxIter - 0) (xstart o (exPbF 1) (xsolveStart o (exPbF 1) [.equality] xs) A).s ⟨0, .inactive⟩ false
          = .ok (.success, (xstart o (exPbF 1) (xsolveStart o (exPbF 1) [.equality] xs) A).s) := by
        obtain ⟨f, hf⟩ : ∃ f, o.maxIter - 0 = f + 1 := ⟨o.maxIter - 1, by omega⟩
        rw [hf]
        have hi : iterate o (exPbF 1) (xstart o (exPbF 1) (xsolveStart o (exPbF 1) [.equality] xs) A).s ⟨0, .inactive⟩ false
            = .ok (.done .success (xstart o (exPbF 1) (xsolveStart o (exPbF 1) [.equality] xs) A).s) := by
          unfold iterate
          rw [if_neg (by simp), if_pos hg.good.selectOk, hAe]
          simp only []
          rw [if_pos hsel]
        simp only [loop, hi]
      rw [hit, hloop] at hx
      refine ⟨_, hx, ?_⟩
      have ht := halg.tight 0 (by rw [hAe, hq]; omega)
      rw [hAe, hact] at ht
      simpa [ndot, normal, rhs, exPbF] using ht
  · have hc : ∀ y : Nat → ℝ, obj (exPbF 1) y = 1 / 2 * (y 0 * y 0) := by
      intro y; simp [obj, exPbF, hess, symLow]
    refine ⟨⟨⟨?_, ?_⟩, ?_⟩, ?_⟩
    · intro i _
      have : row (exPbF 1) (fun _ => 0) i = 0 := by simp [row]
      rw [this]
      exact ⟨EReal.coe_le_coe_iff.2 (by norm_num), EReal.coe_le_coe_iff.2 (by norm_num)⟩
    · intro h; cases h
    · intro y _
      rw [hc, hc]
      nlinarith [mul_self_nonneg (y 0)]
    · intro y hy i hi
      have hle := hy.2 (fun _ => 0) ⟨fun i _ => by
        have : row (exPbF 1) (fun _ => 0) i = 0 := by simp [row]
        rw [this]
        exact ⟨EReal.coe_le_coe_iff.2 (by norm_num), EReal.coe_le_coe_iff.2 (by norm_num)⟩, fun h => by cases h⟩
      rw [hc, hc] at hle
      have : i = 0 := by have : i < 1 := hi; omega
      subst this
      have : y 0 * y 0 ≤ 0 := by linarith
      exact mul_self_eq_zero.1 (le_antisymm this (mul_self_nonneg _))

end JrlQp
