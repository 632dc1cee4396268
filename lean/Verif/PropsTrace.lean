import Verif.Trace

/-!
# Properties of all reachable states of the main loop (C16, C17, C34, C36)
-/

namespace JrlQp

open NumOps Finset Spec

/-! ### C36: the step direction -/

/-- The factorisation with an invertible `R`. -/
structure FacR (pb : Pb ℝ EReal) (s : State ℝ) : Prop where
  good : Good pb s
  fac : Fac pb.n s.A.q (hess pb) (fun k => normal pb (s.A.act k)) s.J s.R

theorem FacR.of_eq {pb : Pb ℝ EReal} {s s' : State ℝ} (h : FacR pb s) (hg : Good pb s') (hA : s'.A = s.A)
    (hJ : s'.J = s.J) (hR : s'.R = s.R) : FacR pb s' := ⟨hg, by rw [hA, hJ, hR]; exact h.fac⟩

theorem FacR.remove {pb : Pb ℝ EReal} {s : State ℝ} {o : Opts ℝ} {l : Nat} (h : FacR pb s) (hl : l < s.A.q) :
    FacR pb (removeConstraint o s l) := by
  have hn : s.nbVar = pb.n := h.good.dim.nbVar
  have hw := h.good.dim.wf
  have hp : s.A.deactivatePre l = true := by
    rw [hw.q_eq] at hl; simpa [ActiveSet.deactivatePre] using hl
  have hqd := hw.q_deactivate hp
  have hact := act_deactivate hw hl
  have hqle := h.good.q_le
  have hA : (removeConstraint o s l).A = s.A.deactivate l := rfl
  have hq' : (removeConstraint o s l).A.q = s.A.q - 1 := by rw [hA, hqd]
  refine ⟨good_remove h.good hl, ?_⟩
  have hf := h.fac
  rw [show s.A.q = (s.A.q - 1) + 1 by omega] at hf
  have := hf.remove (by omega) l (by omega) o.dbg
    (N' := fun k => normal pb ((s.A.deactivate l).act k)) (fun k hk a _ => by rw [hact k hk])
  rw [hq', hA]
  simp only [removeConstraint, hqd, hn]
  exact this

theorem FacR.add {pb : Pb ℝ EReal} {s : State ℝ} {sc : SC} {o : Opts ℝ} (h : FacR pb s) (ha : addOk s sc = true)
    (hd : ∀ j < pb.n, s.d j = tmul pb.n s.J (normal pb sc) j) (hz : ∃ j, s.A.q ≤ j ∧ j < pb.n ∧ s.d j ≠ 0) :
    FacR pb (addConstraint o s sc) := by
  simp only [addOk, Bool.and_eq_true, decide_eq_true_eq] at ha
  have hp := ha.1.1.1.1
  have hq : s.A.q < s.nbVar := by have := ha.1.1.1.2; omega
  have hn : s.nbVar = pb.n := h.good.dim.nbVar
  have hqa := h.good.dim.wf.q_activate hp
  obtain ⟨ha1, ha2⟩ := act_activate h.good.dim.wf hp
  refine ⟨good_add h.good hp hq, ?_⟩
  have := h.fac.add (by rw [← hn]; exact hq) o.dbg s.d (normal pb sc) hd hz
    (N' := fun k => normal pb ((s.A.activate sc.p sc.status).act k))
    (fun k hk a _ => by rw [ha1 k hk]) (fun a _ => by rw [ha2])
  simp only [addConstraint, hqa, hn, Nat.add_sub_cancel]
  exact this

theorem FacR.step {pb : Pb ℝ EReal} {s : State ℝ} {sc : SC} (h : FacR pb s) (hsc : scOk pb sc = true) :
    StepFacts pb (computeStep pb s sc) sc :=
  computeStep_facts h.good.dim.nbVar (by rw [← h.good.dim.nbVar]; exact h.good.q_le) h.fac hsc

theorem iterBody_facR {o : Opts ℝ} {pb : Pb ℝ EReal} (ht0 : 0 ≤ o.tiny) {s : State ℝ} {sc : SC} (h : FacR pb s)
    {s' sc' skip'} (hr : iterBody o pb s sc = .ok (.cont s' sc' skip')) : FacR pb s' := by
  unfold iterBody at hr
  split_ifs at hr with h0
  simp only [Bool.and_eq_true] at h0
  have hsc : scOk pb sc = true := by
    have := h0.1.1
    simp only [computeStepOk, Bool.and_eq_true] at this
    exact this.2
  have hfacts := h.step hsc
  have h1 : FacR pb (computeStep pb s sc) :=
    h.of_eq (h.good.of_eq rfl rfl rfl rfl rfl rfl rfl rfl rfl) rfl rfl rfl
  generalize computeStep pb s sc = s1 at *
  simp only [] at hr
  have hrem : ∀ s2 : State ℝ, FacR pb s2 → ∀ l, removeOk s2 l = true → FacR pb (removeConstraint o s2 l) := by
    intro s2 h2 l hl
    simp only [removeOk, Bool.and_eq_true, decide_eq_true_eq] at hl
    exact h2.remove hl.1.1.1.1.1
  have hdual : ∀ t, FacR pb (dualUpdate s1 t) := fun t =>
    h1.of_eq (h1.good.of_eq rfl rfl rfl rfl rfl rfl rfl rfl rfl) rfl rfl rfl
  have hfull : ∀ t, FacR pb (fullUpdate pb s1 sc t) := fun t =>
    h1.of_eq (h1.good.of_eq rfl rfl rfl rfl rfl rfl rfl rfl rfl) rfl rfl rfl
  split_ifs at hr with a1 a2 a3 a4 a5 a6 a7
  all_goals cases hr
  · exact hrem _ (hdual _) _ (by assumption)
  · refine (hfull _).add (by assumption) hfacts.d (hfacts.d_ne ?_)
    by_contra hz
    apply a3
    have hn : s1.nbVar = pb.n := h1.good.dim.nbVar
    have : ¬ o.tiny < normn s1.nbVar s1.z := by
      rw [hn]
      intro hlt
      exact hz (normn_pos.1 (lt_of_le_of_lt ht0 hlt))
    simp only [computeStepLength]
    rw [if_neg (by simpa using this)]
    simp
  · exact hrem _ (hfull _) _ (by assumption)

theorem iterate_facR {o : Opts ℝ} {pb : Pb ℝ EReal} (ht0 : 0 ≤ o.tiny) {s : State ℝ} {sc : SC} {skip : Bool}
    (h : FacR pb s) {s' sc' skip'} (hr : iterate o pb s sc skip = .ok (.cont s' sc' skip')) : FacR pb s' := by
  unfold iterate at hr
  simp only [] at hr
  split_ifs at hr with h1 h2 h3 h4
  · exact iterBody_facR ht0 h hr
  · cases hr
  · exact iterBody_facR ht0 (s := { s with u := upd s.u s.A.q 0 })
      (h.of_eq (h.good.of_eq rfl rfl rfl rfl rfl rfl rfl rfl rfl) rfl rfl rfl) hr

theorem init_facR {o : Opts ℝ} {pb : Pb ℝ EReal} (ht0 : 0 ≤ o.tiny) {s s' : State ℝ} (hd : Dim pb s)
    (hreg : RegInitAll o pb s) (h : init_ o pb s = .ok (.success, s')) : FacR pb s' := by
  have hc : cholOk pb := by
    rcases init_nonpos hd h with ⟨_, a⟩ | ⟨a, _⟩
    · exact a
    · cases a
  obtain ⟨s2, A0, h1, h2, _⟩ := init_alg ht0 hd hc hreg
  rw [h] at h1
  cases h1
  exact ⟨h2.good, h2.fac⟩

theorem reach_facR {o : Opts ℝ} {pb : Pb ℝ EReal} {s0 : State ℝ} (hi : Inv s0) (ht0 : 0 ≤ o.tiny)
    (hreg : RegInitAll o pb (solveStart o pb s0)) {s sc skip} (h : Reach o pb s0 s sc skip) : FacR pb s := by
  induction h with
  | start h => exact init_facR ht0 (start_dim (o := o) hi) hreg h
  | next _ h ih =>
    have := iterate_facR ht0 ih h
    exact this.of_eq (this.good.of_eq rfl rfl rfl rfl rfl rfl rfl rfl rfl) rfl rfl rfl

/-- Specification of the step: `z`, `r` are the primal and dual directions for the constraint `sc`. -/
structure Direction (pb : Pb ℝ EReal) (s : State ℝ) (sc : SC) : Prop where
  /-- `n⁺ = N r + H z` -/
  split : ∀ a < pb.n, normal pb sc a = ∑ k ∈ range s.A.q, s.r k * normal pb ⟨s.A.get k, s.A.statusAt (s.A.get k)⟩ a
      + ∑ b ∈ range pb.n, hess pb a b * s.z b
  /-- `Nᵀ z = 0` -/
  orth : ∀ k < s.A.q, ∑ a ∈ range pb.n, normal pb ⟨s.A.get k, s.A.statusAt (s.A.get k)⟩ a * s.z a = 0
  /-- `n⁺ᵀ z ≥ 0` -/
  slope : 0 ≤ ∑ a ∈ range pb.n, normal pb sc a * s.z a
  /-- `n⁺ᵀ z = 0` only if `z = 0` -/
  zero : ∑ a ∈ range pb.n, normal pb sc a * s.z a = 0 → ∀ i < pb.n, s.z i = 0

theorem StepFacts.direction {pb : Pb ℝ EReal} {s : State ℝ} {sc : SC} (h : StepFacts pb s sc) : Direction pb s sc :=
  ⟨h.split, h.orth, h.slope_nonneg, h.z_zero⟩

/-- **C36.** In exact arithmetic, at every reachable state and for every existing constraint, the directions computed by
`computeStep_` satisfy: `z` is orthogonal to the active normals, `n⁺ = N r + H z`, `n⁺ᵀz ≥ 0` with equality only if `z = 0`.
Hypotheses: `tiny ≥ 0`, and the directions met while adding the equality constraints exceeded `tiny` (no condition if
there is no equality constraint). -/
theorem C36_direction {o : Opts ℝ} {pb : Pb ℝ EReal} {s0 : State ℝ} (hi : Inv s0) (ht0 : 0 ≤ o.tiny)
    (hreg : RegInitAll o pb (solveStart o pb s0)) {s sc skip} (h : Reach o pb s0 s sc skip) {sc1 : SC}
    (hsc : scOk pb sc1 = true) : Direction pb (computeStep pb s sc1) sc1 :=
  ((reach_facR hi ht0 hreg h).step hsc).direction

/-- Without equality constraints the initialisation has nothing to add. -/
theorem regInit_of_noEq {o : Opts ℝ} {pb : Pb ℝ EReal} {s : State ℝ} (hd : Dim pb s)
    (hne : ∀ i, i < pb.m + pb.nb → ¬ IsEqIdx pb i) : RegInitAll o pb s := by
  have hdG : Dim pb { s with G := (chol s.nbVar pb.G s.nbVar).1 } := by
    obtain ⟨h0, h1, b, c, h2, h3, h4, h5, h6, h7, h8⟩ := hd
    exact ⟨h0, h1, b, c, h2, h3, h4, h5, h6, h7, h8⟩
  have hg := (initPoint_good (o := o) hdG).dim
  unfold RegInitAll
  generalize initPoint o pb { s with G := (chol s.nbVar pb.G s.nbVar).1 } = s1 at *
  have : eqList pb s1.A = [] := by
    rw [List.eq_nil_iff_forall_not_mem]
    intro sc hsc
    obtain ⟨h1, h2, _⟩ := (mem_eqList hg.nbCstr hg.nbBnd sc).1 hsc
    exact hne _ h1 h2
  rw [this]
  trivial

/-! ### C16: selection -/

/-- **C16, any arithmetic.** Whatever the data (NaN included), the selection returns `INACTIVE` or an inactive constraint
with a side of the right kind. -/
theorem C16_select_inactive {K B : Type} [Zero K] [One K] [Add K] [Sub K] [Neg K] [Mul K] [Div K] [NumOps K B] [SumOps K]
    (pb : Pb K B) (A : ActiveSet) (x : Nat → K) :
    (select pb pb.n A x).status = .inactive ∨
      (A.statusAt (select pb pb.n A x).p = .inactive ∧ (select pb pb.n A x).p < A.nbCstr + A.nbBnd ∧
        (if (select pb pb.n A x).p < A.nbCstr
          then (select pb pb.n A x).status = .lower ∨ (select pb pb.n A x).status = .upper
          else (select pb pb.n A x).status = .lowerBound ∨ (select pb pb.n A x).status = .upperBound)) := by
  rcases select_cand pb pb.n A x with h | h
  · exact Or.inl h
  · right
    have hp := (ActiveSet.activatePre_iff _ _ _).1 h.pre
    have hi := h.ineq
    refine ⟨hp.2.1, hp.1, ?_⟩
    rcases hp.2.2.2 with ⟨a, b⟩ | ⟨a, b⟩
    · rw [if_pos a]
      cases hs : (select pb pb.n A x).status <;> simp [hs, Status.isGeneral, Status.isEq] at b hi <;> simp
    · rw [if_neg (by omega)]
      cases hs : (select pb pb.n A x).status <;> simp [hs, Status.isBound, Status.isEq] at b hi <;> simp

/-- **C16 (partial).** In exact arithmetic, for bounds that do not cross: if the selection returns `INACTIVE`, no inactive
constraint is violated; otherwise the returned side of the returned constraint is violated, the constraint is inactive, and
neither side of any inactive constraint is more violated. Missing: crossed bounds, for which the last part is false
(`C16_crossed_false`). -/
theorem C16_most_violated_partial {pb : Pb ℝ EReal} (hx : NotCrossed pb) {A : ActiveSet} (hm : A.nbCstr = pb.m)
    (hnb : A.nbBnd = pb.nb) (x : Nat → ℝ) :
    ((select pb pb.n A x).status = .inactive →
      ∀ i < pb.m + pb.nb, A.statusAt i = .inactive → 0 ≤ slackLo pb x i ∧ 0 ≤ slackHi pb x i) ∧
    ((select pb pb.n A x).status ≠ .inactive →
      A.statusAt (select pb pb.n A x).p = .inactive ∧
      ∃ v : EReal, v < 0 ∧
        v = (if (select pb pb.n A x).status = .upper ∨ (select pb pb.n A x).status = .upperBound
          then slackHi pb x (select pb pb.n A x).p else slackLo pb x (select pb pb.n A x).p) ∧
        ∀ i < pb.m + pb.nb, A.statusAt i = .inactive → v ≤ slackLo pb x i ∧ v ≤ slackHi pb x i) := by
  obtain ⟨acc, hacc, h⟩ := select_inv hx hm hnb x
  rw [← hacc]
  constructor
  · intro hs i hi hst
    have := h.min i hi hst
    rw [h.none hs] at this
    exact this
  · intro hs
    obtain ⟨h1, h2, h3, h4⟩ := h.some hs
    refine ⟨h4, acc.smin, h1, ?_, h.min⟩
    rw [h2, viol]
    rcases h3 with ⟨_, e | e⟩ | ⟨_, _, e | e⟩ <;> simp [e, Status.isUpper]

/-! ### Regular runs -/

/-- The thresholds are harmless along the whole run, whatever `maxIter`. -/
structure RegRun (o : Opts ℝ) (pb : Pb ℝ EReal) (s0 : State ℝ) : Prop where
  tiny : 0 ≤ o.tiny
  init : RegInitAll o pb (solveStart o pb s0)
  iter : ∀ s sc skip, Reach o pb s0 s sc skip → RegIter o pb s sc skip

theorem regLoop_of_reach {o : Opts ℝ} {pb : Pb ℝ EReal} {s0 : State ℝ}
    (h : ∀ s sc skip, Reach o pb s0 s sc skip → RegIter o pb s sc skip) (fuel : Nat) : ∀ {s sc skip},
    Reach o pb s0 s sc skip → RegLoop o pb fuel s sc skip := by
  induction fuel with
  | zero => intro _ _ _ _; trivial
  | succ fuel ih =>
    intro s sc skip hr
    refine ⟨h _ _ _ hr, ?_⟩
    cases hi : iterate o pb s sc skip with
    | error e => trivial
    | ok r =>
      cases r with
      | done t s' => trivial
      | cont s' sc' k => exact ih (Reach.next hr hi)

/-- `maxIter` plays no role in what is reached. -/
theorem iterate_maxIter (o : Opts ℝ) (N : Nat) (pb : Pb ℝ EReal) (s : State ℝ) (sc : SC) (skip : Bool) :
    iterate { o with maxIter := N } pb s sc skip = iterate o pb s sc skip := rfl

theorem addInitials_maxIter (o : Opts ℝ) (N : Nat) (pb : Pb ℝ EReal) (l : List SC) : ∀ (s : State ℝ),
    addInitials { o with maxIter := N } pb l s = addInitials o pb l s := by
  induction l with
  | nil => intro s; rfl
  | cons sc l ih =>
    intro s
    simp only [addInitials]
    have : addInitialConstraint { o with maxIter := N } pb s sc = addInitialConstraint o pb s sc := rfl
    rw [this]
    cases addInitialConstraint o pb s sc with
    | error e => rfl
    | ok s' => exact ih s'

theorem init_maxIter (o : Opts ℝ) (N : Nat) (pb : Pb ℝ EReal) (s : State ℝ) :
    init_ { o with maxIter := N } pb s = init_ o pb s := by
  unfold init_ initActiveSet
  simp only [addInitials_maxIter]
  rfl

theorem regRun_regSolve {o : Opts ℝ} {pb : Pb ℝ EReal} {s0 : State ℝ} (h : RegRun o pb s0) :
    RegSolve o pb s0 :=
  ⟨h.tiny, h.init, fun _ h1 => regLoop_of_reach h.iter _ (Reach.start h1)⟩

theorem regIter_maxIter {o : Opts ℝ} {N : Nat} {pb : Pb ℝ EReal} {s : State ℝ} {sc : SC} {skip : Bool}
    (h : RegIter { o with maxIter := N } pb s sc skip) : RegIter o pb s sc skip := by
  intro s1 sc1 he
  obtain ⟨a, b, c⟩ := h s1 sc1 he
  exact ⟨a, b, c⟩

theorem regIter_maxIter' {o : Opts ℝ} {N : Nat} {pb : Pb ℝ EReal} {s : State ℝ} {sc : SC} {skip : Bool}
    (h : RegIter o pb s sc skip) : RegIter { o with maxIter := N } pb s sc skip := by
  intro s1 sc1 he
  obtain ⟨a, b, c⟩ := h s1 sc1 he
  exact ⟨a, b, c⟩

theorem regLoop_maxIter {o : Opts ℝ} {N : Nat} {pb : Pb ℝ EReal} (fuel : Nat) : ∀ {s : State ℝ} {sc : SC} {skip : Bool},
    RegLoop { o with maxIter := N } pb fuel s sc skip → RegLoop o pb fuel s sc skip := by
  induction fuel with
  | zero => intro _ _ _ _; trivial
  | succ fuel ih =>
    intro s sc skip h
    refine ⟨regIter_maxIter h.1, ?_⟩
    have h2 := h.2
    rw [iterate_maxIter] at h2
    cases hi : iterate o pb s sc skip with
    | error e => trivial
    | ok r =>
      rw [hi] at h2
      cases r with
      | done t s' => trivial
      | cont s' sc' k => exact ih h2

theorem loop_maxIter (o : Opts ℝ) (N : Nat) (pb : Pb ℝ EReal) (fuel : Nat) : ∀ (s : State ℝ) (sc : SC) (skip : Bool),
    loop { o with maxIter := N } pb fuel s sc skip = loop o pb fuel s sc skip := by
  induction fuel with
  | zero => intro _ _ _; rfl
  | succ fuel ih =>
    intro s sc skip
    simp only [loop, iterate_maxIter, ih]

theorem regInit_maxIter {o : Opts ℝ} {N : Nat} {pb : Pb ℝ EReal} (l : List SC) : ∀ {s : State ℝ},
    RegInit o pb l s → RegInit { o with maxIter := N } pb l s := by
  induction l with
  | nil => intro _ _; trivial
  | cons sc l ih =>
    intro s h
    refine ⟨h.1, ?_⟩
    have h2 := h.2
    have he : addInitialConstraint { o with maxIter := N } pb s sc = addInitialConstraint o pb s sc := rfl
    rw [he]
    cases h3 : addInitialConstraint o pb s sc with
    | error e => trivial
    | ok s' => rw [h3] at h2; exact ih h2

theorem reach_maxIter {o : Opts ℝ} {N : Nat} {pb : Pb ℝ EReal} {s0 : State ℝ} {s sc skip}
    (h : Reach { o with maxIter := N } pb s0 s sc skip) : Reach o pb s0 s sc skip := by
  induction h with
  | start h => rw [init_maxIter] at h; exact Reach.start h
  | next _ h ih => rw [iterate_maxIter] at h; exact Reach.next ih h

/-- `RegRun` does not depend on `maxIter`. -/
theorem RegRun.maxIter {o : Opts ℝ} {pb : Pb ℝ EReal} {s0 : State ℝ} (h : RegRun o pb s0) (N : Nat) :
    RegRun { o with maxIter := N } pb s0 :=
  ⟨h.tiny, regInit_maxIter _ h.init, fun s sc skip hr => regIter_maxIter' (h.iter s sc skip (reach_maxIter hr))⟩

/-- A state reached after `k` iterations is regular if the loop with `k + 1` iterations is. -/
theorem regIter_of_regLoop {o : Opts ℝ} {pb : Pb ℝ EReal} {s0 : State ℝ}
    (h : ∀ s1, init_ o pb (solveStart o pb s0) = .ok (.success, s1) → ∀ fuel, RegLoop o pb fuel s1 ⟨0, .inactive⟩ false)
    {s sc skip} (hr : Reach o pb s0 s sc skip) : ∀ fuel, RegLoop o pb fuel s sc skip := by
  induction hr with
  | start h1 => exact h _ h1
  | next _ hi ih =>
    intro fuel
    have := (ih (fuel + 1)).2
    rw [hi] at this
    exact this

/-- Harmless thresholds for the whole run exist for each problem. -/
theorem ev_regRun {dbg : Bool} {pb : Pb ℝ EReal} (hp : Proper pb) (hx : NotCrossed pb) (hc : cholOk pb) {e : Nat}
    (he : EqFirst pb e) (hind : EqIndep pb) {s : State ℝ} (hi : Inv s) :
    Ev dbg (fun o => o.warmStart = false → RegRun o pb s) := by
  obtain ⟨ε, hε, β, h⟩ := ev_regSolve (dbg := dbg) hp hx hc he hind hi
  refine ⟨ε, hε, β, fun o h0 h1 h2 h3 h4 => ?_⟩
  have hall : ∀ N, RegSolve { o with maxIter := N } pb s := fun N => h { o with maxIter := N } h0 h1 h2 h3 h4
  refine ⟨h1, (h o h0 h1 h2 h3 h4).init, fun s1 sc skip hr => ?_⟩
  refine (regIter_of_regLoop ?_ hr 1).1
  intro s2 h5 fuel
  have h6 := (hall (fuel + s2.it)).loop s2 (by
    rw [init_maxIter]; exact h5)
  simp only [Nat.add_sub_cancel] at h6
  exact regLoop_maxIter _ h6

/-- All the invariants at a reachable state of a regular run. -/
theorem reach_inv {o : Opts ℝ} {pb : Pb ℝ EReal} (hp : Proper pb) (hx : NotCrossed pb) {s0 : State ℝ} (hi : Inv s0)
    (hreg : RegRun o pb s0) {s sc skip} (h : Reach o pb s0 s sc skip) :
    LoopInv pb s sc skip ∧ ∀ e, EqFirst pb e → DInv pb e s sc skip := by
  induction h with
  | start h =>
    have hd : Dim pb (solveStart o pb s0) := start_dim hi
    have hc : cholOk pb := by
      rcases init_nonpos hd h with ⟨_, a⟩ | ⟨a, _⟩
      · exact a
      · cases a
    refine ⟨?_, fun e he => (init_both hp hreg.tiny hd hc hreg.init he h).2⟩
    obtain ⟨s2, g1, g2, _⟩ := init_loopInv hp hreg.tiny hd hc hreg.init
    rw [show preInit o (resize s0 pb.n pb.m pb.useBnd) = solveStart o pb s0 from rfl] at h
    rw [h] at g1
    cases g1
    exact g2
  | next hr h ih =>
    have h1 : LoopInv pb _ _ _ := iterate_loopInv hp hx hreg.tiny ih.1 (hreg.iter _ _ _ hr) h
    refine ⟨h1.setIt _, fun e he => ?_⟩
    rcases iterate_dual hp hx hreg.tiny ih.1 (ih.2 e he) (hreg.iter _ _ _ hr) h with ⟨a, _⟩ | ⟨sc1, a, _⟩
    · cases a
    · exact DInv.setIt a.1 _

/-! ### C34: active constraints are tight, multipliers non-negative -/

/-- Specification: every active constraint is satisfied with equality on its active side. -/
def Tight (pb : Pb ℝ EReal) (A : ActiveSet) (x : Nat → ℝ) : Prop :=
  ∀ i < pb.m + pb.nb,
    (A.statusAt i = .lower → ((row pb x i : ℝ) : EReal) = pb.bl i) ∧
    (A.statusAt i = .upper → ((row pb x i : ℝ) : EReal) = pb.bu i) ∧
    (A.statusAt i = .equality → ((row pb x i : ℝ) : EReal) = pb.bl i ∧ ((row pb x i : ℝ) : EReal) = pb.bu i) ∧
    (A.statusAt i = .lowerBound → ((x (i - pb.m) : ℝ) : EReal) = pb.xl (i - pb.m)) ∧
    (A.statusAt i = .upperBound → ((x (i - pb.m) : ℝ) : EReal) = pb.xu (i - pb.m)) ∧
    (A.statusAt i = .fixed → ((x (i - pb.m) : ℝ) : EReal) = pb.xl (i - pb.m) ∧
      ((x (i - pb.m) : ℝ) : EReal) = pb.xu (i - pb.m))

theorem LoopInv.tight {pb : Pb ℝ EReal} {s : State ℝ} {sc : SC} {skip : Bool} (h : LoopInv pb s sc skip) :
    Tight pb s.A s.x := by
  intro i hi
  have hw := h.alg.good.dim.wf
  have hm := h.alg.good.dim.nbCstr
  have hnb := h.alg.good.dim.nbBnd
  have key : s.A.statusAt i ≠ .inactive → ndot pb ⟨i, s.A.statusAt i⟩ s.x = rhs pb ⟨i, s.A.statusAt i⟩ ∧
      BndFin pb ⟨i, s.A.statusAt i⟩ ∧ scOk pb ⟨i, s.A.statusAt i⟩ = true := by
    intro hst
    have hmem := (hw.mem i).2 ⟨by rw [hw.size, hm, hnb]; exact hi, hst⟩
    obtain ⟨k, hk, he⟩ := List.getElem_of_mem hmem
    have hg : s.A.get k = i := by rw [ActiveSet.get, List.getD_eq_getElem _ _ hk, he]
    have hk' : k < s.A.q := by rw [hw.q_eq]; exact hk
    have hA : s.A.act k = ⟨i, s.A.statusAt i⟩ := by rw [ActiveSet.act, hg]
    rw [← hA]
    exact ⟨h.alg.tight k hk', h.fin k hk', h.alg.scOk hk'⟩
  refine ⟨?_, ?_, ?_, ?_, ?_, ?_⟩ <;> intro hst <;> obtain ⟨h1, h2, h3⟩ := key (by rw [hst]; simp) <;>
    rw [ndot_cases pb _ h3] at h1 <;> simp only [hst, rhs, BndFin] at h1 h2
  · obtain ⟨r, hr⟩ := h2
    rw [hr, EReal.toReal_coe] at h1; rw [h1, hr]
  · obtain ⟨r, hr⟩ := h2
    rw [hr, EReal.toReal_coe] at h1; rw [neg_inj.1 h1, hr]
  · obtain ⟨r, hr, hr'⟩ := h2
    rw [hr, EReal.toReal_coe] at h1; rw [h1, hr, hr']; exact ⟨rfl, rfl⟩
  · obtain ⟨r, hr⟩ := h2
    rw [hr, EReal.toReal_coe] at h1; rw [h1, hr]
  · obtain ⟨r, hr⟩ := h2
    rw [hr, EReal.toReal_coe] at h1; rw [neg_inj.1 h1, hr]
  · obtain ⟨r, hr, hr'⟩ := h2
    rw [hr, EReal.toReal_coe] at h1; rw [h1, hr, hr']; exact ⟨rfl, rfl⟩

/-- **C34 (partial), tightness.** In exact arithmetic, with harmless thresholds and bounds that do not cross, at the
beginning of every iteration each active constraint is satisfied with equality on its active side, whatever the order of
the constraints. -/
theorem C34_tight_partial {o : Opts ℝ} {pb : Pb ℝ EReal} (hp : Proper pb) (hx : NotCrossed pb) {s0 : State ℝ}
    (hi : Inv s0) (hreg : RegRun o pb s0) {s sc skip} (h : Reach o pb s0 s sc skip) : Tight pb s.A s.x :=
  (reach_inv hp hx hi hreg h).1.tight

/-- **C34 (partial), signs.** If moreover the equality constraints come first, the multipliers of the active inequality
constraints, and of the constraint being added, are non-negative at the beginning of every iteration. Missing: equalities
after inequalities, for which the claim is false (`C15_equality_dropped`). -/
theorem C34_multipliers_nonneg_partial {o : Opts ℝ} {pb : Pb ℝ EReal} (hp : Proper pb) (hx : NotCrossed pb)
    {s0 : State ℝ} (hi : Inv s0) (hreg : RegRun o pb s0) {e : Nat} (he : EqFirst pb e) {s sc skip}
    (h : Reach o pb s0 s sc skip) :
    (∀ k < s.A.q, s.A.statusAt (s.A.get k) ≠ .equality → s.A.statusAt (s.A.get k) ≠ .fixed → 0 ≤ s.u k) ∧
    (skip = true → 0 ≤ s.u s.A.q) := by
  obtain ⟨h1, h2⟩ := reach_inv hp hx hi hreg h
  have hD := h2 e he
  refine ⟨fun k hk ha hb => hD.pos k hk ?_, hD.cpos⟩
  by_contra hc
  have := (hD.pre.act h1.alg.good.dim.wf hk).2 (by omega)
  simp only [ActiveSet.act] at this
  cases hs : s.A.statusAt (s.A.get k) <;> simp_all [Status.isEq]

/-! ### C17: the objective is non-decreasing -/

/-- **C17 (partial), one iteration.** In exact arithmetic, under the hypotheses of C34, an iteration does not decrease the
objective value and strictly increases it if it adds a constraint. -/
theorem C17_monotone_partial {o : Opts ℝ} {pb : Pb ℝ EReal} (hp : Proper pb) (hx : NotCrossed pb) {s0 : State ℝ}
    (hi : Inv s0) (hreg : RegRun o pb s0) {e : Nat} (he : EqFirst pb e) {s sc skip} (h : Reach o pb s0 s sc skip)
    {s' sc' skip'} (hr : iterate o pb s sc skip = .ok (.cont s' sc' skip')) :
    s.f ≤ s'.f ∧ (s.A.active.length < s'.A.active.length → s.f < s'.f) := by
  obtain ⟨h1, h2⟩ := reach_inv hp hx hi hreg h
  rcases iterate_dual hp hx hreg.tiny h1 (h2 e he) (hreg.iter _ _ _ h) hr with ⟨a, _⟩ | ⟨sc1, a, b⟩
  · cases a
  · obtain ⟨a1, a2, a3, a4⟩ := a
    refine ⟨a2, fun hlt => a3 ?_⟩
    by_contra hsk
    have := a4 (by simpa using hsk)
    rw [b.2.alg.good.dim.wf.q_eq, h1.alg.good.dim.wf.q_eq] at this
    omega

/-- **C17 (partial), observable form.** Solving the same problem with a larger `maxIter` never gives a smaller
`objectiveValue()`. -/
theorem C17_monotone_maxIter_partial {o : Opts ℝ} {pb : Pb ℝ EReal} (hp : Proper pb) (hx : NotCrossed pb) {s0 : State ℝ}
    (hi : Inv s0) (hreg : RegRun o pb s0) {e : Nat} (he : EqFirst pb e) (hc : cholOk pb) {N M : Nat} (hNM : N ≤ M)
    {t t' s s'} (h : solve { o with maxIter := N } pb s0 = .ok (t, s)) (h' : solve { o with maxIter := M } pb s0 = .ok (t', s')) :
    s.f ≤ s'.f := by
  have hst : ∀ N, solveStart { o with maxIter := N } pb s0 = solveStart o pb s0 := fun N => rfl
  have hd : Dim pb (solveStart o pb s0) := start_dim hi
  have hcase : ∀ {N t s}, solve { o with maxIter := N } pb s0 = .ok (t, s) →
      ∃ s1, init_ o pb (solveStart o pb s0) = .ok (.success, s1) ∧ loop o pb (N - s1.it) s1 ⟨0, .inactive⟩ false = .ok (t, s) := by
    intro N t s h
    rcases solve_cases h with ⟨t1, h1, h2, h3⟩ | ⟨s1, h1, h2⟩
    · rw [init_maxIter, hst] at h2
      rcases init_nonpos hd h2 with ⟨a, _⟩ | ⟨_, a⟩
      · exact absurd a h1
      · exact absurd hc a
    · rw [init_maxIter, hst] at h1
      rw [loop_maxIter] at h2
      exact ⟨s1, h1, h2⟩
  obtain ⟨s1, a1, a2⟩ := hcase h
  obtain ⟨s2, b1, b2⟩ := hcase h'
  rw [a1] at b1
  cases b1
  have key : ∀ (n m : Nat), n ≤ m → ∀ {s sc skip}, Reach o pb s0 s sc skip → ∀ {t t' r r'},
      loop o pb n s sc skip = .ok (t, r) → loop o pb m s sc skip = .ok (t', r') → r.f ≤ r'.f := by
    intro n
    induction n with
    | zero =>
      intro m _ s sc skip hr t t' r r' h1 h2
      simp only [loop, Except.ok.injEq, Prod.mk.injEq] at h1
      rw [← h1.2]
      obtain ⟨g1, g2⟩ := reach_inv hp hx hi hreg hr
      exact (loop_finalDual hp hx hreg.tiny g1 (g2 e he) (regLoop_of_reach hreg.iter m hr) h2).2
    | succ n ih =>
      intro m hm s sc skip hr t t' r r' h1 h2
      obtain ⟨m, rfl⟩ : ∃ m', m = m' + 1 := ⟨m - 1, by omega⟩
      simp only [loop] at h1 h2
      cases hit : iterate o pb s sc skip with
      | error e => simp [hit] at h1
      | ok it =>
        rw [hit] at h1 h2
        cases it with
        | done t1 s1 =>
          simp only [Except.ok.injEq, Prod.mk.injEq] at h1 h2
          rw [← h1.2, ← h2.2]
        | cont s1 sc1 k1 => exact ih m (by omega) (Reach.next hr hit) h1 h2
  exact key _ _ (by omega) (Reach.start a1) a2 b2

/-! ### Non-vacuity -/

/-- A regular run on a problem with an equality and a violated inequality, and its first reachable state. -/
example : ∃ (o : Opts ℝ) (s : State ℝ), Proper exPbEq ∧ NotCrossed exPbEq ∧ EqFirst exPbEq 1 ∧ cholOk exPbEq ∧
    RegRun o exPbEq State.empty ∧ Reach o exPbEq State.empty s ⟨0, .inactive⟩ false := by
  obtain ⟨h1, h2, h3, h4, h5, h6⟩ := exPbEq_hyp
  have hc : cholOk exPbEq := by
    rw [show (fun i j : Fin exPbEq.n => hess exPbEq i j) = fun i j : Fin exPbEq.n => symLow exPbEq.G i j from rfl] at h3
    unfold cholOk
    rcases hch : (chol exPbEq.n exPbEq.G exPbEq.n) with ⟨P, _ | c⟩
    · rfl
    · exact absurd ((posDefN_iff exPbEq.n _).2 h3) (chol_not_posDef hch)
  obtain ⟨ε, hε, β, h⟩ := ev_regRun (dbg := false) h1 h2 hc h4 h5 (inv_empty (K := ℝ))
  have hr : RegRun (⟨10, β + 1, false, 0, false⟩ : Opts ℝ) exPbEq State.empty := h _ rfl le_rfl hε (by simp) rfl
  obtain ⟨s, g1, _⟩ := init_loopInv h1 hr.tiny (start_dim inv_empty) hc hr.init
  exact ⟨_, s, h1, h2, h4, hc, hr, Reach.start g1⟩

end JrlQp
