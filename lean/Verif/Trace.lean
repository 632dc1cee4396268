import Verif.ExactThreshold

/-!
# Reachable states of the main loop

The states in which the main loop of `solve` (src/DualSolver.cpp:103-167) can be at the beginning of an iteration, and the
properties they all have: C16 (selection), C17 (objective), C34 (multipliers), C35 (factorisation), C36 (direction).
-/

namespace JrlQp

open NumOps Finset Spec

section
variable {K B : Type} [Zero K] [One K] [Add K] [Sub K] [Neg K] [Mul K] [Div K] [NumOps K B] [SumOps K]

/-- The state, selected constraint and `skipStep1` flag at the beginning of some iteration of the main loop of
`solve o pb`, called on the solver `s0` (whatever `maxIter`): src/DualSolver.cpp:91-104 and one step per iteration. -/
inductive Reach (o : Opts K) (pb : Pb K B) (s0 : State K) : State K → SC → Bool → Prop
  | start {s1} (h : init_ o pb (preInit o (resize s0 pb.n pb.m pb.useBnd)) = .ok (.success, s1)) :
      Reach o pb s0 s1 ⟨0, .inactive⟩ false
  | next {s sc skip s' sc' skip'} (hr : Reach o pb s0 s sc skip)
      (h : iterate o pb s sc skip = .ok (.cont s' sc' skip')) : Reach o pb s0 { s' with it := s'.it + 1 } sc' skip'

/-- `Reach` is what the loop of `solve` goes through: the loop from a reached state only meets reached states, and when it
stops, the returned state is a reached one or the outcome of an iteration from a reached one. -/
theorem loop_reach {o : Opts K} {pb : Pb K B} {s0 : State K} (fuel : Nat) : ∀ {s sc skip t s'}, Reach o pb s0 s sc skip →
    loop o pb fuel s sc skip = .ok (t, s') →
    ∃ s1 sc1 skip1, Reach o pb s0 s1 sc1 skip1 ∧
      ((t = .maxIterReached ∧ s1 = s') ∨ iterate o pb s1 sc1 skip1 = .ok (.done t s')) := by
  induction fuel with
  | zero =>
    intro s sc skip t s' h hl
    simp only [loop, Except.ok.injEq, Prod.mk.injEq] at hl
    exact ⟨s, sc, skip, h, Or.inl ⟨hl.1.symm, hl.2⟩⟩
  | succ fuel ih =>
    intro s sc skip t s' h hl
    simp only [loop] at hl
    cases hr : iterate o pb s sc skip with
    | error e => simp [hr] at hl
    | ok r =>
      rw [hr] at hl
      cases r with
      | done t1 s1 =>
        simp only [Except.ok.injEq, Prod.mk.injEq] at hl
        obtain ⟨rfl, rfl⟩ := hl
        exact ⟨s, sc, skip, h, Or.inr hr⟩
      | cont s1 sc1 k1 => exact ih (Reach.next h hr) hl

end

/-! ### C35: the factorisation -/

/-- Specification of the factorisation: `JᵀHJ = 1` and `JᵀN = [R; 0]`, where the columns of `N` are the signed normals of
the active constraints in the order of the active set and `R` is the upper triangle of the code's matrix. -/
structure Factorised (pb : Pb ℝ EReal) (s : State ℝ) : Prop where
  jgj : ∀ i < pb.n, ∀ j < pb.n,
    ∑ a ∈ range pb.n, ∑ b ∈ range pb.n, s.J a i * hess pb a b * s.J b j = if i = j then 1 else 0
  jn : ∀ k < s.A.q, ∀ i < pb.n,
    ∑ a ∈ range pb.n, s.J a i * normal pb ⟨s.A.get k, s.A.statusAt (s.A.get k)⟩ a = if i ≤ k then s.R i k else 0

/-- Invariant behind `Factorised`. -/
structure FacS (pb : Pb ℝ EReal) (s : State ℝ) : Prop where
  good : Good pb s
  fac : FacT pb.n s.A.q (hess pb) (fun k => normal pb (s.A.act k)) s.J s.R

theorem FacS.factorised {pb : Pb ℝ EReal} {s : State ℝ} (h : FacS pb s) : Factorised pb s :=
  ⟨fun i hi j hj => h.fac.jgj i hi j hj, fun k hk i hi => h.fac.tri k hk i hi⟩

theorem FacS.of_eq {pb : Pb ℝ EReal} {s s' : State ℝ} (h : FacS pb s) (hg : Good pb s') (hA : s'.A = s.A)
    (hJ : s'.J = s.J) (hR : s'.R = s.R) : FacS pb s' := ⟨hg, by rw [hA, hJ, hR]; exact h.fac⟩

theorem FacS.add {pb : Pb ℝ EReal} {s : State ℝ} {sc : SC} {o : Opts ℝ} (h : FacS pb s) (ha : addOk s sc = true)
    (hd : ∀ j < pb.n, s.d j = tmul pb.n s.J (normal pb sc) j) : FacS pb (addConstraint o s sc) := by
  simp only [addOk, Bool.and_eq_true, decide_eq_true_eq] at ha
  have hp := ha.1.1.1.1
  have hq : s.A.q < s.nbVar := by have := ha.1.1.1.2; omega
  have hn : s.nbVar = pb.n := h.good.dim.nbVar
  have hqa := h.good.dim.wf.q_activate hp
  obtain ⟨ha1, ha2⟩ := act_activate h.good.dim.wf hp
  refine ⟨good_add h.good hp hq, ?_⟩
  have := h.fac.add (by rw [← hn]; exact hq) o.dbg s.d (normal pb sc) hd
    (N' := fun k => normal pb ((s.A.activate sc.p sc.status).act k))
    (fun k hk a _ => by rw [ha1 k hk]) (fun a _ => by rw [ha2])
  simp only [addConstraint, hqa, hn, Nat.add_sub_cancel]
  exact this

theorem FacS.remove {pb : Pb ℝ EReal} {s : State ℝ} {o : Opts ℝ} {l : Nat} (h : FacS pb s) (hl : l < s.A.q) :
    FacS pb (removeConstraint o s l) := by
  have hn : s.nbVar = pb.n := h.good.dim.nbVar
  have hw := h.good.dim.wf
  have hp : s.A.deactivatePre l = true := by
    rw [hw.q_eq] at hl; simpa [ActiveSet.deactivatePre] using hl
  have hqd := hw.q_deactivate hp
  have hact := act_deactivate hw hl
  have hqle := h.good.q_le
  have hA : (removeConstraint o s l).A = s.A.deactivate l := rfl
  have hq' : (removeConstraint o s l).A.q = s.A.q - 1 := by rw [hA, hqd]
  refine ⟨good_remove h.good hl, ?_⟩
  have hf := h.fac
  rw [show s.A.q = (s.A.q - 1) + 1 by omega] at hf
  have := hf.remove (by omega) l (by omega) o.dbg
    (N' := fun k => normal pb ((s.A.deactivate l).act k)) (fun k hk a _ => by rw [hact k hk])
  rw [hq', hA]
  simp only [removeConstraint, hqd, hn]
  exact this

/-- `Jᵀn⁺` is what `computeStep_` stores in `d`. -/
theorem computeStep_d {pb : Pb ℝ EReal} {s : State ℝ} {sc : SC} (hn : s.nbVar = pb.n) (hsc : scOk pb sc = true) :
    ∀ j < pb.n, (computeStep pb s sc).d j = tmul pb.n s.J (normal pb sc) j := by
  intro j hj
  simp only [computeStep, hn, wr, hj, if_true]
  exact preMult_eq pb sc hsc s.J j

theorem iterBody_facS {o : Opts ℝ} {pb : Pb ℝ EReal} {s : State ℝ} {sc : SC} (h : FacS pb s) {s' sc' skip'}
    (hr : iterBody o pb s sc = .ok (.cont s' sc' skip')) : FacS pb s' := by
  unfold iterBody at hr
  split_ifs at hr with h0
  simp only [Bool.and_eq_true] at h0
  have hsc : scOk pb sc = true := by
    have := h0.1.1
    simp only [computeStepOk, Bool.and_eq_true] at this
    exact this.2
  have hd := computeStep_d (pb := pb) (s := s) (sc := sc) h.good.dim.nbVar hsc
  have hJ : (computeStep pb s sc).J = s.J := rfl
  rw [← hJ] at hd
  have h1 : FacS pb (computeStep pb s sc) :=
    h.of_eq (h.good.of_eq rfl rfl rfl rfl rfl rfl rfl rfl rfl) rfl rfl rfl
  generalize computeStep pb s sc = s1 at *
  simp only [] at hr
  have hrem : ∀ s2 : State ℝ, FacS pb s2 → ∀ l, removeOk s2 l = true → FacS pb (removeConstraint o s2 l) := by
    intro s2 h2 l hl
    simp only [removeOk, Bool.and_eq_true, decide_eq_true_eq] at hl
    exact h2.remove hl.1.1.1.1.1
  have hdual : ∀ t, FacS pb (dualUpdate s1 t) := fun t =>
    h1.of_eq (h1.good.of_eq rfl rfl rfl rfl rfl rfl rfl rfl rfl) rfl rfl rfl
  have hfull : ∀ t, FacS pb (fullUpdate pb s1 sc t) := fun t =>
    h1.of_eq (h1.good.of_eq rfl rfl rfl rfl rfl rfl rfl rfl rfl) rfl rfl rfl
  split_ifs at hr with a1 a2 a3 a4 a5 a6 a7
  all_goals cases hr
  · exact hrem _ (hdual _) _ (by assumption)
  · exact (hfull _).add (by assumption) hd
  · exact hrem _ (hfull _) _ (by assumption)

theorem iterate_facS {o : Opts ℝ} {pb : Pb ℝ EReal} {s : State ℝ} {sc : SC} {skip : Bool} (h : FacS pb s)
    {s' sc' skip'} (hr : iterate o pb s sc skip = .ok (.cont s' sc' skip')) : FacS pb s' := by
  unfold iterate at hr
  simp only [] at hr
  split_ifs at hr with h1 h2 h3 h4
  · exact iterBody_facS h hr
  · cases hr
  · exact iterBody_facS (s := { s with u := upd s.u s.A.q 0 })
      (h.of_eq (h.good.of_eq rfl rfl rfl rfl rfl rfl rfl rfl rfl) rfl rfl rfl) hr

theorem addInitial_facS {o : Opts ℝ} {pb : Pb ℝ EReal} {s s' : State ℝ} {sc : SC} (h : FacS pb s)
    (hr : addInitialConstraint o pb s sc = .ok s') : FacS pb s' := by
  unfold addInitialConstraint at hr
  simp only [] at hr
  split_ifs at hr with h0 h1
  cases hr
  simp only [Bool.and_eq_true] at h0
  have hsc : scOk pb sc = true := by
    have := h0.2
    simp only [computeStepOk, Bool.and_eq_true] at this
    exact this.2
  have hd := computeStep_d (pb := pb) (s := { s with u := upd s.u s.A.q 0 }) (sc := sc) h.good.dim.nbVar hsc
  exact FacS.add (h.of_eq (h.good.of_eq rfl rfl rfl rfl rfl rfl rfl rfl rfl) rfl rfl rfl) h1 hd

theorem addInitials_facS {o : Opts ℝ} {pb : Pb ℝ EReal} (l : List SC) : ∀ {s s' : State ℝ}, FacS pb s →
    addInitials o pb l s = .ok s' → FacS pb s' := by
  induction l with
  | nil => intro s s' h hr; cases hr; exact h
  | cons sc l ih =>
    intro s s' h hr
    simp only [addInitials] at hr
    cases h1 : addInitialConstraint o pb s sc with
    | error e => simp [h1] at hr
    | ok s1 => simp only [h1] at hr; exact ih (addInitial_facS h h1) hr

theorem init_facS {o : Opts ℝ} {pb : Pb ℝ EReal} {s s' : State ℝ} (hd : Dim pb s)
    (h : init_ o pb s = .ok (.success, s')) : FacS pb s' := by
  have hc : cholOk pb := by
    rcases init_nonpos hd h with ⟨_, a⟩ | ⟨a, _⟩
    · exact a
    · cases a
  unfold cholOk at hc
  have hdG : Dim pb { s with G := (chol s.nbVar pb.G s.nbVar).1 } := by
    obtain ⟨h0, h1, b, c, h2, h3, h4, h5, h6, h7, h8⟩ := hd
    exact ⟨h0, h1, b, c, h2, h3, h4, h5, h6, h7, h8⟩
  unfold init_ at h
  rw [if_pos (by simp [hd.nbVar])] at h
  simp only [] at h
  rw [if_neg (by rw [hd.nbVar, hc]; simp), if_pos (by simp [hd.szJ, hd.szX])] at h
  have h1 := initPoint_alg (o := o) hdG (by simp only [hd.nbVar]; rw [← hc])
  generalize initPoint o pb { s with G := (chol s.nbVar pb.G s.nbVar).1 } = s1 at *
  unfold initActiveSet at h
  rw [if_pos h1.good.selectOk] at h
  cases h2 : addInitials o pb (eqList pb s1.A) s1 with
  | error e => simp [h2] at h
  | ok s2 =>
    rw [h2] at h
    cases h
    exact addInitials_facS _ ⟨h1.good, h1.fac.toT⟩ h2

theorem reach_facS {o : Opts ℝ} {pb : Pb ℝ EReal} {s0 : State ℝ} (hi : Inv s0) {s sc skip}
    (h : Reach o pb s0 s sc skip) : FacS pb s := by
  induction h with
  | start h => exact init_facS (start_dim (o := o) hi) h
  | next _ h ih =>
    have := iterate_facS ih h
    exact this.of_eq (this.good.of_eq rfl rfl rfl rfl rfl rfl rfl rfl rfl) rfl rfl rfl

/-- **C35.** In exact arithmetic, at the beginning of every iteration of every solve, whatever the problem, the options
(thresholds included) and the history of the solver, `JᵀHJ = 1` and `JᵀN = [R; 0]`. -/
theorem C35_factorisation {o : Opts ℝ} {pb : Pb ℝ EReal} {s0 : State ℝ} (hi : Inv s0) {s sc skip}
    (h : Reach o pb s0 s sc skip) : Factorised pb s := (reach_facS hi h).factorised

/-! #### Any order of additions and removals -/

/-- Changes of the active set: the additions of src/DualSolver.cpp:125+158 (`computeStep_` then `addConstraint`) and the
removals of src/DualSolver.cpp:162. -/
inductive AOp
  | add (sc : SC)
  | remove (l : Nat)

/-- One change; `none` if its preconditions are not met (constraint already active, no room, position out of range). -/
noncomputable def aop (o : Opts ℝ) (pb : Pb ℝ EReal) (s : State ℝ) : AOp → Option (State ℝ)
  | .add sc => if computeStepOk pb s sc && addOk (computeStep pb s sc) sc then
      some (addConstraint o (computeStep pb s sc) sc) else none
  | .remove l => if removeOk s l then some (removeConstraint o s l) else none

/-- A sequence of changes. -/
noncomputable def aops (o : Opts ℝ) (pb : Pb ℝ EReal) : List AOp → State ℝ → Option (State ℝ)
  | [], s => some s
  | a :: l, s => (aop o pb s a).bind (aops o pb l)

/-- **C35, any order of additions and removals.** Whatever the sequence of legal additions and removals applied to the
initial factorisation, `JᵀHJ = 1` and `JᵀN = [R; 0]`, including for linearly dependent normals. -/
theorem C35_any_order {o : Opts ℝ} {pb : Pb ℝ EReal} {s0 : State ℝ} (hd : Dim pb s0)
    (hc : chol pb.n pb.G pb.n = (s0.G, none)) (l : List AOp) {s : State ℝ}
    (h : aops o pb l (initPoint o pb s0) = some s) : Factorised pb s := by
  have key : ∀ (l : List AOp) (s s' : State ℝ), FacS pb s → aops o pb l s = some s' → FacS pb s' := by
    intro l
    induction l with
    | nil => intro s s' h hr; cases hr; exact h
    | cons a l ih =>
      intro s s' h hr
      simp only [aops] at hr
      cases h1 : aop o pb s a with
      | none => simp [h1] at hr
      | some s1 =>
        rw [h1] at hr
        refine ih s1 s' ?_ hr
        cases a with
        | add sc =>
          simp only [aop] at h1
          split_ifs at h1 with h2
          cases h1
          simp only [Bool.and_eq_true] at h2
          have hsc : scOk pb sc = true := by
            have := h2.1
            simp only [computeStepOk, Bool.and_eq_true] at this
            exact this.2
          exact FacS.add (h.of_eq (h.good.of_eq rfl rfl rfl rfl rfl rfl rfl rfl rfl) rfl rfl rfl) h2.2
            (computeStep_d h.good.dim.nbVar hsc)
        | remove k =>
          simp only [aop] at h1
          split_ifs at h1 with h2
          cases h1
          simp only [removeOk, Bool.and_eq_true, decide_eq_true_eq] at h2
          exact h.remove h2.1.1.1.1.1
  have h1 := initPoint_alg (o := o) hd hc
  exact (key l _ s ⟨h1.good, h1.fac.toT⟩ h).factorised

end JrlQp
