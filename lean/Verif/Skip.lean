import Verif.PropsSim
import Verif.EqPrefix

/-!
# Constraints that are never selected

A constraint that the selection never finds violated, and that is not an equality, can be replaced by any other such constraint
without changing anything to the run of the solver, in any arithmetic.
-/

set_option linter.unusedSectionVars false

namespace JrlQp

open NumOps

variable {K B : Type} [Zero K] [One K] [Add K] [Sub K] [Neg K] [Mul K] [Div K] [NumOps K B] [SumOps K]

/-- The problem where the normal and the bounds of the `p`-th general constraint are replaced. -/
def Pb.setCstr (pb : Pb K B) (p : Nat) (c : Nat → K) (l r : B) : Pb K B :=
  { pb with C := fun a j => if j = p then c a else pb.C a j, bl := fun j => if j = p then l else pb.bl j,
            bu := fun j => if j = p then r else pb.bu j }

/-- The selection never finds the `p`-th constraint violated, and it is not an equality. -/
structure NeverSel (pb : Pb K B) (p : Nat) : Prop where
  ineq : bEq K (pb.bl p) (pb.bu p) = false
  low : ∀ (x : Nat → K) (b : B), bLt K (slackLow (colDot pb pb.n p x) (pb.bl p)) b = false
  up : ∀ (x : Nat → K) (b : B), bLt K (slackUp (pb.bu p) (colDot pb pb.n p x)) b = false

section
variable {pb : Pb K B} {p : Nat} {c : Nat → K} {l r : B}

theorem colDot_set (n : Nat) (x : Nat → K) {i : Nat} (hi : i ≠ p) : colDot (pb.setCstr p c l r) n i x = colDot pb n i x := by
  unfold colDot Pb.setCstr
  simp only [if_neg hi]

theorem preMult_set (n m : Nat) (M : Nat → Nat → K) (j : Nat) {sc : SC} (hi : sc.p ≠ p) :
    preMult n m (pb.setCstr p c l r).C sc M j = preMult n m pb.C sc M j := by
  unfold preMult Pb.setCstr
  simp only [if_neg hi]

theorem normalDot_set (n m : Nat) (v : Nat → K) {sc : SC} (hi : sc.p ≠ p) :
    normalDot n m (pb.setCstr p c l r).C sc v = normalDot n m pb.C sc v := by
  unfold normalDot Pb.setCstr
  simp only [if_neg hi]

theorem bl_set {i : Nat} (hi : i ≠ p) : (pb.setCstr p c l r).bl i = pb.bl i := if_neg hi

theorem bu_set {i : Nat} (hi : i ≠ p) : (pb.setCstr p c l r).bu i = pb.bu i := if_neg hi

theorem computeStep_set (s : State K) {sc : SC} (hi : sc.p ≠ p) : computeStep (pb.setCstr p c l r) s sc = computeStep pb s sc := by
  have e : ∀ j, preMult s.nbVar (pb.setCstr p c l r).m (pb.setCstr p c l r).C sc s.J j = preMult s.nbVar pb.m pb.C sc s.J j :=
    fun j => preMult_set _ _ _ _ hi
  unfold computeStep
  simp only [e]

theorem fullStep_set (n : Nat) (x z : Nat → K) {sc : SC} (hi : sc.p ≠ p) :
    fullStep (pb.setCstr p c l r) n x z sc = fullStep pb n x z sc := by
  unfold fullStep
  have e : ∀ y : Nat → K, colDot (pb.setCstr p c l r) n sc.p y = colDot pb n sc.p y := fun y => colDot_set n y hi
  simp only [e, bl_set (pb := pb) (c := c) (l := l) (r := r) hi, bu_set (pb := pb) (c := c) (l := l) (r := r) hi]
  rfl

theorem computeStepLength_set (o : Opts K) (s : State K) {sc : SC} (hi : sc.p ≠ p) :
    computeStepLength o (pb.setCstr p c l r) s sc = computeStepLength o pb s sc := by
  unfold computeStepLength
  rw [fullStep_set (pb := pb) (c := c) (l := l) (r := r) _ _ _ hi]

theorem fullUpdate_set (s : State K) (t : K) {sc : SC} (hi : sc.p ≠ p) :
    fullUpdate (pb.setCstr p c l r) s sc t = fullUpdate pb s sc t := by
  unfold fullUpdate primalStep
  rw [normalDot_set _ _ _ hi]
  rfl

theorem iterBody_set (o : Opts K) (s : State K) {sc : SC} (hi : sc.p ≠ p) :
    iterBody o (pb.setCstr p c l r) s sc = iterBody o pb s sc := by
  unfold iterBody
  have e1 : computeStep (pb.setCstr p c l r) s sc = computeStep pb s sc := computeStep_set s hi
  have e2 : ∀ s, computeStepLength o (pb.setCstr p c l r) s sc = computeStepLength o pb s sc := fun s => computeStepLength_set o s hi
  have e3 : ∀ s t, fullUpdate (pb.setCstr p c l r) s sc t = fullUpdate pb s sc t := fun s t => fullUpdate_set s t hi
  simp only [e1, e2, e3]
  rfl

theorem selGen_never (h : NeverSel pb p) (A : ActiveSet) (x : Nat → K) (acc : Sel B) : selGen pb pb.n A x acc p = acc := by
  unfold selGen
  simp only [h.low, h.up, Bool.false_eq_true, if_false, ite_self]

theorem select_set (h : NeverSel pb p) (h' : NeverSel (pb.setCstr p c l r) p) (A : ActiveSet) (x : Nat → K) :
    select (pb.setCstr p c l r) pb.n A x = select pb pb.n A x := by
  have k : ∀ (acc : Sel B) (i : Nat), selGen (pb.setCstr p c l r) pb.n A x acc i = selGen pb pb.n A x acc i := by
    intro acc i
    by_cases hi : i = p
    · subst hi
      rw [selGen_never h]
      exact selGen_never h' A x acc
    · unfold selGen
      have e : colDot (pb.setCstr p c l r) pb.n i x = colDot pb pb.n i x := colDot_set pb.n x hi
      simp only [e, bl_set (pb := pb) (c := c) (l := l) (r := r) hi, bu_set (pb := pb) (c := c) (l := l) (r := r) hi]
  have e : selGen (pb.setCstr p c l r) pb.n A x = selGen pb pb.n A x := funext fun acc => funext fun i => k acc i
  unfold select
  rw [e]
  rfl

theorem select_ne (h : NeverSel pb p) {A : ActiveSet} (hp : p < A.nbCstr) (x : Nat → K)
    (hs : (select pb pb.n A x).status ≠ .inactive) : (select pb pb.n A x).p ≠ p := by
  have f1 : ∀ (l : List Nat) (acc : Sel B), (acc.sc.status ≠ .inactive → acc.sc.p ≠ p) →
      ((l.foldl (selGen pb pb.n A x) acc).sc.status ≠ .inactive → (l.foldl (selGen pb pb.n A x) acc).sc.p ≠ p) := by
    intro l
    induction l with
    | nil => intro acc h; exact h
    | cons i l ih =>
      intro acc ha
      rw [List.foldl_cons]
      refine ih _ ?_
      by_cases hi : i = p
      · subst hi; rw [selGen_never h]; exact ha
      · unfold selGen
        dsimp only
        split_ifs
        · exact ha
        · exact fun _ => hi
        · exact fun _ => hi
        · exact ha
  have f2 : ∀ (l : List Nat) (acc : Sel B), (acc.sc.status ≠ .inactive → acc.sc.p ≠ p) →
      ((l.foldl (selBnd pb A x) acc).sc.status ≠ .inactive → (l.foldl (selBnd pb A x) acc).sc.p ≠ p) := by
    intro l
    induction l with
    | nil => intro acc h; exact h
    | cons i l ih =>
      intro acc ha
      rw [List.foldl_cons]
      refine ih _ ?_
      unfold selBnd
      split_ifs
      · exact ha
      · intro _; show A.nbCstr + i ≠ p; omega
      · intro _; show A.nbCstr + i ≠ p; omega
      · exact ha
  exact f2 _ _ (f1 _ _ (fun h => absurd rfl h)) hs

/-- Status of the never selected constraint and of the candidate. -/
theorem iterBody_never {o : Opts K} (law : FpLaws K o) {s : State K} {sc : SC} (hg : Good pb s) (hc : Cand s.A sc) (hi : sc.p ≠ p)
    (hs : s.A.statusAt p = .inactive) {r} (h : iterBody o pb s sc = .ok r) :
    r.st.A.statusAt p = .inactive ∧ ∀ s' sc' skip', r = .cont s' sc' skip' → sc' = sc := by
  have hb : sc.p < s.A.nbCstr + s.A.nbBnd := by
    have h1 := hc.pre
    rw [ActiveSet.activatePre_iff] at h1
    omega
  have hrem : ∀ {s1 : State K} {l : Nat}, s1.A = s.A → removeOk s1 l = true → (removeConstraint o s1 l).A.statusAt p = .inactive := by
    intro s1 l he hr
    show (s1.A.deactivate l).statusAt p = .inactive
    rw [he]
    have hl : l < s.A.active.length := by
      unfold removeOk at hr
      simp only [Bool.and_eq_true, decide_eq_true_eq, he] at hr
      have h1 := hg.dim.wf.q_eq
      omega
    rw [ActiveSet.deactivate_statusAt _ hg.dim.wf _ _ hl]
    split_ifs
    · rfl
    · exact hs
  unfold iterBody at h
  simp only [] at h
  split_ifs at h with a1 a2 a3 a4 a5 a6 a7 a8
  all_goals first
    | (cases h; exact ⟨hs, by intro _ _ _ h; cases h⟩)
    | (cases h; exact ⟨hrem rfl (by assumption), by intro _ _ _ h; cases h; rfl⟩)
    | skip
  cases h
  refine ⟨?_, by intro _ _ _ h; cases h; rfl⟩
  show (s.A.activate sc.p sc.status).statusAt p = .inactive
  rw [ActiveSet.activate_statusAt _ _ _ _ (by rw [hg.dim.wf.size]; exact hb), if_neg (Ne.symm hi)]
  exact hs

theorem loop_set {o : Opts K} (law : FpLaws K o) (h : NeverSel pb p) (h' : NeverSel (pb.setCstr p c l r) p) (hp : p < pb.m) (fuel : Nat) :
    ∀ {s : State K} {sc : SC} {skip : Bool}, Good pb s → (skip = true → Cand s.A sc ∧ sc.p ≠ p) → s.A.statusAt p = .inactive →
      loop o (pb.setCstr p c l r) fuel s sc skip = loop o pb fuel s sc skip ∧
      ∀ t s', loop o pb fuel s sc skip = .ok (t, s') → s'.A.statusAt p = .inactive := by
  induction fuel with
  | zero => intro s sc skip _ _ hs; exact ⟨rfl, fun t s' h => by cases h; exact hs⟩
  | succ fuel ih =>
    intro s sc skip hg hc hs
    obtain ⟨rr, hr, hs'⟩ := iterate_safe law (sc := sc) (skip := skip) hg (fun h => (hc h).1)
    have key : iterate o (pb.setCstr p c l r) s sc skip = iterate o pb s sc skip ∧ rr.st.A.statusAt p = .inactive ∧
        ∀ s' sc' skip', rr = .cont s' sc' skip' → sc'.p ≠ p := by
      cases skip with
      | true =>
        have e : iterate o pb s sc true = iterBody o pb s sc := by unfold iterate; simp only [if_true]
        rw [e] at hr ⊢
        obtain ⟨k1, k2⟩ := iterBody_never law hg (hc rfl).1 (hc rfl).2 hs hr
        exact ⟨by unfold iterate; simp only [if_true]; exact iterBody_set o s (hc rfl).2, k1, fun s' sc' sk he => by rw [k2 s' sc' sk he]; exact (hc rfl).2⟩
      | false =>
        unfold iterate at hr ⊢
        simp only [Bool.false_eq_true, if_false] at hr ⊢
        rw [if_pos hg.selectOk] at hr ⊢
        rw [show selectOk (pb.setCstr p c l r) s = selectOk pb s from rfl, if_pos hg.selectOk]
        have hn := hg.dim.nbVar
        have hsel : select (pb.setCstr p c l r) s.nbVar s.A s.x = select pb s.nbVar s.A s.x := by rw [hn]; exact select_set h h' _ _
        rw [hsel]
        by_cases hin : (select pb s.nbVar s.A s.x).status = .inactive
        · rw [if_pos hin] at hr ⊢
          rw [if_pos hin]
          cases hr
          exact ⟨rfl, hs, fun _ _ _ h => by cases h⟩
        · rw [if_neg hin] at hr ⊢
          rw [if_neg hin]
          have hne : (select pb s.nbVar s.A s.x).p ≠ p := by
            rw [hn] at hin ⊢
            exact select_ne h (by rw [hg.dim.nbCstr]; exact hp) _ hin
          have hcd : Cand s.A (select pb s.nbVar s.A s.x) := (select_cand pb s.nbVar s.A s.x).resolve_left hin
          split_ifs at hr ⊢ with hz
          · have hg' : Good pb { s with u := upd s.u s.A.q 0 } := hg.of_eq rfl rfl rfl rfl rfl rfl rfl rfl rfl
            obtain ⟨k1, k2⟩ := iterBody_never law hg' hcd hne hs hr
            exact ⟨iterBody_set o _ hne, k1, fun s' sc' sk he => by rw [k2 s' sc' sk he]; exact hne⟩
    obtain ⟨k1, k2, k3⟩ := key
    rw [loop, loop, k1, hr]
    cases rr with
    | done t1 s1 => exact ⟨rfl, fun t s' h => by cases h; exact k2⟩
    | cont s1 sc1 skip1 =>
      exact ih (s := { s1 with it := s1.it + 1 }) (hs'.1.of_eq rfl rfl rfl rfl rfl rfl rfl rfl rfl)
        (fun hk => ⟨hs'.2.2 hk, k3 _ _ _ rfl⟩) k2

theorem eqList_set (h : NeverSel pb p) (h' : NeverSel (pb.setCstr p c l r) p) (A : ActiveSet) :
    eqList (pb.setCstr p c l r) A = eqList pb A := by
  unfold eqList
  have e : (fun i => bEq K ((pb.setCstr p c l r).bl i) ((pb.setCstr p c l r).bu i)) = fun i => bEq K (pb.bl i) (pb.bu i) := by
    funext i
    by_cases hi : i = p
    · subst hi; rw [h.ineq, h'.ineq]
    · rw [bl_set hi, bu_set hi]
  rw [e]
  rfl

theorem eqList_ne (h : NeverSel pb p) {A : ActiveSet} (hp : p < A.nbCstr) : ∀ sc ∈ eqList pb A, sc.p ≠ p := by
  intro sc hsc
  unfold eqList at hsc
  rw [List.mem_append, List.mem_map, List.mem_map] at hsc
  rcases hsc with ⟨i, hi, rfl⟩ | ⟨i, hi, rfl⟩
  · intro e
    change i = p at e
    subst e
    rw [List.mem_filter, h.ineq] at hi
    exact absurd hi.2 (by decide)
  · show A.nbCstr + i ≠ p
    omega

theorem addInitial_set (o : Opts K) (s : State K) {sc : SC} (hi : sc.p ≠ p) :
    addInitialConstraint o (pb.setCstr p c l r) s sc = addInitialConstraint o pb s sc := by
  have e1 : ∀ s : State K, computeStep (pb.setCstr p c l r) s sc = computeStep pb s sc := fun s => computeStep_set s hi
  have e2 : ∀ s, initStep o (pb.setCstr p c l r) s sc = initStep o pb s sc := by
    intro s
    have e : ∀ y : Nat → K, colDot (pb.setCstr p c l r) s.nbVar sc.p y = colDot pb s.nbVar sc.p y := fun y => colDot_set _ y hi
    unfold initStep
    rw [e, e, bl_set hi]
    rfl
  have e3 : ∀ s t, fullUpdate (pb.setCstr p c l r) s sc t = fullUpdate pb s sc t := fun s t => fullUpdate_set s t hi
  unfold addInitialConstraint
  simp only [e1, e2, e3]
  rfl

theorem addInitials_set (o : Opts K) (L : List SC) : ∀ (s : State K), (∀ sc ∈ L, sc.p ≠ p) →
    addInitials o (pb.setCstr p c l r) L s = addInitials o pb L s := by
  induction L with
  | nil => intro s _; rfl
  | cons sc L ih =>
    intro s hL
    rw [addInitials, addInitials, addInitial_set o s (hL sc List.mem_cons_self)]
    cases addInitialConstraint o pb s sc with
    | error e => rfl
    | ok s1 => exact ih s1 fun sc hsc => hL sc (List.mem_cons_of_mem _ hsc)

theorem activate_other (L : List SC) : ∀ (A : ActiveSet), (∀ sc ∈ L, sc.p ≠ p) → (A.activateSCs L).statusAt p = A.statusAt p := by
  induction L with
  | nil => intro A _; rfl
  | cons sc L ih =>
    intro A hL
    have e : (A.activateSCs (sc :: L)) = (A.activate sc.p sc.status).activateSCs L := rfl
    rw [e, ih _ fun sc hsc => hL sc (List.mem_cons_of_mem _ hsc)]
    have hne := hL sc List.mem_cons_self
    unfold ActiveSet.statusAt
    rw [ActiveSet.activate_status]
    rw [List.getD_eq_getElem?_getD, List.getD_eq_getElem?_getD, List.getElem?_set_ne hne]

theorem init_set {o : Opts K} (h : NeverSel pb p) (h' : NeverSel (pb.setCstr p c l r) p) (hp : p < pb.m) {s : State K} (hd : Dim pb s) :
    init_ o (pb.setCstr p c l r) s = init_ o pb s ∧ ∀ s', init_ o pb s = .ok (.success, s') → s'.A.statusAt p = .inactive := by
  have e : ∀ s : State K, s.A.nbCstr = pb.m → initActiveSet o (pb.setCstr p c l r) s = initActiveSet o pb s := by
    intro s hs
    unfold initActiveSet
    rw [eqList_set h h', addInitials_set o _ s (eqList_ne h (by rw [hs]; exact hp))]
    rfl
  have e0 : ∀ s : State K, initPoint o (pb.setCstr p c l r) s = initPoint o pb s := fun s => rfl
  have hc : ∀ s : State K, (initPoint o pb s).A.nbCstr = s.A.nbCstr := fun s => rfl
  constructor
  · unfold init_
    simp only [e0]
    rw [e _ (by rw [hc]; exact hd.nbCstr)]
    rfl
  · intro s' hs
    unfold init_ at hs
    simp only [] at hs
    split_ifs at hs with h1 h2 h3
    · cases hs
    cases h4 : initActiveSet o pb (initPoint o pb { s with G := (chol s.nbVar pb.G s.nbVar).1 }) with
    | error e => rw [h4] at hs; cases hs
    | ok s1 =>
      rw [h4] at hs
      cases hs
      unfold initActiveSet at h4
      split_ifs at h4 with h5
      rw [addInitials_A _ h4, activate_other _ _ (eqList_ne h (by rw [hc]; exact hd.nbCstr ▸ hp))]
      exact reset_statusAt _ _

/-- Replacing a never selected constraint by another one does not change the result of `solve`, nor the state. -/
theorem solve_set {o : Opts K} (law : FpLaws K o) (h : NeverSel pb p) (h' : NeverSel (pb.setCstr p c l r) p) (hp : p < pb.m) {s : State K}
    (hi : Inv s) (hq : cholOk pb → numEq pb ≤ pb.n) :
    solve o (pb.setCstr p c l r) s = solve o pb s ∧
      ∀ t s', solve o pb s = .ok (t, s') → t ≠ .nonPosHessian → s'.A.statusAt p = .inactive := by
  have hd := preInit_dim (o := o) (resize_dim_pb hi pb)
  obtain ⟨k1, k2⟩ := init_set (o := o) h h' hp hd
  obtain ⟨t0, s0, h1, h2, h3⟩ := init_safe (o := o) hd hq
  have hr : resize s (pb.setCstr p c l r).n (pb.setCstr p c l r).m (pb.setCstr p c l r).useBnd = resize s pb.n pb.m pb.useBnd := rfl
  unfold solve dualSolve
  rw [hr, k1, h1]
  simp only []
  by_cases ht : t0 = .success
  · subst ht
    simp only [ne_eq, not_true_eq_false, if_false]
    obtain ⟨l1, l2⟩ := loop_set law h h' hp (o.maxIter - s0.it) (sc := ⟨0, .inactive⟩) (skip := false) (h3 rfl) (by simp) (k2 _ h1)
    rw [l1]
    refine ⟨rfl, fun t s' hs _ => ?_⟩
    cases hl : loop o pb (o.maxIter - s0.it) s0 ⟨0, .inactive⟩ false with
    | error e => rw [hl] at hs; cases hs
    | ok r =>
      obtain ⟨t1, s1⟩ := r
      rw [hl] at hs
      have := loop_it _ hl
      have e : (t, s') = (t1, s1) := by
        rcases this with ⟨rfl, _⟩ | ⟨rfl | rfl, _⟩ <;> (cases hs; rfl)
      cases e
      exact l2 _ _ hl
  · rw [if_pos ht, if_pos ht]
    refine ⟨rfl, fun t s' hs hn => ?_⟩
    have := (init_it h1).2.resolve_left ht
    subst this
    cases hs
    exact absurd rfl hn

end

end JrlQp
