import Verif.ExactInit

/-!
# Equality constraints listed first

The ratio test reads the status at index `k` (the position in the active set) instead of the index of the `k`-th
active constraint, src/GoldfarbIdnaniSolver.cpp:162. Both coincide, as far as equalities are concerned, when the
equality constraints and fixed variables are exactly the first `e` constraints. This file is independent of the
arithmetic.
-/

namespace JrlQp

open NumOps

/-- The equalities are the constraints `0..e-1` and occupy the positions `0..e-1` of the active set. -/
structure EqPre (e : Nat) (A : ActiveSet) : Prop where
  le : e ≤ A.q
  get : ∀ k < e, A.get k = k
  eq : ∀ i, (A.statusAt i).isEq = true ↔ i < e

theorem elig_iff (A : ActiveSet) (k : Nat) : elig A k ↔ (A.statusAt k).isEq = false := by
  unfold elig
  cases A.statusAt k <;> simp [Status.isEq]

theorem EqPre.elig {e : Nat} {A : ActiveSet} (h : EqPre e A) (k : Nat) : elig A k ↔ e ≤ k := by
  rw [elig_iff, ← not_lt, ← h.eq k]; simp

theorem ActiveSet.WF.get_inj {A : ActiveSet} (hw : A.WF) {k l : Nat} (hk : k < A.q) (hl : l < A.q)
    (h : A.get k = A.get l) : k = l := by
  rw [hw.q_eq] at hk hl
  rw [ActiveSet.get, ActiveSet.get, List.getD_eq_getElem _ _ hk, List.getD_eq_getElem _ _ hl] at h
  exact (List.Nodup.getElem_inj_iff hw.nodup).1 h

theorem EqPre.act {e : Nat} {A : ActiveSet} (h : EqPre e A) (hw : A.WF) {k : Nat} (hk : k < A.q) :
    (A.act k).status.isEq = true ↔ k < e := by
  rw [ActiveSet.act, h.eq]
  constructor
  · intro hlt
    have := h.get _ hlt
    have := hw.get_inj (k := A.get k) (l := k) (by have := h.le; omega) hk this
    omega
  · intro hlt
    rw [h.get k hlt]; exact hlt

theorem EqPre.activate {e : Nat} {A : ActiveSet} (h : EqPre e A) (hw : A.WF) {sc : SC} (hc : Cand A sc) :
    EqPre e (A.activate sc.p sc.status) := by
  have hp := (ActiveSet.activatePre_iff _ _ _).1 hc.pre
  have hi : sc.p < A.status.length := by rw [hw.size]; exact hp.1
  have hne : e ≤ sc.p := by
    rw [← not_lt, ← h.eq, hp.2.1]; simp [Status.isEq]
  have hq := hw.q_activate hc.pre
  refine ⟨by have := h.le; omega, ?_, ?_⟩
  · intro k hk
    have := (act_activate hw hc.pre).1 k (by have := h.le; omega)
    have := congrArg SC.p this
    simp only [ActiveSet.act] at this
    rw [this, h.get k hk]
  · intro i
    rw [ActiveSet.activate_statusAt _ _ _ _ hi]
    by_cases he : i = sc.p
    · rw [if_pos he, hc.ineq]; simp; omega
    · rw [if_neg he, h.eq]

theorem EqPre.deactivate {e : Nat} {A : ActiveSet} (h : EqPre e A) (hw : A.WF) {l : Nat} (hl : l < A.q) (he : e ≤ l) :
    EqPre e (A.deactivate l) := by
  have hl' : l < A.active.length := by rw [← hw.q_eq]; exact hl
  have hp : A.deactivatePre l = true := by simpa [ActiveSet.deactivatePre] using hl'
  have hq := hw.q_deactivate hp
  refine ⟨by omega, ?_, ?_⟩
  · intro k hk
    have := act_deactivate hw hl k (by omega)
    rw [if_pos (by omega)] at this
    have := congrArg SC.p this
    simp only [ActiveSet.act] at this
    rw [this, h.get k hk]
  · intro i
    rw [ActiveSet.deactivate_statusAt _ hw _ _ hl']
    by_cases hi : i = A.get l
    · rw [if_pos hi]
      have : ¬ (A.act l).status.isEq = true := by rw [h.act hw hl]; omega
      simp only [ActiveSet.act, h.eq] at this
      simp [Status.isEq]; omega
    · rw [if_neg hi, h.eq]

/-! ### Arithmetic-independent preservation -/

section
variable {K B : Type} [Zero K] [One K] [Add K] [Sub K] [Neg K] [Mul K] [Div K] [NumOps K B] [SumOps K]

theorem ratio_elig (A : ActiveSet) (u r : Nat → K) (b : K) (l : List Nat) (acc : K × Nat)
    (h : acc = (b, 0) ∨ elig A acc.2) :
    l.foldl (ratioStep A u r) acc = (b, 0) ∨ elig A (l.foldl (ratioStep A u r) acc).2 := by
  induction l generalizing acc with
  | nil => exact h
  | cons k l ih =>
    apply ih
    simp only [ratioStep]
    split_ifs with h1 h2
    · exact Or.inr ⟨h1.1, h1.2.1⟩
    · exact h
    · exact h

theorem stepLength_elig (o : Opts K) (pb : Pb K B) (s : State K) (sc : SC) :
    (computeStepLength o pb s sc).t1 = o.bigBnd ∨ elig s.A (computeStepLength o pb s sc).l := by
  rcases ratio_elig s.A s.u s.r o.bigBnd (List.range s.A.q) (o.bigBnd, 0) (Or.inl rfl) with h | h
  · left; simp [computeStepLength, h]
  · right; exact h

/-- `EqPre` holds after the iteration. -/
def EqOut (e : Nat) : Iter K → Prop
  | .done _ s => EqPre e s.A
  | .cont s _ _ => EqPre e s.A

theorem iterBody_eqPre {o : Opts K} (law : FpLaws K o) {pb : Pb K B} {s : State K} {sc : SC} {e : Nat} (hw : s.A.WF)
    (hc : Cand s.A sc) (he : EqPre e s.A) {r} (h : iterBody o pb s sc = .ok r) : EqOut e r := by
  unfold iterBody at h
  split_ifs at h
  simp only [] at h
  have hA1 : (computeStep pb s sc).A = s.A := rfl
  generalize computeStep pb s sc = s1 at *
  rw [← hA1] at hw he hc
  by_cases hsl : stepLenOk o s1 sc = true
  swap
  · rw [if_neg hsl] at h; cases h
  rw [if_pos hsl] at h
  have hl := stepLength_elig o pb s1 sc
  generalize computeStepLength o pb s1 sc = sl at *
  by_cases hbig : leb o.bigBnd (stdMin sl.t1 sl.t2) = true
  · rw [if_pos hbig] at h
    cases h; exact he
  rw [if_neg hbig] at h
  have hcases : elig s1.A sl.l ∨ (stdMin sl.t1 sl.t2 = sl.t2 ∧ eqb sl.t2 sl.t2 = true) := by
    rcases hl with h | h
    · right
      unfold stdMin at hbig ⊢
      by_cases hlt : ltb sl.t2 sl.t1 = true
      · rw [if_pos hlt]; exact ⟨rfl, law.ltEq _ _ hlt⟩
      · rw [if_neg hlt, h] at hbig; exact absurd law.bigRefl hbig
    · exact Or.inl h
  have hrem : ∀ s2 : State K, s2.A = s1.A → removeOk s2 sl.l = true → elig s1.A sl.l →
      EqPre e (removeConstraint o s2 sl.l).A := by
    intro s2 hA hok hel
    have hlq : sl.l < s1.A.q := by
      simp only [removeOk, Bool.and_eq_true, decide_eq_true_eq] at hok
      rw [← hA]; exact hok.1.1.1.1.1
    show EqPre e (s2.A.deactivate sl.l)
    rw [hA]
    exact he.deactivate hw hlq ((he.elig _).1 hel)
  by_cases hb2 : leb o.bigBnd sl.t2 = true
  · rw [if_pos hb2] at h
    have hl' : elig s1.A sl.l := by
      rcases hcases with h | ⟨h, _⟩
      · exact h
      · rw [h] at hbig; exact absurd hb2 hbig
    split_ifs at h with hok
    cases h
    exact hrem _ rfl hok hl'
  · rw [if_neg hb2] at h
    by_cases heq : eqb (stdMin sl.t1 sl.t2) sl.t2 = true
    · rw [if_pos heq] at h
      split_ifs at h
      cases h
      exact he.activate hw hc
    · rw [if_neg heq] at h
      have hl' : elig s1.A sl.l := by
        rcases hcases with h | ⟨h, h'⟩
        · exact h
        · rw [h] at heq; exact absurd h' heq
      split_ifs at h with hok
      cases h
      exact hrem _ rfl hok hl'

theorem iterate_eqPre {o : Opts K} (law : FpLaws K o) {pb : Pb K B} {s : State K} {sc : SC} {skip : Bool} {e : Nat}
    (hw : s.A.WF) (hc : skip = true → Cand s.A sc) (he : EqPre e s.A) {r} (h : iterate o pb s sc skip = .ok r) :
    EqOut e r := by
  unfold iterate at h
  cases skip with
  | true => exact iterBody_eqPre law hw (hc rfl) he (by simpa using h)
  | false =>
    simp only [Bool.false_eq_true, if_false] at h
    by_cases h1 : selectOk pb s = true
    swap
    · rw [if_neg h1] at h; cases h
    rw [if_pos h1] at h
    have hsel := select_cand pb s.nbVar s.A s.x
    generalize select pb s.nbVar s.A s.x = sc' at *
    by_cases hi : sc'.status = .inactive
    · rw [if_pos hi] at h; cases h; exact he
    · rw [if_neg hi] at h
      split_ifs at h
      exact iterBody_eqPre law (s := { s with u := upd s.u s.A.q 0 }) hw (hsel.resolve_left hi) he h

theorem loop_eqPre {o : Opts K} (law : FpLaws K o) {pb : Pb K B} {e : Nat} (fuel : Nat) : ∀ {s : State K} {sc : SC}
    {skip : Bool} {t s'}, Good pb s → (skip = true → Cand s.A sc) → EqPre e s.A →
    loop o pb fuel s sc skip = .ok (t, s') → EqPre e s'.A := by
  induction fuel with
  | zero =>
    intro s sc skip t s' _ _ he h
    simp only [loop, Except.ok.injEq, Prod.mk.injEq] at h
    rw [← h.2]; exact he
  | succ fuel ih =>
    intro s sc skip t s' hg hc he h
    obtain ⟨r, h1, h2⟩ := iterate_safe law hg hc
    have h3 := iterate_eqPre law hg.dim.wf hc he h1
    simp only [loop, h1] at h
    cases r with
    | done t1 s1 =>
      simp only [Except.ok.injEq, Prod.mk.injEq] at h
      rw [← h.2]; exact h3
    | cont s1 sc1 k1 =>
      exact ih (s := { s1 with it := s1.it + 1 }) (h2.1.of_eq rfl rfl rfl rfl rfl rfl rfl rfl rfl) h2.2.2 h3 h

theorem addInitials_A {o : Opts K} {pb : Pb K B} (l : List SC) : ∀ {s s' : State K},
    addInitials o pb l s = .ok s' → s'.A = s.A.activateSCs l := by
  induction l with
  | nil => intro s s' h; cases h; rfl
  | cons sc l ih =>
    intro s s' h
    simp only [addInitials] at h
    cases h1 : addInitialConstraint o pb s sc with
    | error e => simp [h1] at h
    | ok s1 =>
      rw [h1] at h
      rw [ih h]
      unfold addInitialConstraint at h1
      simp only [] at h1
      split_ifs at h1
      cases h1
      rfl

/-- Constraint `i` (general constraints first, then bounds) is an equality: its two sides compare equal. -/
def isEqB (pb : Pb K B) (i : Nat) : Bool :=
  if i < pb.m then bEq K (pb.bl i) (pb.bu i) else bEq K (pb.xl (i - pb.m)) (pb.xu (i - pb.m))

/-- Specification: the equality constraints and fixed variables are exactly the first `e` constraints. -/
def EqFirst (pb : Pb K B) (e : Nat) : Prop := e ≤ pb.m + pb.nb ∧ ∀ i < pb.m + pb.nb, isEqB pb i = true ↔ i < e

theorem filter_range_lt (e n : Nat) (h : e ≤ n) : (List.range n).filter (fun i => decide (i < e)) = List.range e := by
  induction n with
  | zero => have : e = 0 := by omega
            subst this; rfl
  | succ n ih =>
    rw [List.range_succ, List.filter_append]
    by_cases he : e = n + 1
    · subst he
      rw [List.filter_eq_self.2 (by intro a ha; have := List.mem_range.1 ha; simp; omega)]
      simp [List.range_succ]
    · rw [ih (by omega)]
      simp; omega

theorem eqList_prefix {pb : Pb K B} {A : ActiveSet} (hm : A.nbCstr = pb.m) (hnb : A.nbBnd = pb.nb) {e : Nat}
    (h : EqFirst pb e) :
    eqList pb A = (List.range e).map (fun i => ⟨i, if i < pb.m then .equality else .fixed⟩) := by
  have h1 : eqList pb A = ((List.range (pb.m + pb.nb)).filter (isEqB pb)).map
      (fun i => ⟨i, if i < pb.m then .equality else .fixed⟩) := by
    rw [List.range_add, List.filter_append, List.map_append, eqList, hm, hnb]
    congr 1
    · rw [List.filter_congr (q := isEqB pb) (by
        intro i hi; simp [isEqB, List.mem_range.1 hi])]
      apply List.map_congr_left
      intro i hi
      simp [List.mem_range.1 (List.mem_filter.1 hi).1]
    · rw [List.filter_map, List.map_map]
      have : (isEqB pb ∘ fun x => pb.m + x) = fun i => bEq K (pb.xl i) (pb.xu i) := by
        funext i; simp [isEqB]
      rw [this]
      apply List.map_congr_left
      intro i hi
      simp
  rw [h1]
  congr 1
  rw [List.filter_congr (q := fun i => decide (i < e))]
  · exact filter_range_lt e _ h.1
  · intro i hi
    have := h.2 i (List.mem_range.1 hi)
    rw [Bool.eq_iff_iff, this]; simp

theorem init_eqPre {A0 : ActiveSet} (hw : A0.WF) (hq : A0.q = 0) (hst : ∀ i, A0.statusAt i = .inactive) {m e : Nat}
    (hl : ActAll A0 ((List.range e).map (fun i => ⟨i, if i < m then .equality else .fixed⟩))) :
    EqPre e (A0.activateSCs ((List.range e).map (fun i => ⟨i, if i < m then .equality else .fixed⟩))) := by
  obtain ⟨a1, a2, a3⟩ := init_act hw hq hst hl
  simp only [List.length_map, List.length_range] at a1 a2
  refine ⟨a1.ge, ?_, ?_⟩
  · intro k hk
    have := congrArg SC.p (a2 k hk)
    simpa [ActiveSet.act] using this
  · intro i
    constructor
    · intro hi
      obtain ⟨sc, hsc, he⟩ := a3 i (by intro hc; simp [hc, Status.isEq] at hi)
      rw [List.mem_map] at hsc
      obtain ⟨j, hj, rfl⟩ := hsc
      have := congrArg SC.p he
      simp only at this
      rw [← this]; exact List.mem_range.1 hj
    · intro hi
      have h1 := congrArg SC.p (a2 i hi)
      have h2 := congrArg SC.status (a2 i hi)
      simp only [ActiveSet.act, List.getElem_map, List.getElem_range] at h1 h2
      rw [h1] at h2
      rw [h2]
      split_ifs <;> rfl

theorem initActive_eqPre {o : Opts K} {pb : Pb K B} {s : State K} (hd : Dim pb s) {e : Nat} (he : EqFirst pb e) {s'}
    (h : init_ o pb s = .ok (.success, s')) : EqPre e s'.A := by
  unfold init_ at h
  rw [if_pos (by simp [hd.nbVar])] at h
  simp only [] at h
  by_cases hc : (chol s.nbVar pb.G s.nbVar).2.isSome = true
  · rw [if_pos hc] at h; cases h
  · rw [if_neg hc] at h
    have hG : Dim pb { s with G := (chol s.nbVar pb.G s.nbVar).1 } := by
      obtain ⟨h0, h1, b, c, h2, h3, h4, h5, h6, h7, h8⟩ := hd
      exact ⟨h0, h1, b, c, h2, h3, h4, h5, h6, h7, h8⟩
    have hg := initPoint_good (o := o) hG
    have hst : ∀ i, (initPoint o pb { s with G := (chol s.nbVar pb.G s.nbVar).1 }).A.statusAt i = .inactive :=
      fun i => reset_statusAt _ i
    have hq0 : (initPoint o pb { s with G := (chol s.nbVar pb.G s.nbVar).1 }).A.q = 0 := ActiveSet.reset_q _
    generalize initPoint o pb { s with G := (chol s.nbVar pb.G s.nbVar).1 } = s1 at *
    split_ifs at h
    unfold initActiveSet at h
    rw [if_pos hg.selectOk] at h
    cases h1 : addInitials o pb (eqList pb s1.A) s1 with
    | error e => simp [h1] at h
    | ok s2 =>
      rw [h1] at h
      cases h
      rw [addInitials_A _ h1]
      have hact := actAll_eqList pb s1.A hg.dim.wf hst
      rw [eqList_prefix hg.dim.nbCstr hg.dim.nbBnd he] at hact ⊢
      exact init_eqPre hg.dim.wf hq0 hst hact

/-- **C15 (partial).** For every arithmetic, every solver state reached by legal calls and every problem whose equality
constraints and fixed variables are listed first: whenever `solve` goes past its initialisation (i.e. returns anything
but `NON_POS_HESSIAN`), the constraints reported `EQUALITY` are exactly the general constraints with `bl == bu`, the
variables reported `FIXED` exactly those with `xl == xu`.

Missing: problems with an inequality before an equality, for which the property is false
(`C15_equality_dropped`). -/
theorem C15_equalities_stay_active_partial {o : Opts K} (law : FpLaws K o) {pb : Pb K B} {s : State K} (hs : Inv s)
    {e : Nat} (he : EqFirst pb e) (hn : cholOk pb → numEq pb ≤ pb.n) {t s'} (h : solve o pb s = .ok (t, s'))
    (ht : t ≠ .nonPosHessian) :
    (∀ i < pb.m, s'.A.statusAt i = .equality ↔ bEq K (pb.bl i) (pb.bu i) = true) ∧
    (∀ i < pb.nb, s'.A.statusAt (pb.m + i) = .fixed ↔ bEq K (pb.xl i) (pb.xu i) = true) ∧
    (∀ i < pb.m, s'.A.statusAt i ≠ .fixed) ∧ (∀ i < pb.nb, s'.A.statusAt (pb.m + i) ≠ .equality) := by
  have hterm : ∀ (t1 : Term) (s1 : State K), terminate o t1 s1 = .ok (t, s') → t1 = t ∧ s1 = s' := by
    intro t1 s1 h1
    unfold terminate at h1
    cases t1 <;> simp only at h1 <;> (try split_ifs at h1) <;> cases h1 <;> exact ⟨rfl, rfl⟩
  have hd : Dim pb (preInit o (resize s pb.n pb.m pb.useBnd)) := preInit_dim (resize_dim_pb hs pb)
  unfold solve dualSolve at h
  obtain ⟨t1, s1, h1, h2, h3⟩ := init_safe (o := o) hd hn
  rw [h1] at h
  simp only [] at h
  have key : EqPre e s'.A ∧ Dim pb s' := by
    by_cases ht1 : t1 = .success
    · rw [if_neg (by simp [ht1])] at h
      subst ht1
      have hg := h3 rfl
      have he1 := initActive_eqPre hd he h1
      obtain ⟨t2, s2, g1, g3⟩ := loop_safe law (o.maxIter - s1.it) (s := s1) (sc := ⟨0, .inactive⟩) (skip := false) hg
        (by simp)
      rw [g1] at h
      obtain ⟨_, rfl⟩ := hterm _ _ h
      exact ⟨loop_eqPre law _ hg (by simp) he1 g1, g3.dim⟩
    · rw [if_pos ht1] at h
      obtain ⟨rfl, rfl⟩ := hterm _ _ h
      exfalso
      unfold init_ at h1
      rw [if_pos (by simp [hd.nbVar])] at h1
      simp only [] at h1
      split_ifs at h1
      · simp only [Except.ok.injEq, Prod.mk.injEq] at h1; exact ht h1.1.symm
      · split at h1
        · cases h1
        · simp only [Except.ok.injEq, Prod.mk.injEq] at h1; exact ht1 h1.1.symm
  obtain ⟨hpre, hdim⟩ := key
  have hG : ∀ i < pb.m, s'.A.statusAt i ≠ .fixed := by
    intro i hi hc
    have := hdim.wf.kindG i (by rw [hdim.nbCstr]; exact hi) (by simp [hc])
    simp [hc, Status.isGeneral] at this
  have hB : ∀ i < pb.nb, s'.A.statusAt (pb.m + i) ≠ .equality := by
    intro i hi hc
    have := hdim.wf.kindB (pb.m + i) (by rw [hdim.nbCstr]; omega) (by simp [hc])
    simp [hc, Status.isBound] at this
  refine ⟨?_, ?_, hG, hB⟩
  · intro i hi
    have h1 := hpre.eq i
    have h2 := he.2 i (by omega)
    simp only [isEqB, hi, if_true] at h2
    rw [h2, ← h1]
    have := hG i hi
    cases hs : s'.A.statusAt i <;> simp_all [Status.isEq]
  · intro i hi
    have h1 := hpre.eq (pb.m + i)
    have h2 := he.2 (pb.m + i) (by omega)
    simp only [isEqB, show ¬ pb.m + i < pb.m by omega, if_false, Nat.add_sub_cancel_left] at h2
    rw [h2, ← h1]
    have := hB i hi
    cases hs : s'.A.statusAt (pb.m + i) <;> simp_all [Status.isEq]

end

end JrlQp
