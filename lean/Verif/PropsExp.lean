import Verif.ExpWarm
import Verif.ExactSolve

/-!
# Properties of the experimental solver (C21, C22, C23, C24)
-/

namespace JrlQp

open NumOps Finset Spec

theorem fin_of {a : EReal} (h1 : a ≠ ⊤) (h2 : a ≠ ⊥) : ∃ r : ℝ, a = (r : EReal) := by
  induction a using EReal.rec with
  | bot => exact absurd rfl h2
  | top => exact absurd rfl h1
  | coe r => exact ⟨r, rfl⟩

theorem want_infSide {o : Opts ℝ} {pb : Pb ℝ EReal} {as : List Status} {i : Nat} {st : Status}
    (hs : want o pb as i = st) (h1 : st.isEq = false) (h2 : st ≠ .inactive) : infSide o pb i st = false := by
  unfold want at hs
  by_cases ha : isEqC pb i = true
  · rw [if_pos ha] at hs
    by_cases hb : i < pb.m
    · rw [if_pos hb] at hs; rw [← hs] at h1; simp [Status.isEq] at h1
    · rw [if_neg hb] at hs; rw [← hs] at h1; simp [Status.isEq] at h1
  · rw [if_neg ha] at hs
    by_cases hw : o.warmStart = true
    · rw [if_pos hw] at hs
      by_cases hc : as.getD i .inactive = .fixed ∨ infSide o pb i (as.getD i .inactive) = true
      · rw [if_pos hc] at hs; exact absurd hs.symm h2
      · rw [if_neg hc] at hs
        rw [hs] at hc
        push Not at hc
        simpa using hc.2
    · rw [if_neg hw] at hs; exact absurd hs.symm h2

/-- Constraints wanted by the initialisation have a finite right-hand side. -/
theorem want_fin {o : Opts ℝ} {pb : Pb ℝ EReal} {as : List Status} (hp : Proper pb) (hf : NoFalseEq o pb as)
    (hk : WarmOk o pb as) {i : Nat} (hi : i < pb.m + pb.nb) (hne : want o pb as i ≠ .inactive) :
    BndFin pb ⟨i, want o pb as i⟩ := by
  have hub : ¬ i < pb.m → pb.useBnd = true ∧ i - pb.m < pb.n := by
    intro h
    have h5 : i - pb.m < pb.nb := by omega
    unfold Pb.nb at h5
    split_ifs at h5 with h6
    · exact ⟨h6, h5⟩
    · omega
  have key : ∀ a b : EReal, a ≠ ⊤ → b ≠ ⊥ → a = b → ∃ r : ℝ, a = (r : EReal) ∧ b = (r : EReal) := by
    intro a b ha hb he
    subst he
    obtain ⟨r, rfl⟩ := fin_of ha hb
    exact ⟨r, rfl, rfl⟩
  have hkind := want_kind hk hi hne
  have heq := want_isEq hf hk hi
  by_cases him : i < pb.m
  · cases hs : want o pb as i with
    | inactive => exact absurd hs hne
    | equality =>
      rw [hs] at heq
      have : pb.bl i = pb.bu i := by
        have h1 : isEqB pb i = true := heq.symm
        simpa [isEqB, him, bEq] using h1
      exact key _ _ (hp.bl i him) (hp.bu i him) this
    | lower =>
      have hnot : infSide o pb i .lower = false := want_infSide hs rfl (by simp)
      refine fin_of (hp.bl i him) ?_
      intro hb
      simp only [infSide, bLt, hb, ofK, decide_eq_false_iff_not] at hnot
      exact hnot (EReal.bot_lt_coe _)
    | upper =>
      have hnot : infSide o pb i .upper = false := want_infSide hs rfl (by simp)
      refine fin_of ?_ (hp.bu i him)
      intro hb
      simp only [infSide, bLt, hb, ofK, decide_eq_false_iff_not] at hnot
      exact hnot (EReal.coe_lt_top _)
    | lowerBound => rw [hs] at hkind; simp [Status.isGeneral, Status.isBound] at hkind; omega
    | upperBound => rw [hs] at hkind; simp [Status.isGeneral, Status.isBound] at hkind; omega
    | fixed => rw [hs] at hkind; simp [Status.isGeneral, Status.isBound] at hkind; omega
  · obtain ⟨hb1, hb2⟩ := hub him
    cases hs : want o pb as i with
    | inactive => exact absurd hs hne
    | fixed =>
      rw [hs] at heq
      have : pb.xl (i - pb.m) = pb.xu (i - pb.m) := by
        have h1 : isEqB pb i = true := heq.symm
        simpa [isEqB, him, bEq] using h1
      exact key _ _ (hp.xl hb1 _ hb2) (hp.xu hb1 _ hb2) this
    | lowerBound =>
      have hnot : infSide o pb i .lowerBound = false := want_infSide hs rfl (by simp)
      refine fin_of (hp.xl hb1 _ hb2) ?_
      intro hb
      simp only [infSide, bLt, ofK, decide_eq_false_iff_not] at hnot
      have hb : pb.xl (i - pb.m) = ⊥ := hb
      rw [hb] at hnot
      exact hnot (EReal.bot_lt_coe _)
    | upperBound =>
      have hnot : infSide o pb i .upperBound = false := want_infSide hs rfl (by simp)
      refine fin_of ?_ (hp.xu hb1 _ hb2)
      intro hb
      simp only [infSide, bLt, ofK, decide_eq_false_iff_not] at hnot
      have hb : pb.xu (i - pb.m) = ⊤ := hb
      rw [hb] at hnot
      exact hnot (EReal.coe_lt_top _)
    | lower => rw [hs] at hkind; simp [Status.isGeneral, Status.isBound] at hkind; omega
    | upper => rw [hs] at hkind; simp [Status.isGeneral, Status.isBound] at hkind; omega
    | equality => rw [hs] at hkind; simp [Status.isGeneral, Status.isBound] at hkind; omega

/-- The initial active set has finite right-hand sides. -/
theorem initA_fin {o : Opts ℝ} {pb : Pb ℝ EReal} {as : List Status} (hp : Proper pb) (hf : NoFalseEq o pb as)
    (hk : WarmOk o pb as) {A0 A : ActiveSet} (h : InitA o pb as A0 A) : ∀ k < A.q, BndFin pb (A.act k) := by
  intro k hkq
  have hkl : k < A.active.length := by rw [← h.wf.q_eq]; exact hkq
  have hmem : A.get k ∈ A.active := by
    rw [ActiveSet.get, List.getD_eq_getElem _ _ hkl]; exact List.getElem_mem hkl
  obtain ⟨m1, m2⟩ := (h.wf.mem _).1 hmem
  rw [h.wf.size, h.nbCstr, h.nbBnd] at m1
  rcases h.status _ m1 with h1 | h1
  · have := want_fin hp hf hk m1 (by rw [← h1]; exact m2)
    rw [← h1] at this
    exact this
  · exact absurd h1.1 m2

/-! ## Specification of the runs considered -/

/-- Specification: the warm start is regular. The gradients of the initial active set are linearly independent; a negative
multiplier left by the initialisation would have been below the threshold `-tiny`; the thresholds of the main loop do not
interfere (see `RegSolve`). With `tiny = 0` the condition `drop` is void. -/
structure RegX (o : Opts ℝ) (pb : Pb ℝ EReal) (as : List Status) (xs : XState ℝ) : Prop where
  tiny : 0 ≤ o.tiny
  indep : ∀ A, processInitial o pb pb.n (usedAs o pb as xs) (xsolveStart o pb as xs).s.A = .ok (.success, A) → ActIndep pb A
  drop : ∀ xs1, xinit o pb (xsolveStart o pb as xs) = .ok (.success, xs1) →
    ∀ k < xs1.s.A.q, (xs1.s.A.statusAt (xs1.s.A.get k)).isEq = false → xs1.s.u k < 0 → xs1.s.u k < -o.tiny
  loop : ∀ xs1, xinit o pb (xsolveStart o pb as xs) = .ok (.success, xs1) →
    RegLoop o pb (o.maxIter - xs1.s.it) xs1.s ⟨0, .inactive⟩ false

/-- What `init_` guarantees before the main loop, in exact arithmetic. -/
structure XReady (o : Opts ℝ) (pb : Pb ℝ EReal) (xs : XState ℝ) : Prop where
  good : XGood pb xs
  inv : LoopInv pb xs.s ⟨0, .inactive⟩ false
  done : ∀ k < xs.s.A.q, (xs.s.A.statusAt (xs.s.A.get k)).isEq = false → -o.tiny ≤ xs.s.u k

theorem xinit_exact {o : Opts ℝ} {pb : Pb ℝ EReal} (hp : Proper pb) {xs : XState ℝ} (h : XDim pb xs) (hwk : WarmOk o pb xs.as)
    (hlen : o.warmStart = true → xs.as = [] ∨ xs.as.length = pb.m + pb.nb) (hf : NoFalseEq o pb xs.as)
    (hi : ∀ A, processInitial o pb pb.n xs.as xs.s.A = .ok (.success, A) → ActIndep pb A)
    {xs1 : XState ℝ} (hx : xinit o pb xs = .ok (.success, xs1)) :
    XReady o pb xs1 ∧ cholOk pb ∧ XAlg pb xs1 ∧
    ∀ e, EqFirst pb e → EqActFirst o pb xs.as e → EqPre e xs1.s.A := by
  obtain ⟨t, xs', e1, e2, e3⟩ := xinit_spec h hwk hlen
  rw [hx] at e1
  cases e1
  rcases e3 with ⟨a, _⟩ | ⟨a, _⟩ | ⟨_, hc, A, hpi, hA, hg, hd, hr⟩
  · cases a
  · cases a
  have halg := xstart_alg hg hc (hi A hpi)
  have hfin := initA_fin hp hf hwk hA
  obtain ⟨xs2, g1, _, g3, g4⟩ := dropLoop_spec (o := o) (pb := pb)
    (P := fun xs => XAlg pb xs ∧ ∀ k < xs.s.A.q, BndFin pb (xs.s.A.act k)) (by
      intro xs l hxg ⟨ha, hb⟩ hdp
      obtain ⟨hl, _⟩ := dropPos_some hdp
      refine ⟨dropAt_alg hxg ha hl, ?_⟩
      intro k hk
      have hA' : (initPoints pb (dropAt o xs l)).s.A = xs.s.A.deactivate l := rfl
      rw [hA'] at hk ⊢
      have hp' : xs.s.A.deactivatePre l = true := by
        rw [hxg.good.dim.wf.q_eq] at hl; simpa [ActiveSet.deactivatePre] using hl
      rw [hxg.good.dim.wf.q_deactivate hp'] at hk
      rw [act_deactivate hxg.good.dim.wf hl k hk]
      exact hb _ (by split_ifs <;> omega)) A.q hg ⟨halg, hfin⟩ (le_refl A.q)
  rw [hd] at g1
  cases g1
  refine ⟨⟨hr.good, ⟨g3.alg.congr (by simp), by simp, g4, by simp⟩, ?_⟩, hc, g3, ?_⟩
  · intro k hk hs
    have := hr.done k hk hs
    simpa [ltb] using this
  · intro e he ho
    have hp0 : EqPre e (xstart o pb xs A).s.A :=
      processInitial_eqPre he hf hwk ho h.dim.wf h.dim.nbCstr h.dim.nbBnd hpi
    obtain ⟨xs3, g1, _, g5⟩ := dropLoop_spec (o := o) (pb := pb) (P := fun xs => EqPre e xs.s.A) (by
      intro xs l hxg hb hdp
      obtain ⟨hl, hs⟩ := dropPos_some hdp
      refine hb.deactivate hxg.good.dim.wf hl ?_
      by_contra hc
      have := (hb.act hxg.good.dim.wf hl).2 (by omega)
      simp only [ActiveSet.act] at this
      rw [hs] at this
      cases this) A.q hg hp0 (le_refl A.q)
    rw [hd] at g1
    cases g1
    exact g5

/-- Decomposition of a call with a status other than `OVERCONSTRAINED_PROBLEM` and `NON_POS_HESSIAN`. -/
theorem xsolve_run {o : Opts ℝ} {pb : Pb ℝ EReal} {as : List Status} {xs : XState ℝ} (h : XInv xs) (ha : ArgOk o pb as)
    {t xs'} (hs : xsolve o pb as xs = .ok (t, xs')) (h1 : t ≠ .overconstrainedProblem) (h2 : t ≠ .nonPosHessian) :
    ∃ xs1, xinit o pb (xsolveStart o pb as xs) = .ok (.success, xs1) ∧
      loop o pb (o.maxIter - xs1.s.it) xs1.s ⟨0, .inactive⟩ false = .ok (t, xs'.s) ∧ xs' = { xs1 with s := xs'.s } := by
  have hd : XDim pb (xsolveStart o pb as xs) := xsolveStart_dim h
  obtain ⟨t1, xs1, e1, e2, e3⟩ := xinit_spec hd (usedAs_warmOk h ha.kind) (usedAs_len h ha.len)
  have eq := xsolve_eq (xs := xs) ⟨ha.len, ha.opt⟩
  rw [e1, hs] at eq
  simp only [] at eq
  have hnot : ∀ t2, t2 = .overconstrainedProblem ∨ t2 = .nonPosHessian → t1 = t2 → False := by
    intro t2 ht2 he
    subst he
    have hne : t1 ≠ .success := by rcases ht2 with rfl | rfl <;> simp
    rw [if_pos hne] at eq
    cases htm : terminate o t1 xs1.s with
    | error e => rw [htm] at eq; cases eq
    | ok p =>
      obtain ⟨t3, s3⟩ := p
      rw [htm] at eq
      obtain ⟨b1, b2⟩ := terminate_eq htm
      subst b1
      cases eq
      rcases ht2 with rfl | rfl
      · exact h1 rfl
      · exact h2 rfl
  rcases e3 with ⟨a, _⟩ | ⟨a, _⟩ | ⟨a, _⟩
  · exact (hnot _ (Or.inl rfl) a).elim
  · exact (hnot _ (Or.inr rfl) a).elim
  subst a
  rw [if_neg (by simp)] at eq
  refine ⟨xs1, e1, ?_⟩
  cases hl : loop o pb (o.maxIter - xs1.s.it) xs1.s ⟨0, .inactive⟩ false with
  | error e => rw [hl] at eq; cases eq
  | ok p =>
    obtain ⟨t3, s3⟩ := p
    rw [hl] at eq
    simp only [] at eq
    cases htm : terminate o t3 s3 with
    | error e => rw [htm] at eq; cases eq
    | ok p =>
      obtain ⟨t4, s4⟩ := p
      rw [htm] at eq
      obtain ⟨b1, b2⟩ := terminate_eq htm
      subst b1 b2
      cases eq
      exact ⟨rfl, rfl⟩

/-! ## Property theorems -/

section generic
variable {K B : Type} [Zero K] [One K] [Add K] [Sub K] [Neg K] [Mul K] [Div K] [NumOps K B] [SumOps K]

theorem countP_isEqB (pb : Pb K B) : (List.range (pb.m + pb.nb)).countP (isEqB pb) = numEq pb := by
  rw [List.range_add, List.countP_append, numEq]
  congr 1
  · apply List.countP_congr
    intro i hi
    simp [isEqB, List.mem_range.1 hi]
  · rw [List.countP_map]
    apply List.countP_congr
    intro i _
    simp [isEqB]

theorem numWant_isEq {o : Opts K} {pb : Pb K B} {as : List Status} (hf : NoFalseEq o pb as) (hk : WarmOk o pb as) :
    numWant o pb as (·.isEq) = numEq pb := by
  rw [← countP_isEqB, numWant]
  apply List.countP_congr
  intro i hi
  rw [want_isEq hf hk (List.mem_range.1 hi)]

/-- **C21 (partial), overconstrained problems.** With any arithmetic, for every state of the solver reached by legal
calls and every legal warm start that does not mark a non-equality constraint as `EQUALITY`: a release build returns
`OVERCONSTRAINED_PROBLEM` exactly when there are more equality constraints and fixed variables than variables.
Missing: warm starts with a wrong `EQUALITY`, for which it is false (`C21_spurious_overconstrained`); debug builds, which
stop on an assert instead (`C21_debug_assert`). -/
theorem C21_overconstrained_iff_partial {o : Opts K} {pb : Pb K B} {as : List Status} {xs : XState K} (h : XInv xs)
    (ha : ArgOk o pb as) (hf : NoFalseEq o pb (usedAs o pb as xs)) (hd : o.dbg = false) :
    (∃ xs', xsolve o pb as xs = .ok (.overconstrainedProblem, xs')) ↔ pb.n < numEq pb := by
  have hN := numWant_isEq hf (usedAs_warmOk h ha.kind)
  rw [← hN]
  constructor
  · rintro ⟨xs', hx⟩
    by_contra hle
    have heq := xsolve_eq (xs := xs) ⟨ha.len, ha.opt⟩
    rcases xsolve_cases h ha with ⟨h1, _⟩ | ⟨_, _, xs1, _, h2⟩ | ⟨_, A, xs1, _, _, _, _, h3⟩
    · exact hle h1
    · rw [hx] at h2; cases h2
    · rw [hx] at h3
      cases hl : loop o pb (o.maxIter - xs1.s.it) xs1.s ⟨0, .inactive⟩ false with
      | error e => rw [hl] at h3; cases h3
      | ok p =>
        obtain ⟨t, s⟩ := p
        rw [hl] at h3
        simp only [] at h3
        rcases loop_it _ hl with ⟨rfl, _⟩ | ⟨rfl | rfl, _⟩ <;> simp [terminate] at h3
  · intro hlt
    rcases xsolve_cases h ha with ⟨_, h2 | h2⟩ | ⟨h1, _⟩ | ⟨_, A, _, hA, _⟩
    · rw [hd] at h2; simp at h2
    · obtain ⟨_, xs', _, h3⟩ := h2
      exact ⟨xs', h3⟩
    · omega
    · have := hA.eqs; omega

/-- A debug build fails on the assert of `DualSolver::terminate` for each overconstrained problem. -/
theorem C21_debug_assert {o : Opts K} {pb : Pb K B} {as : List Status} {xs : XState K} (h : XInv xs)
    (ha : ArgOk o pb as) (hf : NoFalseEq o pb (usedAs o pb as xs)) (hd : o.dbg = true) (hn : pb.n < numEq pb) :
    xsolve o pb as xs = .error .assertFailed := by
  rw [← numWant_isEq hf (usedAs_warmOk h ha.kind)] at hn
  rcases xsolve_cases h ha with ⟨_, h2 | h2⟩ | ⟨h1, _⟩ | ⟨_, A, _, hA, _⟩
  · exact h2.2
  · rw [hd] at h2; simp at h2
  · omega
  · have := hA.eqs; omega

/-- **C21, initial active set.** With any arithmetic, for every legal warm start: when the problem is not overconstrained,
the active set from which the points are computed contains each equality constraint and fixed variable as such, has at
most `nbVar` elements, and any other element has the status given by the warm start, on a finite side. -/
theorem C21_initial_active_set {o : Opts K} {pb : Pb K B} {as : List Status} (h : WarmOk o pb as) {A0 A : ActiveSet}
    (hw : A0.WF) (hm : A0.nbCstr = pb.m) (hnb : A0.nbBnd = pb.nb)
    (hA : processInitial o pb pb.n as A0 = .ok (.success, A)) :
    A.WF ∧ A.nbCstr = pb.m ∧ A.nbBnd = pb.nb ∧
    (∀ i < pb.m, bEq K (pb.bl i) (pb.bu i) = true → A.statusAt i = .equality) ∧
    (∀ i < pb.nb, bEq K (pb.xl i) (pb.xu i) = true → A.statusAt (pb.m + i) = .fixed) ∧
    A.nbActiveCstr ≤ pb.n ∧
    (∀ i < pb.m + pb.nb, isEqB pb i = false → A.statusAt i ≠ .inactive →
      o.warmStart = true ∧ A.statusAt i = as.getD i .inactive ∧ infSide o pb i (A.statusAt i) = false) ∧
    (((List.range (pb.m + pb.nb)).countP fun i => want o pb as i != .inactive) ≤ pb.n →
      ∀ i < pb.m + pb.nb, A.statusAt i = want o pb as i) := by
  obtain ⟨t, A', e1, e2, e3, e4, e5⟩ := processInitial_spec h pb.n hw hm hnb
  rw [hA] at e1
  cases e1
  rcases e5 with ⟨a, _⟩ | ⟨_, f1, f2, f3, f4⟩
  · cases a
  have heq : ∀ i < pb.m + pb.nb, isEqB pb i = true → A.statusAt i = if i < pb.m then .equality else .fixed := by
    intro i hi hb
    have hwi : want o pb as i = if i < pb.m then .equality else .fixed := by
      unfold want
      have : isEqC pb i = true := hb
      rw [if_pos this]
    rcases f3 i hi with h1 | ⟨_, h1⟩
    · rw [h1, hwi]
    · rw [hwi] at h1; split_ifs at h1 <;> simp [Status.isEq] at h1
  refine ⟨e2, e3, e4, ?_, ?_, ?_, ?_, fun hle => (f4 hle).2⟩
  · intro i hi hb
    rw [heq i (by omega) (by simp [isEqB, hi, hb]), if_pos hi]
  · intro i hi hb
    rw [heq (pb.m + i) (by omega) (by simp [isEqB, hb]), if_neg (by omega)]
  · have : A.q ≤ pb.n := by rw [f2]; exact Nat.min_le_right _ _
    unfold ActiveSet.q at this
    omega
  · intro i hi hb hne
    rcases f3 i hi with h1 | ⟨h1, _⟩
    · rw [h1] at hne ⊢
      unfold want at hne ⊢
      have : ¬ isEqC pb i = true := by
        have : isEqC pb i = isEqB pb i := rfl
        rw [this, hb]; simp
      rw [if_neg this] at hne ⊢
      by_cases hws : o.warmStart = true
      · rw [if_pos hws] at hne ⊢
        by_cases hc : as.getD i .inactive = .fixed ∨ infSide o pb i (as.getD i .inactive) = true
        · rw [if_pos hc] at hne; exact absurd rfl hne
        · rw [if_neg hc]
          push Not at hc
          exact ⟨hws, rfl, by simpa using hc.2⟩
      · rw [if_neg hws] at hne; exact absurd rfl hne
    · exact absurd h1 hne

/-- **C23.** With any arithmetic, for every legal call: when the initialisation succeeds it has removed `k` constraints,
at most as many as were initially active, counting one iteration each; equality constraints and fixed variables are never
removed, no constraint changes side; and no remaining multiplier of an inequality compares below `-1e-14`. -/
theorem C23_initialisation_drops {o : Opts K} {pb : Pb K B} {as : List Status} {xs : XState K} (h : XInv xs)
    (ha : ArgOk o pb as) {xs1 : XState K} (hx : xinit o pb (xsolveStart o pb as xs) = .ok (.success, xs1)) :
    ∃ A k, processInitial o pb pb.n (usedAs o pb as xs) (xsolveStart o pb as xs).s.A = .ok (.success, A) ∧
      A.q = xs1.s.A.q + k ∧ xs1.s.it = k ∧
      (∀ i, xs1.s.A.statusAt i = A.statusAt i ∨ (xs1.s.A.statusAt i = .inactive ∧ (A.statusAt i).isEq = false)) ∧
      ∀ j < xs1.s.A.q, (xs1.s.A.statusAt (xs1.s.A.get j)).isEq = false → ltb (xs1.s.u j) (-o.tiny) = false := by
  obtain ⟨t, xs', e1, _, e3⟩ := xinit_spec (xsolveStart_dim (as := as) (o := o) (pb := pb) h) (usedAs_warmOk h ha.kind) (usedAs_len h ha.len)
  rw [hx] at e1
  cases e1
  rcases e3 with ⟨a, _⟩ | ⟨a, _⟩ | ⟨_, _, A, hpi, _, _, _, hr⟩
  · cases a
  · cases a
  refine ⟨A, A.q - xs1.s.A.q, hpi, ?_, ?_, hr.status, hr.done⟩
  · have := hr.q
    have h2 : (xstart o pb (xsolveStart o pb as xs) A).s.A.q = A.q := rfl
    omega
  · have h1 := hr.it
    have h2 : (xstart o pb (xsolveStart o pb as xs) A).s.A.q = A.q := rfl
    have h3 : (xstart o pb (xsolveStart o pb as xs) A).s.it = 0 := rfl
    have := hr.q
    omega

end generic

/-- **C22.** In exact arithmetic, for every legal call on a problem with a positive definite Hessian: if the gradients of
the initial active set are linearly independent, then the starting point is the unique minimiser of the objective on the
manifold of the active constraints, the multipliers satisfy stationarity, the objective value is the one at the point. -/
theorem C22_initial_pair {o : Opts ℝ} {pb : Pb ℝ EReal} {as : List Status} {xs : XState ℝ} (h : XInv xs)
    (ha : ArgOk o pb as) (hc : cholOk pb) {A : ActiveSet}
    (hA : processInitial o pb pb.n (usedAs o pb as xs) (xsolveStart o pb as xs).s.A = .ok (.success, A))
    (hi : ActIndep pb A) :
    let s := (xstart o pb (xsolveStart o pb as xs) A).s
    s.A = A ∧ UniqueMinOn pb A s.x ∧ s.f = obj pb s.x ∧
    ∀ a < pb.n, ∑ b ∈ range pb.n, hess pb a b * s.x b + pb.a a = ∑ k ∈ range A.q, s.u k * normal pb (A.act k) a := by
  have hd := xsolveStart_dim (as := as) (o := o) (pb := pb) h
  obtain ⟨t, xs', e1, e2, e3⟩ := xinit_spec hd (usedAs_warmOk h ha.kind) (usedAs_len h ha.len)
  have hg : XGood pb (xstart o pb (xsolveStart o pb as xs) A) := by
    obtain ⟨t', A', g1, g2, g3, g4, g5⟩ := processInitial_spec (usedAs_warmOk h ha.kind) pb.n hd.dim.wf hd.dim.nbCstr hd.dim.nbBnd
    rw [hA] at g1
    cases g1
    rcases g5 with ⟨a, _⟩ | ⟨_, f1, f2, _⟩
    · cases a
    rcases e3 with ⟨_, a⟩ | ⟨_, _, a⟩ | ⟨_, _, A', hpi, _, hg, _, _⟩
    · have hlt : pb.n < numWant o pb (usedAs o pb as xs) (·.isEq) := a
      exact absurd f1 (not_le.2 hlt)
    · exact absurd hc a
    · have hpi' : processInitial o pb pb.n (usedAs o pb as xs) (xsolveStart o pb as xs).s.A = .ok (.success, A') := hpi
      rw [hA] at hpi'
      cases hpi'
      exact hg
  have halg := (xstart_alg hg hc hi).alg
  refine ⟨rfl, halg.uniqueMin (posDef_of_chol hc), halg.f, fun a ha => ?_⟩
  have := halg.stat a ha
  rw [add_zero] at this
  exact this

/-- **C22, after the removals.** The same holds for the state from which the main loop starts, with the remaining active
constraints. -/
theorem C22_final_pair {o : Opts ℝ} {pb : Pb ℝ EReal} (hp : Proper pb) {as : List Status} {xs : XState ℝ} (h : XInv xs)
    (ha : ArgOk o pb as) (hf : NoFalseEq o pb (usedAs o pb as xs))
    (hi : ∀ A, processInitial o pb pb.n (usedAs o pb as xs) (xsolveStart o pb as xs).s.A = .ok (.success, A) → ActIndep pb A)
    {xs1 : XState ℝ} (hx : xinit o pb (xsolveStart o pb as xs) = .ok (.success, xs1)) :
    UniqueMinOn pb xs1.s.A xs1.s.x ∧ xs1.s.f = obj pb xs1.s.x ∧
    ∀ a < pb.n, ∑ b ∈ range pb.n, hess pb a b * xs1.s.x b + pb.a a
      = ∑ k ∈ range xs1.s.A.q, xs1.s.u k * normal pb (xs1.s.A.act k) a := by
  obtain ⟨_, hc, h1, _⟩ := xinit_exact hp (xsolveStart_dim h) (usedAs_warmOk h ha.kind) (usedAs_len h ha.len) hf hi hx
  refine ⟨h1.alg.uniqueMin (posDef_of_chol hc), h1.alg.f, fun a ha => ?_⟩
  have := h1.alg.stat a ha
  rw [add_zero] at this
  exact this

/-- All outcomes of the warm-started solver. -/
theorem xsolve_finalDual {o : Opts ℝ} {pb : Pb ℝ EReal} (hp : Proper pb) (hx : NotCrossed pb) {as : List Status}
    {xs : XState ℝ} (h : XInv xs) (ha : ArgOk o pb as) (hf : NoFalseEq o pb (usedAs o pb as xs)) {e : Nat}
    (he : EqFirst pb e) (ho : EqActFirst o pb (usedAs o pb as xs) e) (hr : RegX o pb as xs) {t xs'}
    (hs : xsolve o pb as xs = .ok (t, xs')) (h1 : t ≠ .overconstrainedProblem) (h2 : t ≠ .nonPosHessian) :
    cholOk pb ∧ FinalDual pb e t xs'.s := by
  obtain ⟨xs1, e1, e2, _⟩ := xsolve_run h ha hs h1 h2
  obtain ⟨g1, g2, _, g3⟩ := xinit_exact hp (xsolveStart_dim h) (usedAs_warmOk h ha.kind) (usedAs_len h ha.len) hf hr.indep e1
  have hpre := g3 e he ho
  have hD : DInv pb e xs1.s ⟨0, .inactive⟩ false := by
    refine ⟨hpre, fun k hk hek => ?_, by simp, by simp⟩
    have hs : (xs1.s.A.statusAt (xs1.s.A.get k)).isEq = false := by
      have := (hpre.act g1.good.good.dim.wf hk).not.2 (by omega)
      simpa [ActiveSet.act] using this
    by_contra hneg
    have h3 := hr.drop xs1 e1 k hk hs (by linarith)
    have h4 := g1.done k hk hs
    linarith
  exact ⟨g2, (loop_finalDual hp hx hr.tiny g1.inv hD (hr.loop xs1 e1) e2).1⟩

/-- **C24 (partial).** In exact arithmetic, for every legal warm-start vector that does not mark a non-equality as
`EQUALITY`, with equalities first: `SUCCESS` means that the solution is the unique global minimiser, as without warm start.
Missing: a wrong `EQUALITY` in the warm start (false, `C24_false_equality`), equalities after inequalities or after active
bounds (as for C07), dependent gradients in the initial active set, interfering thresholds. -/
theorem C24_success_optimal_partial {o : Opts ℝ} {pb : Pb ℝ EReal} (hp : Proper pb) (hx : NotCrossed pb) {as : List Status}
    {xs : XState ℝ} (h : XInv xs) (ha : ArgOk o pb as) (hf : NoFalseEq o pb (usedAs o pb as xs)) {e : Nat}
    (he : EqFirst pb e) (ho : EqActFirst o pb (usedAs o pb as xs) e) (hr : RegX o pb as xs) {xs'}
    (hs : xsolve o pb as xs = .ok (.success, xs')) : IsUniqueOptimal pb xs'.s.x := by
  obtain ⟨hc, hfin⟩ := xsolve_finalDual hp hx h ha hf he ho hr hs (by simp) (by simp)
  rcases hfin with ⟨_, h1, h2, h3⟩ | ⟨h1, _⟩ | ⟨h1, _⟩
  · exact success_optimal hx (posDef_of_chol hc) h1 h3 h2
  · cases h1
  · cases h1

/-- **C24 (partial), infeasible problems.** Under the same hypotheses `INFEASIBLE` means that no point is feasible. -/
theorem C24_infeasible_partial {o : Opts ℝ} {pb : Pb ℝ EReal} (hp : Proper pb) (hx : NotCrossed pb) {as : List Status}
    {xs : XState ℝ} (h : XInv xs) (ha : ArgOk o pb as) (hf : NoFalseEq o pb (usedAs o pb as xs)) {e : Nat}
    (he : EqFirst pb e) (ho : EqActFirst o pb (usedAs o pb as xs) e) (hr : RegX o pb as xs) {xs'}
    (hs : xsolve o pb as xs = .ok (.infeasible, xs')) : ¬ ∃ y, Feasible pb y := by
  obtain ⟨hc, hfin⟩ := xsolve_finalDual hp hx h ha hf he ho hr hs (by simp) (by simp)
  rcases hfin with ⟨h1, _⟩ | ⟨_, h1, _⟩ | ⟨h1, _⟩
  · cases h1
  · exact h1
  · cases h1

/-- **C24 (partial), feasibility.** Whatever the order of the constraints, `SUCCESS` means that the solution is feasible. -/
theorem C24_success_feasible_partial {o : Opts ℝ} {pb : Pb ℝ EReal} (hp : Proper pb) (hx : NotCrossed pb) {as : List Status}
    {xs : XState ℝ} (h : XInv xs) (ha : ArgOk o pb as) (hf : NoFalseEq o pb (usedAs o pb as xs)) (hr : RegX o pb as xs) {xs'}
    (hs : xsolve o pb as xs = .ok (.success, xs')) : Feasible pb xs'.s.x := by
  obtain ⟨xs1, e1, e2, _⟩ := xsolve_run h ha hs (by simp) (by simp)
  obtain ⟨g1, g2, _, g3⟩ := xinit_exact hp (xsolveStart_dim h) (usedAs_warmOk h ha.kind) (usedAs_len h ha.len) hf hr.indep e1
  rcases loop_final hp hx hr.tiny g1.inv (hr.loop xs1 e1) e2 with ⟨_, h1, h2⟩ | ⟨h1, _⟩ | ⟨h1, _⟩
  · exact select_none_feasible hx h1.alg h1.fin h2
  · cases h1
  · cases h1

end JrlQp
