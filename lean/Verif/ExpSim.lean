import Verif.ExpSafe
import Verif.PropsSim

/-!
# What the result of the warm-started solver depends on (any arithmetic)

Two runs of the experimental solver on the same problem, from two states of the solver, with the same wanted initial
active set: they agree on all the live entries of the data.
-/

namespace JrlQp

open NumOps

variable {K B : Type} [Zero K] [One K] [Add K] [Sub K] [Neg K] [Mul K] [Div K] [NumOps K B] [SumOps K]

theorem activateBy_congr' {st st' : Nat → Except Fault Status} (l : List Nat) (h : ∀ i ∈ l, st i = st' i) :
    ∀ A, activateBy st l A = activateBy st' l A := by
  induction l with
  | nil => intro A; rfl
  | cons i l ih =>
    intro A
    have ih := ih fun j hj => h j (List.mem_cons_of_mem _ hj)
    unfold activateBy
    rw [h i List.mem_cons_self]
    rcases st' i with e | s
    · rfl
    · cases s <;> simp only [] <;> simp only [ih]

theorem activateBy_nbCstr (st : Nat → Except Fault Status) (l : List Nat) : ∀ (A A' : ActiveSet),
    activateBy st l A = .ok A' → A'.nbCstr = A.nbCstr := by
  induction l with
  | nil => intro A A' h; cases h; rfl
  | cons i l ih =>
    intro A A' h
    unfold activateBy at h
    rcases hs : st i with e | s
    · rw [hs] at h; cases h
    · rw [hs] at h
      cases s <;> simp only [] at h <;> (try split_ifs at h) <;> have := ih _ _ h <;>
        simpa [ActiveSet.activate_nbCstr] using this

/-- The initial active set only depends on the wanted statuses. -/
theorem processInitial_want {o o' : Opts K} {pb : Pb K B} {as as' : List Status} (hk : WarmOk o pb as) (hk' : WarmOk o' pb as')
    (h : ∀ i < pb.m + pb.nb, want o' pb as' i = want o pb as i) (n : Nat) {A A' : ActiveSet}
    (hm : A.nbCstr = pb.m) (hnb : A.nbBnd = pb.nb) (hr : A'.reset = A.reset) :
    processInitial o' pb n as' A' = processInitial o pb n as A := by
  have hrm : A.reset.nbCstr = pb.m := hm
  have hrb : A.reset.nbBnd = pb.nb := hnb
  have e1 := activateBy_congr' (st := fun p => initBnd o' pb as' A.reset.nbCstr (p - A.reset.nbCstr))
    (st' := fun p => initBnd o pb as A.reset.nbCstr (p - A.reset.nbCstr)) ((List.range A.reset.nbBnd).map (A.reset.nbCstr + ·)) (by
      intro p hp
      obtain ⟨i, hi, rfl⟩ := List.mem_map.1 hp
      have hi := List.mem_range.1 hi
      rw [hrb] at hi
      simp only [hrm, Nat.add_sub_cancel_left]
      rw [(initBnd_eq hk hi).1, (initBnd_eq hk' hi).1, h _ (by omega)])
  unfold processInitial
  simp only []
  rw [hr, e1]
  cases hA1 : activateBy (fun p => initBnd o pb as A.reset.nbCstr (p - A.reset.nbCstr)) ((List.range A.reset.nbBnd).map (A.reset.nbCstr + ·)) A.reset with
  | error e => rfl
  | ok A1 =>
    simp only []
    have hm1 : A1.nbCstr = pb.m := by rw [activateBy_nbCstr _ _ _ _ hA1]; exact hm
    rw [activateBy_congr' (st := initGen o' pb as') (st' := initGen o pb as) (List.range A1.nbCstr) (by
      intro i hi
      have hi := List.mem_range.1 hi
      rw [hm1] at hi
      rw [(initGen_eq hk hi).1, (initGen_eq hk' hi).1, h _ (by omega)])]

/-- Agreement on what the initial points are computed from. -/
structure PreSim (xs xs' : XState K) : Prop where
  nbVar : xs'.s.nbVar = xs.s.nbVar
  A : xs'.s.A = xs.s.A
  it : xs'.s.it = xs.s.it
  need : xs'.s.needToExpand = xs.s.needToExpand
  J : MEq xs.s.nbVar xs.s.J xs'.s.J
  R : UEq xs.s.A.q xs.s.R xs'.s.R
  bact : VEq xs.s.A.q xs.bact xs'.bact

/-- Agreement on the live entries. -/
structure XSim (xs xs' : XState K) : Prop where
  sim : Sim 0 xs.s xs'.s
  bact : VEq xs.s.A.q xs.bact xs'.bact

theorem initPoints_sim {pb : Pb K B} {xs xs' : XState K} (h : PreSim xs xs') (hq : xs.s.A.q ≤ xs.s.nbVar) :
    XSim (initPoints pb xs) (initPoints pb xs') := by
  have ha : ∀ j < xs.s.nbVar, esum (.init 0 j) (fun a => xs.s.J a j * pb.a a) xs.s.nbVar = esum (.init 0 j) (fun a => xs'.s.J a j * pb.a a) xs.s.nbVar :=
    fun j hj => esum_congr fun a ha => by rw [h.J a ha j hj]
  have hb : VEq xs.s.A.q (fwdSub (fun i j => xs.s.R j i) xs.bact xs.s.A.q) (fwdSub (fun i j => xs'.s.R j i) xs'.bact xs.s.A.q) :=
    fwdSub_congr (fun i hi j hj => h.R i hi j hj) h.bact _ le_rfl
  have hu : VEq xs.s.A.q
      (backSub xs.s.R xs.s.A.q (fun k => esum (.init 0 k) (fun a => xs.s.J a k * pb.a a) xs.s.nbVar + fwdSub (fun i j => xs.s.R j i) xs.bact xs.s.A.q k))
      (backSub xs'.s.R xs.s.A.q (fun k => esum (.init 0 k) (fun a => xs'.s.J a k * pb.a a) xs.s.nbVar + fwdSub (fun i j => xs'.s.R j i) xs'.bact xs.s.A.q k)) :=
    backSub_congr h.R (fun k hk => by rw [ha k (by omega), hb k hk])
  refine ⟨⟨h.nbVar, h.A, h.it, ?_, h.need, ?_, ?_, h.J, h.R⟩, h.bact⟩
  · simp only [initPoints, h.nbVar, h.A]
    congr 1
    · exact esum_congr fun k hk => by rw [hb k hk, ha k (by omega)]
    · congr 1
      exact esum_congr fun k hk => by rw [ha (xs.s.A.q + k) (by omega)]
  · intro i hi
    simp only [initPoints, wr, h.nbVar, h.A] at hi ⊢
    rw [if_pos hi, if_pos hi]
    congr 1
    · exact esum_congr fun k hk => by rw [hb k hk, h.J i hi k (by omega)]
    · exact esum_congr fun k hk => by rw [ha (xs.s.A.q + k) (by omega), h.J i hi _ (by omega)]
  · intro i hi
    simp only [initPoints, wr, h.nbVar, h.A, Nat.add_zero] at hi ⊢
    rw [if_pos hi, if_pos hi]
    exact hu i hi

theorem initData_sim {o o' : Opts K} {pb : Pb K B} {xs xs' : XState K} (hn : xs'.s.nbVar = xs.s.nbVar) (hA : xs'.s.A = xs.s.A)
    (hit : xs'.s.it = xs.s.it) (hneed : xs'.s.needToExpand = xs.s.needToExpand) (hG : xs'.s.G = xs.s.G) (hq : xs.s.A.q ≤ xs.s.nbVar) :
    PreSim (initData o pb xs) (initData o' pb xs') := by
  refine ⟨hn, hA, hit, hneed, ?_, ?_, ?_⟩
  · intro i hi j hj
    simp only [initData, hn, hA, hG] at hi hj ⊢
    rw [if_pos ⟨hi, hj⟩, if_pos ⟨hi, hj⟩]
  · intro j hj i hi
    simp only [initData, hn, hA, hG] at hj ⊢
    have hin : i < xs.s.nbVar := by omega
    have hji : ¬ j < i := by omega
    simp [hin, hj, hji]
  · intro k hk
    simp only [initData, wr, hA] at hk ⊢
    rw [if_pos hk, if_pos hk]

theorem dropAt_sim {o o' : Opts K} {xs xs' : XState K} {l : Nat} (h : XSim xs xs') (hw : xs.s.A.WF) (hl : l < xs.s.A.q)
    (hq : xs.s.A.q ≤ xs.s.nbVar) : PreSim (dropAt o xs l) (dropAt o' xs' l) := by
  have hp : xs.s.A.deactivatePre l = true := by
    rw [hw.q_eq] at hl; simpa [ActiveSet.deactivatePre] using hl
  have hqd := hw.q_deactivate hp
  obtain ⟨h1, h2⟩ := remRots_congr (b := o.dbg) (b' := o'.dbg) (n := xs.s.nbVar) (q := xs.s.A.q - 1) (l := l)
    (R := xs.s.R) (R' := xs'.s.R) (J := xs.s.J) (J' := xs'.s.J)
    (fun c hc _ r hr => h.sim.R c (by omega) r hr) h.sim.J (by omega) (xs.s.A.q - 1 - l) (by omega)
  refine ⟨h.sim.nbVar, ?_, ?_, h.sim.need, ?_, ?_, ?_⟩
  · simp only [dropAt, h.sim.A]
  · simp only [dropAt, h.sim.it]
  · simp only [dropAt, h.sim.A, h.sim.nbVar, hqd]
    exact h2
  · intro j hj i hi
    simp only [dropAt, hqd, h.sim.A, h.sim.nbVar] at hj ⊢
    exact h1 j (by omega) (by omega) i hi
  · intro j hj
    simp only [dropAt, hqd, h.sim.A] at hj ⊢
    split_ifs
    · exact h.bact _ (by omega)
    · exact h.bact _ (by omega)

theorem dropPos_sim {o o' : Opts K} (ho : o'.tiny = o.tiny) {xs xs' : XState K} (h : XSim xs xs') :
    dropPos o' xs' = dropPos o xs := by
  unfold dropPos
  rw [h.sim.A, ho]
  congr 1
  apply foldl_congr'
  intro k hk a
  unfold minMult
  rw [h.sim.u k (by have := List.mem_range.1 hk; omega)]

theorem dropLoop_sim {o o' : Opts K} (ho : o'.tiny = o.tiny) {pb : Pb K B} (fuel : Nat) : ∀ {xs xs' xs1 xs1' : XState K},
    XSim xs xs' → XGood pb xs → dropLoop o pb fuel xs = .ok xs1 → dropLoop o' pb fuel xs' = .ok xs1' → XSim xs1 xs1' := by
  induction fuel with
  | zero =>
    intro xs xs' xs1 xs1' h _ h1 h2
    unfold dropLoop at h1 h2
    split_ifs at h1 h2
    cases h1; cases h2
    exact h
  | succ fuel ih =>
    intro xs xs' xs1 xs1' h hg h1 h2
    unfold dropLoop at h1 h2
    rw [dropPos_sim ho h] at h2
    cases hd : dropPos o xs with
    | none =>
      rw [hd] at h1 h2
      cases h1; cases h2
      exact h
    | some l =>
      rw [hd] at h1 h2
      simp only [] at h1 h2
      obtain ⟨hl, _⟩ := dropPos_some hd
      split_ifs at h1 h2
      obtain ⟨g1, _⟩ := dropAt_good (o := o) hg hl
      exact ih (initPoints_sim (dropAt_sim h hg.good.dim.wf hl hg.good.q_le) g1.good.q_le) (initPoints_xgood g1) h1 h2

/-! ## `solve` -/

/-- Observables of the experimental solver. After `OVERCONSTRAINED_PROBLEM` and `NON_POS_HESSIAN` there is no solution, and
no multipliers (the entries of the buffers are those of an earlier call). -/
structure XObs (K : Type) where
  status : Term
  iterations : Nat
  activeSet : List Status
  multipliers : Option (List K)
  solution : Option (List K)
  objective : Option K

/-- See `XObs`. -/
def xobs (n : Nat) (r : Term × XState K) : XObs K :=
  let b := r.1 = .nonPosHessian ∨ r.1 = .overconstrainedProblem
  { status := r.1
    iterations := r.2.s.it
    activeSet := r.2.s.A.status
    multipliers := if b then none else some ((List.range r.2.s.A.nbAll).map (multipliers r.2.s).u)
    solution := if b then none else some ((List.range n).map r.2.s.x)
    objective := if b then none else some r.2.s.f }

theorem reset_eq {pb : Pb K B} {s s' : State K} (hd : Dim pb s) (hd' : Dim pb s') : s'.A.reset = s.A.reset := by
  have a1 := hd.nbCstr; have a2 := hd.nbBnd; have a3 := hd.wf.size
  have b1 := hd'.nbCstr; have b2 := hd'.nbBnd; have b3 := hd'.wf.size
  have e1 : s'.A.nbCstr = s.A.nbCstr := by rw [a1, b1]
  have e2 : s'.A.nbBnd = s.A.nbBnd := by rw [a2, b2]
  have e3 : s'.A.status.length = s.A.status.length := by rw [a3, b3, e1, e2]
  simp only [ActiveSet.reset, e1, e2, e3]

/-- Two calls of the experimental solver with the same problem and the same wanted statuses. -/
theorem xsolve_sim {o o' : Opts K} (ho : OEq o o') (law : FpLaws K o) (law' : FpLaws K o') {pb : Pb K B}
    {as as' : List Status} {xs xs' : XState K} (h : XInv xs) (h' : XInv xs') (ha : ArgOk o pb as) (ha' : ArgOk o' pb as')
    (hwant : ∀ i < pb.m + pb.nb, want o' pb (usedAs o' pb as' xs') i = want o pb (usedAs o pb as xs) i)
    {r r'} (hr : xsolve o pb as xs = .ok r) (hr' : xsolve o' pb as' xs' = .ok r') : xobs pb.n r = xobs pb.n r' := by
  have hd := xsolveStart_dim (as := as) (o := o) (pb := pb) h
  have hd' := xsolveStart_dim (as := as') (o := o') (pb := pb) h'
  have hk := usedAs_warmOk h ha.kind
  have hk' := usedAs_warmOk h' ha'.kind
  have hpi : processInitial o' pb pb.n (usedAs o' pb as' xs') (xsolveStart o' pb as' xs').s.A
      = processInitial o pb pb.n (usedAs o pb as xs) (xsolveStart o pb as xs).s.A :=
    processInitial_want hk hk' hwant _ hd.dim.nbCstr hd.dim.nbBnd (reset_eq hd.dim hd'.dim)
  obtain ⟨t0, A0, p1, _, _, _, _⟩ := processInitial_spec hk pb.n hd.dim.wf hd.dim.nbCstr hd.dim.nbBnd
  have hnw : ∀ P, numWant o' pb (usedAs o' pb as' xs') P = numWant o pb (usedAs o pb as xs) P := by
    intro P
    unfold numWant
    apply List.countP_congr
    intro i hi
    rw [hwant i (List.mem_range.1 hi)]
  obtain ⟨t1, xs1, e1, e2, e3⟩ := xinit_spec hd hk (usedAs_len h ha.len)
  obtain ⟨t1', xs1', e1', e2', e3'⟩ := xinit_spec hd' hk' (usedAs_len h' ha'.len)
  have eq := xsolve_eq (xs := xs) ⟨ha.len, ha.opt⟩
  have eq' := xsolve_eq (xs := xs') ⟨ha'.len, ha'.opt⟩
  rw [e1, hr] at eq
  rw [e1', hr'] at eq'
  simp only [] at eq eq'
  -- the active set and the number of iterations after a failed initialisation
  have hfail : ∀ (o : Opts K) (as : List Status) (xs : XState K), XInv xs → ArgOk o pb as → ∀ t xs1 A t2,
      processInitial o pb pb.n (usedAs o pb as xs) (xsolveStart o pb as xs).s.A = .ok (t2, A) →
      xinit o pb (xsolveStart o pb as xs) = .ok (t, xs1) → t ≠ .success → xs1.s.A = A ∧ xs1.s.it = 0 := by
    intro o as xs h ha t xs1 A t2 hp hx ht
    have hd := xsolveStart_dim (as := as) (o := o) (pb := pb) h
    unfold xinit at hx
    simp only [] at hx
    split at hx
    swap
    · cases hx
    simp only [hd.dim.nbVar] at hx
    have hp' : processInitial o pb pb.n (xsolveStart o pb as xs).as (xsolveStart o pb as xs).s.A = .ok (t2, A) := hp
    rw [hp'] at hx
    simp only [] at hx
    by_cases hts : t2 = .success
    · rw [if_neg (by simpa using hts)] at hx
      repeat' split at hx
      all_goals first
        | (cases hx; done)
        | (cases hx; exact ⟨rfl, rfl⟩)
        | (cases hx; exact absurd rfl ht)
    · rw [if_pos hts] at hx
      cases hx; exact ⟨rfl, rfl⟩
  have hbad : ∀ (t : Term) (t' : Term), (t = .overconstrainedProblem ∨ t = .nonPosHessian) → t1 = t → t1' = t → xobs pb.n r = xobs pb.n r' := by
    intro t _ ht q1 q2
    subst q1
    subst q2
    have hne : t1' ≠ .success := by rcases ht with ht | ht <;> rw [ht] <;> simp
    obtain ⟨c1, c2⟩ := hfail o as xs h ha _ _ _ _ p1 e1 hne
    obtain ⟨c1', c2'⟩ := hfail o' as' xs' h' ha' _ _ _ _ (hpi.trans p1) e1' hne
    rw [if_pos hne] at eq eq'
    have term : ∀ (o : Opts K) (s : State K) (xs : XState K) (r : Term × XState K), xs.s = s → (Except.ok r : Except Fault (Term × XState K)) =
        (match terminate o t1' s with
          | .error e => .error e
          | .ok (t, s) => .ok (t, { xs with s := s })) → r = (t1', xs) := by
      intro o s xs r hs hh
      subst hs
      rcases ht with ht | ht <;> subst ht <;> simp only [terminate] at hh <;> (try split_ifs at hh) <;> cases hh <;> rfl
    have q1 := term _ _ _ _ rfl eq
    have q2 := term _ _ _ _ rfl eq'
    subst q1
    subst q2
    have hb : t1' = .nonPosHessian ∨ t1' = .overconstrainedProblem := ht.symm
    simp only [xobs, hb, if_true, c1, c1', c2, c2']
  rcases e3 with ⟨a, a2⟩ | ⟨a, a2, a3⟩ | ⟨a, hc, A, hA, hIA, hg, hdl, hDR⟩
  · rcases e3' with ⟨b, _⟩ | ⟨b, b2, _⟩ | ⟨b, _, A', hA', hIA', _⟩
    · exact hbad _ .success (Or.inl rfl) a b
    · have a2' : pb.n < numWant o pb (usedAs o pb as xs) (·.isEq) := a2
      have b2' : numWant o' pb (usedAs o' pb as' xs') (·.isEq) ≤ pb.n := b2
      rw [hnw] at b2'; omega
    · have a2' : pb.n < numWant o pb (usedAs o pb as xs) (·.isEq) := a2
      have b2' : numWant o' pb (usedAs o' pb as' xs') (·.isEq) ≤ pb.n := hIA'.eqs
      rw [hnw] at b2'; omega
  · rcases e3' with ⟨b, b2⟩ | ⟨b, b2, _⟩ | ⟨b, b3, _⟩
    · have a2' : numWant o pb (usedAs o pb as xs) (·.isEq) ≤ pb.n := a2
      have b2' : pb.n < numWant o' pb (usedAs o' pb as' xs') (·.isEq) := b2
      rw [hnw] at b2'; omega
    · exact hbad _ .success (Or.inr rfl) a b
    · exact absurd b3 a3
  · rcases e3' with ⟨b, b2⟩ | ⟨b, b2, b3⟩ | ⟨b, _, A', hA', hIA', hg', hdl', hDR'⟩
    · have a2' : numWant o pb (usedAs o pb as xs) (·.isEq) ≤ pb.n := hIA.eqs
      have b2' : pb.n < numWant o' pb (usedAs o' pb as' xs') (·.isEq) := b2
      rw [hnw] at b2'; omega
    · exact absurd hc b3
    · have hAA : A' = A := by
        have q1 : processInitial o pb pb.n (usedAs o pb as xs) (xsolveStart o pb as xs).s.A = .ok (.success, A) := hA
        have q2 : processInitial o' pb pb.n (usedAs o' pb as' xs') (xsolveStart o' pb as' xs').s.A = .ok (.success, A') := hA'
        rw [hpi, q1] at q2
        cases q2; rfl
      subst hAA
      subst a
      subst b
      rw [if_neg (by simp)] at eq eq'
      have hn : (xsolveStart o' pb as' xs').s.nbVar = (xsolveStart o pb as xs).s.nbVar := by rw [hd.dim.nbVar, hd'.dim.nbVar]
      have hqn : A'.q ≤ (xsolveStart o pb as xs).s.nbVar := by
        rw [hd.dim.nbVar, hIA.q]; exact Nat.min_le_right _ _
      have hs0 : XSim (xstart o pb (xsolveStart o pb as xs) A') (xstart o' pb (xsolveStart o' pb as' xs') A') :=
        initPoints_sim (initData_sim hn rfl rfl rfl rfl hqn) hqn
      have hs1 := dropLoop_sim ho.tiny A'.q hs0 hg hdl hdl'
      have hG1 := hDR.good.good
      have hG1' := hDR'.good.good
      obtain ⟨t, w, l1, l2⟩ := loop_safe law (o.maxIter - xs1.s.it) (sc := ⟨0, .inactive⟩) (skip := false) hG1 (by simp)
      obtain ⟨t', w', l1', l2'⟩ := loop_safe law' (o'.maxIter - xs1'.s.it) (sc := ⟨0, .inactive⟩) (skip := false) hG1' (by simp)
      rw [l1] at eq
      rw [l1'] at eq'
      rw [ho.maxIter, hs1.sim.it] at l1'
      obtain ⟨rfl, hw⟩ := loop_sim ho law law' (o.maxIter - xs1.s.it) (sc := ⟨0, .inactive⟩) (skip := false)
        (by simpa using hs1.sim) hG1 hG1' (by simp) l1 l1'
      have ht : t = .success ∨ t = .infeasible ∨ t = .maxIterReached := by
        rcases loop_it _ l1 with ⟨rfl, _⟩ | ⟨rfl | rfl, _⟩ <;> simp
      have hte : ∀ (o : Opts K) (w : State K), terminate o t w = .ok (t, w) := by
        intro o w; rcases ht with rfl | rfl | rfl <;> rfl
      simp only [hte, Except.ok.injEq] at eq eq'
      subst eq
      subst eq'
      have hnb : ¬ (t = .nonPosHessian ∨ t = .overconstrainedProblem) := by
        rcases ht with rfl | rfl | rfl <;> simp
      have hdn : ∀ (fuel : Nat) {xs xs1 : XState K}, dropLoop o pb fuel xs = .ok xs1 → xs1.s.needToExpand = xs.s.needToExpand := by
        intro fuel
        induction fuel with
        | zero => intro xs xs1 hh; unfold dropLoop at hh; split_ifs at hh; cases hh; rfl
        | succ fuel ih =>
          intro xs xs1 hh
          unfold dropLoop at hh
          cases hdp : dropPos o xs with
          | none => rw [hdp] at hh; cases hh; rfl
          | some l =>
            rw [hdp] at hh
            simp only [] at hh
            split_ifs at hh
            rw [ih hh]; rfl
      have hne : w.needToExpand = true := by rw [loop_need _ l1, hdn _ hdl]; rfl
      have hvar : w.nbVar = pb.n := l2.dim.nbVar
      simp only [xobs, hnb, if_false, hw.A, hw.it, hw.f, XObs.mk.injEq, true_and, and_true, Option.some.injEq]
      constructor
      · apply List.map_congr_left
        intro i _
        exact (multipliers_sim hw hne l2.dim.wf i).symm
      · apply List.map_congr_left
        intro i hi
        exact hw.x i (by rw [hvar]; exact List.mem_range.1 hi)

end JrlQp
