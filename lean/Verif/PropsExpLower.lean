import Verif.PropsExpEx

/-!
# The experimental solver only reads the lower triangle of the Hessian (C70)
-/

namespace JrlQp

open NumOps

section generic
variable {K B : Type} [Zero K] [One K] [Add K] [Sub K] [Neg K] [Mul K] [Div K] [NumOps K B] [SumOps K]

theorem applyHouse_ext {len : Nat} (hl : 0 < len) {ess ess' : Nat → K} {tau tau' : K} {v v' : Nat → K}
    (he : ∀ i < len - 1, ess i = ess' i) (ht : tau = tau') (hv : ∀ i < len, v i = v' i) {i : Nat} (hi : i < len) :
    applyHouse len ess tau v i = applyHouse len ess' tau' v' i := by
  subst ht
  unfold applyHouse
  by_cases h1 : len = 1
  · rw [if_pos h1, if_pos h1]
    have : i = 0 := by omega
    subst this
    simp only [if_true]
    rw [hv 0 hl]
  · rw [if_neg h1, if_neg h1]
    by_cases h2 : eqb tau 0 = true
    · rw [if_pos h2, if_pos h2]; exact hv i hi
    · rw [if_neg h2, if_neg h2]
      have e : esum (.house len) (fun k => ess k * v (k + 1)) (len - 1) = esum (.house len) (fun k => ess' k * v' (k + 1)) (len - 1) :=
        esum_congr fun k hk => by rw [he k hk, hv (k + 1) (by omega)]
      simp only [e, hv 0 hl]
      by_cases h3 : i = 0
      · rw [if_pos h3, if_pos h3]
      · rw [if_neg h3, if_neg h3, if_pos hi, if_pos hi, hv i hi, he (i - 1) (by omega)]

theorem mkHouse_ext {len : Nat} (hl : 0 < len) {v v' : Nat → K} (hv : ∀ i < len, v i = v' i) :
    (mkHouse len v).tau = (mkHouse len v').tau ∧ (mkHouse len v).beta = (mkHouse len v').beta ∧
      ∀ i < len - 1, (mkHouse len v).ess i = (mkHouse len v').ess i := by
  have e : esum (.house len) (fun i => v (i + 1) * v (i + 1)) (len - 1) = esum (.house len) (fun i => v' (i + 1) * v' (i + 1)) (len - 1) :=
    esum_congr fun k hk => by rw [hv (k + 1) (by omega)]
  unfold mkHouse
  simp only [e, hv 0 hl]
  split_ifs
  · exact ⟨rfl, rfl, fun _ _ => rfl⟩
  all_goals exact ⟨rfl, rfl, fun i hi => by simp only []; rw [hv (i + 1) (by omega)]⟩

theorem qr_ext {n q : Nat} (hq : q ≤ n) {M M' : Nat → Nat → K} (h : ∀ i < n, ∀ j < q, M i j = M' i j) :
    ∀ k ≤ q, (∀ i < n, ∀ j < q, (qr n q M k).1 i j = (qr n q M' k).1 i j) ∧ ∀ j < q, (qr n q M k).2 j = (qr n q M' k).2 j := by
  intro k
  induction k with
  | zero => intro _; exact ⟨h, fun _ _ => rfl⟩
  | succ k ih =>
    intro hk
    obtain ⟨h1, h2⟩ := ih (by omega)
    simp only [qr]
    generalize qr n q M k = F at *
    generalize qr n q M' k = F' at *
    obtain ⟨m1, m2, m3⟩ := mkHouse_ext (len := n - k) (by omega) (v := fun i => F.1 (k + i) k) (v' := fun i => F'.1 (k + i) k)
      (fun i hi => h1 _ (by omega) _ (by omega))
    unfold qrStep
    simp only []
    generalize mkHouse (n - k) (fun i => F.1 (k + i) k) = H at *
    generalize mkHouse (n - k) (fun i => F'.1 (k + i) k) = H' at *
    constructor
    · intro i hi j hj
      split_ifs with c1 c2 c3 c4
      · exact m2
      · exact m3 _ (by omega)
      · exact applyHouse_ext (by omega) m3 m1 (fun a ha => h1 _ (by omega) _ hj) (by omega)
      · exact h1 _ hi _ hj
      · exact h1 _ hi _ hj
    · intro j hj
      simp only [upd]
      split_ifs
      · exact m1
      · exact h2 j hj

theorem applyQ_ext {n q : Nat} (hq : q ≤ n) {M M' : Nat → Nat → K} (h : ∀ i < n, ∀ j < q, M i j = M' i j) {tau tau' : Nat → K}
    (ht : ∀ j < q, tau j = tau' j) {J J' : Nat → Nat → K} (hJ : MEq n J J') :
    ∀ k ≤ q, MEq n (applyQ n M tau J k) (applyQ n M' tau' J' k) := by
  intro k
  induction k with
  | zero => intro _; exact hJ
  | succ k ih =>
    intro hk r hr c hc
    have ih := ih (by omega)
    simp only [applyQ]
    split_ifs with c1
    · exact applyHouse_ext (by omega) (fun i hi => h _ (by omega) _ (by omega)) (ht k (by omega))
        (fun i hi => ih r hr _ (by omega)) (by omega)
    · exact ih r hr c hc

/-- `initializeComputationData` only reads the lower triangle of the Cholesky factor. -/
theorem initData_simG {o o' : Opts K} {pb : Pb K B} {xs xs' : XState K} (hn : xs'.s.nbVar = xs.s.nbVar) (hA : xs'.s.A = xs.s.A)
    (hit : xs'.s.it = xs.s.it) (hneed : xs'.s.needToExpand = xs.s.needToExpand) (hG : LEq xs.s.nbVar xs.s.G xs'.s.G)
    (hq : xs.s.A.q ≤ xs.s.nbVar) : PreSim (initData o pb xs) (initData o' pb xs') := by
  have hN : ∀ i < xs.s.nbVar, ∀ j < xs.s.A.q,
      fwdSub xs.s.G (initNormal pb xs.s.A.nbCstr (actSC xs.s.A j)) xs.s.nbVar i
        = fwdSub xs'.s.G (initNormal pb xs.s.A.nbCstr (actSC xs.s.A j)) xs.s.nbVar i :=
    fun i hi j _ => fwdSub_congr hG (fun _ _ => rfl) _ le_rfl i hi
  obtain ⟨q1, q2⟩ := qr_ext hq hN _ le_rfl
  have hJ : MEq xs.s.nbVar (invLt xs.s.nbVar xs.s.G) (invLt xs.s.nbVar xs'.s.G) := by
    have hU : UEq xs.s.nbVar (fun i j => xs.s.G j i) (fun i j => xs'.s.G j i) := fun j hj i hi => hG j hj i hi
    intro i hi j _
    exact backSub_congr hU (fun _ _ => rfl) i hi
  have hQ := applyQ_ext hq q1 q2 hJ _ le_rfl
  refine ⟨hn, hA, hit, hneed, ?_, ?_, ?_⟩
  · intro i hi j hj
    simp only [initData, hn, hA] at hi hj ⊢
    rw [if_pos ⟨hi, hj⟩, if_pos ⟨hi, hj⟩]
    exact hQ i hi j hj
  · intro j hj i hi
    simp only [initData, hn, hA] at hj ⊢
    have hin : i < xs.s.nbVar := by omega
    have hji : ¬ j < i := by omega
    simp only [hin, hj, hji, decide_false, Bool.and_false, Bool.false_eq_true, if_false, and_self, if_true]
    exact q1 i hin j hj
  · intro k hk
    simp only [initData, wr, hA] at hk ⊢
    rw [if_pos hk, if_pos hk]

theorem want_G (o : Opts K) (pb : Pb K B) (G' : Nat → Nat → K) (as : List Status) (i : Nat) :
    want o { pb with G := G' } as i = want o pb as i := rfl

theorem processInitial_G (o : Opts K) (pb : Pb K B) (G' : Nat → Nat → K) (n : Nat) (as : List Status) (A : ActiveSet) :
    processInitial o { pb with G := G' } n as A = processInitial o pb n as A := rfl

theorem dropLoop_G (o : Opts K) (pb : Pb K B) (G' : Nat → Nat → K) (fuel : Nat) : ∀ xs : XState K,
    dropLoop o { pb with G := G' } fuel xs = dropLoop o pb fuel xs := by
  induction fuel with
  | zero => intro xs; rfl
  | succ fuel ih =>
    intro xs
    unfold dropLoop
    cases dropPos o xs with
    | none => rfl
    | some l =>
      simp only []
      rw [ih]
      rfl

theorem xsolve_simG {o o' : Opts K} (ho : OEq o o') (law : FpLaws K o) (law' : FpLaws K o') {pb : Pb K B}
    {G' : Nat → Nat → K} (hG : LEq pb.n pb.G G')
    {as as' : List Status} {xs xs' : XState K} (h : XInv xs) (h' : XInv xs') (ha : ArgOk o pb as) (ha' : ArgOk o' pb as')
    (hwant : ∀ i < pb.m + pb.nb, want o' pb (usedAs o' pb as' xs') i = want o pb (usedAs o pb as xs) i)
    {r r'} (hr : xsolve o pb as xs = .ok r) (hr' : xsolve o' { pb with G := G' } as' xs' = .ok r') : xobs pb.n r = xobs pb.n r' := by
  have hd := xsolveStart_dim (as := as) (o := o) (pb := pb) h
  have hd' : XDim pb (xsolveStart o' pb as' xs') := xsolveStart_dim (as := as') (o := o') (pb := pb) h'
  have hdg : XDim { pb with G := G' } (xsolveStart o' { pb with G := G' } as' xs') := xsolveStart_dim h'
  have hkg : WarmOk o' { pb with G := G' } (usedAs o' { pb with G := G' } as' xs') := by
    have := usedAs_warmOk h' ha'.kind
    exact ⟨this.1, this.2⟩
  have hk := usedAs_warmOk h ha.kind
  have hk' := usedAs_warmOk h' ha'.kind
  have hpi : processInitial o' pb pb.n (usedAs o' pb as' xs') (xsolveStart o' pb as' xs').s.A
      = processInitial o pb pb.n (usedAs o pb as xs) (xsolveStart o pb as xs).s.A :=
    processInitial_want hk hk' hwant _ hd.dim.nbCstr hd.dim.nbBnd (reset_eq hd.dim hd'.dim)
  obtain ⟨t0, A0, p1, _, _, _, _⟩ := processInitial_spec hk pb.n hd.dim.wf hd.dim.nbCstr hd.dim.nbBnd
  have hnw : ∀ P, numWant o' pb (usedAs o' pb as' xs') P = numWant o pb (usedAs o pb as xs) P := by
    intro P
    unfold numWant
    apply List.countP_congr
    intro i hi
    rw [hwant i (List.mem_range.1 hi)]
  obtain ⟨t1, xs1, e1, e2, e3⟩ := xinit_spec hd hk (usedAs_len h ha.len)
  obtain ⟨t1', xs1', e1', e2', e3'⟩ := xinit_spec hdg hkg (usedAs_len h' ha'.len)
  have eq := xsolve_eq (xs := xs) ⟨ha.len, ha.opt⟩
  have eq' := xsolve_eq (o := o') (pb := { pb with G := G' }) (as := as') (xs := xs') ⟨ha'.len, ha'.opt⟩
  rw [e1, hr] at eq
  rw [e1', hr'] at eq'
  simp only [] at eq eq'
  have hck : cholOk pb ↔ cholOk { pb with G := G' } := by
    unfold cholOk
    rw [(chol_congr hG pb.n le_rfl).2]
  -- the active set and the number of iterations after a failed initialisation
  have hfail : ∀ (pb : Pb K B) (o : Opts K) (as : List Status) (xs : XState K), XInv xs → ArgOk o pb as → ∀ t xs1 A t2,
      processInitial o pb pb.n (usedAs o pb as xs) (xsolveStart o pb as xs).s.A = .ok (t2, A) →
      xinit o pb (xsolveStart o pb as xs) = .ok (t, xs1) → t ≠ .success → xs1.s.A = A ∧ xs1.s.it = 0 := by
    intro pb o as xs h ha t xs1 A t2 hp hx ht
    have hd := xsolveStart_dim (as := as) (o := o) (pb := pb) h
    unfold xinit at hx
    simp only [] at hx
    split at hx
    swap
    · cases hx
    simp only [hd.dim.nbVar] at hx
    have hp' : processInitial o pb pb.n (xsolveStart o pb as xs).as (xsolveStart o pb as xs).s.A = .ok (t2, A) := hp
    rw [hp'] at hx
    simp only [] at hx
    by_cases hts : t2 = .success
    · rw [if_neg (by simpa using hts)] at hx
      repeat' split at hx
      all_goals first
        | (cases hx; done)
        | (cases hx; exact ⟨rfl, rfl⟩)
        | (cases hx; exact absurd rfl ht)
    · rw [if_pos hts] at hx
      cases hx; exact ⟨rfl, rfl⟩
  have hbad : ∀ (t : Term) (t' : Term), (t = .overconstrainedProblem ∨ t = .nonPosHessian) → t1 = t → t1' = t → xobs pb.n r = xobs pb.n r' := by
    intro t _ ht q1 q2
    subst q1
    subst q2
    have hne : t1' ≠ .success := by rcases ht with ht | ht <;> rw [ht] <;> simp
    obtain ⟨c1, c2⟩ := hfail pb o as xs h ha _ _ _ _ p1 e1 hne
    obtain ⟨c1', c2'⟩ := hfail { pb with G := G' } o' as' xs' h' ⟨ha'.len, ha'.opt, ⟨ha'.kind.1, ha'.kind.2⟩⟩ _ _ _ _ ((processInitial_G _ _ _ _ _ _).trans (hpi.trans p1)) e1' hne
    rw [if_pos hne] at eq eq'
    have term : ∀ (o : Opts K) (s : State K) (xs : XState K) (r : Term × XState K), xs.s = s → (Except.ok r : Except Fault (Term × XState K)) =
        (match terminate o t1' s with
          | .error e => .error e
          | .ok (t, s) => .ok (t, { xs with s := s })) → r = (t1', xs) := by
      intro o s xs r hs hh
      subst hs
      rcases ht with ht | ht <;> subst ht <;> simp only [terminate] at hh <;> (try split_ifs at hh) <;> cases hh <;> rfl
    have q1 := term _ _ _ _ rfl eq
    have q2 := term _ _ _ _ rfl eq'
    subst q1
    subst q2
    have hb : t1' = .nonPosHessian ∨ t1' = .overconstrainedProblem := ht.symm
    simp only [xobs, hb, if_true, c1, c1', c2, c2']
  rcases e3 with ⟨a, a2⟩ | ⟨a, a2, a3⟩ | ⟨a, hc, A, hA, hIA, hg, hdl, hDR⟩
  · rcases e3' with ⟨b, _⟩ | ⟨b, b2, _⟩ | ⟨b, _, A', hA', hIA', _⟩
    · exact hbad _ .success (Or.inl rfl) a b
    · have a2' : pb.n < numWant o pb (usedAs o pb as xs) (·.isEq) := a2
      have b2' : numWant o' pb (usedAs o' pb as' xs') (·.isEq) ≤ pb.n := b2
      rw [hnw] at b2'; omega
    · have a2' : pb.n < numWant o pb (usedAs o pb as xs) (·.isEq) := a2
      have b2' : numWant o' pb (usedAs o' pb as' xs') (·.isEq) ≤ pb.n := hIA'.eqs
      rw [hnw] at b2'; omega
  · rcases e3' with ⟨b, b2⟩ | ⟨b, b2, _⟩ | ⟨b, b3, _⟩
    · have a2' : numWant o pb (usedAs o pb as xs) (·.isEq) ≤ pb.n := a2
      have b2' : pb.n < numWant o' pb (usedAs o' pb as' xs') (·.isEq) := b2
      rw [hnw] at b2'; omega
    · exact hbad _ .success (Or.inr rfl) a b
    · exact absurd (hck.2 b3) a3
  · rcases e3' with ⟨b, b2⟩ | ⟨b, b2, b3⟩ | ⟨b, _, A', hA', hIA', hg', hdl', hDR'⟩
    · have a2' : numWant o pb (usedAs o pb as xs) (·.isEq) ≤ pb.n := hIA.eqs
      have b2' : pb.n < numWant o' pb (usedAs o' pb as' xs') (·.isEq) := b2
      rw [hnw] at b2'; omega
    · exact absurd (hck.1 hc) b3
    · have hAA : A' = A := by
        have q1 : processInitial o pb pb.n (usedAs o pb as xs) (xsolveStart o pb as xs).s.A = .ok (.success, A) := hA
        have q2 : processInitial o' pb pb.n (usedAs o' pb as' xs') (xsolveStart o' pb as' xs').s.A = .ok (.success, A') := hA'
        rw [hpi, q1] at q2
        cases q2; rfl
      subst hAA
      subst a
      subst b
      rw [if_neg (by simp)] at eq eq'
      have hn : (xsolveStart o' pb as' xs').s.nbVar = (xsolveStart o pb as xs).s.nbVar := by rw [hd.dim.nbVar, hd'.dim.nbVar]
      have hqn : A'.q ≤ (xsolveStart o pb as xs).s.nbVar := by
        rw [hd.dim.nbVar, hIA.q]; exact Nat.min_le_right _ _
      have hs0 : XSim (xstart o pb (xsolveStart o pb as xs) A') (xstart o' { pb with G := G' } (xsolveStart o' pb as' xs') A') :=
        initPoints_sim (pb := pb) (initData_simG hn rfl rfl rfl (by
          show LEq (xsolveStart o pb as xs).s.nbVar (chol pb.n pb.G pb.n).1 (chol pb.n G' pb.n).1
          rw [hd.dim.nbVar]
          exact (chol_congr hG pb.n le_rfl).1) hqn) hqn
      rw [dropLoop_G] at hdl'
      have hs1 := dropLoop_sim ho.tiny A'.q hs0 hg hdl hdl'
      have hG1 := hDR.good.good
      have hG1' := hDR'.good.good
      obtain ⟨t, w, l1, l2⟩ := loop_safe law (o.maxIter - xs1.s.it) (sc := ⟨0, .inactive⟩) (skip := false) hG1 (by simp)
      obtain ⟨t', w', l1', l2'⟩ := loop_safe law' (o'.maxIter - xs1'.s.it) (sc := ⟨0, .inactive⟩) (skip := false) hG1' (by simp)
      rw [l1] at eq
      rw [loop_G] at l1'
      rw [loop_G, l1'] at eq'
      rw [ho.maxIter, hs1.sim.it] at l1'
      obtain ⟨rfl, hw⟩ := loop_sim ho law law' (o.maxIter - xs1.s.it) (sc := ⟨0, .inactive⟩) (skip := false)
        (by simpa using hs1.sim) hG1 (hs1.sim.good hG1 hG1'.dim.inv) (by simp) l1 l1'
      have ht : t = .success ∨ t = .infeasible ∨ t = .maxIterReached := by
        rcases loop_it _ l1 with ⟨rfl, _⟩ | ⟨rfl | rfl, _⟩ <;> simp
      have hte : ∀ (o : Opts K) (w : State K), terminate o t w = .ok (t, w) := by
        intro o w; rcases ht with rfl | rfl | rfl <;> rfl
      simp only [hte, Except.ok.injEq] at eq eq'
      subst eq
      subst eq'
      have hnb : ¬ (t = .nonPosHessian ∨ t = .overconstrainedProblem) := by
        rcases ht with rfl | rfl | rfl <;> simp
      have hdn : ∀ (fuel : Nat) {xs xs1 : XState K}, dropLoop o pb fuel xs = .ok xs1 → xs1.s.needToExpand = xs.s.needToExpand := by
        intro fuel
        induction fuel with
        | zero => intro xs xs1 hh; unfold dropLoop at hh; split_ifs at hh; cases hh; rfl
        | succ fuel ih =>
          intro xs xs1 hh
          unfold dropLoop at hh
          cases hdp : dropPos o xs with
          | none => rw [hdp] at hh; cases hh; rfl
          | some l =>
            rw [hdp] at hh
            simp only [] at hh
            split_ifs at hh
            rw [ih hh]; rfl
      have hne : w.needToExpand = true := by rw [loop_need _ l1, hdn _ hdl]; rfl
      have hvar : w.nbVar = pb.n := l2.dim.nbVar
      simp only [xobs, hnb, if_false, hw.A, hw.it, hw.f, XObs.mk.injEq, true_and, and_true, Option.some.injEq]
      constructor
      · apply List.map_congr_left
        intro i _
        exact (multipliers_sim hw hne l2.dim.wf i).symm
      · apply List.map_congr_left
        intro i hi
        exact hw.x i (by rw [hvar]; exact List.mem_range.1 hi)

/-! ## The upper triangle is left as it was -/

theorem dropLoop_keepG {o : Opts K} {pb : Pb K B} (fuel : Nat) : ∀ {xs xs1 : XState K},
    dropLoop o pb fuel xs = .ok xs1 → xs1.s.G = xs.s.G := by
  induction fuel with
  | zero => intro xs xs1 hh; unfold dropLoop at hh; split_ifs at hh; cases hh; rfl
  | succ fuel ih =>
    intro xs xs1 hh
    unfold dropLoop at hh
    cases hdp : dropPos o xs with
    | none => rw [hdp] at hh; cases hh; rfl
    | some l =>
      rw [hdp] at hh
      simp only [] at hh
      split_ifs at hh
      rw [ih hh]; rfl

theorem xinit_keepG {o : Opts K} {pb : Pb K B} {xs xs' : XState K} {t} (h : xinit o pb xs = .ok (t, xs')) :
    t = .overconstrainedProblem ∨ xs'.s.G = (chol xs.s.nbVar pb.G xs.s.nbVar).1 := by
  unfold xinit at h
  simp only [] at h
  split at h
  swap
  · cases h
  cases hp : processInitial o pb xs.s.nbVar xs.as xs.s.A with
  | error e => rw [hp] at h; cases h
  | ok r =>
    obtain ⟨t2, A⟩ := r
    rw [hp] at h
    simp only [] at h
    split at h
    · rename_i hne
      cases h
      left
      unfold processInitial at hp
      simp only [] at hp
      repeat' split at hp
      all_goals first
        | (cases hp; done)
        | (cases hp; rfl)
        | (cases hp; exact absurd rfl hne)
    · right
      repeat' split at h
      all_goals first
        | (cases h; done)
        | (cases h; rfl)
        | (rename_i hdl; cases h; rw [dropLoop_keepG _ hdl]; rfl)

/-- **C70.** With any arithmetic, any history of the object, any admissible warm start: two Hessians with the same lower
triangle give the same observable results; unless the problem is reported overconstrained (the matrix is then not touched),
the strict upper triangle of the matrix given by the user is left as it was. -/
theorem C70_lower_triangle_only (cs : List (XCall K B)) (hcs : ∀ c ∈ cs, c.Admissible) (o : Opts K) (pb : Pb K B) (as : List Status)
    (ha : (XCall.solve o pb as).Admissible) (G' : Nat → Nat → K) (hG : ∀ i < pb.n, ∀ j ≤ i, G' i j = pb.G i j) :
    ∃ xs r r', xcalls cs (XState.empty : XState K) = .ok xs ∧ xsolve o pb as xs = .ok r ∧
      xsolve o { pb with G := G' } as xs = .ok r' ∧ xobs pb.n r = xobs pb.n r' ∧
      (r'.1 ≠ .overconstrainedProblem → ∀ i j, i < j → r'.2.s.G i j = G' i j) := by
  obtain ⟨xs, h1, h2⟩ := C37_no_fault cs hcs
  have ha' : (XCall.solve o { pb with G := G' } as : XCall K B).Admissible := ⟨ha.1, ⟨ha.2.1.len, ha.2.1.opt, ⟨ha.2.1.kind.1, ha.2.1.kind.2⟩⟩, ha.2.2⟩
  have hsafe : ∀ pb : Pb K B, (XCall.solve o pb as).Admissible → ∃ r, xsolve o pb as xs = .ok r := by
    intro pb hp
    obtain ⟨xs', h3, _⟩ := xcall_safe h2 _ hp
    simp only [xcall] at h3
    cases hx : xsolve o pb as xs with
    | error e => rw [hx] at h3; cases h3
    | ok r => exact ⟨r, rfl⟩
  obtain ⟨r, hr⟩ := hsafe pb ha
  obtain ⟨r', hr'⟩ := hsafe _ ha'
  refine ⟨xs, r, r', h1, hr, hr', xsolve_simG ⟨rfl, rfl, rfl⟩ ha.1 ha.1 (fun i hi j hj => (hG i hi j hj).symm) h2 h2 ha.2.1 ha.2.1
    (fun _ _ => rfl) hr hr', ?_⟩
  intro hne i j hij
  have eq := xsolve_eq (o := o) (pb := { pb with G := G' }) (as := as) (xs := xs) ⟨ha.2.1.len, ha.2.1.opt⟩
  rw [hr'] at eq
  have hterm : ∀ {t s t' s'}, terminate o t s = .ok (t', s') → s' = s ∧ t' = t := by
    intro t s t' s' h
    cases t <;> simp only [terminate] at h <;> (try split_ifs at h) <;> cases h <;> exact ⟨rfl, rfl⟩
  cases hin : xinit o { pb with G := G' } (xsolveStart o { pb with G := G' } as xs) with
  | error e => rw [hin] at eq; cases eq
  | ok r0 =>
    obtain ⟨t0, xs0⟩ := r0
    rw [hin] at eq
    simp only [] at eq
    have hg0 := xinit_keepG hin
    have hfin : r'.2.s.G = xs0.s.G ∧ (t0 ≠ .success → r'.1 = t0) := by
      by_cases ht : t0 = .success
      · rw [if_neg (by simpa using ht)] at eq
        refine ⟨?_, fun h => absurd ht h⟩
        cases hl : loop o { pb with G := G' } (o.maxIter - xs0.s.it) xs0.s ⟨0, .inactive⟩ false with
        | error e => rw [hl] at eq; cases eq
        | ok r1 =>
          rw [hl] at eq
          simp only [] at eq
          cases hte : terminate o r1.1 r1.2 with
          | error e => rw [hte] at eq; cases eq
          | ok r2 =>
            rw [hte] at eq
            obtain ⟨e1, _⟩ := hterm hte
            cases eq
            show r2.2.G = _
            rw [e1]; exact loop_keepG _ hl
      · rw [if_pos ht] at eq
        cases hte : terminate o t0 xs0.s with
        | error e => rw [hte] at eq; cases eq
        | ok r2 =>
          rw [hte] at eq
          obtain ⟨e1, e2⟩ := hterm hte
          cases eq
          refine ⟨?_, fun _ => e2⟩
          show r2.2.G = _
          rw [e1]
    rcases hg0 with hg0 | hg0
    · exact absurd ((hfin.2 (by rw [hg0]; simp)).trans hg0) hne
    · rw [hfin.1, hg0]
      exact chol_upper G' _ i j hij

end generic

/-- A concrete, non-trivial case of the hypotheses of C70: two Hessians that differ above the diagonal, a warm start. -/
example : (XCall.solve exOptsW exPbW exAs : XCall ℝ EReal).Admissible ∧ exOptsW.warmStart = true ∧ exPbW.n = 2 ∧
    (∀ i < exPbW.n, ∀ j ≤ i, (fun i j => if i < j then (7 : ℝ) else exPbW.G i j) i j = exPbW.G i j) ∧
    (fun i j => if i < j then (7 : ℝ) else exPbW.G i j) 0 1 ≠ exPbW.G 0 1 := by
  obtain ⟨h1, h2, h3, h4, h5, h6, h7, h8⟩ := exPbW_hyps
  refine ⟨⟨fpLaws_real _ (by norm_num [exOptsW]), h5, Or.inl rfl⟩, rfl, rfl, ?_, ?_⟩
  · intro i _ j hj
    simp only []
    rw [if_neg (by omega)]
  · simp [exPbW]

end JrlQp
