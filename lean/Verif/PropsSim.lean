import Verif.SolverSim

/-!
# Properties C13 (history independence), C14 (debug = release), C19 (lower triangle only), C06 (multipliers)

Valid for any scalar arithmetic.
-/

set_option linter.unusedSectionVars false

namespace JrlQp

open NumOps

variable {K B : Type} [Zero K] [One K] [Add K] [Sub K] [Neg K] [Mul K] [Div K] [NumOps K B] [SumOps K]

/-! ## C06: multipliers -/

theorem get_inj {A : ActiveSet} (h : A.WF) {k l : Nat} (hk : k < A.q) (hl : l < A.q) (he : A.get k = A.get l) :
    k = l := by
  rw [h.q_eq] at hk hl
  simp only [ActiveSet.get] at he
  rw [List.getD_eq_getElem _ _ hk, List.getD_eq_getElem _ _ hl] at he
  exact (List.Nodup.getElem_inj_iff h.nodup).1 he

theorem expandK_other {A : ActiveSet} (r u : Nat → K) (i : Nat) (n : Nat) (h : ∀ k < n, A.get k ≠ i) :
    expandK A r u n i = u i := by
  induction n with
  | zero => rfl
  | succ n ih =>
    simp only [expandK, upd]
    rw [if_neg (fun e => h n (by omega) e.symm)]
    exact ih (fun k hk => h k (by omega))

theorem expandK_active {A : ActiveSet} (h : A.WF) (r u : Nat → K) (n : Nat) (hn : n ≤ A.q) (k : Nat) (hk : k < n) :
    expandK A r u n (A.get k)
      = if A.statusAt (A.get k) = .upper ∨ A.statusAt (A.get k) = .upperBound then r k else -r k := by
  induction n with
  | zero => omega
  | succ n ih =>
    simp only [expandK, upd]
    by_cases he : k = n
    · subst he; simp
    · rw [if_neg (fun e => he (get_inj h (by omega) (by omega) e))]
      exact ih (by omega) (by omega)

/-- **C06.** For a solver whose multipliers have not been read since the last solve (`needToExpand`), the vector
returned by `multipliers()` is zero at each inactive constraint or bound; at the `k`-th active one it is the `k`-th
internal multiplier, with a minus sign unless the constraint is active at its upper side; the internal state other than
the scratch vectors is not changed and a second call returns the same vector. -/
theorem C06_multipliers (s : State K) (hw : s.A.WF) (hn : s.needToExpand = true) :
    (∀ i, s.A.statusAt i = .inactive → (multipliers s).u i = 0) ∧
    (∀ k, k < s.A.q → (s.A.statusAt (s.A.get k) = .upper ∨ s.A.statusAt (s.A.get k) = .upperBound) →
      (multipliers s).u (s.A.get k) = s.u k) ∧
    (∀ k, k < s.A.q → (s.A.statusAt (s.A.get k) = .lower ∨ s.A.statusAt (s.A.get k) = .lowerBound ∨
        s.A.statusAt (s.A.get k) = .equality ∨ s.A.statusAt (s.A.get k) = .fixed) →
      (multipliers s).u (s.A.get k) = -s.u k) ∧
    (multipliers s).A = s.A ∧ (multipliers s).x = s.x ∧ (multipliers s).f = s.f ∧ (multipliers s).it = s.it ∧
    multipliers (multipliers s) = multipliers s := by
  have hu : ∀ i, (multipliers s).u i = expandK s.A (wr s.A.q s.u s.r) (fun _ => 0) s.A.q i := by
    intro i; simp [multipliers, hn]
  refine ⟨?_, ?_, ?_, ?_, ?_, ?_, ?_, ?_⟩
  · intro i hi
    rw [hu]
    apply expandK_other
    intro k hk he
    rw [hw.q_eq] at hk
    exact (ActiveSet.get_lt s.A hw k hk).2 (by rw [he]; exact hi)
  · intro k hk hs
    rw [hu, expandK_active hw _ _ _ le_rfl k hk, if_pos hs]
    simp [wr, hk]
  · intro k hk hs
    rw [hu, expandK_active hw _ _ _ le_rfl k hk, if_neg (by rintro (h | h) <;> simp [h] at hs)]
    simp [wr, hk]
  all_goals simp [multipliers, hn]

/-! ## The simulation theorem for `solve` -/

theorem loop_G (o : Opts K) (pb : Pb K B) (G' : Nat → Nat → K) (fuel : Nat) : ∀ (s : State K) (sc : SC) (k : Bool),
    loop o { pb with G := G' } fuel s sc k = loop o pb fuel s sc k := by
  induction fuel with
  | zero => intro s sc k; rfl
  | succ fuel ih =>
    intro s sc k
    simp only [loop]
    have : iterate o { pb with G := G' } s sc k = iterate o pb s sc k := rfl
    rw [this]
    split <;> simp only [*]

theorem addInitials_G (o : Opts K) (pb : Pb K B) (G' : Nat → Nat → K) (l : List SC) : ∀ (s : State K),
    addInitials o { pb with G := G' } l s = addInitials o pb l s := by
  induction l with
  | nil => intro s; rfl
  | cons sc l ih =>
    intro s
    simp only [addInitials]
    have : addInitialConstraint o { pb with G := G' } s sc = addInitialConstraint o pb s sc := rfl
    rw [this]
    split <;> simp only [*]

theorem PEq.eq {pb pb' : Pb K B} (h : PEq pb pb') : pb' = { pb with G := pb'.G } := by
  obtain ⟨n, m, b, G, a, C, bl, bu, xl, xu⟩ := pb
  obtain ⟨n', m', b', G', a', C', bl', bu', xl', xu'⟩ := pb'
  obtain ⟨h1, h2, h3, _, h4, h5, h6, h7, h8, h9⟩ := h
  simp only at h1 h2 h3 h4 h5 h6 h7 h8 h9
  subst h1; subst h2; subst h3; subst h4; subst h5; subst h6; subst h7; subst h8; subst h9
  rfl

/-- Agreement of what init leaves behind even when it fails. -/
theorem init_sim {o o' : Opts K} (ho : OEq o o') {pb pb' : Pb K B} (hp : PEq pb pb') {s s' : State K}
    (hd : Dim pb s) (hd' : Dim pb' s') (hA : s'.A = s.A) (hit : s'.it = s.it)
    (hneed : s'.needToExpand = s.needToExpand) (hq : cholOk pb → numEq pb ≤ pb.n)
    {t t' s1 s1'} (h : init_ o pb s = .ok (t, s1)) (h' : init_ o' pb' s' = .ok (t', s1')) :
    t = t' ∧ (t = .success → Sim 0 s1 s1') ∧
      (t ≠ .success → s1'.A = s1.A ∧ s1.A = s.A ∧ s1'.it = s1.it ∧ s1'.needToExpand = s1.needToExpand ∧
        s1.needToExpand = s.needToExpand) := by
  have hn : s'.nbVar = s.nbVar := by rw [hd.nbVar, hd'.nbVar, hp.n]
  have hG : LEq s.nbVar pb.G pb'.G := by rw [hd.nbVar]; exact hp.G
  obtain ⟨c1, c2⟩ := chol_congr hG s.nbVar le_rfl
  unfold init_ at h h'
  rw [if_pos (by simp [hd.nbVar])] at h
  rw [if_pos (by simp [hd'.nbVar])] at h'
  simp only [] at h h'
  have hcn : chol s'.nbVar pb'.G s'.nbVar = chol s.nbVar pb'.G s.nbVar := by rw [hn]
  rw [hcn] at h'
  have hck : (chol s.nbVar pb.G s.nbVar).2 = none → cholOk pb := by
    intro e; unfold cholOk; rw [← hd.nbVar]; exact e
  clear hcn
  generalize chol s.nbVar pb.G s.nbVar = c at *
  generalize chol s.nbVar pb'.G s.nbVar = c' at *
  rw [← c2] at h'
  by_cases hc : c.2.isSome = true
  · rw [if_pos hc] at h h'
    cases h; cases h'
    exact ⟨rfl, by simp, fun _ => ⟨hA, rfl, hit, hneed, rfl⟩⟩
  · rw [if_neg hc] at h h'
    rw [if_pos (by simp [hd.szJ, hd.szX])] at h
    rw [if_pos (by simp [hd'.szJ, hd'.szX])] at h'
    have hdG : Dim pb { s with G := c.1 } := by
      obtain ⟨h0, h1, b, c, h2, h3, h4, h5, h6, h7, h8⟩ := hd
      exact ⟨h0, h1, b, c, h2, h3, h4, h5, h6, h7, h8⟩
    have hdG' : Dim pb' { s' with G := c'.1 } := by
      obtain ⟨h0, h1, b, c, h2, h3, h4, h5, h6, h7, h8⟩ := hd'
      exact ⟨h0, h1, b, c, h2, h3, h4, h5, h6, h7, h8⟩
    have hsim : Sim 0 (initPoint o pb { s with G := c.1 }) (initPoint o' pb { s' with G := c'.1 }) :=
      initPoint_sim (s := { s with G := c.1 }) (s' := { s' with G := c'.1 }) hn hA hit hneed c1
    have hpt : initPoint o' pb' { s' with G := c'.1 } = initPoint o' pb { s' with G := c'.1 } := by
      simp only [initPoint, hp.a]
    have hg := initPoint_good (o := o) hdG
    have hg' := initPoint_good (o := o') hdG'
    rw [hpt] at hg' h'
    have hst : ∀ i, (initPoint o pb { s with G := c.1 }).A.statusAt i = .inactive := fun i => reset_statusAt _ i
    have hq0 : (initPoint o pb { s with G := c.1 }).A.q = 0 := ActiveSet.reset_q _
    generalize initPoint o pb { s with G := c.1 } = p at *
    generalize initPoint o' pb { s' with G := c'.1 } = p' at *
    have hgp' : Good pb p' := by
      refine hsim.good hg ?_
      exact hg'.dim.inv
    unfold initActiveSet at h h'
    rw [if_pos hg.selectOk] at h
    rw [if_pos hg'.selectOk, hp.eqList, hsim.A, hp.eq, addInitials_G] at h'
    have hql : p.A.q + (eqList pb p.A).length ≤ p.nbVar := by
      rw [hq0, eqList_length hg.dim.nbCstr hg.dim.nbBnd, hg.dim.nbVar]
      have := hq (hck (by simpa using hc)); omega
    have hall := actAll_eqList pb p.A hg.dim.wf hst
    obtain ⟨s2, g1, g2, g3, g4⟩ := addInitials_ok (o := o) (eqList pb p.A) hg hall hql
    obtain ⟨s2', k1, k2, k3, k4⟩ := addInitials_ok (o := o') (eqList pb p.A) hgp' (by rw [hsim.A]; exact hall)
      (by rw [hsim.A, hsim.nbVar]; exact hql)
    have hres := addInitials_sim ho (eqList pb p.A) hsim hg hgp' hall (eqList_isEq pb p.A) hql g1 k1
    rw [g1] at h
    rw [k1] at h'
    cases h; cases h'
    exact ⟨rfl, fun _ => hres, by simp⟩

theorem multipliers_sim {s s' : State K} (h : Sim 0 s s') (hn : s.needToExpand = true) (hw : s.A.WF) :
    ∀ i, (multipliers s').u i = (multipliers s).u i := by
  have hn' : s'.needToExpand = true := by rw [h.need]; exact hn
  have e1 : (multipliers s).u = expandK s.A (wr s.A.q s.u s.r) (fun _ => 0) s.A.q := by simp [multipliers, hn]
  have e2 : (multipliers s').u = expandK s.A (wr s.A.q s'.u s'.r) (fun _ => 0) s.A.q := by
    simp [multipliers, hn', h.A]
  rw [e1, e2]
  have key : ∀ n ≤ s.A.q, ∀ i, expandK s.A (wr s.A.q s'.u s'.r) (fun _ => 0) n i
      = expandK s.A (wr s.A.q s.u s.r) (fun _ => 0) n i := by
    intro n
    induction n with
    | zero => intro _ i; rfl
    | succ n ih =>
      intro hn i
      simp only [expandK, upd]
      have hlt : n < s.A.q := by omega
      have : wr s.A.q s'.u s'.r n = wr s.A.q s.u s.r n := by
        simp only [wr, hlt, if_true]; exact (h.u n (by omega)).symm
      rw [this, ih (by omega) i]
  exact fun i => key s.A.q le_rfl i

/-- What a user can observe after `solve`: returned status, `iterations()`, `activeSet()`, `multipliers()`; and, unless
the Hessian was rejected, `solution()` and `objectiveValue()`. -/
structure Obs (K : Type) where
  status : Term
  iterations : Nat
  activeSet : List Status
  multipliers : List K
  solution : Option (List K)
  objective : Option K

/-- The observables of a finished solve of a problem with `n` variables. -/
def obs (n : Nat) (r : Term × State K) : Obs K where
  status := r.1
  iterations := r.2.it
  activeSet := r.2.A.status
  multipliers := (List.range r.2.A.nbAll).map (multipliers r.2).u
  solution := if r.1 = .nonPosHessian then none else some ((List.range n).map r.2.x)
  objective := if r.1 = .nonPosHessian then none else some r.2.f

/-- The state in the outcome of an iteration. -/
def Iter.st : Iter K → State K
  | .done _ s => s
  | .cont s _ _ => s

theorem iterate_need {o : Opts K} {pb : Pb K B} {s : State K} {sc : SC} {skip} {r}
    (h : iterate o pb s sc skip = .ok r) :
    r.st.needToExpand = s.needToExpand := by
  have hb : ∀ {s : State K} {sc : SC} {r}, iterBody o pb s sc = .ok r →
      r.st.needToExpand = s.needToExpand := by
    intro s sc r h
    unfold iterBody at h
    simp only [] at h
    split_ifs at h <;> cases h <;> rfl
  unfold iterate at h
  simp only [] at h
  split_ifs at h with h1 h2 h3 h4
  · exact hb h
  · cases h; rfl
  · exact hb (s := { s with u := upd s.u s.A.q 0 }) h

theorem loop_need {o : Opts K} {pb : Pb K B} (fuel : Nat) : ∀ {s : State K} {sc : SC} {skip} {t s'},
    loop o pb fuel s sc skip = .ok (t, s') → s'.needToExpand = s.needToExpand := by
  induction fuel with
  | zero => intro s sc skip t s' h; simp [loop] at h; rw [h.2]
  | succ fuel ih =>
    intro s sc skip t s' h
    simp only [loop] at h
    cases hr : iterate o pb s sc skip with
    | error e => simp [hr] at h
    | ok r =>
      have hi := iterate_need hr
      rw [hr] at h
      cases r with
      | done t1 s1 =>
        simp only [Except.ok.injEq, Prod.mk.injEq] at h
        obtain ⟨rfl, rfl⟩ := h
        exact hi
      | cont s1 sc1 k1 =>
        simp only [Iter.st] at h hi
        rw [ih h]; exact hi

theorem addInitials_need {o : Opts K} {pb : Pb K B} (l : List SC) : ∀ {s s' : State K},
    addInitials o pb l s = .ok s' → s'.needToExpand = s.needToExpand := by
  induction l with
  | nil => intro s s' h; simp [addInitials] at h; rw [h]
  | cons sc l ih =>
    intro s s' h
    simp only [addInitials] at h
    cases hr : addInitialConstraint o pb s sc with
    | error e => simp [hr] at h
    | ok s1 =>
      simp only [hr] at h
      rw [ih h]
      unfold addInitialConstraint at hr
      simp only [] at hr
      split_ifs at hr
      cases hr; rfl

/-- Any solve that returns leaves the multipliers to be expanded. -/
theorem init_need {o : Opts K} {pb : Pb K B} {s s' : State K} {t} (h : init_ o pb s = .ok (t, s')) :
    s'.needToExpand = s.needToExpand := by
  unfold init_ at h
  simp only [] at h
  split_ifs at h
  · cases h; rfl
  · unfold initActiveSet at h
    split_ifs at h
    split at h
    · cases h
    · rename_i s1 hs1
      cases h
      rw [addInitials_need _ hs1]; rfl

/-- The common generalisation of C13, C14 and C19. -/
theorem solve_sim {o o' : Opts K} (ho : OEq o o') (law : FpLaws K o) (law' : FpLaws K o')
    (hws : o.warmStart = false) (hws' : o'.warmStart = false) {pb pb' : Pb K B} (hp : PEq pb pb')
    (hq : cholOk pb → numEq pb ≤ pb.n) {s s' : State K} (hi : Inv s) (hi' : Inv s') {r r'}
    (h : solve o pb s = .ok r) (h' : solve o' pb' s' = .ok r') : obs pb.n r = obs pb.n r' := by
  obtain ⟨t, s1⟩ := r
  obtain ⟨t', s1'⟩ := r'
  unfold solve dualSolve at h h'
  have hd := resize_dim_pb hi pb
  have hd' := resize_dim_pb hi' pb'
  have hpd := preInit_dim (o := o) hd
  have hpd' := preInit_dim (o := o') hd'
  have hAeq : (preInit o' (resize s' pb'.n pb'.m pb'.useBnd)).A = (preInit o (resize s pb.n pb.m pb.useBnd)).A := by
    simp only [preInit, hws, hws', Bool.false_eq_true, if_false]
    have a1 := hd.nbCstr; have a2 := hd.nbBnd; have a3 := hd.wf.size
    have b1 := hd'.nbCstr; have b2 := hd'.nbBnd; have b3 := hd'.wf.size
    have hnb : pb'.nb = pb.nb := by simp [Pb.nb, hp.useBnd, hp.n]
    replace b1 := b1.trans hp.m
    replace b2 := b2.trans hnb
    have e1 : (resize s' pb'.n pb'.m pb'.useBnd).A.nbCstr = (resize s pb.n pb.m pb.useBnd).A.nbCstr := by rw [a1, b1]
    have e2 : (resize s' pb'.n pb'.m pb'.useBnd).A.nbBnd = (resize s pb.n pb.m pb.useBnd).A.nbBnd := by rw [a2, b2]
    have e3 : (resize s' pb'.n pb'.m pb'.useBnd).A.status.length = (resize s pb.n pb.m pb.useBnd).A.status.length := by
      rw [a3, b3, e1, e2]
    simp only [ActiveSet.reset, e1, e2, e3]
  have hq0 : (preInit o (resize s pb.n pb.m pb.useBnd)).A.q = 0 := by
    simp only [preInit, hws, Bool.false_eq_true, if_false]; exact ActiveSet.reset_q _
  have hneed0 : (preInit o (resize s pb.n pb.m pb.useBnd)).needToExpand = true := rfl
  have hneed0' : (preInit o' (resize s' pb'.n pb'.m pb'.useBnd)).needToExpand = true := rfl
  have hit0 : (preInit o (resize s pb.n pb.m pb.useBnd)).it = 0 := rfl
  have hit0' : (preInit o' (resize s' pb'.n pb'.m pb'.useBnd)).it = 0 := rfl
  generalize preInit o (resize s pb.n pb.m pb.useBnd) = p at *
  generalize preInit o' (resize s' pb'.n pb'.m pb'.useBnd) = p' at *
  cases hin : init_ o pb p with
  | error e => rw [hin] at h; cases h
  | ok r =>
    cases hin' : init_ o' pb' p' with
    | error e => rw [hin'] at h'; cases h'
    | ok r' =>
      obtain ⟨t0, s0⟩ := r
      obtain ⟨t0', s0'⟩ := r'
      rw [hin] at h
      rw [hin'] at h'
      obtain ⟨rfl, c1, c2⟩ := init_sim ho hp hpd hpd' hAeq (by rw [hit0, hit0']) (by rw [hneed0, hneed0']) hq hin hin'
      have hn := init_need hin
      simp only [] at h h'
      by_cases ht : t0 = .success
      · rw [if_neg (by simpa using ht)] at h h'
        have hsim := c1 ht
        obtain ⟨t2, s2, k1, k2, k3⟩ := init_safe (o := o) hpd hq
        rw [hin] at k1
        simp only [Except.ok.injEq, Prod.mk.injEq] at k1
        obtain ⟨rfl, rfl⟩ := k1
        have hg := k3 ht
        obtain ⟨t2', s2', k1', k2', k3'⟩ := init_safe (o := o') (pb := pb') (s := p') hpd'
          (by
            intro hc
            rw [hp.numEq, hp.n]
            refine hq ?_
            unfold cholOk at hc ⊢
            rw [(chol_congr hp.G pb.n le_rfl).2, ← hp.n]; exact hc)
        rw [hin'] at k1'
        simp only [Except.ok.injEq, Prod.mk.injEq] at k1'
        obtain ⟨rfl, rfl⟩ := k1'
        have hg' : Good pb s0' := hsim.good hg (k3' ht).dim.inv
        cases hl : loop o pb (o.maxIter - s0.it) s0 ⟨0, .inactive⟩ false with
        | error e => rw [hl] at h; cases h
        | ok r =>
          obtain ⟨u1, w1⟩ := r
          cases hl' : loop o' pb' (o'.maxIter - s0'.it) s0' ⟨0, .inactive⟩ false with
          | error e => rw [hl'] at h'; cases h'
          | ok r' =>
            obtain ⟨u1', w1'⟩ := r'
            rw [hl] at h
            rw [hl'] at h'
            simp only [] at h h'
            have hl2 := hl'
            rw [hp.eq, loop_G, ho.maxIter, hsim.it] at hl2
            obtain ⟨rfl, hs1⟩ := loop_sim ho law law' (o.maxIter - s0.it) (sc := ⟨0, .inactive⟩) (skip := false)
              (by simpa using hsim) hg hg' (by simp) hl hl2
            obtain ⟨v, v', z1, z2⟩ := loop_safe law (o.maxIter - s0.it) (sc := ⟨0, .inactive⟩) (skip := false)
              hg (by simp)
            rw [hl] at z1
            simp only [Except.ok.injEq, Prod.mk.injEq] at z1
            obtain ⟨rfl, rfl⟩ := z1
            have hne : w1.needToExpand = true := by rw [loop_need _ hl, hn, hneed0]
            have hu : u1 ≠ .overconstrainedProblem ∧ u1 ≠ .unknown := by
              rcases loop_it _ hl with ⟨rfl, _⟩ | ⟨rfl | rfl, _⟩ <;> simp
            have hte : ∀ (o : Opts K) (w : State K), terminate o u1 w = .ok (u1, w) := by
              intro o w; cases u1 <;> simp_all [terminate]
            rw [hte] at h h'
            simp only [Except.ok.injEq, Prod.mk.injEq] at h h'
            obtain ⟨rfl, rfl⟩ := h
            obtain ⟨rfl, rfl⟩ := h'
            have hvar : w1.nbVar = pb.n := z2.dim.nbVar
            simp only [obs, hs1.A, hs1.it, hs1.f, Obs.mk.injEq, true_and]
            refine ⟨?_, ?_, trivial⟩
            · apply List.map_congr_left
              intro i _
              exact (multipliers_sim hs1 hne z2.dim.wf i).symm
            · split_ifs
              · rfl
              · congr 1
                apply List.map_congr_left
                intro i hi
                exact hs1.x i (by rw [hvar]; exact List.mem_range.1 hi)
      · rw [if_pos ht] at h h'
        obtain ⟨d1, d2, d3, d4, d5⟩ := c2 ht
        have hnp : t0 = .nonPosHessian := (init_it hin).2.resolve_left ht
        subst hnp
        simp only [terminate, Except.ok.injEq, Prod.mk.injEq] at h h'
        obtain ⟨rfl, rfl⟩ := h
        obtain ⟨rfl, rfl⟩ := h'
        have hne : s0.needToExpand = true := by rw [d5, hneed0]
        have hne' : s0'.needToExpand = true := by rw [d4, hne]
        have hq1 : s0.A.q = 0 := by rw [d2, hq0]
        have hz : ∀ (w : State K), w.A = s0.A → w.needToExpand = true → (multipliers w).u = fun _ => 0 := by
          intro w hw hn
          funext i
          simp [multipliers, hn, hw, hq1, expandK]
        simp only [obs, d1, d3, hz s0 rfl hne, hz s0' d1 hne', if_true]

/-- **C13.** With warm start disabled, what a user observes after solving a problem on a solver with any (admissible)
history `cs` is what is observed with any other history `cs'`, e.g. on a fresh solver. -/
theorem C13_history_independence (cs cs' : List (Call K B)) (hcs : ∀ c ∈ cs, c.Admissible)
    (hcs' : ∀ c ∈ cs', c.Admissible) (o : Opts K) (law : FpLaws K o) (hws : o.warmStart = false) (pb : Pb K B)
    (hq : cholOk pb → numEq pb ≤ pb.n) :
    ∃ s s' r r', calls cs (State.empty : State K) = .ok s ∧ calls cs' (State.empty : State K) = .ok s' ∧
      solve o pb s = .ok r ∧ solve o pb s' = .ok r' ∧ obs pb.n r = obs pb.n r' := by
  have key : ∀ (cs : List (Call K B)) (s : State K), Inv s → (∀ c ∈ cs, c.Admissible) →
      ∃ s', calls cs s = .ok s' ∧ Inv s' := by
    intro cs
    induction cs with
    | nil => intro s h _; exact ⟨s, rfl, h⟩
    | cons c cs ih =>
      intro s hs hc
      obtain ⟨s1, h1, h2⟩ := call_safe hs c (hc c List.mem_cons_self)
      simp only [calls, h1]
      exact ih s1 h2 (fun d hd => hc d (List.mem_cons_of_mem _ hd))
  obtain ⟨s, h1, h2⟩ := key cs _ inv_empty hcs
  obtain ⟨s', h1', h2'⟩ := key cs' _ inv_empty hcs'
  obtain ⟨t, w, h3, _⟩ := solve_safe law h2 hq
  obtain ⟨t', w', h3', _⟩ := solve_safe law h2' hq
  refine ⟨s, s', _, _, h1, h1', h3, h3', ?_⟩
  exact solve_sim ⟨rfl, rfl, rfl⟩ law law hws hws
    ⟨rfl, rfl, rfl, fun _ _ _ _ => rfl, rfl, rfl, rfl, rfl, rfl, rfl⟩ hq h2 h2' h3 h3'

theorem FpLaws.setDbg {o : Opts K} (h : FpLaws K o) (b : Bool) : FpLaws K { o with dbg := b } :=
  ⟨h.bigRefl, h.ltEq, h.zeroMul, h.zeroAdd, h.sqrtZero⟩

/-- **C14.** The debug build (`dbg = true`: workspaces and eliminated entries are zeroed) and the release build give
the same observable results. -/
theorem C14_debug_eq_release (o : Opts K) (law : FpLaws K o) (hws : o.warmStart = false) (pb : Pb K B)
    (hq : cholOk pb → numEq pb ≤ pb.n) (s : State K) (hs : Inv s) :
    ∃ r r', solve { o with dbg := true } pb s = .ok r ∧ solve { o with dbg := false } pb s = .ok r' ∧
      obs pb.n r = obs pb.n r' := by
  obtain ⟨t, w, h3, _⟩ := solve_safe (law.setDbg true) hs hq
  obtain ⟨t', w', h3', _⟩ := solve_safe (law.setDbg false) hs hq
  refine ⟨_, _, h3, h3', ?_⟩
  have hoe : OEq { o with dbg := true } { o with dbg := false } := ⟨rfl, rfl, rfl⟩
  exact solve_sim (o := { o with dbg := true }) (o' := { o with dbg := false }) hoe (law.setDbg true) (law.setDbg false) hws hws
    ⟨rfl, rfl, rfl, fun _ _ _ _ => rfl, rfl, rfl, rfl, rfl, rfl, rfl⟩ hq hs hs h3 h3'

theorem chol_upper {n : Nat} (M : Nat → Nat → K) (k : Nat) : ∀ i j, i < j → (chol n M k).1 i j = M i j := by
  induction k with
  | zero => intro i j _; rfl
  | succ k ih =>
    intro i j hij
    simp only [chol]
    rcases hc : chol n M k with ⟨N, o⟩
    rw [hc] at ih
    cases o with
    | some c => exact ih i j hij
    | none =>
      simp only []
      cases hcc : cholCol n k N with
      | none => exact ih i j hij
      | some P =>
        simp only []
        unfold cholCol at hcc
        simp only [] at hcc
        split_ifs at hcc
        simp only [Option.some.injEq] at hcc
        rw [← hcc]
        simp only []
        by_cases h1 : j = k
        · subst h1
          rw [if_pos rfl, if_neg (by omega), if_neg (by omega)]
          exact ih i j hij
        · rw [if_neg h1]; exact ih i j hij

theorem loop_keepG {o : Opts K} {pb : Pb K B} (fuel : Nat) : ∀ {s : State K} {sc : SC} {skip} {t s'},
    loop o pb fuel s sc skip = .ok (t, s') → s'.G = s.G := by
  have hb : ∀ {s : State K} {sc : SC} {r}, iterBody o pb s sc = .ok r →
      r.st.G = s.G := by
    intro s sc r h
    unfold iterBody at h
    simp only [] at h
    split_ifs at h <;> cases h <;> rfl
  have hi : ∀ {s : State K} {sc : SC} {skip} {r}, iterate o pb s sc skip = .ok r →
      r.st.G = s.G := by
    intro s sc skip r h
    unfold iterate at h
    simp only [] at h
    split_ifs at h with h1 h2 h3 h4
    · exact hb h
    · cases h; rfl
    · exact hb (s := { s with u := upd s.u s.A.q 0 }) h
  induction fuel with
  | zero => intro s sc skip t s' h; simp [loop] at h; rw [h.2]
  | succ fuel ih =>
    intro s sc skip t s' h
    simp only [loop] at h
    cases hr : iterate o pb s sc skip with
    | error e => simp [hr] at h
    | ok r =>
      have hi := hi hr
      rw [hr] at h
      cases r with
      | done t1 s1 =>
        simp only [Except.ok.injEq, Prod.mk.injEq] at h
        obtain ⟨rfl, rfl⟩ := h
        exact hi
      | cont s1 sc1 k1 =>
        simp only [Iter.st] at h hi
        rw [ih h]; exact hi

theorem addInitials_keepG {o : Opts K} {pb : Pb K B} (l : List SC) : ∀ {s s' : State K},
    addInitials o pb l s = .ok s' → s'.G = s.G := by
  induction l with
  | nil => intro s s' h; simp [addInitials] at h; rw [h]
  | cons sc l ih =>
    intro s s' h
    simp only [addInitials] at h
    cases hr : addInitialConstraint o pb s sc with
    | error e => simp [hr] at h
    | ok s1 =>
      simp only [hr] at h
      rw [ih h]
      unfold addInitialConstraint at hr
      simp only [] at hr
      split_ifs at hr
      cases hr; rfl

theorem init_G {o : Opts K} {pb : Pb K B} {s s' : State K} {t} (h : init_ o pb s = .ok (t, s')) :
    s'.G = (chol s.nbVar pb.G s.nbVar).1 := by
  unfold init_ at h
  simp only [] at h
  split_ifs at h
  · cases h; rfl
  · unfold initActiveSet at h
    split_ifs at h
    split at h
    · cases h
    · rename_i s1 hs1
      cases h
      rw [addInitials_keepG _ hs1]; rfl

/-- **C19.** Two Hessians with the same lower triangle give the same observable results; the strict upper triangle of
the matrix given by the user is left as it was. -/
theorem C19_lower_triangle_only (o : Opts K) (law : FpLaws K o) (hws : o.warmStart = false) (pb : Pb K B)
    (hq : cholOk pb → numEq pb ≤ pb.n) (G' : Nat → Nat → K)
    (hG : ∀ i < pb.n, ∀ j ≤ i, G' i j = pb.G i j) (s : State K) (hs : Inv s) :
    ∃ r r', solve o pb s = .ok r ∧ solve o { pb with G := G' } s = .ok r' ∧ obs pb.n r = obs pb.n r' ∧
      (∀ i j, i < j → r'.2.G i j = G' i j) := by
  have hp : PEq pb { pb with G := G' } :=
    ⟨rfl, rfl, rfl, fun i hi j hj => (hG i hi j hj).symm, rfl, rfl, rfl, rfl, rfl, rfl⟩
  obtain ⟨t, w, h3, _⟩ := solve_safe law hs hq
  obtain ⟨t', w', h3', _⟩ := solve_safe (pb := { pb with G := G' }) law hs (by
    intro hc
    refine hq ?_
    unfold cholOk at hc ⊢
    rw [(chol_congr hp.G pb.n le_rfl).2]; exact hc)
  refine ⟨_, _, h3, h3', solve_sim ⟨rfl, rfl, rfl⟩ law law hws hws hp hq hs hs h3 h3', ?_⟩
  intro i j hij
  unfold solve dualSolve at h3'
  generalize preInit o (resize s _ _ _) = p at h3'
  cases hin : init_ o { pb with G := G' } p with
  | error e => rw [hin] at h3'; cases h3'
  | ok r =>
    obtain ⟨t0, s0⟩ := r
    have hg0 := init_G hin
    rw [hin] at h3'
    simp only [] at h3'
    have hterm : ∀ {t s t' s'}, terminate o t s = .ok (t', s') → s' = s := by
      intro t s t' s' h
      cases t <;> simp only [terminate] at h <;> (try split_ifs at h) <;> cases h <;> rfl
    have hfin : w'.G = s0.G := by
      by_cases ht : t0 = .success
      · rw [if_neg (by simpa using ht)] at h3'
        cases hl : loop o { pb with G := G' } (o.maxIter - s0.it) s0 ⟨0, .inactive⟩ false with
        | error e => rw [hl] at h3'; cases h3'
        | ok r =>
          obtain ⟨u1, w1⟩ := r
          rw [hl] at h3'
          rw [hterm h3']; exact loop_keepG _ hl
      · rw [if_pos ht] at h3'
        rw [hterm h3']
    show w'.G i j = G' i j
    rw [hfin, hg0]
    exact chol_upper G' _ i j hij

/-! ### Non-vacuity -/

/-- The hypotheses of C13, C14 and C19 are met by a concrete problem with an equality constraint. -/
example : FpLaws ℝ exOpts ∧ exOpts.warmStart = false ∧ cholOk exPb1 ∧ numEq exPb1 ≤ exPb1.n ∧ numEq exPb1 = 1 ∧
    Inv (State.empty : State ℝ) := by
  refine ⟨fpLaws_real _ (by norm_num [exOpts]), rfl, exPb_chol _ rfl rfl, ?_, ?_, inv_empty⟩ <;>
    simp [numEq, exPb1, Pb.nb, List.range_succ, bEq]

/-- C06 on a concrete state with one constraint active at its lower side and a fixed variable. -/
example : ∃ s : State ℝ, s.A.WF ∧ s.needToExpand = true ∧ s.A.q = 2 ∧ s.A.get 0 = 1 ∧ s.A.statusAt 1 = .lower := by
  have h1 : (ActiveSet.mk' 2 1).activatePre 1 .lower = true := rfl
  have h2 : ((ActiveSet.mk' 2 1).activate 1 .lower).activatePre 2 .fixed = true := rfl
  exact ⟨{ State.empty with A := ((ActiveSet.mk' 2 1).activate 1 .lower).activate 2 .fixed, needToExpand := true },
    ActiveSet.wf_activate _ (ActiveSet.wf_activate _ (ActiveSet.wf_mk' 2 1) _ _ h1) _ _ h2, rfl, rfl, rfl, rfl⟩

end JrlQp
