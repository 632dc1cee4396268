import Verif.ExpDrop

/-!
# Runs of the experimental solver: no fault, structure of a run (C21, C23)

Independent of the arithmetic.
-/

namespace JrlQp

open NumOps

variable {K B : Type} [Zero K] [One K] [Add K] [Sub K] [Neg K] [Mul K] [Div K] [NumOps K B] [SumOps K]

/-- Dimensions of the members of the experimental solver during a run. -/
structure XDim (pb : Pb K B) (xs : XState K) : Prop where
  dim : Dim pb xs.s
  szB : xs.s.nbVar ≤ xs.szB
  szT : xs.s.nbVar ≤ xs.szT
  szH : xs.s.nbVar ≤ xs.szH

/-- What holds between two calls of `solve`. -/
structure XInv (xs : XState K) : Prop where
  inv : Inv xs.s
  szB : xs.s.nbVar ≤ xs.szB
  szT : xs.s.nbVar ≤ xs.szT
  szH : xs.s.nbVar ≤ xs.szH

theorem XDim.inv {pb : Pb K B} {xs : XState K} (h : XDim pb xs) : XInv xs := ⟨h.dim.inv, h.szB, h.szT, h.szH⟩

theorem XGood.xdim {pb : Pb K B} {xs : XState K} (h : XGood pb xs) : XDim pb xs := ⟨h.good.dim, h.szB, h.szT, h.szH⟩

/-- The state of `init_` after the factorisation of the Hessian, for the initial active set `A`. -/
def xpre (o : Opts K) (pb : Pb K B) (xs : XState K) (A : ActiveSet) : XState K :=
  { xs with s := { xs.s with
      R := if o.dbg then fun _ _ => 0 else xs.s.R
      A := A
      G := (chol pb.n pb.G pb.n).1 } }

/-- The state of `init_` when the removal loop starts, for the initial active set `A`. -/
def xstart (o : Opts K) (pb : Pb K B) (xs : XState K) (A : ActiveSet) : XState K :=
  initPoints pb (initData o pb (xpre o pb xs A))

/-- The initial active set meets the requirements of `processInitialActiveSet`. -/
structure InitA (o : Opts K) (pb : Pb K B) (as : List Status) (A0 A : ActiveSet) : Prop where
  wf : A.WF
  nbCstr : A.nbCstr = pb.m
  nbBnd : A.nbBnd = pb.nb
  eqs : numWant o pb as (·.isEq) ≤ pb.n
  q : A.q = min (numWant o pb as (· != .inactive)) pb.n
  status : ∀ i < pb.m + pb.nb, A.statusAt i = want o pb as i ∨ (A.statusAt i = .inactive ∧ (want o pb as i).isEq = false)
  all : numWant o pb as (· != .inactive) ≤ pb.n →
    A = A0.reset.activateSCs (scList (want o pb as) (initOrder pb.m pb.nb)) ∧
    ∀ i < pb.m + pb.nb, A.statusAt i = want o pb as i

/-- A call of `init_` on a well-dimensioned state: no fault, and the three possible outcomes. -/
theorem xinit_spec {o : Opts K} {pb : Pb K B} {xs : XState K} (h : XDim pb xs) (hwk : WarmOk o pb xs.as)
    (hlen : o.warmStart = true → xs.as = [] ∨ xs.as.length = pb.m + pb.nb) :
    ∃ t xs', xinit o pb xs = .ok (t, xs') ∧ XDim pb xs' ∧
      ((t = .overconstrainedProblem ∧ pb.n < numWant o pb xs.as (·.isEq)) ∨
       (t = .nonPosHessian ∧ numWant o pb xs.as (·.isEq) ≤ pb.n ∧ ¬ cholOk pb) ∨
       (t = .success ∧ cholOk pb ∧ ∃ A, processInitial o pb pb.n xs.as xs.s.A = .ok (.success, A) ∧
        InitA o pb xs.as xs.s.A A ∧ XGood pb (xstart o pb xs A) ∧
        dropLoop o pb A.q (xstart o pb xs A) = .ok xs' ∧ DropR o pb (xstart o pb xs A) xs')) := by
  obtain ⟨⟨h1, h2, h3, h4, h5, h6, h7, h8, h9, h10, h11⟩, hB, hT, hH⟩ := h
  unfold xinit
  simp only []
  have hall : xs.s.A.nbAll = pb.m + pb.nb := by rw [ActiveSet.nbAll, h3, h4]
  rw [if_pos]
  swap
  · have hw : (!o.warmStart || xs.as.isEmpty || decide (xs.as.length = xs.s.A.nbAll)) = true := by
      cases hws : o.warmStart with
      | false => simp
      | true =>
        rcases hlen hws with h | h
        · simp [h]
        · simp [h, hall]
    rw [hw]
    simp [h1, h3, h4, h2.size]
  obtain ⟨t, A, hpi, a1, a2, a3, hcase⟩ := processInitial_spec hwk xs.s.nbVar h2 h3 h4
  rw [hpi]
  simp only []
  have hU : pb.m + pb.nb ≤ xs.s.szU := by rw [h3, h4] at h8; exact h8
  have hR : pb.m + pb.nb ≤ xs.s.szR := by rw [h3, h4] at h9; exact h9
  have hdim : ∀ R G, Dim pb { xs.s with R := R, A := A, G := G } := fun R G =>
    ⟨h1, a1, a2, a3, h5, h6, h7, by show A.nbCstr + A.nbBnd ≤ _; rw [a2, a3]; exact hU,
      by show A.nbCstr + A.nbBnd ≤ _; rw [a2, a3]; exact hR, h10, h11⟩
  rcases hcase with ⟨rfl, hov⟩ | ⟨rfl, hle, hq, hst, hall'⟩
  · rw [if_pos (by simp)]
    exact ⟨_, _, rfl, ⟨hdim _ xs.s.G, hB, hT, hH⟩, Or.inl ⟨rfl, by rw [← h1]; exact hov⟩⟩
  · rw [if_neg (by simp)]
    have hch : chol xs.s.nbVar pb.G xs.s.nbVar = chol pb.n pb.G pb.n := by rw [h1]
    rw [h1] at hpi hle hq hall'
    rw [hch]
    by_cases hc : (chol pb.n pb.G pb.n).2.isSome = true
    · rw [if_pos hc]
      refine ⟨_, _, rfl, ⟨hdim _ _, hB, hT, hH⟩, Or.inr (Or.inl ⟨rfl, hle, ?_⟩)⟩
      unfold cholOk
      intro hn
      rw [hn] at hc
      simp at hc
    · rw [if_neg hc]
      have hck : cholOk pb := by unfold cholOk; simpa using hc
      have hqn : A.q ≤ xs.s.nbVar := by rw [hq, h1]; exact Nat.min_le_right _ _
      have hxg : XGood pb (xpre o pb xs A) := ⟨⟨hdim _ _, hqn⟩, hB, hT, hH⟩
      have hdok : initDataOk pb (xpre o pb xs A) = true := by
        have h5' : xs.s.nbVar * A.q ≤ xs.s.nbVar * xs.s.nbVar := Nat.mul_le_mul_left _ hqn
        have hsc : ∀ k < A.q, scOk pb (actSC A k) = true := by
          intro k hk
          have hkl : k < A.active.length := by rw [← a1.q_eq]; exact hk
          have hmem : A.get k ∈ A.active := by
            rw [ActiveSet.get, List.getD_eq_getElem _ _ hkl]; exact List.getElem_mem hkl
          obtain ⟨m1, m2⟩ := (a1.mem _).1 hmem
          rw [a1.size, a2, a3] at m1
          by_cases hg : A.get k < pb.m
          · have := a1.kindG _ (by rw [a2]; exact hg) m2
            unfold scOk actSC
            cases hs : A.statusAt (A.get k) <;> simp [hs, Status.isGeneral] at this m2 ⊢ <;> exact hg
          · have := a1.kindB _ (by rw [a2]; omega) m2
            unfold scOk actSC
            cases hs : A.statusAt (A.get k) <;> simp [hs, Status.isBound] at this m2 ⊢ <;> omega
        simp only [initDataOk, Bool.and_eq_true, decide_eq_true_eq, List.all_eq_true, List.mem_range]
        exact ⟨⟨⟨⟨⟨⟨⟨hqn, h1.le⟩, h5'.trans h11⟩, h10⟩, hqn.trans hB⟩, hqn.trans hH⟩, hT⟩, fun k hk => hsc k hk⟩
      have hxs : XGood pb (xstart o pb xs A) := initPoints_xgood (initData_xgood (o := o) hxg)
      obtain ⟨xs', e1, e2, _⟩ := dropLoop_spec (o := o) (P := fun _ => True) (fun _ _ _ _ _ => trivial) A.q hxs trivial
        (le_refl A.q)
      refine ⟨.success, xs', ?_, e2.good.xdim, Or.inr (Or.inr ⟨rfl, hck, A, hpi, ⟨a1, a2, a3, hle, hq, hst, hall'⟩, hxs, e1, e2⟩)⟩
      have e0 : (if initDataOk pb (xpre o pb xs A) = true then
          if initPointsOk pb (initData o pb (xpre o pb xs A)) = true then
            match dropLoop o pb (initData o pb (xpre o pb xs A)).s.A.q (initPoints pb (initData o pb (xpre o pb xs A))) with
            | .error e => .error e
            | .ok xs => .ok (.success, xs)
          else .error .outOfBounds
        else (.error .outOfBounds : Except Fault (Term × XState K))) = .ok (.success, xs') := by
        rw [if_pos hdok, if_pos (initData_xgood hxg).pointsOk]
        have : dropLoop o pb (initData o pb (xpre o pb xs A)).s.A.q (initPoints pb (initData o pb (xpre o pb xs A))) = .ok xs' := e1
        rw [this]
      exact e0

/-! ## `solve` -/

theorem xresize_inv {xs : XState K} (h : XInv xs) (n m : Nat) (b : Bool) :
    XInv (xresize xs n m b) := by
  obtain ⟨r1, r2, _, _⟩ := resize_dim h.inv n m b
  have hs : (xresize xs n m b).s = resize xs.s n m b := by unfold xresize; simp only []
  refine ⟨by rw [hs]; exact r1, ?_, ?_, ?_⟩ <;> rw [hs, r2] <;> unfold xresize <;> simp only []
  · split_ifs with hn
    · exact le_wsResize _ _
    · rw [not_not] at hn; rw [hn]; exact h.szB
  · split_ifs with hn
    · exact le_wsResize _ _
    · rw [not_not] at hn; rw [hn]; exact h.szT
  · split_ifs with hn
    · exact le_wsResize _ _
    · rw [not_not] at hn; rw [hn]; exact h.szH

/-- The warm-start vector used by a call of `solve`. -/
def usedAs (o : Opts K) (pb : Pb K B) (as : List Status) (xs : XState K) : List Status :=
  if o.warmStart then (if as = [] then (xresize xs pb.n pb.m pb.useBnd).s.A.status else as) else xs.as

/-- The state on which `init_` is called. -/
def xsolveStart (o : Opts K) (pb : Pb K B) (as : List Status) (xs : XState K) : XState K :=
  { xresize xs pb.n pb.m pb.useBnd with
    s := preInit o (resize xs.s pb.n pb.m pb.useBnd), as := usedAs o pb as xs }

theorem xsolve_eq {o : Opts K} {pb : Pb K B} {as : List Status} {xs : XState K}
    (h : (as.length = pb.m + pb.nb ∨ as = []) ∧ (o.warmStart = true ∨ as = [])) :
    xsolve o pb as xs = match xinit o pb (xsolveStart o pb as xs) with
      | .error e => .error e
      | .ok (t, xs) =>
        if t ≠ .success then
          match terminate o t xs.s with
          | .error e => .error e
          | .ok (t, s) => .ok (t, { xs with s := s })
        else
          match loop o pb (o.maxIter - xs.s.it) xs.s ⟨0, .inactive⟩ false with
          | .error e => .error e
          | .ok (t, s) =>
            match terminate o t s with
            | .error e => .error e
            | .ok (t, s) => .ok (t, { xs with s := s }) := by
  have has : (xresize xs pb.n pb.m pb.useBnd).as = xs.as := by unfold xresize; simp only []; split_ifs <;> rfl
  unfold xsolve
  rw [if_pos h]
  unfold xdualSolve xsolveStart usedAs
  rw [← has]
  cases o.warmStart <;> rfl

theorem xsolveStart_dim {o : Opts K} {pb : Pb K B} {as : List Status} {xs : XState K} (h : XInv xs) :
    XDim pb (xsolveStart o pb as xs) := by
  have hi := xresize_inv h pb.n pb.m pb.useBnd
  exact ⟨preInit_dim (o := o) (resize_dim_pb h.inv pb), hi.szB, hi.szT, hi.szH⟩

theorem usedAs_warmOk {o : Opts K} {pb : Pb K B} {as : List Status} {xs : XState K} (h : XInv xs) (hw : WarmOk o pb as) :
    WarmOk o pb (usedAs o pb as xs) := by
  by_cases hws : o.warmStart = true
  · by_cases ha : as = []
    · have hu : usedAs o pb as xs = (resize xs.s pb.n pb.m pb.useBnd).A.status := by
        unfold usedAs
        rw [if_pos hws, if_pos ha]; unfold xresize; simp only []
      rw [hu]
      have hd := resize_dim_pb h.inv pb
      refine ⟨fun _ _ i hi => ?_, fun _ _ i hi => ?_⟩
      · by_cases hs : (resize xs.s pb.n pb.m pb.useBnd).A.statusAt i = .inactive
        · exact Or.inl hs
        · exact Or.inr (hd.wf.kindG i (by rw [hd.nbCstr]; exact hi) hs)
      · by_cases hs : (resize xs.s pb.n pb.m pb.useBnd).A.statusAt (pb.m + i) = .inactive
        · exact Or.inl hs
        · exact Or.inr (hd.wf.kindB (pb.m + i) (by rw [hd.nbCstr]; omega) hs)
    · have hu : usedAs o pb as xs = as := by
        unfold usedAs
        rw [if_pos hws, if_neg ha]
      rw [hu]; exact hw
  · exact ⟨fun h => absurd h hws, fun h => absurd h hws⟩

theorem usedAs_len {o : Opts K} {pb : Pb K B} {as : List Status} {xs : XState K} (h : XInv xs)
    (hl : as.length = pb.m + pb.nb ∨ as = []) (hws : o.warmStart = true) :
    usedAs o pb as xs = [] ∨ (usedAs o pb as xs).length = pb.m + pb.nb := by
  unfold usedAs
  rw [if_pos hws]
  by_cases ha : as = []
  · rw [if_pos ha]
    right
    have hd := resize_dim_pb h.inv pb
    have := hd.wf.size
    rw [hd.nbCstr, hd.nbBnd] at this
    unfold xresize; simp only []
    exact this
  · rw [if_neg ha]
    rcases hl with hl | hl
    · exact Or.inr hl
    · exact absurd hl ha

/-- Specification of the arguments accepted by the warm-started `solve` (the asserts of `solve` and
`processInitialActiveSet`): a vector of statuses, empty or with one entry of the right kind per constraint and bound,
empty if the warm-start option is off. -/
structure ArgOk (o : Opts K) (pb : Pb K B) (as : List Status) : Prop where
  len : as.length = pb.m + pb.nb ∨ as = []
  opt : o.warmStart = true ∨ as = []
  kind : WarmOk o pb as

/-- Structure of a call of the warm-started solver on legal arguments: it reports an overconstrained problem, or a
non-positive Hessian, or runs the loop of the base class from the state reached by `init_`. -/
theorem xsolve_cases {o : Opts K} {pb : Pb K B} {as : List Status} {xs : XState K} (h : XInv xs) (ha : ArgOk o pb as) :
    (pb.n < numWant o pb (usedAs o pb as xs) (·.isEq) ∧
      (o.dbg = true ∧ xsolve o pb as xs = .error .assertFailed ∨
       o.dbg = false ∧ ∃ xs', XInv xs' ∧ xsolve o pb as xs = .ok (.overconstrainedProblem, xs'))) ∨
    (numWant o pb (usedAs o pb as xs) (·.isEq) ≤ pb.n ∧ ¬ cholOk pb ∧
      ∃ xs', XInv xs' ∧ xsolve o pb as xs = .ok (.nonPosHessian, xs')) ∨
    (cholOk pb ∧ ∃ A xs1, InitA o pb (usedAs o pb as xs) (xsolveStart o pb as xs).s.A A ∧
      XGood pb (xstart o pb (xsolveStart o pb as xs) A) ∧
      dropLoop o pb A.q (xstart o pb (xsolveStart o pb as xs) A) = .ok xs1 ∧
      DropR o pb (xstart o pb (xsolveStart o pb as xs) A) xs1 ∧
      xsolve o pb as xs = match loop o pb (o.maxIter - xs1.s.it) xs1.s ⟨0, .inactive⟩ false with
          | .error e => .error e
          | .ok (t, s) =>
            match terminate o t s with
            | .error e => .error e
            | .ok (t, s) => .ok (t, { xs1 with s := s })) := by
  have hd : XDim pb (xsolveStart o pb as xs) := xsolveStart_dim h
  obtain ⟨t, xs1, e1, e2, e3⟩ := xinit_spec hd (usedAs_warmOk h ha.kind) (usedAs_len h ha.len)
  have eq := xsolve_eq (xs := xs) ⟨ha.len, ha.opt⟩
  rw [e1] at eq
  simp only [] at eq
  rcases e3 with ⟨rfl, e3⟩ | ⟨rfl, e3, e4⟩ | ⟨rfl, e4, A, _, e5, e6, e7, e8⟩
  · left
    refine ⟨e3, ?_⟩
    rw [if_pos (by simp)] at eq
    cases hdbg : o.dbg with
    | true => left; refine ⟨rfl, ?_⟩; rw [eq]; simp [terminate, hdbg]
    | false => right; refine ⟨rfl, xs1, e2.inv, ?_⟩; rw [eq]; simp [terminate, hdbg]
  · right; left
    refine ⟨e3, e4, xs1, e2.inv, ?_⟩
    rw [if_pos (by simp)] at eq
    rw [eq]; simp [terminate]
  · right; right
    refine ⟨e4, A, xs1, e5, e6, e7, e8, ?_⟩
    rw [if_neg (by simp)] at eq
    exact eq

/-- No fault, whatever the history of the solver and the warm start, with any arithmetic; in a debug build the problem
must not have more equalities than variables. -/
theorem xsolve_safe {o : Opts K} (law : FpLaws K o) {pb : Pb K B} {as : List Status} {xs : XState K} (h : XInv xs)
    (ha : ArgOk o pb as) (hd : o.dbg = false ∨ numWant o pb (usedAs o pb as xs) (·.isEq) ≤ pb.n) :
    ∃ t xs', xsolve o pb as xs = .ok (t, xs') ∧ XInv xs' := by
  rcases xsolve_cases h ha with ⟨h1, h2⟩ | ⟨_, _, xs', h1, h2⟩ | ⟨_, A, xs1, _, h1, _, h2, h3⟩
  · rcases h2 with ⟨h2, _⟩ | ⟨_, xs', h2, h3⟩
    · rcases hd with hd | hd
      · rw [h2] at hd; simp at hd
      · omega
    · exact ⟨_, _, h3, h2⟩
  · exact ⟨_, _, h2, h1⟩
  · obtain ⟨t, s', h4, h5⟩ := loop_safe law (o.maxIter - xs1.s.it) (sc := ⟨0, .inactive⟩) (skip := false)
      h2.good.good (by simp)
    rw [h4] at h3
    simp only [] at h3
    have : terminate o t s' = .ok (t, s') := by
      rcases loop_it _ h4 with ⟨rfl, _⟩ | ⟨rfl | rfl, _⟩ <;> rfl
    rw [this] at h3
    have hn : s'.nbVar = xs1.s.nbVar := h5.dim.nbVar.trans h2.good.good.dim.nbVar.symm
    exact ⟨_, _, h3, h5.dim.inv, by show s'.nbVar ≤ xs1.szB; rw [hn]; exact h2.good.szB,
      by show s'.nbVar ≤ xs1.szT; rw [hn]; exact h2.good.szT, by show s'.nbVar ≤ xs1.szH; rw [hn]; exact h2.good.szH⟩

theorem XInv.empty : XInv (XState.empty : XState K) := ⟨inv_empty, Nat.le_refl _, Nat.le_refl _, Nat.le_refl _⟩

end JrlQp
