import Verif.StructHist
import Verif.PropsStruct

/-!
# The structured solver in any arithmetic

C53: no sequence of legal calls on a `BlockGISolver` fails, in any arithmetic satisfying the few laws `FpLaws` and `NulLaws`
(true of exact arithmetic and of IEEE doubles); the returned statuses are the documented ones.
C54: what a user observes after `solve` depends neither on the earlier calls, nor on the content of the memory, nor on the
build type.
-/

set_option linter.unusedSectionVars false

namespace JrlQp

open NumOps

section generic
variable {K B : Type} [Zero K] [One K] [Add K] [Sub K] [Neg K] [Mul K] [Div K] [NumOps K B] [SumOps K]

/-- The problems and arguments `BlockGISolver` supports: matrices of matching sizes, no equality constraint, no fixed
variable, and no active constraint in the warm start (which is optional). -/
structure BArgOk (o : Opts K) (pb : BPb K B) (as : List Status) : Prop where
  G : pb.G.ok
  C : pb.C.nbVar = pb.n
  gen : ∀ i < pb.m, bEq K (pb.bl i) (pb.bu i) = false
  bnd : ∀ i < pb.nb, bEq K (pb.xl i) (pb.xu i) = false
  warm : o.warmStart = true ↔ as ≠ []
  len : as ≠ [] → as.length = pb.m + pb.nb
  inactive : ∀ s ∈ as, s = .inactive

/-- The arithmetic is one of those covered. -/
def Arith (B : Type) [NumOps K B] (o : Opts K) : Prop := FpLaws K o (B := B) ∧ ∃ nul : K → Prop, NulLaws (B := B) o nul

theorem getD_inactive {as : List Status} (h : ∀ s ∈ as, s = .inactive) (i : Nat) : as.getD i .inactive = .inactive := by
  rw [List.getD_eq_getElem?_getD]
  cases hi : as[i]? with
  | none => rfl
  | some s => exact h s (List.mem_of_getElem? hi)

theorem process_none' {o : Opts K} {pb : BPb K B} {as : List Status} (h : BArgOk o pb as) (as' : List Status)
    (ha : o.warmStart = true → as' = as) {n : Nat} {A : ActiveSet} (hm : A.nbCstr = pb.m) (hb : A.nbBnd = pb.nb) :
    processInitial o pb.sides n as' A = .ok (.success, A.reset) := by
  have hs : o.warmStart = true → ∀ i, as'.getD i .inactive = .inactive := fun hw i => by
    rw [ha hw]; exact getD_inactive h.inactive i
  unfold processInitial
  simp only []
  have h1 : A.reset.nbCstr = pb.m := hm
  have h2 : A.reset.nbBnd = pb.nb := hb
  rw [activateBy_none]
  · simp only []
    rw [activateBy_none]
    · simp only [ActiveSet.reset_q]
      rw [if_neg (by omega)]
    · intro i hi
      rw [h1, List.mem_range] at hi
      have e : bEq K (pb.sides.bl i) (pb.sides.bu i) = false := h.gen i hi
      unfold initGen
      simp only [e, Bool.false_eq_true, if_false]
      rw [if_neg]
      rintro ⟨_, hw, hne⟩
      exact hne (hs hw i)
  · intro p hp
    obtain ⟨i, hi, rfl⟩ := List.mem_map.1 hp
    rw [h2, List.mem_range] at hi
    have e : bEq K (pb.sides.xl i) (pb.sides.xu i) = false := h.bnd i hi
    unfold initBnd
    simp only [h1, Nat.add_sub_cancel_left, e, Bool.false_eq_true, if_false]
    rw [if_neg]
    rintro ⟨_, hw, hne⟩
    exact hne (hs hw _)

/-- The state on which `bdualSolve` is called by `solve`. -/
def bStart (o : Opts K) (pb : BPb K B) (as : List Status) (fresh : Nat → K) (bs : BState K) : BState K :=
  let b := bresize { bs with g := pb.G } pb.n pb.m pb.useBnd fresh
  let b := if o.warmStart then { b with as := if as = [] then b.s.A.status else as } else b
  { b with s := preInit o b.s }

/-- `solve` once the arguments have been checked. -/
theorem bsolve_eq {o : Opts K} {pb : BPb K B} {as : List Status} (h : BArgOk o pb as) (fresh : Nat → K) (bs : BState K) :
    bsolve o pb as fresh bs =
      match bInit o pb (bStart o pb as fresh bs) with
      | .error e => .error e
      | .ok (t, bs) =>
        if t ≠ .success then (terminate o t bs.s).map fun ts => (ts.1, bs)
        else
          match bloop o pb (o.maxIter - bs.s.it) bs ⟨0, .inactive⟩ false with
          | .error e => .error e
          | .ok (t, bs) => (terminate o t bs.s).map fun ts => (ts.1, bs) := by
  unfold bsolve
  rw [if_pos]
  · rfl
  · refine ⟨h.C, ?_, ?_⟩
    · by_cases ha : as = []
      · exact Or.inr ha
      · exact Or.inl (h.len ha)
    · by_cases ha : as = []
      · exact Or.inr ha
      · exact Or.inl (h.warm.2 ha)

theorem bStart_spec {o : Opts K} {pb : BPb K B} {as : List Status} (h : BArgOk o pb as) (fresh : Nat → K) {bs : BState K} (hi : BInv bs) :
    BInv (bStart o pb as fresh bs) ∧ (bStart o pb as fresh bs).s.nbVar = pb.n ∧ (bStart o pb as fresh bs).s.A.nbCstr = pb.m ∧
      (bStart o pb as fresh bs).s.A.nbBnd = pb.nb ∧ (bStart o pb as fresh bs).g = pb.G ∧ (bStart o pb as fresh bs).s.it = 0 ∧
      (bStart o pb as fresh bs).s.needToExpand = true ∧ (o.warmStart = true → (bStart o pb as fresh bs).as = as) := by
  obtain ⟨h1, h2, h3, h4⟩ := bresize_inv (bs := { bs with g := pb.G })
    ⟨hi.wf, hi.szX, hi.szZ, hi.szD, hi.szU, hi.szR, hi.szCx, hi.qn, hi.ld, hi.size, hi.szE⟩ pb.n pb.m pb.useBnd fresh
  have hg : (bresize { bs with g := pb.G } pb.n pb.m pb.useBnd fresh).g = pb.G := by
    unfold bresize; simp only []; split_ifs <;> rfl
  unfold bStart
  simp only []
  generalize bresize { bs with g := pb.G } pb.n pb.m pb.useBnd fresh = b at *
  have hk : ∀ (o : Opts K) (b : BState K), BKeep b { b with s := preInit o b.s } := by
    intro o b
    refine ⟨rfl, rfl, rfl, rfl, rfl, rfl, rfl, ?_, ?_, ?_, id⟩
    · simp only [preInit]; split_ifs <;> rfl
    · simp only [preInit]; split_ifs <;> rfl
    · intro hw; simp only [preInit]; split_ifs
      · exact hw
      · exact ActiveSet.wf_reset _ hw.size
  by_cases hw : o.warmStart = true
  · rw [if_pos hw, if_neg (h.warm.1 hw)]
    have k1 : BKeep b { b with as := as } := ⟨rfl, rfl, rfl, rfl, rfl, rfl, rfl, rfl, rfl, id, id⟩
    have k := k1.trans (hk o _)
    exact ⟨h1.keep k, k.nbVar.trans h2, k.nbCstr.trans h3, k.nbBnd.trans h4, hg, rfl, rfl, fun _ => rfl⟩
  · rw [if_neg hw]
    have k := hk o b
    exact ⟨h1.keep k, k.nbVar.trans h2, k.nbCstr.trans h3, k.nbBnd.trans h4, hg, rfl, rfl, fun h => absurd h hw⟩

/-- The result of `init_`. -/
theorem bInit_eq {o : Opts K} {pb : BPb K B} {as : List Status} (h : BArgOk o pb as) {bs : BState K} (hi : BInv bs)
    (hn : bs.s.nbVar = pb.n) (hm : bs.s.A.nbCstr = pb.m) (hb : bs.s.A.nbBnd = pb.nb) (hg : bs.g = pb.G)
    (ha : o.warmStart = true → bs.as = as) :
    bInit o pb bs =
      (let b : BState K := { bs with qr := { bs.qr with R := if o.dbg then ⟨bs.qr.R.size, fun _ => 0⟩ else bs.qr.R },
                                     s := { bs.s with A := bs.s.A.reset }, g := pb.G.llt }
       if pb.G.llt.decomposed = false then .ok (.nonPosHessian, b)
       else match bInitPoint pb b with
         | none => .error .assertFailed
         | some b => .ok (.success, b)) := by
  unfold bInit
  simp only []
  rw [if_pos (by
    simp only [hn, hm, hb, hi.wf.size, le_refl, decide_true, Bool.true_and, Bool.or_eq_true, Bool.not_eq_true',
      ActiveSet.nbAll, decide_eq_true_eq]
    by_cases hw : o.warmStart = true
    · rw [ha hw]
      exact Or.inr (h.len (h.warm.1 hw))
    · exact Or.inl (Or.inl (by simpa using hw)))]
  rw [hn, process_none' h bs.as ha hm hb]
  simp only [ne_eq, not_true_eq_false, if_false, hg]
  rfl

theorem reset_congr {A A' : ActiveSet} (hw : A.WF) (hw' : A'.WF) (h1 : A'.nbCstr = A.nbCstr) (h2 : A'.nbBnd = A.nbBnd) :
    A'.reset = A.reset := by
  have a3 := hw.size
  have b3 := hw'.size
  have e3 : A'.status.length = A.status.length := by rw [a3, b3, h1, h2]
  simp only [ActiveSet.reset, h1, h2, e3]

theorem bInitPoint_sim {pb : BPb K B} {bs bs' : BState K} (hi : BInv bs) (hi' : BInv bs') (hn : bs.s.nbVar = pb.n)
    (hn' : bs'.s.nbVar = pb.n) (hm : bs.s.A.nbCstr = pb.m) (hb : bs.s.A.nbBnd = pb.nb) (hg : bs'.g = bs.g) (hok : bs.g.ok)
    (hd : bs.g.decomposed = true) (hgn : bs.g.nbVar = pb.n) (hA : bs'.s.A = bs.s.A) (hq : bs.s.A.q = 0) (hit : bs'.s.it = bs.s.it)
    (hne : bs'.s.needToExpand = bs.s.needToExpand) :
    ∃ b b', bInitPoint pb bs = some b ∧ bInitPoint pb bs' = some b' ∧ StSim pb 0 b b' ∧ b.s.it = bs.s.it ∧
      b.s.needToExpand = bs.s.needToExpand := by
  have hv : VEq pb.n (wr pb.n pb.a bs.s.x) (wr pb.n pb.a bs'.s.x) := by
    intro i hi
    simp only [wr, hi, if_true]
  obtain ⟨y, y', a1, a2, a3⟩ := SG.solveLHint_rel LinRel.eq hok 0 none (v := wr pb.n pb.a bs.s.x) (w := wr pb.n pb.a bs'.s.x)
    (by rw [hgn]; exact hv)
  obtain ⟨w, w', b1, b2, b3⟩ := SG.solveLT_rel LinRel.eq hok hd a3
  rw [hgn] at b3
  have e1 : bInitPoint pb bs = some { bs with qr := bs.qr.reset, s := { bs.s with x := wr pb.n (fun i => -w i) bs.s.x, f := half * esum (.objective pb.n) (fun i => pb.a i * (wr pb.n (fun i => -w i) bs.s.x) i) pb.n } } := by
    unfold bInitPoint SG.solveL
    rw [if_pos ⟨hq, hi.szX⟩, if_pos hd]
    simp only [hn]
    rw [a1]
    simp only [Option.bind_some]
    rw [b1]; rfl
  have e2 : bInitPoint pb bs' = some { bs' with qr := bs'.qr.reset, s := { bs'.s with x := wr pb.n (fun i => -w' i) bs'.s.x, f := half * esum (.objective pb.n) (fun i => pb.a i * (wr pb.n (fun i => -w' i) bs'.s.x) i) pb.n } } := by
    unfold bInitPoint SG.solveL
    rw [if_pos ⟨by rw [hA]; exact hq, hi'.szX⟩, hg, if_pos hd]
    simp only [hn']
    rw [a2]
    simp only [Option.bind_some]
    rw [b2]; rfl
  have hx : VEq pb.n (wr pb.n (fun i => -w i) bs.s.x) (wr pb.n (fun i => -w' i) bs'.s.x) := by
    intro i hi
    simp only [wr, hi, if_true]
    rw [b3 i hi]
  have hk : ∀ (b : BState K) (x : Nat → K) (f : K), BKeep b { b with qr := b.qr.reset, s := { b.s with x := x, f := f } } := fun b x f =>
    ⟨rfl, rfl, rfl, rfl, rfl, rfl, rfl, rfl, rfl, id, fun hq => ⟨hq.nbVar, hq.ld, hq.size, hq.szE⟩⟩
  have i1 := hi.keep (hk bs (wr pb.n (fun i => -w i) bs.s.x) (half * esum (.objective pb.n) (fun i => pb.a i * (wr pb.n (fun i => -w i) bs.s.x) i) pb.n))
  have i2 := hi'.keep (hk bs' (wr pb.n (fun i => -w' i) bs'.s.x) (half * esum (.objective pb.n) (fun i => pb.a i * (wr pb.n (fun i => -w' i) bs'.s.x) i) pb.n))
  refine ⟨_, _, e1, e2, ⟨?_, i1, i2, hn, hm, hb, hg, hok, hd, hgn, ?_, hq.symm⟩, rfl, rfl⟩
  · refine { nbVar := hn'.trans hn.symm, A := hA, it := hit, f := ?_, need := hne, x := ?_, u := ?_, J := fun _ _ _ _ => rfl,
             R := fun _ _ _ _ => rfl }
    · show half * esum (.objective pb.n) (fun i => pb.a i * (wr pb.n (fun i => -w' i) bs'.s.x) i) pb.n = half * esum (.objective pb.n) (fun i => pb.a i * (wr pb.n (fun i => -w i) bs.s.x) i) pb.n
      rw [esum_congr fun i hi => by rw [← hx i hi]]
    · intro i hi
      exact hx i (hn ▸ hi)
    · intro i hi
      have hi' : i < bs.s.A.q + 0 := hi
      omega
  · have h1 : QSz pb.n bs.qr := ⟨by rw [← hn]; exact hi.qn, by rw [← hn]; exact hi.ld, by rw [← hn]; exact hi.size, by rw [← hn]; exact hi.szE⟩
    have h2 : QSz pb.n bs'.qr := ⟨by rw [← hn']; exact hi'.qn, by rw [← hn']; exact hi'.ld, by rw [← hn']; exact hi'.size, by rw [← hn']; exact hi'.szE⟩
    exact ⟨⟨h1.nbVar, h1.ld, h1.size, h1.szE⟩, ⟨h2.nbVar, h2.ld, h2.size, h2.szE⟩, rfl, Nat.zero_le _, Nat.zero_le _, Nat.zero_le _,
      fun j hj => absurd hj (Nat.not_lt_zero _), trivial⟩

theorem multipliers_none {s : State K} (hn : s.needToExpand = true) (hq : s.A.q = 0) : (multipliers s).u = fun _ => 0 := by
  unfold multipliers
  rw [if_pos hn]
  simp only [hq]
  rfl

theorem obs_none {s s' : State K} {n : Nat} (h1 : s.needToExpand = true) (h2 : s'.needToExpand = true) (h3 : s.A.q = 0)
    (h4 : s'.A.q = 0) (h5 : s'.A = s.A) (h6 : s'.it = s.it) : obs n (.nonPosHessian, s) = obs n (.nonPosHessian, s') := by
  simp only [JrlQp.obs, multipliers_none h1 h3, multipliers_none h2 h4, h5, h6, if_true]

theorem Sim.obs {s s' : State K} {n : Nat} (h : Sim 0 s s') (hn : s.nbVar = n) (hne : s.needToExpand = true) (hw : s.A.WF) (t : Term) :
    obs n (t, s) = obs n (t, s') := by
  have hm := multipliers_sim h hne hw
  have hx : (List.range n).map s.x = (List.range n).map s'.x :=
    List.map_congr_left fun i hi => h.x i (hn ▸ List.mem_range.1 hi)
  have hu : (multipliers s').u = (multipliers s).u := funext hm
  simp only [JrlQp.obs, h.it, h.A, h.f, hx, hu]

theorem clr_obs (n : Nat) (t : Term) (s : State K) : obs n (t, s.clr) = obs n (t, s) := by
  have : (multipliers s.clr).u = (multipliers s).u := by
    unfold multipliers State.clr
    simp only []
    split_ifs <;> rfl
  simp only [JrlQp.obs, this]
  rfl

/-- Statuses `BlockGISolver::solve` can return on a supported problem. -/
def bStatusOk (t : Term) : Prop := t = .success ∨ t = .infeasible ∨ t = .maxIterReached ∨ t = .nonPosHessian

/-- Two calls of `solve` on the same supported problem, on solvers with different histories, in builds of different types: none
fails and they give the same results. -/
theorem bsolve_sim {o o' : Opts K} (ho : OEq o o') (har : Arith B o) {pb : BPb K B} {as as' : List Status} (ha : BArgOk o pb as)
    (ha' : BArgOk o' pb as') (fresh fresh' : Nat → K) {bs bs' : BState K} (hi : BInv bs) (hi' : BInv bs') :
    ∃ t b b', bsolve o pb as fresh bs = .ok (t, b) ∧ bsolve o' pb as' fresh' bs' = .ok (t, b') ∧ BInv b ∧ BInv b' ∧
      obs pb.n (t, b.s) = obs pb.n (t, b'.s) ∧ bStatusOk t ∧ b.s.it ≤ o.maxIter ∧ (t = .maxIterReached → b.s.it = o.maxIter) ∧
      (t = .nonPosHessian ↔ pb.G.llt.decomposed = false) ∧ b.s.A.q ≤ pb.n := by
  obtain ⟨law, nul, hnul⟩ := har
  obtain ⟨s1, s2, s3, s4, s5, s6, s7, s8⟩ := bStart_spec ha fresh hi
  obtain ⟨s1', s2', s3', s4', s5', s6', s7', s8'⟩ := bStart_spec ha' fresh' hi'
  rw [bsolve_eq ha, bsolve_eq ha', bInit_eq ha s1 s2 s3 s4 s5 s8, bInit_eq ha' s1' s2' s3' s4' s5' s8']
  generalize bStart o pb as fresh bs = c at *
  generalize bStart o' pb as' fresh' bs' = c' at *
  simp only []
  have hr : c'.s.A.reset = c.s.A.reset := reset_congr s1.wf s1'.wf (by rw [s3, s3']) (by rw [s4, s4'])
  have hk : ∀ (c : BState K) (w : WS K) (g : SG K), w.size = c.qr.R.size →
      BKeep c { c with qr := { c.qr with R := w }, s := { c.s with A := c.s.A.reset }, g := g } := fun c w g hs =>
    ⟨rfl, rfl, rfl, rfl, rfl, rfl, rfl, rfl, rfl, fun hw => ActiveSet.wf_reset _ hw.size,
      fun hq => ⟨hq.nbVar, hq.ld, by show _ ≤ w.size; rw [hs]; exact hq.size, hq.szE⟩⟩
  have hsz : ∀ (b : Bool) (w : WS K), (if b then ⟨w.size, fun _ => 0⟩ else w : WS K).size = w.size := by
    intro b w; split_ifs <;> rfl
  have k1 := s1.keep (hk c _ pb.G.llt (hsz o.dbg c.qr.R))
  have k1' := s1'.keep (hk c' _ pb.G.llt (hsz o'.dbg c'.qr.R))
  cases hd : pb.G.llt.decomposed with
  | false =>
    rw [if_pos rfl, if_pos rfl]
    simp only []
    rw [if_pos (show Term.nonPosHessian ≠ .success by decide), if_pos (show Term.nonPosHessian ≠ .success by decide)]
    refine ⟨.nonPosHessian, _, _, rfl, rfl, k1, k1', ?_, Or.inr (Or.inr (Or.inr rfl)), by show c.s.it ≤ _; omega, (fun h => by cases h), by simp,
      by show c.s.A.reset.q ≤ _; rw [ActiveSet.reset_q]; exact Nat.zero_le _⟩
    exact obs_none s7 s7' (ActiveSet.reset_q _) (ActiveSet.reset_q _) hr (s6'.trans s6.symm)
  | true =>
    simp only [Bool.true_eq_false, if_false]
    have hgn : pb.G.llt.nbVar = pb.n := by
      obtain ⟨_, a2, a3⟩ := pb.G.llt_keep
      unfold SG.nbVar BPb.n SG.nbVar
      rw [a2, a3]
    obtain ⟨b, b', e1, e2, e3, e4, e5⟩ := bInitPoint_sim (pb := pb) k1 k1' s2 s2' s3 s4 rfl (SG.llt_ok ha.G) hd hgn hr
      (ActiveSet.reset_q _) (s6'.trans s6.symm) (s7'.trans s7.symm)
    rw [e1, e2]
    simp only []
    have hit : b.s.it = 0 := e4.trans s6
    have hit' : b'.s.it = 0 := (show b'.s.it = b.s.it from e3.core.it).trans hit
    rw [hit, hit', ho.maxIter]
    obtain ⟨t, d, d', f1, f2, f3, f4, f5, f6⟩ := bloop_sim ho law hnul ha.C (o.maxIter - 0) (sc := ⟨0, .inactive⟩) (skip := false) e3 (fun h => by cases h)
    rw [if_neg (by simp), if_neg (by simp), f1, f2]
    have ht : ∀ (o : Opts K) (d : BState K), (terminate o t d.s).map (fun ts => (ts.1, d)) = .ok (t, d) := by
      intro o d
      rcases f4 with h | h | h <;> rw [h] <;> rfl
    simp only []
    rw [ht, ht]
    have hneed : d.s.needToExpand = true := by
      have h0 : b.s.needToExpand = true := e5.trans s7
      have key : ∀ (fuel : Nat) {bs : BState K} {sc : SC} {skip : Bool} {t d}, bloop o pb fuel bs sc skip = .ok (t, d) →
          d.s.needToExpand = bs.s.needToExpand := by
        intro fuel
        induction fuel with
        | zero => intro bs sc skip t d h; simp only [bloop, Except.ok.injEq, Prod.mk.injEq] at h; rw [← h.2]
        | succ fuel ih =>
          intro bs sc skip t d h
          have hbody : ∀ {bs : BState K} {sc : SC} {r}, biterBody o pb bs sc = .ok r → r.st.s.needToExpand = bs.s.needToExpand := by
            intro bs sc r h
            unfold biterBody at h
            split_ifs at h with h0
            cases h1 : bComputeStep pb bs sc with
            | none => rw [h1] at h; cases h
            | some b1 =>
              rw [h1] at h
              have hb1 : b1.s.needToExpand = bs.s.needToExpand := by
                unfold bComputeStep at h1
                simp only [] at h1
                rw [Option.bind_eq_some_iff] at h1
                obtain ⟨d, _, h1⟩ := h1
                rw [Option.bind_eq_some_iff] at h1
                obtain ⟨z, _, h1⟩ := h1
                rw [Option.map_eq_some_iff] at h1
                obtain ⟨r, _, rfl⟩ := h1
                rfl
              have hrem : ∀ {b b2 : BState K} {l}, bRemove o b l = some b2 → b2.s.needToExpand = b.s.needToExpand := by
                intro b b2 l h
                unfold bRemove at h
                simp only [] at h
                split_ifs at h with h1
                · rw [Option.map_eq_some_iff] at h
                  obtain ⟨qr, _, rfl⟩ := h; rfl
                · rw [Option.map_eq_some_iff] at h
                  obtain ⟨qr, _, rfl⟩ := h; rfl
              have hadd : ∀ {b b2 : BState K} {sc}, bAdd b sc = some b2 → b2.s.needToExpand = b.s.needToExpand := by
                intro b b2 l h
                unfold bAdd at h
                split_ifs at h with h1
                rw [Option.map_eq_some_iff] at h
                obtain ⟨qr, _, rfl⟩ := h; rfl
              simp only [] at h
              split_ifs at h with h2 h3 h4 h5
              · cases h; exact hb1
              · split at h
                · cases h
                · rename_i b2 e; cases h; exact (hrem e).trans hb1
              · split at h
                · cases h
                · rename_i b2 e; cases h; exact (hadd e).trans hb1
              · split at h
                · cases h
                · rename_i b2 e; cases h; exact (hrem e).trans hb1
          have hiter : ∀ {r}, biterate o pb bs sc skip = .ok r → r.st.s.needToExpand = bs.s.needToExpand := by
            intro r h
            unfold biterate at h
            simp only [] at h
            split_ifs at h with h1 h2 h3 h4
            · exact hbody h
            · cases h; rfl
            · have k := hbody h
              exact k
          rw [bloop] at h
          cases h1 : biterate o pb bs sc skip with
          | error e => rw [h1] at h; cases h
          | ok r =>
            rw [h1] at h
            have k := hiter h1
            cases r with
            | done t1 b1 =>
              simp only [Except.ok.injEq, Prod.mk.injEq] at h
              rw [← h.2]; exact k
            | cont b1 sc1 skip1 =>
              replace h : bloop o pb fuel { b1 with s := { b1.s with it := b1.s.it + 1 } } sc1 skip1 = .ok (t, d) := h
              exact (ih h).trans k
      exact (key _ f1).trans h0
    refine ⟨t, d, d', rfl, rfl, f3.inv, f3.inv', ?_, ?_, by omega, fun h => by have := f6 h; omega, ?_, f3.q_le⟩
    · rw [← clr_obs, ← clr_obs pb.n t d'.s]
      exact f3.core.obs f3.nbVar hneed f3.inv.wf t
    · rcases f4 with h | h | h
      · exact Or.inl h
      · exact Or.inr (Or.inl h)
      · exact Or.inr (Or.inr (Or.inl h))
    · rcases f4 with h | h | h <;> rw [h] <;> simp

/-! ## Sequences of calls -/

/-- Public calls on a structured solver object. Each solve comes with the options in force; `fresh` is the content of the memory the
call allocates. -/
inductive BCall (K B : Type)
  | resize (nbVar nbCstr : Nat) (useBounds : Bool) (fresh : Nat → K)
  | solve (o : Opts K) (pb : BPb K B) (as : List Status) (fresh : Nat → K)
  | multipliers
  | resetActiveSet

/-- Effect of a call; reading `multipliers()` views `work_u_` with size `nbAll` and `work_r_` with size `q`
(src/DualSolver.cpp:46-89). -/
def bcall (bs : BState K) : BCall K B → Except Fault (BState K)
  | .resize n m b fresh => .ok (bresize bs n m b fresh)
  | .solve o pb as fresh => (bsolve o pb as fresh bs).map Prod.snd
  | .multipliers =>
    if decide (bs.s.A.nbAll ≤ bs.s.szU) && decide (bs.s.A.q ≤ bs.s.szR) then .ok { bs with s := multipliers bs.s }
    else .error .outOfBounds
  | .resetActiveSet => .ok { bs with s := resetActiveSet bs.s }

/-- A sequence of calls. -/
def bcalls : List (BCall K B) → BState K → Except Fault (BState K)
  | [], bs => .ok bs
  | c :: cs, bs =>
    match bcall bs c with
    | .error e => .error e
    | .ok bs => bcalls cs bs

/-- Legal calls. -/
def BCall.Admissible : BCall K B → Prop
  | .solve o pb as _ => Arith B o ∧ BArgOk o pb as
  | _ => True

theorem bcall_safe {bs : BState K} (h : BInv bs) (c : BCall K B) (hc : c.Admissible) : ∃ bs', bcall bs c = .ok bs' ∧ BInv bs' := by
  cases c with
  | resize n m b fresh => exact ⟨_, rfl, (bresize_inv h n m b fresh).1⟩
  | solve o pb as fresh =>
    obtain ⟨t, b, b', e1, _, e3, _⟩ := bsolve_sim (o := o) (o' := o) ⟨rfl, rfl, rfl⟩ hc.1 hc.2 hc.2 fresh fresh h h
    exact ⟨b, by simp [bcall, e1, Except.map], e3⟩
  | multipliers =>
    have hq := h.wf.q_le
    have h1 := h.szU
    have h2 := h.szR
    refine ⟨{ bs with s := multipliers bs.s }, ?_, ?_⟩
    · simp only [bcall]; rw [if_pos (by simp [ActiveSet.nbAll]; exact ⟨decide_eq_true h1, le_trans hq h2⟩)]
    · have k : ∀ s : State K, (JrlQp.multipliers s).nbVar = s.nbVar ∧ (JrlQp.multipliers s).A = s.A ∧
          (JrlQp.multipliers s).szX = s.szX ∧ (JrlQp.multipliers s).szZ = s.szZ ∧ (JrlQp.multipliers s).szD = s.szD ∧
          (JrlQp.multipliers s).szU = s.szU ∧ (JrlQp.multipliers s).szR = s.szR := by
        intro s; unfold JrlQp.multipliers; split_ifs <;> exact ⟨rfl, rfl, rfl, rfl, rfl, rfl, rfl⟩
      obtain ⟨k1, k2, k3, k4, k5, k6, k7⟩ := k bs.s
      exact h.keep ⟨k1, k3, k4, k5, k6, k7, rfl, by rw [k2], by rw [k2], by rw [k2]; exact id, id⟩
  | resetActiveSet =>
    exact ⟨_, rfl, h.keep ⟨rfl, rfl, rfl, rfl, rfl, rfl, rfl, rfl, rfl, fun hw => ActiveSet.wf_reset _ hw.size, id⟩⟩

theorem bcalls_safe (cs : List (BCall K B)) : ∀ {bs : BState K}, BInv bs → (∀ c ∈ cs, c.Admissible) →
    ∃ bs', bcalls cs bs = .ok bs' ∧ BInv bs' := by
  induction cs with
  | nil => intro bs h _; exact ⟨bs, rfl, h⟩
  | cons c cs ih =>
    intro bs hs hc
    obtain ⟨s1, h1, h2⟩ := bcall_safe hs c (hc c List.mem_cons_self)
    obtain ⟨s2, h3, h4⟩ := ih h2 (fun c' h' => hc c' (List.mem_cons_of_mem _ h'))
    exact ⟨s2, by simp only [bcalls, h1]; exact h3, h4⟩

/-- **C53.** In any arithmetic satisfying the few laws `FpLaws` and `NulLaws`, no sequence of legal calls on a structured solver
reads or writes outside of a buffer or of the blocks, changes the leading dimension of a too small buffer, or fails an
assertion. -/
theorem C53_no_fault (cs : List (BCall K B)) (hcs : ∀ c ∈ cs, c.Admissible) :
    ∃ bs, bcalls cs (BState.empty : BState K) = .ok bs := by
  obtain ⟨bs, h, _⟩ := bcalls_safe cs (binv_empty (K := K)) hcs
  exact ⟨bs, h⟩

/-- **C53, status.** After any legal history, `solve` returns SUCCESS, INFEASIBLE, MAX_ITER_REACHED or NON_POS_HESSIAN, the last one
exactly when the block Cholesky factorisation of the Hessian fails; it performs at most `maxIter` iterations, and
exactly `maxIter` when it gives up. -/
theorem C53_status (cs : List (BCall K B)) (hcs : ∀ c ∈ cs, c.Admissible) {o : Opts K} (har : Arith B o) {pb : BPb K B} {as : List Status}
    (ha : BArgOk o pb as) (fresh : Nat → K) :
    ∃ bs t bs', bcalls cs (BState.empty : BState K) = .ok bs ∧ bsolve o pb as fresh bs = .ok (t, bs') ∧
      (t = .success ∨ t = .infeasible ∨ t = .maxIterReached ∨ t = .nonPosHessian) ∧ bs'.s.it ≤ o.maxIter ∧
      (t = .maxIterReached → bs'.s.it = o.maxIter) ∧ (t = .nonPosHessian ↔ pb.G.llt.decomposed = false) := by
  obtain ⟨bs, h1, h2⟩ := bcalls_safe cs (binv_empty (K := K)) hcs
  obtain ⟨t, b, b', e1, _, _, _, _, e2, e3, e4, e5, _⟩ := bsolve_sim (o := o) (o' := o) ⟨rfl, rfl, rfl⟩ har ha ha fresh fresh h2 h2
  exact ⟨bs, t, b, h1, e1, e2, e3, e4, e5⟩

/-- **C54.** In any arithmetic: the observables after `solve` (status, number of iterations, active set, multipliers, and, unless the
Hessian was refused, solution and objective value) do not depend on the earlier calls, on the content of newly allocated
memory, on the build type (`dbg`), or on giving a warm start without active constraint instead of none. -/
theorem C54_history_independence (cs cs' : List (BCall K B)) (hcs : ∀ c ∈ cs, c.Admissible) (hcs' : ∀ c ∈ cs', c.Admissible)
    {o o' : Opts K} (ho : OEq o o') (har : Arith B o) {pb : BPb K B} {as as' : List Status} (ha : BArgOk o pb as)
    (ha' : BArgOk o' pb as') (fresh fresh' : Nat → K) :
    ∃ bs bs' t b b', bcalls cs (BState.empty : BState K) = .ok bs ∧ bcalls cs' (BState.empty : BState K) = .ok bs' ∧
      bsolve o pb as fresh bs = .ok (t, b) ∧ bsolve o' pb as' fresh' bs' = .ok (t, b') ∧ obs pb.n (t, b.s) = obs pb.n (t, b'.s) := by
  obtain ⟨bs, h1, h2⟩ := bcalls_safe cs (binv_empty (K := K)) hcs
  obtain ⟨bs', h1', h2'⟩ := bcalls_safe cs' (binv_empty (K := K)) hcs'
  obtain ⟨t, b, b', e1, e2, _, _, e3, _⟩ := bsolve_sim ho har ha ha' fresh fresh' h2 h2'
  exact ⟨bs, bs', t, b, b', h1, h1', e1, e2, e3⟩

end generic

/-! ## The hypotheses are met -/

theorem nulLaws_real (o : Opts ℝ) (h : 0 ≤ o.tiny) : NulLaws o (fun a : ℝ => a = 0) where
  zero := rfl
  add := by intro a b h h'; rw [h, h', add_zero]
  sub := by intro a b h h'; rw [h, h', sub_zero]
  mul := by intro c a h; rw [h, mul_zero]
  mul' := by intro c a h; rw [h, zero_mul]
  div := by intro c a h; rw [h, zero_div]
  sqrt := by intro a h; rw [h]; exact Real.sqrt_zero
  tiny := by intro a ha; rw [ha]; simpa [ltb] using h

theorem arith_real (o : Opts ℝ) (h : 0 ≤ o.tiny) : Arith EReal o := ⟨fpLaws_real o h, _, nulLaws_real o h⟩

/-- A problem with an active constraint at its solution is supported, with and without a warm start. -/
theorem C53_hypotheses_met : BArgOk exOpts (exBPb ⊤) [] ∧
    BArgOk { exOpts with warmStart := true } (exBPb ⊤) [.inactive, .inactive] ∧ Arith EReal exOpts := by
  have hm : (exBPb ⊤).m = 2 := by simp [BPb.m, exBPb, StrC.nbCstr, off]
  have hn : (exBPb ⊤).n = 2 := by simp [BPb.n, exBPb, SG.nbVar, off]
  have hnb : (exBPb ⊤).nb = 0 := by simp [BPb.nb, exBPb]
  obtain ⟨a1, _, a3, a4, _⟩ := C40_hypotheses_met
  have g1 : ∀ i < (exBPb ⊤).m, bEq ℝ ((exBPb ⊤).bl i) ((exBPb ⊤).bu i) = false := fun i hi => by simpa [bEq] using a4.1 i hi
  have g2 : ∀ i < (exBPb ⊤).nb, bEq ℝ ((exBPb ⊤).xl i) ((exBPb ⊤).xu i) = false := fun i hi => by simpa [bEq] using a4.2 i hi
  refine ⟨⟨a1, a3, g1, g2, by simp [exOpts], by simp, by simp⟩, ⟨a1, a3, g1, g2, by simp, by simp [hm, hnb], by simp⟩,
    arith_real _ (by norm_num [exOpts])⟩

end JrlQp
