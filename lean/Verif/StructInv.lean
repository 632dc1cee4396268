import Verif.StructSolve

/-!
# Any history of calls on a `BlockGISolver` leaves it with large enough workspaces
-/

namespace JrlQp

open NumOps

variable {K B : Type} [Zero K] [One K] [Add K] [Sub K] [Neg K] [Mul K] [Div K] [NumOps K B] [SumOps K]

/-- The sizes of a `StructuredQR` for `n` variables. -/
structure QSz (n : Nat) (qr : SQR K) : Prop where
  nbVar : qr.nbVar = n
  ld : 0 < n → 0 < qr.ldR ∧ qr.ldR ≤ n
  size : n * n ≤ qr.R.size
  szE : n ≤ qr.szE

/-- What the functions of the solver preserve. -/
structure BKeep (bs bs' : BState K) : Prop where
  nbVar : bs'.s.nbVar = bs.s.nbVar
  szX : bs'.s.szX = bs.s.szX
  szZ : bs'.s.szZ = bs.s.szZ
  szD : bs'.s.szD = bs.s.szD
  szU : bs'.s.szU = bs.s.szU
  szR : bs'.s.szR = bs.s.szR
  szCx : bs'.szCx = bs.szCx
  nbCstr : bs'.s.A.nbCstr = bs.s.A.nbCstr
  nbBnd : bs'.s.A.nbBnd = bs.s.A.nbBnd
  wf : bs.s.A.WF → bs'.s.A.WF
  qr : QSz bs.s.nbVar bs.qr → QSz bs.s.nbVar bs'.qr

theorem BKeep.refl (bs : BState K) : BKeep bs bs := ⟨rfl, rfl, rfl, rfl, rfl, rfl, rfl, rfl, rfl, id, id⟩

theorem BKeep.trans {a b c : BState K} (h : BKeep a b) (h' : BKeep b c) : BKeep a c :=
  ⟨h'.nbVar.trans h.nbVar, h'.szX.trans h.szX, h'.szZ.trans h.szZ, h'.szD.trans h.szD, h'.szU.trans h.szU, h'.szR.trans h.szR,
    h'.szCx.trans h.szCx, h'.nbCstr.trans h.nbCstr, h'.nbBnd.trans h.nbBnd, fun hw => h'.wf (h.wf hw),
    fun hq => by have := h'.qr (by rw [h.nbVar]; exact h.qr hq); rw [h.nbVar] at this; exact this⟩

theorem BInv.keep {bs bs' : BState K} (hi : BInv bs) (h : BKeep bs bs') : BInv bs' := by
  have hq := h.qr ⟨hi.qn, hi.ld, hi.size, hi.szE⟩
  refine ⟨h.wf hi.wf, ?_, ?_, ?_, ?_, ?_, ?_, ?_, ?_, ?_, ?_⟩
  · rw [h.nbVar, h.szX]; exact hi.szX
  · rw [h.nbVar, h.szZ]; exact hi.szZ
  · rw [h.nbVar, h.szD]; exact hi.szD
  · rw [h.nbCstr, h.nbBnd, h.szU]; exact hi.szU
  · rw [h.nbCstr, h.nbBnd, h.szR]; exact hi.szR
  · rw [h.nbCstr, h.szCx]; exact hi.szCx
  · rw [h.nbVar]; exact hq.nbVar
  · rw [h.nbVar]; exact hq.ld
  · rw [h.nbVar]; exact hq.size
  · rw [h.nbVar]; exact hq.szE

/-! ## `StructuredQR` -/

theorem memmove_size {w w' : WS K} {d s r : Nat} (h : w.memmove d s r = some w') : w'.size = w.size := by
  unfold WS.memmove at h
  split_ifs at h
  simp only [Option.some.injEq] at h
  rw [← h]

theorem growLd_size {rows o n k : Nat} : ∀ {w w' : WS K}, WS.growLd rows o n k w = some w' → w'.size = w.size := by
  induction k with
  | zero => intro w w' h; simp only [WS.growLd, Option.some.injEq] at h; rw [h]
  | succ k ih =>
    intro w w' h
    simp only [WS.growLd, Option.bind_eq_some_iff] at h
    obtain ⟨w1, h1, h2⟩ := h
    rw [ih h2, memmove_size h1]

theorem shrinkLd_size {rows o n : Nat} {w : WS K} (k : Nat) : ∀ {w' : WS K}, WS.shrinkLd rows o n w k = some w' → w'.size = w.size := by
  induction k with
  | zero => intro w' h; simp only [WS.shrinkLd, Option.some.injEq] at h; rw [h]
  | succ k ih =>
    intro w' h
    simp only [WS.shrinkLd, Option.bind_eq_some_iff] at h
    obtain ⟨w1, h1, h2⟩ := h
    rw [memmove_size h2, ih h1]

theorem changeLd_size {dbg : Bool} {w w' : WS K} {r c o n : Nat} (h : w.changeLd dbg r c o n = some w') : w'.size = w.size := by
  unfold WS.changeLd at h
  split_ifs at h
  · exact growLd_size h
  · exact shrinkLd_size _ h
  · simp only [Option.some.injEq] at h; rw [h]

theorem QSz.setQ {n : Nat} {qr : SQR K} (h : QSz n qr) (q : Nat) : QSz n { qr with q := q } := ⟨h.nbVar, h.ld, h.size, h.szE⟩

theorem QSz.getR {n : Nat} {qr qr' : SQR K} (h : QSz n qr) {k : Nat} (e : qr.getR k = some qr') : QSz n qr' := by
  unfold SQR.getR at e
  by_cases h1 : k ≤ qr.nbVar
  · rw [if_pos h1] at e
    by_cases h2 : qr.ldR < k
    · rw [if_pos h2, Option.bind_eq_some_iff] at e
      obtain ⟨q1, e1, e2⟩ := e
      rw [Option.map_eq_some_iff] at e1
      obtain ⟨w, e1, rfl⟩ := e1
      split_ifs at e2
      simp only [Option.some.injEq] at e2
      rw [← e2]
      refine ⟨h.nbVar, fun hn => ?_, ?_, h.szE⟩
      · have := (h.ld hn).1
        have h3 := h.nbVar
        show 0 < min (2 * qr.ldR) qr.nbVar ∧ min (2 * qr.ldR) qr.nbVar ≤ n
        rw [h3]
        exact ⟨lt_min (by omega) hn, min_le_right _ _⟩
      · show n * n ≤ w.size
        rw [changeLd_size e1]; exact h.size
    · rw [if_neg h2] at e
      simp only [Option.bind_some] at e
      split_ifs at e
      simp only [Option.some.injEq] at e
      rw [← e]; exact h
  · rw [if_neg h1] at e; cases e

theorem QSz.RSolve {n : Nat} {qr : SQR K} (h : QSz n qr) {k : Nat} {v : Nat → K} {r} (e : qr.RSolve k v = some r) : QSz n r.1 := by
  unfold SQR.RSolve at e
  split_ifs at e
  rw [Option.map_eq_some_iff] at e
  obtain ⟨q1, e1, rfl⟩ := e
  exact h.getR e1

theorem QSz.add {n : Nat} {qr qr' : SQR K} (h : QSz n qr) {d : Nat → K} (e : qr.add d = some qr') : QSz n qr' := by
  unfold SQR.add at e
  split_ifs at e
  simp only [] at e
  rw [Option.bind_eq_some_iff] at e
  obtain ⟨q1, e1, e2⟩ := e
  rw [Option.map_eq_some_iff] at e2
  obtain ⟨Q, _, rfl⟩ := e2
  have := h.getR e1
  exact ⟨this.nbVar, this.ld, this.size, this.szE⟩

theorem QSz.remove {n : Nat} {qr qr' : SQR K} (h : QSz n qr) {dbg : Bool} {l : Nat} (e : qr.remove dbg l = some qr') : QSz n qr' := by
  unfold SQR.remove at e
  split_ifs at e
  rw [Option.bind_eq_some_iff] at e
  obtain ⟨q1, e1, e2⟩ := e
  rw [Option.map_eq_some_iff] at e2
  obtain ⟨Q, _, rfl⟩ := e2
  have := (h.setQ _).getR e1
  exact ⟨this.nbVar, this.ld, this.size, this.szE⟩

/-! ## The iterations -/

theorem bComputeStep_keep {pb : BPb K B} {bs bs' : BState K} {sc : SC} (h : bComputeStep pb bs sc = some bs') : BKeep bs bs' := by
  unfold bComputeStep at h
  simp only [] at h
  rw [Option.bind_eq_some_iff] at h
  obtain ⟨d, _, h⟩ := h
  rw [Option.bind_eq_some_iff] at h
  obtain ⟨z, _, h⟩ := h
  rw [Option.map_eq_some_iff] at h
  obtain ⟨r, h1, rfl⟩ := h
  exact ⟨rfl, rfl, rfl, rfl, rfl, rfl, rfl, rfl, rfl, id, fun hq => hq.RSolve h1⟩

theorem bAdd_keep {bs bs' : BState K} {sc : SC} (h : bAdd bs sc = some bs') : BKeep bs bs' := by
  unfold bAdd at h
  split_ifs at h with h1
  rw [Option.map_eq_some_iff] at h
  obtain ⟨qr, h2, rfl⟩ := h
  simp only [Bool.and_eq_true] at h1
  exact ⟨rfl, rfl, rfl, rfl, rfl, rfl, rfl, ActiveSet.activate_nbCstr _ _ _, ActiveSet.activate_nbBnd _ _ _,
    fun hw => ActiveSet.wf_activate _ hw _ _ h1.1, fun hq => hq.add h2⟩

theorem bRemove_keep {o : Opts K} {bs bs' : BState K} {l : Nat} (h : bRemove o bs l = some bs') : BKeep bs bs' := by
  unfold bRemove at h
  simp only [] at h
  split_ifs at h with h1
  · rw [Option.map_eq_some_iff] at h
    obtain ⟨qr, h2, rfl⟩ := h
    simp only [Bool.and_eq_true] at h1
    exact ⟨rfl, rfl, rfl, rfl, rfl, rfl, rfl, ActiveSet.deactivate_nbCstr _ _, ActiveSet.deactivate_nbBnd _ _,
      fun hw => ActiveSet.wf_deactivate _ hw _ h1.1.2, fun hq => hq.remove h2⟩
  · rw [Option.map_eq_some_iff] at h
    obtain ⟨qr, h2, rfl⟩ := h
    simp only [Bool.and_eq_true] at h1
    exact ⟨rfl, rfl, rfl, rfl, rfl, rfl, rfl, ActiveSet.deactivate_nbCstr _ _, ActiveSet.deactivate_nbBnd _ _,
      fun hw => ActiveSet.wf_deactivate _ hw _ h1.1.2, fun hq => hq.remove h2⟩

/-- The state in the outcome of an iteration. -/
def BIter.st : BIter K → BState K
  | .done _ s => s
  | .cont s _ _ => s

theorem body_keep {o : Opts K} {pb : BPb K B} {bs : BState K} {sc : SC} {r} (h : biterBody o pb bs sc = .ok r) :
    BKeep bs r.st := by
  unfold biterBody at h
  split_ifs at h with h0
  cases h1 : bComputeStep pb bs sc with
  | none => rw [h1] at h; cases h
  | some b1 =>
    rw [h1] at h
    have k1 := bComputeStep_keep h1
    have k2 : ∀ t, BKeep bs { b1 with s := dualUpdate b1.s t } := fun t =>
      ⟨k1.nbVar, k1.szX, k1.szZ, k1.szD, k1.szU, k1.szR, k1.szCx, k1.nbCstr, k1.nbBnd, k1.wf, k1.qr⟩
    have k3 : ∀ t, BKeep bs { b1 with s := bFullUpdate pb b1.s sc t } := fun t =>
      ⟨k1.nbVar, k1.szX, k1.szZ, k1.szD, k1.szU, k1.szR, k1.szCx, k1.nbCstr, k1.nbBnd, k1.wf, k1.qr⟩
    simp only [] at h
    split_ifs at h with h2 h3 h4 h5
    · cases h; exact k1
    · split at h
      · cases h
      · rename_i b2 e; cases h; exact (k2 _).trans (bRemove_keep e)
    · split at h
      · cases h
      · rename_i b2 e; cases h; exact (k3 _).trans (bAdd_keep e)
    · split at h
      · cases h
      · rename_i b2 e; cases h; exact (k3 _).trans (bRemove_keep e)

theorem iterate_keep {o : Opts K} {pb : BPb K B} {bs : BState K} {sc : SC} {skip : Bool} {r}
    (h : biterate o pb bs sc skip = .ok r) : BKeep bs r.st := by
  unfold biterate at h
  simp only [] at h
  split_ifs at h with h1 h2 h3 h4
  · exact body_keep h
  · cases h; exact ⟨rfl, rfl, rfl, rfl, rfl, rfl, rfl, rfl, rfl, id, id⟩
  · refine BKeep.trans ?_ (body_keep h)
    exact ⟨rfl, rfl, rfl, rfl, rfl, rfl, rfl, rfl, rfl, id, id⟩

theorem bloop_keep {o : Opts K} {pb : BPb K B} (fuel : Nat) : ∀ {bs : BState K} {sc : SC} {skip : Bool} {t bs'},
    bloop o pb fuel bs sc skip = .ok (t, bs') → BKeep bs bs' := by
  induction fuel with
  | zero =>
    intro bs sc skip t bs' h
    simp only [bloop, Except.ok.injEq, Prod.mk.injEq] at h
    rw [← h.2]; exact BKeep.refl _
  | succ fuel ih =>
    intro bs sc skip t bs' h
    rw [bloop] at h
    cases h1 : biterate o pb bs sc skip with
    | error e => rw [h1] at h; cases h
    | ok r =>
      rw [h1] at h
      have k := iterate_keep h1
      cases r with
      | done t1 b1 =>
        simp only [Except.ok.injEq, Prod.mk.injEq] at h
        rw [← h.2]; exact k
      | cont b1 sc1 skip1 =>
        replace h : bloop o pb fuel { b1 with s := { b1.s with it := b1.s.it + 1 } } sc1 skip1 = .ok (t, bs') := h
        refine (BKeep.trans k ?_).trans (ih h)
        exact ⟨rfl, rfl, rfl, rfl, rfl, rfl, rfl, rfl, rfl, id, id⟩

/-! ## The initialisation -/

/-- Same sizes, still well-formed. -/
def AKeep (A A' : ActiveSet) : Prop := A'.nbCstr = A.nbCstr ∧ A'.nbBnd = A.nbBnd ∧ A'.WF

theorem AKeep.trans {a b c : ActiveSet} (h : AKeep a b) (h' : AKeep b c) : AKeep a c :=
  ⟨h'.1.trans h.1, h'.2.1.trans h.2.1, h'.2.2⟩

theorem activateBy_keep (st : Nat → Except Fault Status) (l : List Nat) : ∀ {A A' : ActiveSet}, A.WF →
    activateBy st l A = .ok A' → AKeep A A' := by
  induction l with
  | nil =>
    intro A A' hw h
    simp only [activateBy, Except.ok.injEq] at h
    rw [← h]; exact ⟨rfl, rfl, hw⟩
  | cons i l ih =>
    intro A A' hw h
    rw [activateBy] at h
    split at h
    · cases h
    · exact ih hw h
    · split_ifs at h with h1
      exact AKeep.trans ⟨ActiveSet.activate_nbCstr _ _ _, ActiveSet.activate_nbBnd _ _ _, ActiveSet.wf_activate _ hw _ _ h1⟩
        (ih (ActiveSet.wf_activate _ hw _ _ h1) h)

theorem trim_keep (n i : Nat) : ∀ {A A' : ActiveSet}, A.WF → i ≤ A.q → trim n i A = .ok A' → AKeep A A' := by
  induction i with
  | zero =>
    intro A A' hw _ h
    rw [trim] at h
    split_ifs at h
    simp only [Except.ok.injEq] at h
    rw [← h]; exact ⟨rfl, rfl, hw⟩
  | succ i ih =>
    intro A A' hw hi h
    rw [trim] at h
    split_ifs at h
    · simp only [Except.ok.injEq] at h
      rw [← h]; exact ⟨rfl, rfl, hw⟩
    · exact ih hw (by omega) h
    · have hp : A.deactivatePre i = true := by
        have := hw.q_eq
        simp only [ActiveSet.deactivatePre, decide_eq_true_eq]; omega
      have hq := hw.q_deactivate hp
      exact AKeep.trans ⟨ActiveSet.deactivate_nbCstr _ _, ActiveSet.deactivate_nbBnd _ _, ActiveSet.wf_deactivate _ hw _ hp⟩
        (ih (ActiveSet.wf_deactivate _ hw _ hp) (by omega) h)

theorem process_keep {o : Opts K} {pb : Pb K B} {n : Nat} {as : List Status} {A A' : ActiveSet} {t} (hw : A.WF)
    (h : processInitial o pb n as A = .ok (t, A')) : AKeep A A' := by
  unfold processInitial at h
  simp only [] at h
  have h0 : AKeep A A.reset := ⟨rfl, rfl, ActiveSet.wf_reset _ hw.size⟩
  split at h
  · cases h
  · rename_i A1 e1
    have k1 := activateBy_keep _ _ h0.2.2 e1
    split at h
    · cases h
    · rename_i A2 e2
      have k2 := activateBy_keep _ _ k1.2.2 e2
      have k := (h0.trans k1).trans k2
      split_ifs at h
      · simp only [Except.ok.injEq, Prod.mk.injEq] at h
        rw [← h.2]; exact k
      · split at h
        · cases h
        · rename_i A3 e3
          simp only [Except.ok.injEq, Prod.mk.injEq] at h
          rw [← h.2]; exact k.trans (trim_keep _ _ k2.2.2 le_rfl e3)
      · simp only [Except.ok.injEq, Prod.mk.injEq] at h
        rw [← h.2]; exact k

theorem bInit_keep {o : Opts K} {pb : BPb K B} {bs bs' : BState K} {t} (hw : bs.s.A.WF) (h : bInit o pb bs = .ok (t, bs')) :
    BKeep bs bs' := by
  unfold bInit at h
  simp only [] at h
  have hR : ∀ {n}, QSz n bs.qr → QSz n { bs.qr with R := if o.dbg then ⟨bs.qr.R.size, fun _ => 0⟩ else bs.qr.R } := by
    intro n hq
    refine ⟨hq.nbVar, hq.ld, ?_, hq.szE⟩
    have := hq.size
    split_ifs <;> exact this
  generalize ({ bs.qr with R := if o.dbg then ⟨bs.qr.R.size, fun _ => 0⟩ else bs.qr.R } : SQR K) = qr1 at h hR
  split at h
  · split at h
    · cases h
    · rename_i t1 A1 e1
      have k := process_keep hw e1
      split_ifs at h with h1 h2
      · simp only [Except.ok.injEq, Prod.mk.injEq] at h
        rw [← h.2]
        exact ⟨rfl, rfl, rfl, rfl, rfl, rfl, rfl, k.1, k.2.1, fun _ => k.2.2, hR⟩
      · simp only [Except.ok.injEq, Prod.mk.injEq] at h
        rw [← h.2]
        exact ⟨rfl, rfl, rfl, rfl, rfl, rfl, rfl, k.1, k.2.1, fun _ => k.2.2, hR⟩
      · split at h
        · cases h
        · rename_i b2 e2
          simp only [Except.ok.injEq, Prod.mk.injEq] at h
          rw [← h.2]
          unfold bInitPoint at e2
          split_ifs at e2
          rw [Option.bind_eq_some_iff] at e2
          obtain ⟨y, _, e2⟩ := e2
          rw [Option.map_eq_some_iff] at e2
          obtain ⟨w, _, rfl⟩ := e2
          refine ⟨rfl, rfl, rfl, rfl, rfl, rfl, rfl, k.1, k.2.1, fun _ => k.2.2, fun hq => ?_⟩
          have := hR hq
          exact ⟨this.nbVar, this.ld, this.size, this.szE⟩
  · cases h

theorem bdualSolve_keep {o : Opts K} {pb : BPb K B} {bs bs' : BState K} {t} (hw : bs.s.A.WF)
    (h : bdualSolve o pb bs = .ok (t, bs')) : BKeep bs bs' := by
  unfold bdualSolve at h
  have k0 : BKeep bs { bs with s := preInit o bs.s } := by
    refine ⟨rfl, rfl, rfl, rfl, rfl, rfl, rfl, ?_, ?_, ?_, id⟩
    · simp only [preInit]; split_ifs <;> rfl
    · simp only [preInit]; split_ifs <;> rfl
    · intro hw; simp only [preInit]; split_ifs
      · exact hw
      · exact ActiveSet.wf_reset _ hw.size
  have hte : ∀ {t1 : Term} {b1 : BState K}, (terminate o t1 b1.s).map (fun ts => (ts.1, b1)) = .ok (t, bs') → b1 = bs' := by
    intro t1 b1 h
    cases hx : terminate o t1 b1.s with
    | error e => rw [hx] at h; cases h
    | ok r => rw [hx] at h; simp only [Except.map, Except.ok.injEq, Prod.mk.injEq] at h; exact h.2
  split at h
  · cases h
  · rename_i t1 b1 e1
    have k1 := k0.trans (bInit_keep (k0.wf hw) e1)
    split_ifs at h
    · rw [← hte h]; exact k1
    · split at h
      · cases h
      · rename_i t2 b2 e2
        rw [← hte h]; exact k1.trans (bloop_keep _ e2)

/-- `solve` keeps the invariant, whatever the problem and the options, and whatever it returns. -/
theorem bsolve_inv {o : Opts K} {pb : BPb K B} {as : List Status} {fresh : Nat → K} {bs bs' : BState K} {t} (hi : BInv bs)
    (h : bsolve o pb as fresh bs = .ok (t, bs')) : BInv bs' := by
  unfold bsolve at h
  rw [ite_eq_iff] at h
  obtain ⟨_, h⟩ := h.resolve_right (by rintro ⟨_, h⟩; cases h)
  simp only [] at h
  obtain ⟨h1, _⟩ := bresize_inv (bs := { bs with g := pb.G })
    ⟨hi.wf, hi.szX, hi.szZ, hi.szD, hi.szU, hi.szR, hi.szCx, hi.qn, hi.ld, hi.size, hi.szE⟩ pb.n pb.m pb.useBnd fresh
  have h2 : BInv (if o.warmStart = true then
      { bresize { bs with g := pb.G } pb.n pb.m pb.useBnd fresh with
        as := if as = [] then (bresize { bs with g := pb.G } pb.n pb.m pb.useBnd fresh).s.A.status else as }
      else bresize { bs with g := pb.G } pb.n pb.m pb.useBnd fresh) := by
    split
    · exact ⟨h1.wf, h1.szX, h1.szZ, h1.szD, h1.szU, h1.szR, h1.szCx, h1.qn, h1.ld, h1.size, h1.szE⟩
    · exact h1
  exact h2.keep (bdualSolve_keep h2.wf h)

end JrlQp
