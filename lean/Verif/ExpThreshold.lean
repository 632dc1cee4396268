import Verif.PropsExp
import Verif.ExactThreshold

/-!
# Harmless thresholds exist for the warm-started solver (C24)
-/

namespace JrlQp

open NumOps Finset Spec

theorem Ev.exists' {dbg : Bool} {P : Opts ℝ → Prop} (h : Ev dbg P) (ws : Bool) :
    ∃ o : Opts ℝ, o.dbg = dbg ∧ o.tiny = 0 ∧ o.warmStart = ws ∧ P o := by
  obtain ⟨ε, he, β, h⟩ := h
  exact ⟨⟨0, β + 1, ws, 0, dbg⟩, rfl, rfl, rfl, h _ rfl le_rfl he (by simp)⟩

/-- The side a status refers to is infinite. -/
noncomputable def infSide0 (pb : Pb ℝ EReal) (i : Nat) : Status → Bool
  | .lower => decide (pb.bl i = ⊥)
  | .upper => decide (pb.bu i = ⊤)
  | .lowerBound => decide (pb.xl (i - pb.m) = ⊥)
  | .upperBound => decide (pb.xu (i - pb.m) = ⊤)
  | _ => false

theorem ev_low {dbg : Bool} (b : EReal) : Ev dbg (fun o => bLt ℝ b (ofK (-o.bigBnd)) = decide (b = ⊥)) := by
  induction b using EReal.rec with
  | bot =>
      refine (Ev.const trivial).mono fun o _ _ _ => ?_
      have : (⊥ : EReal) < ((-o.bigBnd : ℝ) : EReal) := EReal.bot_lt_coe _
      simp only [bLt, ofK, decide_true, decide_eq_true_eq]
      exact this
  | top => exact (Ev.const trivial).mono fun o _ _ _ => by simp [bLt, ofK]
  | coe r =>
    refine (ev_big (-r)).mono fun o _ _ h => ?_
    have : ¬ ((r : EReal) < ((-o.bigBnd : ℝ) : EReal)) := by
      rw [EReal.coe_lt_coe_iff]; linarith
    simp only [bLt, ofK, EReal.coe_ne_bot, decide_false, decide_eq_false_iff_not]
    exact this

theorem ev_up {dbg : Bool} (b : EReal) : Ev dbg (fun o => bLt ℝ (ofK o.bigBnd) b = decide (b = ⊤)) := by
  induction b using EReal.rec with
  | bot => exact (Ev.const trivial).mono fun o _ _ _ => by simp [bLt, ofK]
  | top => exact (Ev.const trivial).mono fun o _ _ _ => by simp [bLt, ofK, EReal.coe_lt_top]
  | coe r =>
    refine (ev_big r).mono fun o _ _ h => ?_
    have : ¬ (((o.bigBnd : ℝ) : EReal) < (r : EReal)) := by
      rw [EReal.coe_lt_coe_iff]; linarith
    simp only [bLt, ofK, EReal.coe_ne_top, decide_false, decide_eq_false_iff_not]
    exact this

theorem ev_infSide {dbg : Bool} (pb : Pb ℝ EReal) :
    Ev dbg (fun o => ∀ i < pb.m + pb.nb, ∀ st, infSide o pb i st = infSide0 pb i st) := by
  refine ev_ball _ fun i _ => ?_
  refine ((((ev_low (pb.bl i)).and (ev_up (pb.bu i))).and (ev_low (pb.xl (i - pb.m)))).and (ev_up (pb.xu (i - pb.m)))).mono ?_
  rintro o _ _ ⟨⟨⟨h1, h2⟩, h3⟩, h4⟩ st
  cases st <;> simp only [infSide, infSide0] <;> assumption

theorem want_indep {o o' : Opts ℝ} {pb : Pb ℝ EReal} (hws : o'.warmStart = o.warmStart)
    (h : ∀ i < pb.m + pb.nb, ∀ st, infSide o' pb i st = infSide o pb i st) (as : List Status) {i : Nat} (hi : i < pb.m + pb.nb) :
    want o' pb as i = want o pb as i := by
  unfold want
  rw [hws, h i hi]

theorem activateBy_congr {st st' : Nat → Except Fault Status} (l : List Nat) (h : ∀ i ∈ l, st i = st' i) :
    ∀ A, activateBy st l A = activateBy st' l A := by
  induction l with
  | nil => intro A; rfl
  | cons i l ih =>
    intro A
    have ih := ih fun j hj => h j (List.mem_cons_of_mem _ hj)
    unfold activateBy
    rw [h i List.mem_cons_self]
    rcases st' i with e | s
    · rfl
    · cases s <;> simp only [] <;> simp only [ih]

theorem processInitial_indep {o o' : Opts ℝ} {pb : Pb ℝ EReal} {as : List Status} (hk : WarmOk o pb as) (hws : o'.warmStart = o.warmStart)
    (h : ∀ i < pb.m + pb.nb, ∀ st, infSide o' pb i st = infSide o pb i st) (n : Nat) {A : ActiveSet}
    (hm : A.nbCstr = pb.m) (hnb : A.nbBnd = pb.nb) :
    processInitial o' pb n as A = processInitial o pb n as A := by
  have hk' : WarmOk o' pb as := ⟨by rw [hws]; exact hk.gen, by rw [hws]; exact hk.bnd⟩
  have hrm : A.reset.nbCstr = pb.m := hm
  have hrb : A.reset.nbBnd = pb.nb := hnb
  have hb : ∀ i < pb.nb, initBnd o' pb as pb.m i = initBnd o pb as pb.m i := by
    intro i hi
    rw [(initBnd_eq hk hi).1, (initBnd_eq hk' hi).1, want_indep hws h as (by omega)]
  have hg : ∀ i < pb.m, initGen o' pb as i = initGen o pb as i := by
    intro i hi
    rw [(initGen_eq hk hi).1, (initGen_eq hk' hi).1, want_indep hws h as (by omega)]
  have e1 := activateBy_congr (st := fun p => initBnd o' pb as A.reset.nbCstr (p - A.reset.nbCstr))
    (st' := fun p => initBnd o pb as A.reset.nbCstr (p - A.reset.nbCstr)) ((List.range A.reset.nbBnd).map (A.reset.nbCstr + ·)) (by
      intro p hp
      obtain ⟨i, hi, rfl⟩ := List.mem_map.1 hp
      have hi := List.mem_range.1 hi
      rw [hrb] at hi
      simp only [hrm, Nat.add_sub_cancel_left]
      exact hb i hi)
  unfold processInitial
  simp only []
  rw [e1]
  cases hA1 : activateBy (fun p => initBnd o pb as A.reset.nbCstr (p - A.reset.nbCstr)) ((List.range A.reset.nbBnd).map (A.reset.nbCstr + ·)) A.reset with
  | error e => rfl
  | ok A1 =>
    simp only []
    have hm1 : A1.nbCstr = pb.m := by
      have key : ∀ (st : Nat → Except Fault Status) (l : List Nat) (A A' : ActiveSet), activateBy st l A = .ok A' → A'.nbCstr = A.nbCstr := by
        intro st l
        induction l with
        | nil => intro A A' h; cases h; rfl
        | cons i l ih =>
          intro A A' h
          unfold activateBy at h
          rcases hs : st i with e | s
          · rw [hs] at h; cases h
          · rw [hs] at h
            cases s <;> simp only [] at h <;> (try split_ifs at h) <;> have := ih _ _ h <;> simpa [ActiveSet.activate_nbCstr] using this
      rw [key _ _ _ _ hA1]; exact hm
    rw [activateBy_congr (st := initGen o' pb as) (st' := initGen o pb as) (List.range A1.nbCstr) (by
      intro i hi
      have hi := List.mem_range.1 hi
      rw [hm1] at hi
      exact hg i hi)]

/-! ## The removal loop -/

theorem minMult_indep (A : ActiveSet) (u : Nat → ℝ) {t : ℝ} (ht : 0 ≤ t) (l : List Nat)
    (h : ∀ k ∈ l, (A.statusAt (A.get k)).isEq = false → u k < 0 → u k < -t) : ∀ (acc acc' : ℝ × Option Nat),
    (acc = acc' ∧ acc.1 ≤ -t ∨ acc = (-t, none) ∧ acc' = (0, none)) → 
    (l.foldl (minMult A u) acc).2 = (l.foldl (minMult A u) acc').2 := by
  induction l with
  | nil => rintro acc acc' (⟨rfl, _⟩ | ⟨rfl, rfl⟩) <;> rfl
  | cons k l ih =>
    have ih := ih fun j hj => h j (List.mem_cons_of_mem _ hj)
    have hk := h k List.mem_cons_self
    rintro acc acc' (⟨rfl, _⟩ | ⟨rfl, rfl⟩)
    · rfl
    · simp only [List.foldl_cons]
      apply ih
      unfold minMult
      by_cases he : A.statusAt (A.get k) ≠ .fixed ∧ A.statusAt (A.get k) ≠ .equality
      · have he' : (A.statusAt (A.get k)).isEq = false := by
          cases hs : A.statusAt (A.get k) <;> simp [hs, Status.isEq] at he ⊢
        by_cases hu : u k < 0
        · have h2 := hk he' hu
          rw [if_pos ⟨by simpa [ltb] using h2, he⟩, if_pos ⟨by simpa [ltb] using hu, he⟩]
          exact Or.inl ⟨rfl, h2.le⟩
        · rw [if_neg (fun hc => hu (by have := hc.1; simp [ltb] at this; linarith)),
            if_neg (fun hc => hu (by have := hc.1; simpa [ltb] using this))]
          exact Or.inr ⟨rfl, rfl⟩
      · rw [if_neg (fun hc => he hc.2), if_neg (fun hc => he hc.2)]
        exact Or.inr ⟨rfl, rfl⟩

/-- A negative multiplier of an inequality is below `-tiny`. -/
def NegBelow (o : Opts ℝ) (xs : XState ℝ) : Prop :=
  ∀ k < xs.s.A.q, (xs.s.A.statusAt (xs.s.A.get k)).isEq = false → xs.s.u k < 0 → xs.s.u k < -o.tiny

theorem ev_negBelow {dbg : Bool} (xs : XState ℝ) : Ev dbg (fun o => NegBelow o xs) := by
  refine ev_ball _ fun k _ => ?_
  by_cases hu : xs.s.u k < 0
  · refine (ev_tiny (c := -xs.s.u k) (by linarith)).mono fun o _ _ h _ _ => by linarith
  · exact (Ev.const trivial).mono fun o _ _ _ _ h => absurd h hu

theorem dropPos_indep {o o' : Opts ℝ} {xs : XState ℝ} (h0 : o'.tiny = 0) (ht : 0 ≤ o.tiny) (h : NegBelow o xs) :
    dropPos o xs = dropPos o' xs := by
  unfold dropPos
  apply minMult_indep _ _ ht
  · intro k hk; exact h k (List.mem_range.1 hk)
  · right; rw [h0]; simp

theorem ev_dropLoop {dbg : Bool} {o' : Opts ℝ} (h0 : o'.tiny = 0) (hdb : o'.dbg = dbg) (pb : Pb ℝ EReal) (fuel : Nat) :
    ∀ (xs : XState ℝ), Ev dbg (fun o => dropLoop o pb fuel xs = dropLoop o' pb fuel xs ∧
      ∀ xs1, dropLoop o pb fuel xs = .ok xs1 → NegBelow o xs1) := by
  induction fuel with
  | zero =>
    intro xs
    refine (ev_negBelow xs).mono fun o _ ht h => ?_
    unfold dropLoop
    rw [dropPos_indep h0 ht h]
    refine ⟨rfl, fun xs1 hx => ?_⟩
    split_ifs at hx
    cases hx
    exact h
  | succ fuel ih =>
    intro xs
    cases hd : dropPos o' xs with
    | none =>
      refine (ev_negBelow xs).mono fun o _ ht h => ?_
      unfold dropLoop
      rw [dropPos_indep h0 ht h, hd]
      refine ⟨rfl, fun xs1 hx => ?_⟩
      cases hx
      exact h
    | some l =>
      refine ((ev_negBelow xs).and (ih (initPoints pb (dropAt o' xs l)))).mono ?_
      rintro o hdo ht ⟨h, h2, h3⟩
      have hda : dropAt o xs l = dropAt o' xs l := by
        unfold dropAt; rw [hdo, hdb]
      unfold dropLoop
      rw [dropPos_indep h0 ht h, hd]
      simp only []
      rw [hda, h2]
      refine ⟨rfl, fun xs1 hx => ?_⟩
      split_ifs at hx
      exact h3 xs1 (by rw [h2]; exact hx)

/-! ## The initial active set has independent gradients -/

/-- Specification: the gradients of the equality constraints, of the fixed variables and of the constraints and bounds
marked as active in the warm-start vector are linearly independent. -/
def WarmIndep (ws : Bool) (pb : Pb ℝ EReal) (as : List Status) : Prop :=
  ∀ c : Nat → ℝ, (∀ i, ¬ (i < pb.m + pb.nb ∧ (IsEqIdx pb i ∨ (ws = true ∧ as.getD i .inactive ≠ .inactive))) → c i = 0) →
    (∀ a < pb.n, ∑ i ∈ range (pb.m + pb.nb), c i * grad pb i a = 0) → ∀ i, c i = 0

/-- Sign of a normal with respect to the gradient. -/
def sgn : Status → ℝ
  | .upper | .upperBound => -1
  | _ => 1

theorem normal_eq_sgn {pb : Pb ℝ EReal} {sc : SC} (hok : scOk pb sc = true) (a : Nat) :
    normal pb sc a = sgn sc.status * grad pb sc.p a := by
  obtain ⟨p, st⟩ := sc
  cases st <;> simp [scOk] at hok <;> simp [normal, grad, sgn, hok] <;> simp [show ¬ p < pb.m by omega]

theorem actIndep_of_warm {o : Opts ℝ} {pb : Pb ℝ EReal} {as : List Status} (hi : WarmIndep o.warmStart pb as)
    (hk : WarmOk o pb as) {A0 A : ActiveSet} (h : InitA o pb as A0 A) : ActIndep pb A := by
  intro c hc k hkq
  have hmem : ∀ k < A.q, A.get k < pb.m + pb.nb ∧ A.statusAt (A.get k) ≠ .inactive := by
    intro k hk
    obtain ⟨a, b⟩ := ActiveSet.get_lt A h.wf k (by rw [← h.wf.q_eq]; exact hk)
    rw [h.wf.size, h.nbCstr, h.nbBnd] at a
    exact ⟨a, b⟩
  have hok : ∀ k < A.q, scOk pb (A.act k) = true := by
    intro k hk
    obtain ⟨m1, m2⟩ := hmem k hk
    by_cases hg : A.get k < pb.m
    · have := h.wf.kindG _ (by rw [h.nbCstr]; exact hg) m2
      unfold scOk ActiveSet.act
      cases hs : A.statusAt (A.get k) <;> simp [hs, Status.isGeneral] at this m2 ⊢ <;> exact hg
    · have := h.wf.kindB _ (by rw [h.nbCstr]; omega) m2
      unfold scOk ActiveSet.act
      cases hs : A.statusAt (A.get k) <;> simp [hs, Status.isBound] at this m2 ⊢ <;> omega
  have hinj : ∀ j < A.q, ∀ k < A.q, A.get j = A.get k → j = k := by
    intro j hj k hk he
    rw [h.wf.q_eq] at hj hk
    rw [ActiveSet.get, ActiveSet.get, List.getD_eq_getElem _ _ hj, List.getD_eq_getElem _ _ hk] at he
    exact (h.wf.nodup.getElem_inj_iff).1 he
  have h1 := hi (fun i => ∑ k ∈ range A.q, if A.get k = i then c k * sgn (A.act k).status else 0) ?_ ?_ (A.get k)
  · rw [sum_eq_single k (fun j hj hne => if_neg (fun he => hne (hinj j (mem_range.1 hj) k hkq he)))
      (fun hn => absurd (mem_range.2 hkq) hn), if_pos rfl] at h1
    rcases mul_eq_zero.1 h1 with h2 | h2
    · exact h2
    · exfalso
      cases hs : (A.act k).status <;> simp [hs, sgn] at h2
  · intro i hi'
    apply sum_eq_zero
    intro j hj
    have hj := mem_range.1 hj
    rw [if_neg]
    rintro rfl
    obtain ⟨m1, m2⟩ := hmem j hj
    apply hi'
    refine ⟨m1, ?_⟩
    rcases h.status _ m1 with h3 | h3
    · rw [h3] at m2
      unfold want at m2
      by_cases hq : isEqC pb (A.get j) = true
      · left
        unfold isEqC at hq
        unfold IsEqIdx
        split_ifs at hq with hlt
        · left; exact ⟨hlt, by simpa [bEq] using hq⟩
        · right; exact ⟨by omega, by simpa [bEq] using hq⟩
      · rw [if_neg hq] at m2
        right
        split_ifs at m2 with hw hh
        · exact absurd rfl m2
        · exact ⟨hw, m2⟩
        · exact absurd rfl m2
    · exact absurd h3.1 m2
  · intro a ha
    refine Eq.trans ?_ (hc a ha)
    beta_reduce
    have e1 : ∀ i ∈ range (pb.m + pb.nb), (∑ k ∈ range A.q, if A.get k = i then c k * sgn (A.act k).status else 0) * grad pb i a
        = ∑ k ∈ range A.q, (if A.get k = i then c k * (sgn (A.act k).status * grad pb i a) else 0) := by
      intro i _
      rw [Finset.sum_mul]
      apply sum_congr rfl; intro k _; split_ifs <;> simp [mul_assoc]
    rw [sum_congr rfl e1, sum_comm]
    apply sum_congr rfl
    intro j hj
    have hj := mem_range.1 hj
    rw [sum_ite_eq, if_pos (mem_range.2 (hmem j hj).1), normal_eq_sgn (hok j hj)]
    rfl

/-! ## Regular warm starts -/

theorem usedAs_ws {o o' : Opts ℝ} (h : o'.warmStart = o.warmStart) (pb : Pb ℝ EReal) (as : List Status) (xs : XState ℝ) :
    usedAs o' pb as xs = usedAs o pb as xs := by unfold usedAs; rw [h]

theorem xsolveStart_indep {o o' : Opts ℝ} (h : o'.warmStart = o.warmStart) (hd : o'.dbg = o.dbg) (pb : Pb ℝ EReal)
    (as : List Status) (xs : XState ℝ) : xsolveStart o' pb as xs = xsolveStart o pb as xs := by
  unfold xsolveStart
  rw [usedAs_ws h]
  unfold preInit
  rw [h, hd]

theorem xstart_indep {o o' : Opts ℝ} (hd : o'.dbg = o.dbg) (pb : Pb ℝ EReal) (xs : XState ℝ) (A : ActiveSet) :
    xstart o' pb xs A = xstart o pb xs A := by
  unfold xstart xpre initData
  rw [hd]

theorem ArgOk.ws {o o' : Opts ℝ} (h : o'.warmStart = o.warmStart) {pb : Pb ℝ EReal} {as : List Status} (ha : ArgOk o pb as) :
    ArgOk o' pb as :=
  ⟨ha.len, by rw [h]; exact ha.opt, ⟨by rw [h]; exact ha.kind.gen, by rw [h]; exact ha.kind.bnd⟩⟩

theorem ev_regX {dbg : Bool} {pb : Pb ℝ EReal} (hp : Proper pb) (hx : NotCrossed pb) {e : Nat}
    (he : EqFirst pb e) {o0 : Opts ℝ} {as : List Status} {xs : XState ℝ} (h : XInv xs) (ha : ArgOk o0 pb as)
    (hf : NoFalseEq o0 pb (usedAs o0 pb as xs)) (ho : EqActFirst o0 pb (usedAs o0 pb as xs) e)
    (hind : WarmIndep o0.warmStart pb (usedAs o0 pb as xs)) :
    Ev dbg (fun o => o.warmStart = o0.warmStart → RegX o pb as xs) := by
  obtain ⟨or, hdr, htr, hwr, hir⟩ := (ev_infSide (dbg := dbg) pb).exists' o0.warmStart
  have hu : ∀ o : Opts ℝ, o.warmStart = o0.warmStart → usedAs o pb as xs = usedAs o0 pb as xs := fun o h => usedAs_ws h pb as xs
  have hwk := usedAs_warmOk h ha.kind
  have hdim := fun o : Opts ℝ => xsolveStart_dim (as := as) (o := o) (pb := pb) h
  have har := ha.ws hwr
  have hfr : NoFalseEq or pb (usedAs or pb as xs) := by rw [hu or hwr]; unfold NoFalseEq; rw [hwr]; exact hf
  have hor : EqActFirst or pb (usedAs or pb as xs) e := by rw [hu or hwr]; unfold EqActFirst; rw [hwr]; exact ho
  have hindA : ∀ o : Opts ℝ, o.warmStart = o0.warmStart → ∀ A,
      processInitial o pb pb.n (usedAs o pb as xs) (xsolveStart o pb as xs).s.A = .ok (.success, A) → ActIndep pb A := by
    intro o hw A hA
    have hk := usedAs_warmOk h (ha.ws hw).kind
    obtain ⟨t, A', e1, a1, a2, a3, e5⟩ := processInitial_spec hk pb.n (hdim o).dim.wf (hdim o).dim.nbCstr (hdim o).dim.nbBnd
    rw [hA] at e1
    cases e1
    rcases e5 with ⟨a, _⟩ | ⟨_, b1, b2, b3, b4⟩
    · cases a
    exact actIndep_of_warm (by rw [hw, hu o hw]; exact hind) hk ⟨a1, a2, a3, b1, b2, b3, b4⟩
  have hpi : Ev dbg (fun o => o.warmStart = o0.warmStart →
      processInitial o pb pb.n (usedAs o pb as xs) (xsolveStart o pb as xs).s.A
        = processInitial or pb pb.n (usedAs or pb as xs) (xsolveStart or pb as xs).s.A) := by
    refine (ev_infSide pb).mono fun o hdo _ hio hw => ?_
    rw [usedAs_ws (hw.trans hwr.symm), xsolveStart_indep (hw.trans hwr.symm) (hdo.trans hdr.symm)]
    exact processInitial_indep (usedAs_warmOk h har.kind) (hw.trans hwr.symm)
      (fun i hi st => by rw [hio i hi, hir i hi]) _ (hdim or).dim.nbCstr (hdim or).dim.nbBnd
  obtain ⟨t, xs1, e1, e2, e3⟩ := xinit_spec (hdim or) (usedAs_warmOk h har.kind) (usedAs_len h har.len)
  have hspec := fun (o : Opts ℝ) (hw : o.warmStart = o0.warmStart) =>
    xinit_spec (hdim o) (usedAs_warmOk h (ha.ws hw).kind) (usedAs_len h (ha.ws hw).len)
  by_cases hs : t = .success
  · subst hs
    rcases e3 with ⟨a, _⟩ | ⟨a, _⟩ | ⟨_, hc, A, hA, hIA, hg, hd, hr⟩
    · cases a
    · cases a
    obtain ⟨g1, g2, _, g3⟩ := xinit_exact hp (hdim or) (usedAs_warmOk h har.kind) (usedAs_len h har.len) hfr (hindA or hwr) e1
    have hpre := g3 e he hor
    have hD : DInv pb e xs1.s ⟨0, .inactive⟩ false := by
      refine ⟨hpre, fun k hk hek => ?_, by simp, by simp⟩
      have hs : (xs1.s.A.statusAt (xs1.s.A.get k)).isEq = false := by
        have := (hpre.act g1.good.good.dim.wf hk).not.2 (by omega)
        simpa [ActiveSet.act] using this
      have h4 := g1.done k hk hs
      rw [htr] at h4
      linarith
    refine ((hpi.and (ev_dropLoop htr hdr pb A.q (xstart or pb (xsolveStart or pb as xs) A))).and
      (ev_regLoop hp hx (posDef_of_chol hc) _ g1.inv hD le_rfl)).mono ?_
    rintro o hdo hto ⟨⟨b1, b2, b3⟩, b4⟩ hw
    have b1 := b1 hw
    have key : ∀ xs2, xinit o pb (xsolveStart o pb as xs) = .ok (.success, xs2) → xs2 = xs1 ∧ NegBelow o xs1 := by
      intro xs2 hx2
      obtain ⟨t', xs', c1, _, c3⟩ := hspec o hw
      rw [hx2] at c1
      cases c1
      rcases c3 with ⟨a, _⟩ | ⟨a, _⟩ | ⟨_, _, A', hA', _, _, hd', _⟩
      · cases a
      · cases a
      have hA'' : processInitial o pb pb.n (usedAs o pb as xs) (xsolveStart o pb as xs).s.A = .ok (.success, A') := hA'
      rw [b1] at hA''
      have hAr : processInitial or pb pb.n (usedAs or pb as xs) (xsolveStart or pb as xs).s.A = .ok (.success, A) := hA
      rw [hAr] at hA''
      cases hA''
      rw [xsolveStart_indep (hw.trans hwr.symm) (hdo.trans hdr.symm), xstart_indep (hdo.trans hdr.symm)] at hd'
      have hnb := b3 _ hd'
      rw [b2, hd] at hd'
      cases hd'
      exact ⟨rfl, hnb⟩
    refine ⟨hto, hindA o hw, ?_, ?_⟩
    · intro xs2 hx2
      obtain ⟨rfl, hn⟩ := key xs2 hx2
      exact hn
    · intro xs2 hx2
      obtain ⟨rfl, _⟩ := key xs2 hx2
      exact b4 _
  · refine hpi.mono fun o _ hto hpo hw => ?_
    have hno : ∀ xs2, xinit o pb (xsolveStart o pb as xs) ≠ .ok (.success, xs2) := by
      intro xs2 hx2
      obtain ⟨t', xs', c1, _, c3⟩ := hspec o hw
      rw [hx2] at c1
      cases c1
      rcases c3 with ⟨a, _⟩ | ⟨a, _⟩ | ⟨_, hc, A', hA', hI, _⟩
      · cases a
      · cases a
      have hA'' : processInitial o pb pb.n (usedAs o pb as xs) (xsolveStart o pb as xs).s.A = .ok (.success, A') := hA'
      rw [hpo hw] at hA''
      rcases e3 with ⟨a, ha3⟩ | ⟨a, _, hc'⟩ | ⟨a, _⟩
      · obtain ⟨t4, A4, d1, _, _, _, d5⟩ := processInitial_spec (usedAs_warmOk h har.kind) pb.n (hdim or).dim.wf (hdim or).dim.nbCstr (hdim or).dim.nbBnd
        rw [hA''] at d1
        cases d1
        rcases d5 with ⟨d, _⟩ | ⟨_, d, _⟩
        · cases d
        · have ha4 : pb.n < numWant or pb (usedAs or pb as xs) (·.isEq) := ha3
          exact absurd d (not_le.2 ha4)
      · exact hc' hc
      · exact hs a
    exact ⟨hto, hindA o hw, fun xs2 hx2 => absurd hx2 (hno xs2), fun xs2 hx2 => absurd hx2 (hno xs2)⟩

end JrlQp
