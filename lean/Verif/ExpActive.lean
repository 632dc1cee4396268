import Verif.Experimental
import Verif.ExactInit
import Verif.PropsActiveSet

/-!
# Initial active set of the experimental solver (C21)

Independent of the arithmetic.
-/

namespace JrlQp

open NumOps

variable {K B : Type} [Zero K] [One K] [Add K] [Sub K] [Neg K] [Mul K] [Div K] [NumOps K B] [SumOps K]

/-! ## Specification -/

/-- The warm-start vector, if used, has one entry per constraint and bound, of the right kind. -/
structure WarmOk (o : Opts K) (pb : Pb K B) (as : List Status) : Prop where
  gen : o.warmStart = true → as ≠ [] → ∀ i < pb.m, as.getD i .inactive = .inactive ∨ (as.getD i .inactive).isGeneral = true
  bnd : o.warmStart = true → as ≠ [] → ∀ i < pb.nb, as.getD (pb.m + i) .inactive = .inactive ∨
    (as.getD (pb.m + i) .inactive).isBound = true

/-- The problem data make constraint `i` (general constraints first, then bounds) an equality. -/
def isEqC (pb : Pb K B) (i : Nat) : Bool :=
  if i < pb.m then bEq K (pb.bl i) (pb.bu i) else bEq K (pb.xl (i - pb.m)) (pb.xu (i - pb.m))

/-- The side a status refers to is infinite, from the point of view of the solver. -/
def infSide (o : Opts K) (pb : Pb K B) (i : Nat) : Status → Bool
  | .lower => bLt K (pb.bl i) (ofK (-o.bigBnd))
  | .upper => bLt K (ofK o.bigBnd) (pb.bu i)
  | .lowerBound => bLt K (pb.xl (i - pb.m)) (ofK (-o.bigBnd))
  | .upperBound => bLt K (ofK o.bigBnd) (pb.xu (i - pb.m))
  | _ => false

/-- Status wanted for constraint `i`: equalities of the problem are active as such; otherwise the warm-start status, unless
it is `FIXED` or on an infinite side. -/
def want (o : Opts K) (pb : Pb K B) (as : List Status) (i : Nat) : Status :=
  if isEqC pb i then if i < pb.m then .equality else .fixed
  else if o.warmStart = true then
    if as.getD i .inactive = .fixed ∨ infSide o pb i (as.getD i .inactive) = true then .inactive
    else as.getD i .inactive
  else .inactive

/-- Number of constraints wanted with a status satisfying `P`. -/
def numWant (o : Opts K) (pb : Pb K B) (as : List Status) (P : Status → Bool) : Nat :=
  (List.range (pb.m + pb.nb)).countP (fun i => P (want o pb as i))

/-! ## The two loops -/

theorem initGen_eq {o : Opts K} {pb : Pb K B} {as : List Status} (h : WarmOk o pb as) {i : Nat} (hi : i < pb.m) :
    initGen o pb as i = .ok (want o pb as i) ∧ (want o pb as i = .inactive ∨ (want o pb as i).isGeneral = true) := by
  have hg := h.gen
  unfold initGen want isEqC
  simp only [hi, if_true]
  by_cases he : bEq K (pb.bl i) (pb.bu i) = true
  · simp [he, Status.isGeneral]
  · simp only [he, Bool.false_eq_true, if_false]
    by_cases hw : o.warmStart = true
    · by_cases ha : as = []
      · subst ha; simp [infSide, hw]
      · have := hg hw ha i hi
        cases hs : as.getD i .inactive <;> rw [hs] at this <;> simp [Status.isGeneral] at this <;>
          simp [hw, ha, Status.isGeneral, infSide] <;> split_ifs <;> simp_all [Status.isGeneral]
    · simp [hw]

theorem initBnd_eq {o : Opts K} {pb : Pb K B} {as : List Status} (h : WarmOk o pb as) {i : Nat} (hi : i < pb.nb) :
    initBnd o pb as pb.m i = .ok (want o pb as (pb.m + i)) ∧
      (want o pb as (pb.m + i) = .inactive ∨ (want o pb as (pb.m + i)).isBound = true) := by
  have hg := h.bnd
  unfold initBnd want isEqC
  simp only [show ¬ pb.m + i < pb.m by omega, if_false, Nat.add_sub_cancel_left]
  by_cases he : bEq K (pb.xl i) (pb.xu i) = true
  · simp [he, Status.isBound]
  · simp only [he, Bool.false_eq_true, if_false]
    by_cases hw : o.warmStart = true
    · by_cases ha : as = []
      · subst ha; simp [infSide, hw]
      · have := hg hw ha i hi
        cases hs : as.getD (pb.m + i) .inactive <;> rw [hs] at this <;> simp [Status.isBound] at this <;>
          simp [hw, ha, Status.isBound, infSide] <;> split_ifs <;> simp_all [Status.isBound]
    · simp [hw]

/-- The activations listed by `f`. -/
def scList (f : Nat → Status) (l : List Nat) : List SC :=
  (l.filter (fun i => decide (f i ≠ .inactive))).map (fun i => ⟨i, f i⟩)

theorem scList_append (f : Nat → Status) (l l' : List Nat) : scList f (l ++ l') = scList f l ++ scList f l' := by
  simp [scList]

theorem activateBy_spec (st : Nat → Except Fault Status) (f : Nat → Status) (l : List Nat) :
    ∀ (A : ActiveSet), (∀ i ∈ l, st i = .ok (f i)) → ActAll A (scList f l) →
    activateBy st l A = .ok (A.activateSCs (scList f l)) := by
  induction l with
  | nil => intro A _ _; rfl
  | cons i l ih =>
    intro A hst ha
    have hl : ∀ j ∈ l, st j = .ok (f j) := fun j hj => hst j (List.mem_cons_of_mem _ hj)
    rw [activateBy, hst i List.mem_cons_self]
    by_cases hi : f i = .inactive
    · have e : scList f (i :: l) = scList f l := by simp [scList, hi]
      rw [e] at ha ⊢
      rw [hi]
      exact ih A hl ha
    · have e : scList f (i :: l) = ⟨i, f i⟩ :: scList f l := by simp [scList, hi]
      rw [e] at ha ⊢
      have h2 := ih _ hl ha.2
      have h1 : A.activatePre i (f i) = true := ha.1
      cases hs : f i
      · exact absurd hs hi
      all_goals
        rw [hs] at h1 h2
        simp only [h1, if_true]
        exact h2

theorem ActAll.append_iff (l l' : List SC) : ∀ (A : ActiveSet), ActAll A (l ++ l') ↔ ActAll A l ∧ ActAll (A.activateSCs l) l' := by
  induction l with
  | nil => intro A; simp [ActAll, ActiveSet.activateSCs]
  | cons sc l ih =>
    intro A
    simp only [List.cons_append, ActAll, ih, and_assoc]
    rfl

theorem activateSCs_append (A : ActiveSet) (l l' : List SC) : A.activateSCs (l ++ l') = (A.activateSCs l).activateSCs l' := by
  simp [ActiveSet.activateSCs]

theorem activateSCs_nbCstr (l : List SC) : ∀ (A : ActiveSet), (A.activateSCs l).nbCstr = A.nbCstr ∧ (A.activateSCs l).nbBnd = A.nbBnd := by
  induction l with
  | nil => intro A; exact ⟨rfl, rfl⟩
  | cons sc l ih =>
    intro A
    have := ih (A.activate sc.p sc.status)
    rw [ActiveSet.activate_nbCstr, ActiveSet.activate_nbBnd] at this
    exact this

/-- Order in which the constraints are considered: bounds, then general constraints. -/
def initOrder (m nb : Nat) : List Nat := (List.range nb).map (m + ·) ++ List.range m

theorem initOrder_mem {m nb i : Nat} : i ∈ initOrder m nb ↔ i < m + nb := by
  simp only [initOrder, List.mem_append, List.mem_map, List.mem_range]
  constructor
  · rintro (⟨j, h, rfl⟩ | h) <;> omega
  · intro h
    by_cases hi : i < m
    · exact Or.inr hi
    · exact Or.inl ⟨i - m, by omega, by omega⟩

theorem initOrder_nodup (m nb : Nat) : (initOrder m nb).Nodup := by
  rw [initOrder, List.nodup_append]
  refine ⟨List.nodup_range.map (fun a b h => by simpa using h), List.nodup_range, ?_⟩
  intro a ha b hb
  obtain ⟨j, _, rfl⟩ := List.mem_map.1 ha
  have := List.mem_range.1 hb
  omega

theorem want_kind {o : Opts K} {pb : Pb K B} {as : List Status} (h : WarmOk o pb as) {i : Nat} (hi : i < pb.m + pb.nb)
    (hne : want o pb as i ≠ .inactive) :
    (i < pb.m ∧ (want o pb as i).isGeneral = true) ∨ (pb.m ≤ i ∧ (want o pb as i).isBound = true) := by
  by_cases hm : i < pb.m
  · exact Or.inl ⟨hm, (initGen_eq h hm).2.resolve_left hne⟩
  · obtain ⟨j, rfl⟩ : ∃ j, i = pb.m + j := ⟨i - pb.m, by omega⟩
    exact Or.inr ⟨by omega, (initBnd_eq h (by omega)).2.resolve_left hne⟩

theorem actAll_want {o : Opts K} {pb : Pb K B} {as : List Status} (h : WarmOk o pb as) {A : ActiveSet} (hw : A.WF)
    (h0 : ∀ i, A.statusAt i = .inactive) (hm : A.nbCstr = pb.m) (hnb : A.nbBnd = pb.nb) :
    ActAll A (scList (want o pb as) (initOrder pb.m pb.nb)) := by
  unfold scList
  apply actAll_map _ _ A hw
  · intro i hi
    obtain ⟨h1, h2⟩ := List.mem_filter.1 hi
    have hi := initOrder_mem.1 h1
    have := want_kind h hi (by simpa using h2)
    rw [hm, hnb]
    exact ⟨hi, h0 i, this⟩
  · simp only [List.map_id']
    exact (initOrder_nodup _ _).filter _

/-- State of the active set after the two loops. -/
theorem loops_spec {o : Opts K} {pb : Pb K B} {as : List Status} (h : WarmOk o pb as) {A : ActiveSet} (hw : A.WF)
    (hq : A.q = 0) (h0 : ∀ i, A.statusAt i = .inactive) (hm : A.nbCstr = pb.m) (hnb : A.nbBnd = pb.nb) :
    ∃ A', A' = A.activateSCs (scList (want o pb as) (initOrder pb.m pb.nb)) ∧
      (∃ A1, activateBy (fun p => initBnd o pb as A.nbCstr (p - A.nbCstr)) ((List.range A.nbBnd).map (A.nbCstr + ·)) A = .ok A1 ∧
        activateBy (initGen o pb as) (List.range A1.nbCstr) A1 = .ok A') ∧
      A'.WF ∧ A'.nbCstr = pb.m ∧ A'.nbBnd = pb.nb ∧ (∀ i < pb.m + pb.nb, A'.statusAt i = want o pb as i) ∧
      A'.q = (scList (want o pb as) (initOrder pb.m pb.nb)).length ∧
      (∀ k (hk : k < (scList (want o pb as) (initOrder pb.m pb.nb)).length), A'.act k = (scList (want o pb as) (initOrder pb.m pb.nb))[k]) := by
  have hall := actAll_want h hw h0 hm hnb
  have hall0 := hall
  rw [initOrder, scList_append, ActAll.append_iff] at hall
  obtain ⟨b1, b2, b3, b4, b5⟩ := act_activateSCs _ hw hall0
  obtain ⟨c1, c2, c3⟩ := init_act hw hq h0 hall0
  obtain ⟨d1, d2⟩ := activateSCs_nbCstr (scList (want o pb as) (initOrder pb.m pb.nb)) A
  refine ⟨_, rfl, ⟨_, activateBy_spec _ (want o pb as) _ A ?_ (by rw [hm, hnb]; exact hall.1), ?_⟩, b1, by rw [d1, hm],
    by rw [d2, hnb], ?_, c1, c2⟩
  · intro p hp
    obtain ⟨j, hj, rfl⟩ := List.mem_map.1 hp
    rw [hm, Nat.add_sub_cancel_left]
    exact (initBnd_eq h (by have := List.mem_range.1 hj; omega)).1
  · rw [(activateSCs_nbCstr _ _).1, hm, hnb]
    rw [activateBy_spec _ (want o pb as) _ _ (fun i hi => (initGen_eq h (List.mem_range.1 hi)).1) hall.2]
    rw [← activateSCs_append, ← scList_append]
    rfl
  · intro i hi
    by_cases hne : want o pb as i = .inactive
    · rw [hne]
      by_contra hc
      obtain ⟨sc, h1, h2⟩ := c3 i hc
      unfold scList at h1
      obtain ⟨j, hj, rfl⟩ := List.mem_map.1 h1
      have e1 : j = i := congrArg SC.p h2
      subst e1
      have := (List.mem_filter.1 hj).2
      simp [hne] at this
    · have hmem : (⟨i, want o pb as i⟩ : SC) ∈ scList (want o pb as) (initOrder pb.m pb.nb) := by
        unfold scList
        exact List.mem_map.2 ⟨i, List.mem_filter.2 ⟨initOrder_mem.2 hi, by simpa using hne⟩, rfl⟩
      obtain ⟨k, hk, he⟩ := List.getElem_of_mem hmem
      have := c2 k hk
      rw [he] at this
      have e1 : (A.activateSCs (scList (want o pb as) (initOrder pb.m pb.nb))).get k = i := congrArg SC.p this
      have e2 := congrArg SC.status this
      simp only [ActiveSet.act] at e2
      rw [e1] at e2
      exact e2

/-! ## Trimming -/

theorem eq_count {A : ActiveSet} (hw : A.WF) : A.me + A.mbe = A.cnt (·.isEq) := by
  rw [hw.me, hw.mbe]
  unfold ActiveSet.cnt
  rw [← Nat.cast_add]
  congr 1
  induction A.status with
  | nil => rfl
  | cons a l ih =>
    have e : (if (a == Status.equality) = true then 1 else 0) + (if (a == Status.fixed) = true then 1 else 0)
        = (if a.isEq = true then 1 else 0) := by cases a <;> rfl
    simp only [List.countP_cons]
    omega

theorem q_cnt {A : ActiveSet} (hw : A.WF) : (A.q : Int) = A.cnt (· != .inactive) := by rw [hw.q_eq]; exact hw.len

theorem cnt_le {A : ActiveSet} {P Q : Status → Bool} (h : ∀ s, P s = true → Q s = true) : A.cnt P ≤ A.cnt Q := by
  unfold ActiveSet.cnt
  exact_mod_cast List.countP_mono_left fun s _ => h s

/-- When all the active constraints are equalities there are `me + mbe` of them. -/
theorem q_all_eq {A : ActiveSet} (hw : A.WF) (h : ∀ k < A.q, isEqPos A k = true) : (A.q : Int) = A.me + A.mbe := by
  rw [q_cnt hw, eq_count hw]
  unfold ActiveSet.cnt
  congr 1
  apply List.countP_congr
  intro s hs
  obtain ⟨i, hi, rfl⟩ := List.getElem_of_mem hs
  have hst : A.statusAt i = A.status[i] := by simp [ActiveSet.statusAt, hi]
  constructor
  · intro hne
    have hne : A.status[i] ≠ .inactive := by simpa using hne
    rw [← hst] at hne
    obtain ⟨k, hk, he⟩ := List.getElem_of_mem ((hw.mem i).2 ⟨hi, hne⟩)
    have hg : A.get k = i := by rw [ActiveSet.get, List.getD_eq_getElem _ _ hk, he]
    have := h k (by rw [hw.q_eq]; exact hk)
    rw [isEqPos, hg, hst] at this
    exact this
  · intro he
    cases hc : A.status[i] <;> rw [hc] at he <;> simp [Status.isEq] at he ⊢

/-- What is kept by the trimming loop. -/
structure TrimR (A A' : ActiveSet) : Prop where
  wf : A'.WF
  nbCstr : A'.nbCstr = A.nbCstr
  nbBnd : A'.nbBnd = A.nbBnd
  status : ∀ i, A'.statusAt i = A.statusAt i ∨ (A'.statusAt i = .inactive ∧ (A.statusAt i).isEq = false)

theorem trim_spec (n : Nat) (i : Nat) : ∀ {A : ActiveSet}, A.WF → A.me + A.mbe ≤ n → i ≤ A.q →
    (∀ k, i ≤ k → k < A.q → isEqPos A k = true) →
    ∃ A', trim n i A = .ok A' ∧ TrimR A A' ∧ A'.q = min A.q n := by
  induction i with
  | zero =>
    intro A hw he hi hk
    have := q_all_eq hw (fun k h => hk k (Nat.zero_le _) h)
    rw [trim, if_pos (by omega)]
    exact ⟨A, rfl, ⟨hw, rfl, rfl, fun _ => Or.inl rfl⟩, by omega⟩
  | succ i ih =>
    intro A hw he hi hk
    rw [trim]
    by_cases hq : A.q ≤ n
    · rw [if_pos hq]
      exact ⟨A, rfl, ⟨hw, rfl, rfl, fun _ => Or.inl rfl⟩, by omega⟩
    · rw [if_neg hq]
      by_cases hp : isEqPos A i = true
      · rw [if_pos hp]
        refine ih hw he (by omega) ?_
        intro k h1 h2
        by_cases hki : k = i
        · rw [hki]; exact hp
        · exact hk k (by omega) h2
      · rw [if_neg hp]
        have hil : i < A.active.length := by rw [← hw.q_eq]; omega
        have hpre : A.deactivatePre i = true := by simpa [ActiveSet.deactivatePre] using hil
        have hwd := ActiveSet.wf_deactivate A hw i hpre
        have hqd := hw.q_deactivate hpre
        have hst : (A.statusAt (A.get i)).isEq = false := by simpa [isEqPos] using hp
        have hcnt : (A.deactivate i).me + (A.deactivate i).mbe = A.me + A.mbe := by
          unfold ActiveSet.deactivate ActiveSet.bump
          cases hs : A.statusAt (A.get i) <;> simp [hs, Status.isEq] at hst ⊢
        obtain ⟨A', h1, h2, h3⟩ := ih hwd (by rw [hcnt]; exact he) (by omega) (by
          intro k h1 h2
          have := act_deactivate hw (l := i) (by omega) k (by omega)
          rw [if_neg (by omega)] at this
          have h4 := hk (k + 1) (by omega) (by omega)
          unfold isEqPos at h4 ⊢
          have h5 := congrArg SC.status this
          simp only [ActiveSet.act] at h5
          rw [h5]; exact h4)
        refine ⟨A', h1, ⟨h2.wf, h2.nbCstr.trans (ActiveSet.deactivate_nbCstr _ _), h2.nbBnd.trans (ActiveSet.deactivate_nbBnd _ _), ?_⟩, by omega⟩
        intro j
        have h4 := h2.status j
        rw [ActiveSet.deactivate_statusAt _ hw _ _ hil] at h4
        by_cases hj : j = A.get i
        · rw [if_pos hj] at h4
          right
          refine ⟨?_, by rw [hj]; exact hst⟩
          rcases h4 with h4 | h4
          · exact h4
          · exact h4.1
        · rw [if_neg hj] at h4
          exact h4

/-! ## The properties -/

theorem numWant_eq {o : Opts K} {pb : Pb K B} {as : List Status} {A : ActiveSet} (hw : A.WF) (hm : A.nbCstr = pb.m)
    (hnb : A.nbBnd = pb.nb) (hst : ∀ i < pb.m + pb.nb, A.statusAt i = want o pb as i) (P : Status → Bool) :
    (numWant o pb as P : Int) = A.cnt P := by
  rw [← ActiveSet.numWith_eq hw, numWant, ActiveSet.numWith, hm, hnb]
  congr 1
  apply List.countP_congr
  intro i hi
  rw [hst i (List.mem_range.1 hi)]

/-- The initial active set, for all problems and all warm-start vectors of the right kind. -/
theorem processInitial_spec {o : Opts K} {pb : Pb K B} {as : List Status} (h : WarmOk o pb as) (n : Nat) {A0 : ActiveSet}
    (hw : A0.WF) (hm : A0.nbCstr = pb.m) (hnb : A0.nbBnd = pb.nb) :
    ∃ t A, processInitial o pb n as A0 = .ok (t, A) ∧ A.WF ∧ A.nbCstr = pb.m ∧ A.nbBnd = pb.nb ∧
      ((t = .overconstrainedProblem ∧ n < numWant o pb as (·.isEq)) ∨
       (t = .success ∧ numWant o pb as (·.isEq) ≤ n ∧ A.q = min (numWant o pb as (· != .inactive)) n ∧
        (∀ i < pb.m + pb.nb, A.statusAt i = want o pb as i ∨ (A.statusAt i = .inactive ∧ (want o pb as i).isEq = false)) ∧
        (numWant o pb as (· != .inactive) ≤ n →
          A = A0.reset.activateSCs (scList (want o pb as) (initOrder pb.m pb.nb)) ∧
          ∀ i < pb.m + pb.nb, A.statusAt i = want o pb as i))) := by
  have hwr : A0.reset.WF := ActiveSet.wf_reset A0 hw.size
  obtain ⟨A, e0, ⟨A1, e1, e2⟩, w1, w2, w3, w4, w5, w6⟩ := loops_spec (A := A0.reset) h hwr (ActiveSet.reset_q _) (reset_statusAt _) hm hnb
  have hE := numWant_eq w1 w2 w3 w4 (·.isEq)
  have hN := numWant_eq w1 w2 w3 w4 (· != .inactive)
  rw [← eq_count w1] at hE
  rw [← q_cnt w1] at hN
  have hle : A.me + A.mbe ≤ A.q := by
    rw [eq_count w1, q_cnt w1]
    apply cnt_le
    intro s hs
    cases s <;> simp [Status.isEq] at hs ⊢
  unfold processInitial
  simp only []
  rw [e1]
  simp only []
  rw [e2]
  simp only []
  by_cases hq : n < A.q
  · rw [if_pos hq]
    by_cases ho : (n : Int) < A.me + A.mbe
    · rw [if_pos ho]
      exact ⟨_, _, rfl, w1, w2, w3, Or.inl ⟨rfl, by omega⟩⟩
    · rw [if_neg ho]
      obtain ⟨A', t1, t2, t3⟩ := trim_spec n A.q w1 (by omega) le_rfl (fun k h1 h2 => by omega)
      rw [t1]
      refine ⟨_, _, rfl, t2.wf, t2.nbCstr.trans w2, t2.nbBnd.trans w3, Or.inr ⟨rfl, by omega, by omega, ?_, by omega⟩⟩
      intro i hi
      have := t2.status i
      rw [w4 i hi] at this
      exact this
  · rw [if_neg hq]
    exact ⟨_, _, rfl, w1, w2, w3, Or.inr ⟨rfl, by omega, by omega, fun i hi => Or.inl (w4 i hi), fun _ => ⟨e0, w4⟩⟩⟩

end JrlQp
