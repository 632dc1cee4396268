import Verif.Solver
import Verif.ActiveSetProofs
import Mathlib.Data.Finset.Card

/-!
# Structural invariants of the solver (any scalar arithmetic)
-/

set_option linter.unusedSectionVars false

namespace JrlQp

open NumOps

namespace ActiveSet

theorem WF.q_eq {A : ActiveSet} (h : WF A) : A.q = A.active.length := by
  simp [q, nbActive_eq_length A h]

theorem WF.q_activate {A : ActiveSet} (h : WF A) {i s} (hp : A.activatePre i s = true) :
    (A.activate i s).q = A.q + 1 := by
  rw [(wf_activate A h i s hp).q_eq, h.q_eq, activate_active]; simp

theorem WF.q_deactivate {A : ActiveSet} (h : WF A) {k} (hp : A.deactivatePre k = true) :
    (A.deactivate k).q = A.q - 1 := by
  have hk : k < A.active.length := by simpa [deactivatePre] using hp
  rw [(wf_deactivate A h k hp).q_eq, h.q_eq, deactivate_active, List.length_eraseIdx]; simp [hk]

/-- If some index is inactive then not all of them are active. -/
theorem WF.q_lt {A : ActiveSet} (h : WF A) {i} (hi : i < A.nbCstr + A.nbBnd) (hs : A.statusAt i = .inactive) :
    A.q < A.nbCstr + A.nbBnd := by
  rw [h.q_eq]
  have hni : i ∉ A.active := by rw [h.mem]; simp [hs]
  have h1 : (i :: A.active).Nodup := List.nodup_cons.2 ⟨hni, h.nodup⟩
  have h2 : (i :: A.active).toFinset ⊆ Finset.range (A.nbCstr + A.nbBnd) := by
    intro j hj
    rw [List.mem_toFinset, List.mem_cons] at hj
    rw [Finset.mem_range]
    rcases hj with rfl | hj
    · exact hi
    · have := ((h.mem j).1 hj).1; rw [h.size] at this; exact this
  have h3 := Finset.card_le_card h2
  rw [List.toFinset_card_of_nodup h1] at h3
  simp at h3; omega

theorem reset_q (A : ActiveSet) : A.reset.q = 0 := by simp [reset, q, nbActiveCstr]

end ActiveSet

variable {K B : Type} [Zero K] [One K] [Add K] [Sub K] [Neg K] [Mul K] [Div K] [NumOps K B] [SumOps K]

/-- The few facts about the arithmetic that memory safety relies on; true of IEEE doubles (when `bigBnd` is not NaN
and `tiny >= 0`) and of the reals. -/
structure FpLaws (K : Type) {B : Type} [Zero K] [Add K] [Mul K] [NumOps K B] (o : Opts K) : Prop where
  /-- `bigBnd >= bigBnd`, i.e. `bigBnd` is not NaN -/
  bigRefl : leb o.bigBnd o.bigBnd = true
  /-- `a < b` implies `a == a` -/
  ltEq : ∀ a b : K, ltb a b = true → eqb a a = true
  zeroMul : (0 : K) * 0 = 0
  zeroAdd : (0 : K) + 0 = 0
  /-- `!(sqrt(0) > tiny)` -/
  sqrtZero : ltb o.tiny (sqrt (0 : K)) = false

/-- Dimensions of the state agree with the problem and the buffers are large enough. -/
structure Dim (pb : Pb K B) (s : State K) : Prop where
  nbVar : s.nbVar = pb.n
  wf : s.A.WF
  nbCstr : s.A.nbCstr = pb.m
  nbBnd : s.A.nbBnd = pb.nb
  szX : s.nbVar ≤ s.szX
  szZ : s.nbVar ≤ s.szZ
  szD : s.nbVar ≤ s.szD
  szU : s.A.nbCstr + s.A.nbBnd ≤ s.szU
  szR : s.A.nbCstr + s.A.nbBnd ≤ s.szR
  szJ : s.nbVar * s.nbVar ≤ s.szJ
  szRm : s.nbVar * s.nbVar ≤ s.szRm

/-- `Dim` and no more active constraints than variables. -/
structure Good (pb : Pb K B) (s : State K) : Prop where
  dim : Dim pb s
  q_le : s.A.q ≤ s.nbVar

/-- A selected constraint that can be activated, as an inequality. -/
structure Cand (A : ActiveSet) (sc : SC) : Prop where
  pre : A.activatePre sc.p sc.status = true
  ineq : sc.status.isEq = false

/-! ### Selection -/

theorem select_cand (pb : Pb K B) (n : Nat) (A : ActiveSet) (x : Nat → K) :
    (select pb n A x).status = .inactive ∨ Cand A (select pb n A x) := by
  have hgen : ∀ (l : List Nat) (acc : Sel B), (∀ i ∈ l, i < A.nbCstr) →
      (acc.sc.status = .inactive ∨ Cand A acc.sc) →
      ((l.foldl (selGen pb n A x) acc).sc.status = .inactive ∨ Cand A (l.foldl (selGen pb n A x) acc).sc) := by
    intro l
    induction l with
    | nil => intro acc _ h; exact h
    | cons i l ih =>
      intro acc hl h
      apply ih _ (fun j hj => hl j (List.mem_cons_of_mem _ hj))
      have hi := hl i List.mem_cons_self
      by_cases hA : A.isActive i
      · simp only [selGen, hA, if_true]; exact h
      · have hA' : A.statusAt i = .inactive := by simpa [ActiveSet.isActive] using hA
        simp only [selGen, hA]
        have key : ∀ s : Status, s.isGeneral = true → s.isEq = false → Cand A ⟨i, s⟩ := by
          intro s hs he
          refine ⟨?_, he⟩
          rw [ActiveSet.activatePre_iff]
          refine ⟨by simp only; omega, hA', ?_, Or.inl ⟨hi, hs⟩⟩
          rintro rfl; simp [Status.isGeneral] at hs
        simp only [Bool.false_eq_true, if_false]
        split_ifs
        · exact Or.inr (key _ rfl rfl)
        · exact Or.inr (key _ rfl rfl)
        · exact h
  have hbnd : ∀ (l : List Nat) (acc : Sel B), (∀ i ∈ l, i < A.nbBnd) →
      (acc.sc.status = .inactive ∨ Cand A acc.sc) →
      ((l.foldl (selBnd pb A x) acc).sc.status = .inactive ∨ Cand A (l.foldl (selBnd pb A x) acc).sc) := by
    intro l
    induction l with
    | nil => intro acc _ h; exact h
    | cons i l ih =>
      intro acc hl h
      apply ih _ (fun j hj => hl j (List.mem_cons_of_mem _ hj))
      have hi := hl i List.mem_cons_self
      by_cases hA : A.isActiveBnd i
      · simp only [selBnd, hA, if_true]; exact h
      · have hA' : A.statusAt (A.nbCstr + i) = .inactive := by
          by_contra hne
          exact hA (by simp only [ActiveSet.isActiveBnd, ActiveSet.statusAtBnd]; exact decide_eq_true hne)
        simp only [selBnd, hA]
        have key : ∀ s : Status, s.isBound = true → s.isEq = false → Cand A ⟨A.nbCstr + i, s⟩ := by
          intro s hs he
          refine ⟨?_, he⟩
          rw [ActiveSet.activatePre_iff]
          refine ⟨by simp only; omega, hA', ?_, Or.inr ⟨by simp, hs⟩⟩
          rintro rfl; simp [Status.isBound] at hs
        simp only [Bool.false_eq_true, if_false]
        split_ifs
        · exact Or.inr (key _ rfl rfl)
        · exact Or.inr (key _ rfl rfl)
        · exact h
  exact hbnd _ _ (fun i hi => List.mem_range.1 hi)
    (hgen _ _ (fun i hi => List.mem_range.1 hi) (Or.inl rfl))

theorem Cand.scOk {pb : Pb K B} {A : ActiveSet} {sc : SC} (hc : A.activatePre sc.p sc.status = true)
    (h1 : A.nbCstr = pb.m) (h2 : A.nbBnd = pb.nb) : scOk pb sc = true := by
  rw [ActiveSet.activatePre_iff] at hc
  obtain ⟨hi, _, hn, hk⟩ := hc
  rw [h1] at hk
  rw [h1, h2] at hi
  cases hs : sc.status <;> simp_all [JrlQp.scOk, Status.isGeneral, Status.isBound] <;> omega

/-! ### Step length -/

theorem Good.of_eq {pb : Pb K B} {s s' : State K} (h : Good pb s) (h1 : s'.nbVar = s.nbVar) (h2 : s'.A = s.A)
    (h3 : s'.szX = s.szX) (h4 : s'.szZ = s.szZ) (h5 : s'.szD = s.szD) (h6 : s'.szU = s.szU)
    (h7 : s'.szR = s.szR) (h8 : s'.szJ = s.szJ) (h9 : s'.szRm = s.szRm) : Good pb s' := by
  obtain ⟨⟨a1, a2, a3, a4, a5, a6, a7, a8, a9, a10, a11⟩, b⟩ := h
  constructor
  · constructor <;> simp only [h1, h2, h3, h4, h5, h6, h7, h8, h9] <;> assumption
  · simp only [h1, h2]; exact b

theorem ratio_fold (A : ActiveSet) (u r : Nat → K) (b : K) (l : List Nat) (acc : K × Nat) (q : Nat)
    (hl : ∀ k ∈ l, k < q) (h : acc = (b, 0) ∨ acc.2 < q) :
    l.foldl (ratioStep A u r) acc = (b, 0) ∨ (l.foldl (ratioStep A u r) acc).2 < q := by
  induction l generalizing acc with
  | nil => exact h
  | cons k l ih =>
    apply ih _ (fun j hj => hl j (List.mem_cons_of_mem _ hj))
    have hk := hl k List.mem_cons_self
    simp only [ratioStep]
    split_ifs
    · exact Or.inr hk
    · exact h
    · exact h

theorem stepLength_l (o : Opts K) (pb : Pb K B) (s : State K) (sc : SC) :
    (computeStepLength o pb s sc).t1 = o.bigBnd ∨ (computeStepLength o pb s sc).l < s.A.q := by
  have := ratio_fold s.A s.u s.r o.bigBnd (List.range s.A.q) (o.bigBnd, 0) s.A.q
    (fun k hk => List.mem_range.1 hk) (Or.inl rfl)
  rcases this with h | h
  · left; simp [computeStepLength, h]
  · right; exact h

/-- With as many active constraints as variables the primal direction vanishes and `t2` is `bigBnd`. -/
theorem t2_of_full {o : Opts K} (law : FpLaws K o) (pb : Pb K B) (s : State K) (sc : SC)
    (hq : s.A.q = s.nbVar) :
    (computeStepLength o pb (computeStep pb s sc) sc).t2 = o.bigBnd := by
  have hz : ∀ i < s.nbVar, (computeStep pb s sc).z i = 0 := by
    intro i hi
    simp only [computeStep, wr, hi, hq, if_true, Nat.sub_self]
    exact esum_eq_zero law.zeroAdd fun k hk => absurd hk (Nat.not_lt_zero k)
  have hn : normn s.nbVar (computeStep pb s sc).z = sqrt (0 : K) := by
    unfold normn dotn
    rw [esum_eq_zero law.zeroAdd]
    intro i hi
    rw [hz i hi, law.zeroMul]
  have hv : (computeStep pb s sc).nbVar = s.nbVar := rfl
  simp only [computeStepLength, hv, hn, law.sqrtZero]
  simp

/-! ### One iteration -/

theorem Good.step_ok {pb : Pb K B} {s : State K} {sc : SC} (hg : Good pb s)
    (hc : s.A.activatePre sc.p sc.status = true) : computeStepOk pb s sc = true := by
  have hd := hg.dim
  have hq := hg.q_le
  have h1 := Cand.scOk hc hd.nbCstr hd.nbBnd
  have h2 := (ActiveSet.activatePre_iff _ _ _).1 hc
  have h3 := hd.wf.q_lt h2.1 h2.2.1
  have h4 : s.nbVar * s.A.q ≤ s.szRm := le_trans (Nat.mul_le_mul_left _ hq) hd.szRm
  have := hd.szR
  simp [computeStepOk, h1, hq, hd.szD, hd.szJ, h4, hd.szZ, hd.nbVar.le]
  omega

theorem good_remove {pb : Pb K B} {o : Opts K} {s : State K} {l : Nat} (hg : Good pb s)
    (hl : l < s.A.q) : Good pb (removeConstraint o s l) := by
  have hp : s.A.deactivatePre l = true := by
    rw [hg.dim.wf.q_eq] at hl; simpa [ActiveSet.deactivatePre] using hl
  have hw := ActiveSet.wf_deactivate s.A hg.dim.wf l hp
  have hq := hg.dim.wf.q_deactivate hp
  have h1 := hg.q_le
  obtain ⟨⟨a1, a2, a3, a4, a5, a6, a7, a8, a9, a10, a11⟩, b⟩ := hg
  constructor
  · constructor <;> simp only [removeConstraint, ActiveSet.deactivate_nbCstr, ActiveSet.deactivate_nbBnd] <;>
      assumption
  · simp only [removeConstraint]; omega

theorem good_add {pb : Pb K B} {o : Opts K} {s : State K} {sc : SC} (hg : Good pb s)
    (hp : s.A.activatePre sc.p sc.status = true) (hl : s.A.q < s.nbVar) : Good pb (addConstraint o s sc) := by
  have hw := ActiveSet.wf_activate s.A hg.dim.wf _ _ hp
  have hq := hg.dim.wf.q_activate hp
  obtain ⟨⟨a1, a2, a3, a4, a5, a6, a7, a8, a9, a10, a11⟩, b⟩ := hg
  constructor
  · constructor <;> simp only [addConstraint, ActiveSet.activate_nbCstr, ActiveSet.activate_nbBnd] <;>
      assumption
  · simp only [addConstraint]; omega

theorem removeOk_of {pb : Pb K B} {s : State K} {l : Nat} (hg : Good pb s)
    (hl : l < s.A.q) (hu : s.A.q < s.szU) : removeOk s l = true := by
  have hp : s.A.deactivatePre l = true := by
    rw [hg.dim.wf.q_eq] at hl; simpa [ActiveSet.deactivatePre] using hl
  have h4 : s.nbVar * s.A.q ≤ s.szRm := le_trans (Nat.mul_le_mul_left _ hg.q_le) hg.dim.szRm
  simp [removeOk, hl, hp, hg.dim.szJ, h4, hg.q_le]; omega

theorem addOk_of {pb : Pb K B} {s : State K} {sc : SC} (hg : Good pb s)
    (hp : s.A.activatePre sc.p sc.status = true) (hl : s.A.q < s.nbVar) : addOk s sc = true := by
  have h4 : s.nbVar * (s.A.q + 1) ≤ s.szRm := le_trans (Nat.mul_le_mul_left _ hl) hg.dim.szRm
  simp [addOk, hp, hg.dim.szD, hg.dim.szJ, h4]; omega

theorem cand_remove {s : State K} {o : Opts K} {sc : SC} {l : Nat} (hw : s.A.WF)
    (hl : l < s.A.q) (hc : Cand s.A sc) : Cand (removeConstraint o s l).A sc := by
  have hk : l < s.A.active.length := by rw [← hw.q_eq]; exact hl
  refine ⟨?_, hc.ineq⟩
  have h := (ActiveSet.activatePre_iff _ _ _).1 hc.pre
  rw [ActiveSet.activatePre_iff]
  simp only [removeConstraint]
  rw [ActiveSet.deactivate_nbCstr, ActiveSet.deactivate_nbBnd, ActiveSet.deactivate_statusAt _ hw _ _ hk]
  refine ⟨h.1, ?_, h.2.2.1, h.2.2.2⟩
  split_ifs
  · rfl
  · exact h.2.1

/-- What an iteration guarantees about its outcome. -/
def IterSafe (pb : Pb K B) (it : Nat) : Iter K → Prop
  | .done t s => (t = .success ∨ t = .infeasible) ∧ Good pb s ∧ s.it = it
  | .cont s sc skip => Good pb s ∧ s.it = it ∧ (skip = true → Cand s.A sc)

theorem iterBody_safe {o : Opts K} (law : FpLaws K o) {pb : Pb K B} {s : State K} {sc : SC} (hg : Good pb s)
    (hc : Cand s.A sc) : ∃ r, iterBody o pb s sc = .ok r ∧ IterSafe pb s.it r := by
  have hp := (ActiveSet.activatePre_iff _ _ _).1 hc.pre
  have hqlt := hg.dim.wf.q_lt hp.1 hp.2.1
  have hqU : s.A.q < s.szU := lt_of_lt_of_le hqlt hg.dim.szU
  unfold iterBody
  rw [if_pos (by simp [hg.step_ok hc.pre, hqU, hg.dim.szX])]
  have hg1 : Good pb (computeStep pb s sc) := hg.of_eq rfl rfl rfl rfl rfl rfl rfl rfl rfl
  have hfull := t2_of_full law pb s sc
  have hA1 : (computeStep pb s sc).A = s.A := rfl
  have hit1 : (computeStep pb s sc).it = s.it := rfl
  have hU1 : (computeStep pb s sc).szU = s.szU := rfl
  have hV1 : (computeStep pb s sc).nbVar = s.nbVar := rfl
  generalize computeStep pb s sc = s1 at *
  have hsl : stepLenOk o s1 sc = true := by
    simp only [stepLenOk, hc.ineq]
    have := hp.2.2.1
    simp [this]
  simp only []
  rw [if_pos hsl]
  have hl := stepLength_l o pb s1 sc
  generalize computeStepLength o pb s1 sc = sl at *
  by_cases hbig : leb o.bigBnd (stdMin sl.t1 sl.t2) = true
  · rw [if_pos hbig]
    exact ⟨_, rfl, Or.inr rfl, hg1, hit1⟩
  rw [if_neg hbig]
  -- the ratio test found a constraint, or the step is full
  have hcases : sl.l < s1.A.q ∨ (stdMin sl.t1 sl.t2 = sl.t2 ∧ eqb sl.t2 sl.t2 = true) := by
    rcases hl with h | h
    · right
      unfold stdMin at hbig ⊢
      by_cases hlt : ltb sl.t2 sl.t1 = true
      · rw [if_pos hlt]; exact ⟨rfl, law.ltEq _ _ hlt⟩
      · rw [if_neg hlt, h] at hbig; exact absurd law.bigRefl hbig
    · exact Or.inl h
  by_cases hb2 : leb o.bigBnd sl.t2 = true
  · rw [if_pos hb2]
    have hl' : sl.l < s1.A.q := by
      rcases hcases with h | ⟨h, _⟩
      · exact h
      · rw [h] at hbig; exact absurd hb2 hbig
    have hg2 : Good pb (dualUpdate s1 (stdMin sl.t1 sl.t2)) :=
      hg1.of_eq rfl rfl rfl rfl rfl rfl rfl rfl rfl
    rw [if_pos (removeOk_of hg2 hl' (by simp only [dualUpdate, hU1, hA1]; exact hqU))]
    refine ⟨_, rfl, good_remove hg2 hl', hit1, fun _ => ?_⟩
    exact cand_remove hg2.dim.wf hl' (by simpa [hA1, dualUpdate] using hc)
  · rw [if_neg hb2]
    have hg2 : Good pb (fullUpdate pb s1 sc (stdMin sl.t1 sl.t2)) :=
      hg1.of_eq rfl rfl rfl rfl rfl rfl rfl rfl rfl
    by_cases he : eqb (stdMin sl.t1 sl.t2) sl.t2 = true
    · rw [if_pos he]
      have hqn : s1.A.q < s1.nbVar := by
        rcases Nat.lt_or_ge s1.A.q s1.nbVar with h | h
        · exact h
        · exfalso
          have h' : s.A.q = s.nbVar := by
            have := hg1.q_le; rw [hA1, hV1] at this h; omega
          rw [hfull h'] at hb2
          exact hb2 law.bigRefl
      rw [if_pos (addOk_of hg2 (by simpa [hA1, fullUpdate, dualUpdate, primalStep] using hc.pre) hqn)]
      refine ⟨_, rfl, good_add hg2 (by simpa [hA1, fullUpdate, dualUpdate, primalStep] using hc.pre) hqn, hit1, ?_⟩
      simp
    · rw [if_neg he]
      have hl' : sl.l < s1.A.q := by
        rcases hcases with h | ⟨h, h'⟩
        · exact h
        · rw [h] at he; exact absurd h' he
      rw [if_pos (removeOk_of hg2 hl' (by simp only [fullUpdate, dualUpdate, primalStep, hU1, hA1]; exact hqU))]
      refine ⟨_, rfl, good_remove hg2 hl', hit1, fun _ => ?_⟩
      exact cand_remove hg2.dim.wf hl' (by simpa [hA1, fullUpdate, dualUpdate, primalStep] using hc)

theorem Good.selectOk {pb : Pb K B} {s : State K} (hg : Good pb s) : selectOk pb s = true := by
  have := hg.dim
  simp [JrlQp.selectOk, this.nbCstr, this.nbBnd, this.nbVar.le, this.szX, this.wf.size]

theorem iterate_safe {o : Opts K} (law : FpLaws K o) {pb : Pb K B} {s : State K} {sc : SC} {skip : Bool}
    (hg : Good pb s) (hc : skip = true → Cand s.A sc) :
    ∃ r, iterate o pb s sc skip = .ok r ∧ IterSafe pb s.it r := by
  unfold iterate
  cases skip with
  | true => simp only [if_true]; exact iterBody_safe law hg (hc rfl)
  | false =>
    simp only [Bool.false_eq_true, if_false]
    rw [if_pos hg.selectOk]
    have hsel := select_cand pb s.nbVar s.A s.x
    generalize select pb s.nbVar s.A s.x = sc' at *
    by_cases hi : sc'.status = .inactive
    · rw [if_pos hi]; exact ⟨_, rfl, Or.inl rfl, hg, rfl⟩
    · rw [if_neg hi]
      have hc' : Cand s.A sc' := hsel.resolve_left hi
      have hp := (ActiveSet.activatePre_iff _ _ _).1 hc'.pre
      have hqlt := hg.dim.wf.q_lt hp.1 hp.2.1
      have hqU : s.A.q < s.szU := lt_of_lt_of_le hqlt hg.dim.szU
      have hqR : s.A.q ≤ s.szR := le_trans hqlt.le hg.dim.szR
      rw [if_pos (by simp [hqU, hqR])]
      exact iterBody_safe law (s := { s with u := upd s.u s.A.q 0 })
        (hg.of_eq rfl rfl rfl rfl rfl rfl rfl rfl rfl) hc'

theorem loop_safe {o : Opts K} (law : FpLaws K o) {pb : Pb K B} (fuel : Nat) : ∀ {s : State K} {sc : SC}
    {skip : Bool}, Good pb s → (skip = true → Cand s.A sc) →
    ∃ t s', loop o pb fuel s sc skip = .ok (t, s') ∧ Good pb s' := by
  induction fuel with
  | zero => intro s sc skip hg _; exact ⟨_, _, rfl, hg⟩
  | succ fuel ih =>
    intro s sc skip hg hc
    obtain ⟨r, hr, hs⟩ := iterate_safe law (sc := sc) (skip := skip) hg hc
    simp only [loop, hr]
    cases r with
    | done t s' => exact ⟨_, _, rfl, hs.2.1⟩
    | cont s' sc' skip' =>
      exact ih (s := { s' with it := s'.it + 1 })
        (hs.1.of_eq rfl rfl rfl rfl rfl rfl rfl rfl rfl) hs.2.2

/-! ### Initialisation -/

/-- Consecutive activations of the list are legal from `A`. -/
def ActAll : ActiveSet → List SC → Prop
  | _, [] => True
  | A, sc :: rest => A.activatePre sc.p sc.status = true ∧ ActAll (A.activate sc.p sc.status) rest

theorem addInitial_ok {o : Opts K} {pb : Pb K B} {s : State K} {sc : SC} (hg : Good pb s)
    (hc : s.A.activatePre sc.p sc.status = true) (hq : s.A.q < s.nbVar) :
    ∃ s', addInitialConstraint o pb s sc = .ok s' ∧ Good pb s' ∧ s'.A = s.A.activate sc.p sc.status ∧
      s'.nbVar = s.nbVar ∧ s'.it = s.it := by
  have hp := (ActiveSet.activatePre_iff _ _ _).1 hc
  have hqlt := hg.dim.wf.q_lt hp.1 hp.2.1
  have hqU : s.A.q < s.szU := lt_of_lt_of_le hqlt hg.dim.szU
  unfold addInitialConstraint
  simp only []
  rw [if_pos (by simp [hg.step_ok hc, hqU, hg.dim.szX])]
  have hg2 : Good pb (fullUpdate pb (computeStep pb { s with u := upd s.u s.A.q 0 } sc) sc
      (initStep o pb (computeStep pb { s with u := upd s.u s.A.q 0 } sc) sc)) :=
    hg.of_eq rfl rfl rfl rfl rfl rfl rfl rfl rfl
  rw [if_pos (addOk_of hg2 hc hq)]
  exact ⟨_, rfl, good_add hg2 hc hq, rfl, rfl, rfl⟩

theorem addInitials_ok {o : Opts K} {pb : Pb K B} (l : List SC) : ∀ {s : State K}, Good pb s →
    ActAll s.A l → s.A.q + l.length ≤ s.nbVar →
    ∃ s', addInitials o pb l s = .ok s' ∧ Good pb s' ∧ s'.it = s.it ∧ s'.A.q = s.A.q + l.length := by
  induction l with
  | nil => intro s hg _ _; exact ⟨s, rfl, hg, rfl, rfl⟩
  | cons sc l ih =>
    intro s hg ha hq
    simp only [List.length_cons] at hq
    obtain ⟨s', h1, h2, h3, h4, h5⟩ := addInitial_ok (o := o) hg ha.1 (by omega)
    have hqa := hg.dim.wf.q_activate ha.1
    obtain ⟨s'', g1, g2, g3, g4⟩ := ih h2 (by rw [h3]; exact ha.2) (by rw [h3, h4, hqa]; omega)
    refine ⟨s'', ?_, g2, by rw [g3, h5], ?_⟩
    · simp only [addInitials, h1]; exact g1
    · rw [g4, h3, hqa]; simp; omega

/-- Too many initial constraints: the workspaces are exceeded. -/
theorem addInitials_fault {o : Opts K} {pb : Pb K B} (l : List SC) : ∀ {s : State K}, Good pb s →
    ActAll s.A l → s.nbVar < s.A.q + l.length →
    addInitials o pb l s = .error .outOfBounds := by
  induction l with
  | nil => intro s hg _ h; have := hg.q_le; simp at h; omega
  | cons sc l ih =>
    intro s hg ha hq
    simp only [List.length_cons] at hq
    by_cases hlt : s.A.q < s.nbVar
    · obtain ⟨s', h1, h2, h3, h4, h5⟩ := addInitial_ok (o := o) hg ha.1 hlt
      have hqa := hg.dim.wf.q_activate ha.1
      simp only [addInitials, h1]
      exact ih h2 (by rw [h3]; exact ha.2) (by rw [h3, h4, hqa]; omega)
    · simp only [addInitials, addInitialConstraint]
      have : addOk (fullUpdate pb (computeStep pb { s with u := upd s.u s.A.q 0 } sc) sc
          (initStep o pb (computeStep pb { s with u := upd s.u s.A.q 0 } sc) sc)) sc = false := by
        simp only [addOk, fullUpdate, dualUpdate, primalStep, computeStep]
        simp
        intro _ h
        exact absurd h hlt
      rw [this]
      split_ifs <;> simp_all

/-- The list of `EQUALITY`/`FIXED` activations is legal from any active set without active constraint. -/
theorem actAll_map (l : List Nat) (f : Nat → SC) : ∀ (A : ActiveSet), A.WF →
    (∀ i ∈ l, (f i).p < A.nbCstr + A.nbBnd ∧ A.statusAt (f i).p = .inactive ∧
      (((f i).p < A.nbCstr ∧ (f i).status.isGeneral = true) ∨ (A.nbCstr ≤ (f i).p ∧ (f i).status.isBound = true))) →
    (l.map fun i => (f i).p).Nodup → ActAll A (l.map f) := by
  induction l with
  | nil => intro A _ _ _; trivial
  | cons i l ih =>
    intro A hw h hn
    have hi := h i List.mem_cons_self
    have hpre : A.activatePre (f i).p (f i).status = true := by
      rw [ActiveSet.activatePre_iff]
      refine ⟨hi.1, hi.2.1, ?_, hi.2.2⟩
      rcases hi.2.2 with h | h <;> intro he <;> simp [he, Status.isGeneral, Status.isBound] at h
    rw [List.map_cons, List.nodup_cons] at hn
    refine ⟨hpre, ih _ (ActiveSet.wf_activate _ hw _ _ hpre) ?_ hn.2⟩
    intro j hj
    have := h j (List.mem_cons_of_mem _ hj)
    rw [ActiveSet.activate_nbCstr, ActiveSet.activate_nbBnd,
      ActiveSet.activate_statusAt _ _ _ _ (by rw [hw.size]; exact hi.1)]
    refine ⟨this.1, ?_, this.2.2⟩
    have hne : (f j).p ≠ (f i).p := by
      intro he; exact hn.1 (by rw [List.mem_map]; exact ⟨j, hj, he⟩)
    rw [if_neg hne]; exact this.2.1

theorem actAll_eqList (pb : Pb K B) (A : ActiveSet) (hw : A.WF) (h0 : ∀ i, A.statusAt i = .inactive) :
    ActAll A (eqList pb A) := by
  have : eqList pb A = (((List.range A.nbCstr).filter (fun i => bEq K (pb.bl i) (pb.bu i)))
      ++ ((List.range A.nbBnd).filter (fun i => bEq K (pb.xl i) (pb.xu i))).map (A.nbCstr + ·)).map
      (fun i => if i < A.nbCstr then ⟨i, .equality⟩ else ⟨i, .fixed⟩) := by
    simp only [eqList, List.map_append, List.map_map]
    congr 1
    · apply List.map_congr_left
      intro i hi
      have := List.mem_range.1 (List.mem_filter.1 hi).1
      simp [this]
    · apply List.map_congr_left
      intro i _
      simp
  rw [this]
  apply actAll_map _ _ A hw
  · intro i hi
    rw [List.mem_append] at hi
    rcases hi with hi | hi
    · have := List.mem_range.1 (List.mem_filter.1 hi).1
      simp [this, h0, Status.isGeneral]; omega
    · obtain ⟨j, hj, rfl⟩ := List.mem_map.1 hi
      have := List.mem_range.1 (List.mem_filter.1 hj).1
      simp [this, h0, Status.isBound]
  · have hid : (fun i => (if i < A.nbCstr then (⟨i, .equality⟩ : SC) else ⟨i, .fixed⟩).p) = id := by
      funext i; by_cases h : i < A.nbCstr <;> simp [h]
    rw [hid, List.map_id, List.nodup_append]
    refine ⟨List.nodup_range.filter _, ?_, ?_⟩
    · exact (List.nodup_range.filter _).map (fun a b h => by simpa using h)
    · intro a ha b hb
      have := List.mem_range.1 (List.mem_filter.1 ha).1
      obtain ⟨j, hj, rfl⟩ := List.mem_map.1 hb
      omega

end JrlQp
