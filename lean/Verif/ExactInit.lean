import Verif.ExactLoop

/-!
# Initialisation in exact arithmetic

The unconstrained minimum and the additions of the equality constraints and fixed variables establish the algebraic
invariant.
-/

namespace JrlQp

open NumOps Finset Spec

/-- The state after `initPoint` satisfies the invariant, with no active constraint. -/
theorem initPoint_alg {o : Opts ℝ} {pb : Pb ℝ EReal} {s : State ℝ} (hd : Dim pb s)
    (hc : chol pb.n pb.G pb.n = (s.G, none)) : Alg pb (initPoint o pb s) (fun _ => 0) := by
  obtain ⟨hpos, hL⟩ := chol_success hc
  have hn : s.nbVar = pb.n := hd.nbVar
  have hne : ∀ i < pb.n, s.G i i ≠ 0 := fun i hi => (hpos i hi).ne'
  have hhess : ∀ i < pb.n, ∀ j < pb.n, hess pb i j = ∑ l ∈ range pb.n, low s.G i l * low s.G j l :=
    fun i hi j hj => (hL i hi j hj).symm
  -- J
  have hJ1 : ∀ i < pb.n, ∀ j < pb.n, ∑ k ∈ range pb.n, low s.G k i * invLt pb.n s.G k j = kd i j := by
    intro i hi j hj
    have := backSub_spec (fun i j => s.G j i) pb.n (fun k => if k = j then 1 else 0) hne i hi
    rw [kd, ← this]
    rfl
  have hJ2 : ∀ i < pb.n, ∀ j < pb.n, ∑ k ∈ range pb.n, invLt pb.n s.G i k * low s.G j k = kd i j :=
    inv_comm (A := fun i k => low s.G k i) (M := invLt pb.n s.G) hJ1
  have hJ : ∀ i < pb.n, ∀ j < pb.n, (initPoint o pb s).J i j = invLt pb.n s.G i j := by
    intro i hi j hj
    simp [initPoint, hn, hi, hj]
  -- x
  have hx : ∀ i < pb.n, (initPoint o pb s).x i = unconstrMin pb.n s.G pb.a i := by
    intro i hi
    simp [initPoint, hn, hi, wr]
  have hGx : ∀ a < pb.n, ∑ b ∈ range pb.n, hess pb a b * (initPoint o pb s).x b = -pb.a a := by
    intro a ha
    have h1 := backSub_spec (fun i j => s.G j i) pb.n (fwdSub s.G pb.a pb.n) hne
    have h2 := fwdSub_spec' s.G pb.a pb.n hne a ha
    rw [← h2]
    have e : ∀ b ∈ range pb.n, hess pb a b * (initPoint o pb s).x b
        = ∑ l ∈ range pb.n, -(low s.G a l * (low s.G b l * backSub (fun i j => s.G j i) pb.n (fwdSub s.G pb.a pb.n) b)) := by
      intro b hb
      rw [hx b (mem_range.1 hb), unconstrMin, hhess a ha b (mem_range.1 hb), Finset.sum_mul]
      apply sum_congr rfl; intro l _; ring
    rw [sum_congr rfl e, sum_comm, ← sum_neg_distrib]
    apply sum_congr rfl
    intro l hl
    rw [sum_neg_distrib, ← Finset.mul_sum]
    congr 2
    exact h1 l (mem_range.1 hl)
  have hq : (initPoint o pb s).A.q = 0 := ActiveSet.reset_q _
  refine ⟨initPoint_good hd, ⟨?_, ?_, ?_⟩, ?_, ?_, ?_⟩
  · intro a ha b hb
    have e : ∀ c ∈ range pb.n, hess pb a c * outer pb.n (initPoint o pb s).J c b
        = ∑ l ∈ range pb.n, ∑ i ∈ range pb.n, low s.G a l * invLt pb.n s.G b i * (low s.G c l * invLt pb.n s.G c i) := by
      intro c hc
      have hc := mem_range.1 hc
      rw [hhess a ha c hc, outer, Finset.sum_mul]
      apply sum_congr rfl; intro l _
      rw [Finset.mul_sum]
      apply sum_congr rfl; intro i hi
      have hi := mem_range.1 hi
      rw [hJ c hc i hi, hJ b hb i hi]; ring
    rw [sum_congr rfl e, sum_comm]
    have e2 : ∀ l ∈ range pb.n, ∑ c ∈ range pb.n, ∑ i ∈ range pb.n,
        low s.G a l * invLt pb.n s.G b i * (low s.G c l * invLt pb.n s.G c i)
        = invLt pb.n s.G b l * low s.G a l := by
      intro l hl
      have hl := mem_range.1 hl
      rw [sum_comm]
      have : ∀ i ∈ range pb.n, ∑ c ∈ range pb.n, low s.G a l * invLt pb.n s.G b i * (low s.G c l * invLt pb.n s.G c i)
          = kd l i * (low s.G a l * invLt pb.n s.G b i) := by
        intro i hi
        rw [← Finset.mul_sum, hJ1 l hl i (mem_range.1 hi)]; ring
      rw [sum_congr rfl this, sum_kd hl]; ring
    rw [sum_congr rfl e2, hJ2 b hb a ha, kd, kd]
    simp [eq_comm]
  · intro k hk; omega
  · intro k hk; omega
  · intro a ha
    rw [hGx a ha, hq]; simp
  · intro k hk; omega
  · have hf : (initPoint o pb s).f = 1 / 2 * ∑ i ∈ range pb.n, pb.a i * (initPoint o pb s).x i := by
      simp only [initPoint, esum_eq, hn]; rfl
    rw [hf, obj]
    have : ∑ i ∈ range pb.n, ∑ j ∈ range pb.n, (initPoint o pb s).x i * hess pb i j * (initPoint o pb s).x j
        = -∑ i ∈ range pb.n, pb.a i * (initPoint o pb s).x i := by
      rw [← sum_neg_distrib]
      apply sum_congr rfl; intro i hi
      have := hGx i (mem_range.1 hi)
      calc _ = (initPoint o pb s).x i * ∑ j ∈ range pb.n, hess pb i j * (initPoint o pb s).x j := by
            rw [Finset.mul_sum]; apply sum_congr rfl; intro j _; ring
        _ = _ := by rw [this]; ring
    rw [this]; ring

/-! ### Equality constraints -/

theorem initStep_eq {o : Opts ℝ} {pb : Pb ℝ EReal} {s : State ℝ} {sc : SC} (hn : s.nbVar = pb.n)
    (hsc : scOk pb sc = true) (he : sc.status.isEq = true) (hz : o.tiny < normn pb.n s.z) :
    initStep o pb s sc = tFull pb s sc := by
  unfold initStep tFull
  rw [hn, if_pos (by simpa using hz), ndot_cases pb sc hsc, ndot_cases pb sc hsc]
  cases hs : sc.status <;> simp [hs, Status.isEq] at he <;> simp [rhs, hs, colDot_eq, NumOps.toK]

/-- Adding an equality constraint whose normal is independent of the active ones. -/
theorem addInitial_alg {o : Opts ℝ} {pb : Pb ℝ EReal} {s : State ℝ} {sc : SC} (ht0 : 0 ≤ o.tiny)
    (h : Alg pb s (fun _ => 0)) (hp : s.A.activatePre sc.p sc.status = true) (he : sc.status.isEq = true)
    (hz : o.tiny < normn pb.n (computeStep pb s sc).z) :
    ∃ s', addInitialConstraint o pb s sc = .ok s' ∧ Alg pb s' (fun _ => 0) ∧
      s'.A = s.A.activate sc.p sc.status := by
  have hsc := Cand.scOk (pb := pb) hp h.good.dim.nbCstr h.good.dim.nbBnd
  set s0 : State ℝ := { s with u := upd s.u s.A.q 0 } with hs0
  have h0 : Alg pb s0 (fun _ => 0) := h.setU 0
  have hfacts := computeStep_facts (s := s0) (sc := sc) h.good.dim.nbVar
    (by rw [← h.good.dim.nbVar]; exact h.good.q_le) h.fac hsc
  have hz0 : (computeStep pb s0 sc).z = (computeStep pb s sc).z := rfl
  have hznz : ∃ i < pb.n, (computeStep pb s0 sc).z i ≠ 0 := by
    rw [hz0, ← normn_pos]; linarith
  have h1 : Alg pb (computeStep pb s0 sc)
      (fun a => (computeStep pb s0 sc).u (computeStep pb s0 sc).A.q * normal pb sc a) := by
    refine (h0.step (sc := sc)).congr ?_
    intro a _
    simp [computeStep, hs0, upd]
  have hstep := initStep_eq (o := o) (s := computeStep pb s0 sc) h.good.dim.nbVar hsc he (by rw [hz0]; exact hz)
  obtain ⟨b1, b2, _⟩ := h1.full hfacts hsc (tFull pb (computeStep pb s0 sc) sc)
  have hq : s.A.q < pb.n := by
    obtain ⟨j, hj1, hj2, _⟩ := hfacts.d_ne hznz
    have : (computeStep pb s0 sc).A.q = s.A.q := rfl
    omega
  obtain ⟨s', e1, _, e3, _⟩ := addInitial_ok (o := o) h.good hp (by rw [h.good.dim.nbVar]; exact hq)
  refine ⟨s', e1, ?_, e3⟩
  have hs' : s' = addConstraint o (fullUpdate pb (computeStep pb s0 sc) sc (tFull pb (computeStep pb s0 sc) sc)) sc := by
    unfold addInitialConstraint at e1
    simp only [] at e1
    split_ifs at e1
    rw [← hs0, hstep] at e1
    cases e1
    rfl
  rw [hs']
  have htight : ndot pb sc (fullUpdate pb (computeStep pb s0 sc) sc (tFull pb (computeStep pb s0 sc) sc)).x = rhs pb sc := by
    rw [ndot_congr pb sc b2, ndot_add]
    unfold tFull
    rw [div_mul_cancel₀ _ (hfacts.slope_pos hznz).ne']
    ring
  exact (b1.add (o := o) hp hq hfacts.d (hfacts.d_ne hznz) htight).1

/-- The direction computed at each initial addition is larger than `tiny`: the thresholds do no harm during the
initialisation. -/
def RegInit (o : Opts ℝ) (pb : Pb ℝ EReal) : List SC → State ℝ → Prop
  | [], _ => True
  | sc :: rest, s => o.tiny < normn pb.n (computeStep pb s sc).z ∧
    match addInitialConstraint o pb s sc with
    | .ok s' => RegInit o pb rest s'
    | .error _ => True

/-- Active set after consecutive activations. -/
def ActiveSet.activateSCs (A : ActiveSet) (l : List SC) : ActiveSet := l.foldl (fun A sc => A.activate sc.p sc.status) A

theorem addInitials_alg {o : Opts ℝ} {pb : Pb ℝ EReal} (ht0 : 0 ≤ o.tiny) (l : List SC) : ∀ {s : State ℝ},
    Alg pb s (fun _ => 0) → ActAll s.A l → (∀ sc ∈ l, sc.status.isEq = true) → RegInit o pb l s →
    ∃ s', addInitials o pb l s = .ok s' ∧ Alg pb s' (fun _ => 0) ∧ s'.A = s.A.activateSCs l := by
  induction l with
  | nil => intro s h _ _ _; exact ⟨s, rfl, h, rfl⟩
  | cons sc l ih =>
    intro s h ha he hr
    obtain ⟨s', h1, h2, h3⟩ := addInitial_alg ht0 h ha.1 (he sc List.mem_cons_self) hr.1
    have hr2 := hr.2
    rw [h1] at hr2
    obtain ⟨s'', g1, g2, g3⟩ := ih h2 (by rw [h3]; exact ha.2) (fun c hc => he c (List.mem_cons_of_mem _ hc)) hr2
    refine ⟨s'', ?_, g2, ?_⟩
    · simp only [addInitials, h1]; exact g1
    · rw [g3, h3]; rfl

theorem act_activateSCs (l : List SC) : ∀ {A : ActiveSet}, A.WF → ActAll A l →
    (A.activateSCs l).WF ∧ (A.activateSCs l).q = A.q + l.length ∧
    (∀ k < A.q, (A.activateSCs l).act k = A.act k) ∧
    (∀ j (hj : j < l.length), (A.activateSCs l).act (A.q + j) = l[j]) ∧
    (A.activateSCs l).active = A.active ++ l.map (·.p) := by
  induction l with
  | nil => intro A hw _; exact ⟨hw, by simp [ActiveSet.activateSCs], fun k _ => rfl, fun j hj => by simp at hj,
      by simp [ActiveSet.activateSCs]⟩
  | cons sc l ih =>
    intro A hw ha
    have hwa := ActiveSet.wf_activate A hw _ _ ha.1
    obtain ⟨h1, h2, h3, h4, h5⟩ := ih hwa ha.2
    obtain ⟨a1, a2⟩ := act_activate hw ha.1
    have hq := hw.q_activate ha.1
    have he : A.activateSCs (sc :: l) = (A.activate sc.p sc.status).activateSCs l := rfl
    rw [he]
    refine ⟨h1, ?_, ?_, ?_, ?_⟩
    · rw [h2, hq, List.length_cons]; omega
    · intro k hk
      rw [h3 k (by omega), a1 k hk]
    · intro j hj
      cases j with
      | zero => rw [Nat.add_zero, h3 _ (by omega), a2]; rfl
      | succ j =>
        have := h4 j (by simpa using hj)
        rw [hq] at this
        rw [show A.q + (j + 1) = A.q + 1 + j by omega, this]; rfl
    · rw [h5, ActiveSet.activate_active]; simp

/-- The whole initialisation. -/
def RegInitAll (o : Opts ℝ) (pb : Pb ℝ EReal) (s : State ℝ) : Prop :=
  RegInit o pb (eqList pb (initPoint o pb { s with G := (chol s.nbVar pb.G s.nbVar).1 }).A)
    (initPoint o pb { s with G := (chol s.nbVar pb.G s.nbVar).1 })

theorem eqList_eqStatus {pb : Pb ℝ EReal} {A : ActiveSet} : ∀ sc ∈ eqList pb A, sc.status.isEq = true := by
  intro sc h
  simp only [eqList, List.mem_append, List.mem_map] at h
  rcases h with ⟨i, _, rfl⟩ | ⟨i, _, rfl⟩ <;> rfl

theorem init_alg {o : Opts ℝ} {pb : Pb ℝ EReal} (ht0 : 0 ≤ o.tiny) {s : State ℝ} (hd : Dim pb s)
    (hc : cholOk pb) (hr : RegInitAll o pb s) :
    ∃ s' A0, init_ o pb s = .ok (.success, s') ∧ Alg pb s' (fun _ => 0) ∧ A0.WF ∧ A0.q = 0 ∧ A0.nbCstr = pb.m ∧
      A0.nbBnd = pb.nb ∧ (∀ i, A0.statusAt i = .inactive) ∧ ActAll A0 (eqList pb A0) ∧
      s'.A = A0.activateSCs (eqList pb A0) := by
  unfold cholOk at hc
  have hdG : Dim pb { s with G := (chol s.nbVar pb.G s.nbVar).1 } := by
    obtain ⟨h0, h1, b, c, h2, h3, h4, h5, h6, h7, h8⟩ := hd
    exact ⟨h0, h1, b, c, h2, h3, h4, h5, h6, h7, h8⟩
  unfold init_
  rw [if_pos (by simp [hd.nbVar])]
  simp only []
  rw [if_neg (by rw [hd.nbVar, hc]; simp), if_pos (by simp [hd.szJ, hd.szX])]
  have h1 := initPoint_alg (o := o) hdG (by simp only [hd.nbVar]; rw [← hc])
  have hst : ∀ i, (initPoint o pb { s with G := (chol s.nbVar pb.G s.nbVar).1 }).A.statusAt i = .inactive :=
      fun i => reset_statusAt _ i
  have hq0 : (initPoint o pb { s with G := (chol s.nbVar pb.G s.nbVar).1 }).A.q = 0 := ActiveSet.reset_q _
  unfold RegInitAll at hr
  generalize initPoint o pb { s with G := (chol s.nbVar pb.G s.nbVar).1 } = s1 at *
  have hact := actAll_eqList pb s1.A h1.good.dim.wf hst
  obtain ⟨s2, g1, g2, g3⟩ := addInitials_alg ht0 (eqList pb s1.A) h1 hact eqList_eqStatus hr
  unfold initActiveSet
  rw [if_pos h1.good.selectOk, g1]
  exact ⟨s2, s1.A, rfl, g2, h1.good.dim.wf, hq0, h1.good.dim.nbCstr, h1.good.dim.nbBnd, hst, hact, g3⟩

/-- Statuses and positions after the initialisation. -/
theorem init_act {A0 : ActiveSet} (hw : A0.WF) (hq : A0.q = 0)
    (hst : ∀ i, A0.statusAt i = .inactive) {l : List SC} (hl : ActAll A0 l) :
    (A0.activateSCs l).q = l.length ∧ (∀ k (hk : k < l.length), (A0.activateSCs l).act k = l[k]) ∧
    (∀ i, (A0.activateSCs l).statusAt i ≠ .inactive → ∃ sc ∈ l, sc = ⟨i, (A0.activateSCs l).statusAt i⟩) := by
  obtain ⟨h1, h2, h3, h4, h5⟩ := act_activateSCs l hw hl
  rw [hq] at h2
  have h6 : ∀ k (hk : k < l.length), (A0.activateSCs l).act k = l[k] := by
    intro k hk; have := h4 k hk; rwa [hq, Nat.zero_add] at this
  refine ⟨by omega, h6, ?_⟩
  intro i hi
  have hlt : i < (A0.activateSCs l).status.length := by
    by_contra hc
    apply hi
    simp [ActiveSet.statusAt, List.getD_eq_getElem?_getD, List.getElem?_eq_none (not_lt.1 hc)]
  have hm := (h1.mem i).2 ⟨hlt, hi⟩
  obtain ⟨k, hk, he⟩ := List.getElem_of_mem hm
  have hk' : k < l.length := by rw [← h1.q_eq] at hk; omega
  have hg : (A0.activateSCs l).get k = i := by
    rw [ActiveSet.get, List.getD_eq_getElem _ _ hk, he]
  refine ⟨l[k], List.getElem_mem hk', ?_⟩
  rw [← h6 k hk', ActiveSet.act, hg]

/-- Membership in the list of initial constraints. -/
theorem mem_eqList {pb : Pb ℝ EReal} {A : ActiveSet} (hm : A.nbCstr = pb.m) (hnb : A.nbBnd = pb.nb) (sc : SC) :
    sc ∈ eqList pb A ↔ sc.p < pb.m + pb.nb ∧ IsEqIdx pb sc.p ∧ sc.status = (if sc.p < pb.m then .equality else .fixed) := by
  have hb : ∀ a b : EReal, bEq ℝ a b = true ↔ a = b := by intro a b; simp [bEq]
  simp only [eqList, hm, hnb, List.mem_append, List.mem_map, List.mem_filter, List.mem_range, hb, IsEqIdx]
  constructor
  · rintro (⟨i, ⟨h1, h2⟩, rfl⟩ | ⟨i, ⟨h1, h2⟩, rfl⟩)
    · exact ⟨by simp only; omega, Or.inl ⟨h1, h2⟩, by simp [h1]⟩
    · exact ⟨by simp only; omega, Or.inr ⟨by simp, by simpa using h2⟩, by simp⟩
  · rintro ⟨h1, h2, h3⟩
    obtain ⟨p, st⟩ := sc
    simp only at h1 h2
    rcases h2 with ⟨h2, h4⟩ | ⟨h2, h4⟩
    · left
      rw [if_pos h2] at h3
      exact ⟨p, ⟨h2, h4⟩, by rw [show st = .equality from h3]⟩
    · right
      refine ⟨p - pb.m, ⟨by omega, h4⟩, ?_⟩
      rw [if_neg (show ¬ p < pb.m by omega)] at h3
      rw [show st = .fixed from h3, Nat.add_sub_cancel' h2]

theorem eq_fin {pb : Pb ℝ EReal} (hp : Proper pb) {A : ActiveSet} (hm : A.nbCstr = pb.m) (hnb : A.nbBnd = pb.nb)
    {sc : SC} (h : sc ∈ eqList pb A) : BndFin pb sc := by
  obtain ⟨h1, h2, h3⟩ := (mem_eqList hm hnb sc).1 h
  have key : ∀ a b : EReal, a ≠ ⊤ → b ≠ ⊥ → a = b → ∃ r : ℝ, a = (r : EReal) ∧ b = (r : EReal) := by
    intro a b ha hb he
    subst he
    induction a using EReal.rec with
    | bot => exact absurd rfl hb
    | top => exact absurd rfl ha
    | coe r => exact ⟨r, rfl, rfl⟩
  unfold BndFin
  rw [h3]
  rcases h2 with ⟨h2, h4⟩ | ⟨h2, h4⟩
  · simp only [h2, if_true]
    exact key _ _ (hp.bl _ h2) (hp.bu _ h2) h4
  · have hub : pb.useBnd = true ∧ sc.p - pb.m < pb.n := by
      have h5 : sc.p - pb.m < pb.nb := by omega
      unfold Pb.nb at h5
      split_ifs at h5 with h6
      · exact ⟨h6, h5⟩
      · omega
    simp only [show ¬ sc.p < pb.m by omega, if_false]
    exact key _ _ (hp.xl hub.1 _ hub.2) (hp.xu hub.1 _ hub.2) h4

/-- Invariant at the entry of the main loop. -/
theorem init_loopInv {o : Opts ℝ} {pb : Pb ℝ EReal} (hp : Proper pb) (ht0 : 0 ≤ o.tiny) {s : State ℝ} (hd : Dim pb s)
    (hc : cholOk pb) (hr : RegInitAll o pb s) :
    ∃ s', init_ o pb s = .ok (.success, s') ∧ LoopInv pb s' ⟨0, .inactive⟩ false ∧
      ∃ l : List SC, s'.A.q = l.length ∧ (∀ k (hk : k < l.length), s'.A.act k = l[k]) ∧
        (∀ i, s'.A.statusAt i ≠ .inactive → ∃ sc ∈ l, sc = ⟨i, s'.A.statusAt i⟩) ∧
        ∃ A0 : ActiveSet, A0.nbCstr = pb.m ∧ A0.nbBnd = pb.nb ∧ l = eqList pb A0 := by
  obtain ⟨s', A0, h1, h2, h3, h4, h5, h6, h7, h8, h9⟩ := init_alg ht0 hd hc hr
  obtain ⟨a1, a2, a3⟩ := init_act h3 h4 h7 h8
  refine ⟨s', h1, ⟨h2.congr (by simp), by simp, ?_, by simp⟩, eqList pb A0, ?_, ?_, ?_, A0, h5, h6, rfl⟩
  · intro k hk
    rw [h9] at hk ⊢
    rw [a2 k (by omega)]
    exact eq_fin hp h5 h6 (List.getElem_mem _)
  · rw [h9]; exact a1
  · rw [h9]; exact a2
  · rw [h9]; exact a3

end JrlQp
