import Verif.ExpInit
import Verif.ExpSafe
import Verif.EqPrefix

/-!
# Warm starts of the experimental solver, in exact arithmetic (C22, C23, C24)
-/

namespace JrlQp

open NumOps Finset Spec

section generic
variable {K B : Type} [Zero K] [One K] [Add K] [Sub K] [Neg K] [Mul K] [Div K] [NumOps K B] [SumOps K]

/-- Specification: the warm start does not give `EQUALITY` to a general constraint that is not an equality. -/
def NoFalseEq (o : Opts K) (pb : Pb K B) (as : List Status) : Prop :=
  o.warmStart = true → ∀ i < pb.m, as.getD i .inactive = .equality → bEq K (pb.bl i) (pb.bu i) = true

/-- Specification: the equalities are activated first: there is none, or there is no general constraint, or there is no
fixed variable and the warm start activates no bound. -/
def EqActFirst (o : Opts K) (pb : Pb K B) (as : List Status) (e : Nat) : Prop :=
  e = 0 ∨ pb.m = 0 ∨ ∀ i < pb.nb, bEq K (pb.xl i) (pb.xu i) = false ∧
    (o.warmStart = true → as.getD (pb.m + i) .inactive = .inactive)

theorem want_isEq {o : Opts K} {pb : Pb K B} {as : List Status} (h : NoFalseEq o pb as) (hk : WarmOk o pb as) {i : Nat}
    (hi : i < pb.m + pb.nb) : (want o pb as i).isEq = isEqB pb i := by
  unfold want
  have he : isEqC pb i = isEqB pb i := rfl
  rw [he]
  by_cases h1 : isEqB pb i = true
  · rw [if_pos h1, h1]; split_ifs <;> rfl
  · rw [if_neg h1]
    have h1f : isEqB pb i = false := by simpa using h1
    rw [h1f]
    by_cases hw : o.warmStart = true
    · rw [if_pos hw]
      by_cases hf : as.getD i .inactive = .fixed ∨ infSide o pb i (as.getD i .inactive) = true
      · rw [if_pos hf]; rfl
      · rw [if_neg hf]
        push Not at hf
        cases hs : as.getD i .inactive <;> try rfl
        · exfalso
          by_cases him : i < pb.m
          · have := h hw i him hs
            simp [isEqB, him, this] at h1
          · have ha : as ≠ [] := by intro ha; simp [ha] at hs
            rcases hk.bnd hw ha (i - pb.m) (by omega) with h2 | h2 <;>
              rw [show pb.m + (i - pb.m) = i by omega, hs] at h2 <;> simp [Status.isBound] at h2
        · exact absurd hs hf.1
    · rw [if_neg hw]; rfl

theorem filter_range_getElem {N e : Nat} (p : Nat → Bool) (he : e ≤ N) (h : ∀ i < e, p i = true) :
    e ≤ ((List.range N).filter p).length ∧ ∀ k (_ : k < e) (h2 : k < ((List.range N).filter p).length), ((List.range N).filter p)[k] = k := by
  obtain ⟨d, rfl⟩ := Nat.exists_eq_add_of_le he
  have hf : (List.range e).filter p = List.range e := List.filter_eq_self.2 (fun a ha => h a (List.mem_range.1 ha))
  rw [List.range_add, List.filter_append, hf]
  refine ⟨by simp, ?_⟩
  intro k hk h2
  rw [List.getElem_append_left (by simpa using hk)]
  simp

theorem scList_getElem_p (f : Nat → Status) (l : List Nat) (k : Nat) (h1 : k < (scList f l).length)
    (h2 : k < (l.filter (fun i => decide (f i ≠ .inactive))).length) :
    ((scList f l)[k]).p = (l.filter (fun i => decide (f i ≠ .inactive)))[k] := by
  simp [scList]

/-- Equalities first: the order in the initial active set before trimming. -/
theorem initOrder_eqPre {o : Opts K} {pb : Pb K B} {as : List Status} {e : Nat} (he : EqFirst pb e)
    (hf : NoFalseEq o pb as) (hk : WarmOk o pb as) (ho : EqActFirst o pb as e) {A : ActiveSet} (hw : A.WF)
    (hm : A.nbCstr = pb.m) (hnb : A.nbBnd = pb.nb)
    (hst : ∀ i < pb.m + pb.nb, A.statusAt i = want o pb as i)
    (hq : A.q = (scList (want o pb as) (initOrder pb.m pb.nb)).length)
    (hact : ∀ k (hk : k < (scList (want o pb as) (initOrder pb.m pb.nb)).length),
      A.act k = (scList (want o pb as) (initOrder pb.m pb.nb))[k]) : EqPre e A := by
  have heq : ∀ i, (A.statusAt i).isEq = true ↔ i < e := by
    intro i
    by_cases hi : i < pb.m + pb.nb
    · rw [hst i hi, want_isEq hf hk hi, he.2 i hi]
    · have : A.statusAt i = .inactive := by
        simp only [ActiveSet.statusAt]
        rw [List.getD_eq_getElem?_getD, List.getElem?_eq_none (by rw [hw.size, hm, hnb]; omega)]
        rfl
      rw [this]
      have := he.1
      simp [Status.isEq]; omega
  have hwant : ∀ i < e, decide (want o pb as i ≠ .inactive) = true := by
    intro i hi
    have h1 := (heq i).2 hi
    rw [hst i (by have := he.1; omega)] at h1
    simp only [decide_eq_true_eq]
    intro hc
    rw [hc] at h1
    simp [Status.isEq] at h1
  -- the list of indices
  have key : ∃ N, e ≤ N ∧ scList (want o pb as) (initOrder pb.m pb.nb) = scList (want o pb as) (List.range N) ∨ e = 0 := by
    rcases ho with ho | ho | ho
    · exact ⟨0, Or.inr ho⟩
    · refine ⟨pb.nb, Or.inl ⟨by have := he.1; omega, ?_⟩⟩
      rw [initOrder, ho]
      simp
    · refine ⟨pb.m, Or.inl ⟨?_, ?_⟩⟩
      · by_contra hlt
        push Not at hlt
        have h0 := he.1
        have := (he.2 pb.m (by omega)).2 hlt
        have h2 := (ho 0 (by omega)).1
        simp [isEqB] at this
        rw [this] at h2
        cases h2
      · rw [initOrder, scList_append]
        have : scList (want o pb as) ((List.range pb.nb).map (pb.m + ·)) = [] := by
          unfold scList
          rw [List.filter_eq_nil_iff.2]
          · rfl
          · intro a ha
            obtain ⟨j, hj, rfl⟩ := List.mem_map.1 ha
            have hj := List.mem_range.1 hj
            obtain ⟨b1, b2⟩ := ho j hj
            have : want o pb as (pb.m + j) = .inactive := by
              unfold want isEqC
              rw [if_neg (show ¬ pb.m + j < pb.m by omega), Nat.add_sub_cancel_left, b1]
              by_cases hws : o.warmStart = true
              · rw [b2 hws]; simp [infSide]
              · simp [hws]
            simp [this]
        rw [this, List.nil_append]
  obtain ⟨N, ⟨hN, hlist⟩ | h0⟩ := key
  · rw [hlist] at hq hact
    obtain ⟨g1, g2⟩ := filter_range_getElem (N := N) (fun i => decide (want o pb as i ≠ .inactive)) hN hwant
    refine ⟨?_, ?_, heq⟩
    · rw [hq]; unfold scList; rw [List.length_map]; simpa using g1
    · intro k hk
      have hlt : k < (scList (want o pb as) (List.range N)).length := by
        unfold scList; rw [List.length_map]; have : e ≤ _ := g1; simp at this ⊢; omega
      have h1 := congrArg SC.p (hact k hlt)
      simp only [ActiveSet.act] at h1
      rw [h1]
      rw [scList_getElem_p _ _ k hlt (by have : e ≤ _ := g1; omega)]
      exact g2 k hk (by have : e ≤ _ := g1; omega)
  · subst h0
    exact ⟨Nat.zero_le _, fun k hk => by omega, heq⟩

theorem trim_eqPre {e : Nat} (n : Nat) (i : Nat) : ∀ {A A' : ActiveSet}, A.WF → EqPre e A → i ≤ A.q → trim n i A = .ok A' → EqPre e A' := by
  induction i with
  | zero =>
    intro A A' hw he hi h
    rw [trim] at h
    split_ifs at h
    cases h; exact he
  | succ i ih =>
    intro A A' hw he hi h
    rw [trim] at h
    split_ifs at h with h1 h2
    · cases h; exact he
    · exact ih hw he (by omega) h
    · have hil : i < A.active.length := by rw [← hw.q_eq]; omega
      have hpre : A.deactivatePre i = true := by simpa [ActiveSet.deactivatePre] using hil
      have hei : e ≤ i := by
        by_contra hc
        have := (he.act hw (k := i) (by omega)).2 (by omega)
        exact h2 this
      refine ih (ActiveSet.wf_deactivate A hw i hpre) (he.deactivate hw (by omega) hei) ?_ h
      rw [hw.q_deactivate hpre]; omega

theorem processInitial_eqPre {o : Opts K} {pb : Pb K B} {as : List Status} {e : Nat} (he : EqFirst pb e)
    (hf : NoFalseEq o pb as) (hk : WarmOk o pb as) (ho : EqActFirst o pb as e) {n : Nat} {A0 A : ActiveSet}
    (hw : A0.WF) (hm : A0.nbCstr = pb.m) (hnb : A0.nbBnd = pb.nb) (h : processInitial o pb n as A0 = .ok (.success, A)) :
    EqPre e A := by
  have hwr : A0.reset.WF := ActiveSet.wf_reset A0 hw.size
  obtain ⟨A2, e0, ⟨A1, e1, e2⟩, w1, w2, w3, w4, w5, w6⟩ := loops_spec (A := A0.reset) hk hwr (ActiveSet.reset_q _) (reset_statusAt _) hm hnb
  have hp := initOrder_eqPre he hf hk ho w1 w2 w3 w4 w5 w6
  unfold processInitial at h
  simp only [] at h
  rw [e1] at h
  simp only [] at h
  rw [e2] at h
  simp only [] at h
  split_ifs at h with h1 h2
  · cases h
  · cases ht : trim n A2.q A2 with
    | error er => rw [ht] at h; cases h
    | ok A' =>
      rw [ht] at h
      cases h
      exact trim_eqPre n A2.q w1 hp le_rfl ht
  · cases h; exact hp

end generic

/-! ## Exact arithmetic -/

/-- Invariant of the removal loop. -/
structure XAlg (pb : Pb ℝ EReal) (xs : XState ℝ) : Prop where
  alg : Alg pb xs.s (fun _ => 0)
  bact : ∀ k < xs.s.A.q, xs.bact k = rhs pb (xs.s.A.act k)

theorem dropAt_alg {o : Opts ℝ} {pb : Pb ℝ EReal} {xs : XState ℝ} (hg : XGood pb xs) (h : XAlg pb xs) {l : Nat}
    (hl : l < xs.s.A.q) : XAlg pb (initPoints pb (dropAt o xs l)) := by
  obtain ⟨h1, h2⟩ := dropAt_good (o := o) hg hl
  have hw := hg.good.dim.wf
  have hact := act_deactivate hw hl
  have hqn := hg.good.q_le
  have hn := hg.good.dim.nbVar
  have hp : xs.s.A.deactivatePre l = true := by
    rw [hw.q_eq] at hl; simpa [ActiveSet.deactivatePre] using hl
  have hqd := hw.q_deactivate hp
  have hA : (dropAt o xs l).s.A = xs.s.A.deactivate l := rfl
  have hf : Fac pb.n (dropAt o xs l).s.A.q (hess pb) (fun k => normal pb ((dropAt o xs l).s.A.act k))
      (dropAt o xs l).s.J (dropAt o xs l).s.R := by
    have hf := h.alg.fac
    rw [show xs.s.A.q = (xs.s.A.q - 1) + 1 by omega] at hf
    have := hf.remove (by omega) l (by omega) o.dbg
      (N' := fun k => normal pb ((xs.s.A.deactivate l).act k)) (fun k hk a _ => by rw [hact k hk])
    rw [hA, hqd]
    simp only [dropAt, hqd, hn]
    exact this
  have hb : ∀ k < (dropAt o xs l).s.A.q, (dropAt o xs l).bact k = rhs pb ((dropAt o xs l).s.A.act k) := by
    intro k hk
    rw [h2] at hk
    rw [hA, hact k hk]
    simp only [dropAt]
    by_cases hkl : k < l
    · rw [if_neg (by omega), if_pos hkl]; exact h.bact k (by omega)
    · rw [if_pos (by omega), if_neg hkl]; exact h.bact (k + 1) (by omega)
  exact ⟨initPoints_alg h1.good hf hb, hb⟩

theorem xstart_alg {o : Opts ℝ} {pb : Pb ℝ EReal} {xs : XState ℝ} {A : ActiveSet} (hg : XGood pb (xstart o pb xs A))
    (hc : cholOk pb) (hi : ActIndep pb A) : XAlg pb (xstart o pb xs A) := by
  have hch : chol pb.n pb.G pb.n = ((xpre o pb xs A).s.G, none) := by
    have : chol pb.n pb.G pb.n = ((chol pb.n pb.G pb.n).1, (chol pb.n pb.G pb.n).2) := rfl
    rw [this, hc]; rfl
  have hgp : Good pb (xpre o pb xs A).s := by
    obtain ⟨⟨⟨a1, a2, a3, a4, a5, a6, a7, a8, a9, a10, a11⟩, b⟩, c1, c2, c3⟩ := hg
    exact ⟨⟨a1, a2, a3, a4, a5, a6, a7, a8, a9, a10, a11⟩, b⟩
  have hgd : Good pb (initData o pb (xpre o pb xs A)).s := by
    obtain ⟨⟨⟨a1, a2, a3, a4, a5, a6, a7, a8, a9, a10, a11⟩, b⟩, c1, c2, c3⟩ := hg
    exact ⟨⟨a1, a2, a3, a4, a5, a6, a7, a8, a9, a10, a11⟩, b⟩
  have hb := initData_bact (o := o) hgp.dim
  exact ⟨initPoints_alg hgd (initData_fac (o := o) hgp hch hi) hb, hb⟩

/-- The point `x` is the unique minimiser of the objective among the points that satisfy the active constraints `A` with
equality. -/
def UniqueMinOn (pb : Pb ℝ EReal) (A : ActiveSet) (x : Nat → ℝ) : Prop :=
  (∀ k < A.q, ndot pb (A.act k) x = rhs pb (A.act k)) ∧
  ∀ y, (∀ k < A.q, ndot pb (A.act k) y = rhs pb (A.act k)) → obj pb x ≤ obj pb y ∧ (obj pb y ≤ obj pb x → ∀ i < pb.n, y i = x i)

theorem Alg.uniqueMin {pb : Pb ℝ EReal} {s : State ℝ} (h : Alg pb s (fun _ => 0)) (hpd : PosDefN pb.n (hess pb)) :
    UniqueMinOn pb s.A s.x := by
  refine ⟨h.tight, fun y hy => ?_⟩
  have h0 : Alg pb s (fun a => 0 * normal pb ⟨0, .inactive⟩ a) := h.congr (by simp)
  have hgr := h0.grad y
  have hz : ∑ k ∈ range s.A.q, s.u k * (ndot pb (s.A.act k) y - rhs pb (s.A.act k)) = 0 := by
    apply sum_eq_zero; intro k hk
    rw [hy k (mem_range.1 hk), sub_self, mul_zero]
  rw [hz, zero_mul, add_zero] at hgr
  have hex := obj_expand pb s.x y
  rw [hgr] at hex
  have hnn := quad_nonneg hpd (fun i => y i - s.x i)
  refine ⟨by linarith, fun hle i hi => ?_⟩
  by_contra hne
  have := hpd (fun i => y i - s.x i) ⟨i, hi, sub_ne_zero.2 hne⟩
  linarith

end JrlQp
