import Verif.ExactTerm

/-!
# Existence of harmless thresholds

For each problem, all small enough values of `tiny` (`1e-14` in the code) and all large enough values of `bigBnd` are
harmless: the run of the solver is the one of the ideal algorithm.
-/

namespace JrlQp

open NumOps Finset Spec

/-- `P` holds for all options with a small enough `tiny` and a large enough `bigBnd`. -/
def Ev (dbg : Bool) (P : Opts ℝ → Prop) : Prop :=
  ∃ ε > 0, ∃ β : ℝ, ∀ o : Opts ℝ, o.dbg = dbg → 0 ≤ o.tiny → o.tiny < ε → β < o.bigBnd → P o

theorem Ev.and {dbg : Bool} {P Q : Opts ℝ → Prop} (h : Ev dbg P) (h' : Ev dbg Q) : Ev dbg (fun o => P o ∧ Q o) := by
  obtain ⟨ε, he, β, h⟩ := h
  obtain ⟨ε', he', β', h'⟩ := h'
  refine ⟨min ε ε', lt_min he he', max β β', fun o hd h0 h1 h2 => ⟨?_, ?_⟩⟩
  · exact h o hd h0 (h1.trans_le (min_le_left _ _)) ((le_max_left _ _).trans_lt h2)
  · exact h' o hd h0 (h1.trans_le (min_le_right _ _)) ((le_max_right _ _).trans_lt h2)

theorem Ev.mono {dbg : Bool} {P Q : Opts ℝ → Prop} (h : Ev dbg P)
    (hi : ∀ o : Opts ℝ, o.dbg = dbg → 0 ≤ o.tiny → P o → Q o) : Ev dbg Q := by
  obtain ⟨ε, he, β, h⟩ := h
  exact ⟨ε, he, β, fun o hd h0 h1 h2 => hi o hd h0 (h o hd h0 h1 h2)⟩

theorem Ev.const {dbg : Bool} {p : Prop} (h : p) : Ev dbg (fun _ => p) := ⟨1, one_pos, 0, fun _ _ _ _ _ => h⟩

theorem Ev.exists {dbg : Bool} {P : Opts ℝ → Prop} (h : Ev dbg P) :
    ∃ o : Opts ℝ, o.dbg = dbg ∧ 0 ≤ o.tiny ∧ o.warmStart = false ∧ P o := by
  obtain ⟨ε, he, β, h⟩ := h
  exact ⟨⟨0, β + 1, false, 0, dbg⟩, rfl, le_rfl, rfl, h _ rfl le_rfl he (by simp)⟩

theorem ev_tiny {dbg : Bool} {c : ℝ} (h : 0 < c) : Ev dbg (fun o => o.tiny < c) := ⟨c, h, 0, fun _ _ _ h _ => h⟩

theorem ev_big {dbg : Bool} (c : ℝ) : Ev dbg (fun o => c < o.bigBnd) := ⟨1, one_pos, c, fun _ _ _ _ h => h⟩

theorem ev_ball {dbg : Bool} {P : Nat → Opts ℝ → Prop} (q : Nat) (h : ∀ k < q, Ev dbg (P k)) :
    Ev dbg (fun o => ∀ k < q, P k o) := by
  induction q with
  | zero => exact (Ev.const trivial).mono (by intro o _ _ _ k hk; omega)
  | succ q ih =>
    refine ((ih (fun k hk => h k (by omega))).and (h q (by omega))).mono ?_
    intro o _ _ ho k hk
    by_cases hkq : k = q
    · subst hkq; exact ho.2
    · exact ho.1 k (by omega)

theorem ev_regular {dbg : Bool} (pb : Pb ℝ EReal) (s : State ℝ) (sc : SC) : Ev dbg (fun o => Regular o pb s sc) := by
  have h1 : Ev dbg (fun o => (∃ i < pb.n, (computeStep pb s sc).z i ≠ 0) → o.tiny < normn pb.n (computeStep pb s sc).z) := by
    by_cases hz : ∃ i < pb.n, (computeStep pb s sc).z i ≠ 0
    · exact (ev_tiny (normn_pos.2 hz)).mono (fun o _ _ h _ => h)
    · exact (Ev.const trivial).mono (fun o _ _ _ h => absurd h hz)
  refine ((h1.and (ev_big (tFull pb (computeStep pb s sc) sc))).and
    (ev_ball s.A.q (fun k _ => ev_big (s.u k / (computeStep pb s sc).r k)))).mono ?_
  rintro o _ _ ⟨⟨a, b⟩, c⟩
  exact ⟨a, fun _ => b, fun k hk _ _ => c k hk⟩

theorem ev_regIter {dbg : Bool} (pb : Pb ℝ EReal) (s : State ℝ) (sc : SC) (skip : Bool) :
    Ev dbg (fun o => RegIter o pb s sc skip) := by
  by_cases he : ∃ s1 sc1, Enter pb s sc skip s1 sc1
  · obtain ⟨s1, sc1, he⟩ := he
    refine (ev_regular pb s1 sc1).mono ?_
    intro o _ _ hr s2 sc2 he2
    have : s2 = s1 ∧ sc2 = sc1 := by
      unfold Enter at he he2
      cases skip with
      | true => simp only [if_true] at he he2; exact ⟨he2.1.trans he.1.symm, he2.2.trans he.2.symm⟩
      | false =>
        simp only [Bool.false_eq_true, if_false] at he he2
        exact ⟨he2.2.2.trans he.2.2.symm, he2.1.trans he.1.symm⟩
    rw [this.1, this.2]
    exact hr
  · exact (Ev.const trivial).mono (fun o _ _ _ s1 sc1 h => absurd ⟨s1, sc1, h⟩ he)

/-! ### Independence of the run from the thresholds -/

theorem ratio_indep (A : ActiveSet) (u r : Nat → ℝ) (b b' : ℝ) (q : Nat)
    (h : ∀ k < q, elig A k → 0 < r k → u k / r k < b) (h' : ∀ k < q, elig A k → 0 < r k → u k / r k < b') :
    ((List.range q).foldl (ratioStep A u r) (b, 0) = (b, 0) ∧ (List.range q).foldl (ratioStep A u r) (b', 0) = (b', 0)) ∨
    ((List.range q).foldl (ratioStep A u r) (b, 0) = (List.range q).foldl (ratioStep A u r) (b', 0) ∧
      ((List.range q).foldl (ratioStep A u r) (b, 0)).1 < b ∧ ((List.range q).foldl (ratioStep A u r) (b, 0)).1 < b') := by
  induction q with
  | zero => exact Or.inl ⟨rfl, rfl⟩
  | succ q ih =>
    rw [List.range_succ, List.foldl_append, List.foldl_cons, List.foldl_nil, List.foldl_append, List.foldl_cons,
      List.foldl_nil]
    have ih := ih (fun k hk => h k (by omega)) (fun k hk => h' k (by omega))
    generalize (List.range q).foldl (ratioStep A u r) (b, 0) = acc at ih
    generalize (List.range q).foldl (ratioStep A u r) (b', 0) = acc' at ih
    simp only [ratioStep]
    by_cases he : A.statusAt q ≠ .equality ∧ A.statusAt q ≠ .fixed ∧ ltb (0 : ℝ) (r q) = true
    · rw [if_pos he, if_pos he]
      have hr : 0 < r q := by simpa using he.2.2
      have k1 := h q (by omega) ⟨he.1, he.2.1⟩ hr
      have k2 := h' q (by omega) ⟨he.1, he.2.1⟩ hr
      rcases ih with ⟨e1, e2⟩ | ⟨e1, e2, e3⟩
      · right
        rw [e1, e2]
        rw [if_pos (by simpa using k1), if_pos (by simpa using k2)]
        exact ⟨rfl, k1, k2⟩
      · right
        rw [← e1]
        refine ⟨rfl, ?_⟩
        split_ifs
        · exact ⟨k1, k2⟩
        · exact ⟨e2, e3⟩
    · rw [if_neg he, if_neg he]; exact ih

theorem remove_dbg {o o' : Opts ℝ} (h : o'.dbg = o.dbg) (s : State ℝ) (l : Nat) :
    removeConstraint o' s l = removeConstraint o s l := by unfold removeConstraint; rw [h]

theorem add_dbg {o o' : Opts ℝ} (h : o'.dbg = o.dbg) (s : State ℝ) (sc : SC) :
    addConstraint o' s sc = addConstraint o s sc := by unfold addConstraint; rw [h]

/-- Two sets of harmless thresholds give the same iteration. -/
theorem iterBody_indep {o o' : Opts ℝ} {pb : Pb ℝ EReal} {s : State ℝ} {sc : SC} (hdb : o'.dbg = o.dbg)
    (ht0 : 0 ≤ o.tiny) (ht0' : 0 ≤ o'.tiny) (hn : s.nbVar = pb.n)
    (hsc : scOk pb sc = true) (hineq : sc.status.isEq = false) (hreg : Regular o pb s sc) (hreg' : Regular o' pb s sc) :
    iterBody o' pb s sc = iterBody o pb s sc := by
  unfold iterBody
  by_cases h0 : (computeStepOk pb s sc && decide (s.A.q < s.szU) && decide (s.nbVar ≤ s.szX)) = true
  swap
  · rw [if_neg h0, if_neg h0]
  rw [if_pos h0, if_pos h0]
  clear h0
  have hn : (computeStep pb s sc).nbVar = pb.n := hn
  have z1 := hreg.z
  have z2 := hreg.t2
  have z3 : ∀ k < (computeStep pb s sc).A.q, elig (computeStep pb s sc).A k → 0 < (computeStep pb s sc).r k →
    (computeStep pb s sc).u k / (computeStep pb s sc).r k < o.bigBnd := hreg.t1
  have z1' := hreg'.z
  have z2' := hreg'.t2
  have z3' : ∀ k < (computeStep pb s sc).A.q, elig (computeStep pb s sc).A k → 0 < (computeStep pb s sc).r k →
    (computeStep pb s sc).u k / (computeStep pb s sc).r k < o'.bigBnd := hreg'.t1
  clear hreg hreg'
  generalize computeStep pb s sc = s1 at *
  have hnz : ∀ {τ : ℝ}, 0 ≤ τ → (¬ ∃ i < pb.n, s1.z i ≠ 0) → ¬ ltb τ (normn s1.nbVar s1.z) = true := by
    intro τ hτ hz hlt
    rw [ltb_real, hn] at hlt
    exact hz (normn_pos.1 (lt_of_le_of_lt hτ hlt))
  simp only []
  have hsl : stepLenOk o' s1 sc = stepLenOk o s1 sc := by
    unfold stepLenOk
    by_cases hz : ∃ i < pb.n, s1.z i ≠ 0
    · rw [hn, (ltb_real _ _).2 (z1 hz), (ltb_real _ _).2 (z1' hz)]
    · have a := hnz ht0 hz
      have b := hnz ht0' hz
      rw [Bool.not_eq_true] at a b
      rw [a, b]
  rw [hsl]
  by_cases hok : stepLenOk o s1 sc = true
  swap
  · rw [if_neg hok, if_neg hok]
  rw [if_pos hok, if_pos hok]
  clear hok hsl
  have hri := ratio_indep s1.A s1.u s1.r o.bigBnd o'.bigBnd s1.A.q z3 z3'
  unfold computeStepLength
  simp only [remove_dbg hdb, add_dbg hdb, leb_real, eqb_real, stdMin, ltb_real]
  rw [hn, fullStep_eq pb s1 sc hsc hineq]
  generalize (List.range s1.A.q).foldl (ratioStep s1.A s1.u s1.r) (o.bigBnd, 0) = acc at *
  generalize (List.range s1.A.q).foldl (ratioStep s1.A s1.u s1.r) (o'.bigBnd, 0) = acc' at *
  by_cases hz : ∃ i < pb.n, s1.z i ≠ 0
  · have b1 := z2 hz
    have b2 := z2' hz
    rw [if_pos (z1 hz), if_pos (z1' hz)]
    rcases hri with ⟨e1, e2⟩ | ⟨e1, e2, e3⟩
    · rw [e1, e2]
      simp only [if_pos b1, if_pos b2, if_neg (not_le.2 b1), if_neg (not_le.2 b2), if_true]
    · rw [← e1]
      have c1 : ∀ {β : ℝ}, tFull pb s1 sc < β → acc.1 < β →
          ¬ β ≤ (if tFull pb s1 sc < acc.1 then tFull pb s1 sc else acc.1) := by
        intro β h1 h2; split_ifs <;> linarith
      rw [if_neg (c1 b1 e2), if_neg (c1 b2 e3), if_neg (not_le.2 b1), if_neg (not_le.2 b2)]
  · have a := hnz ht0 hz
    have b := hnz ht0' hz
    rw [ltb_real, hn] at a b
    rw [if_neg a, if_neg b]
    rcases hri with ⟨e1, e2⟩ | ⟨e1, e2, e3⟩
    · rw [e1, e2]
      simp
    · rw [← e1, if_neg (not_lt.2 e2.le), if_neg (not_lt.2 e3.le), if_neg (not_le.2 e2), if_neg (not_le.2 e3)]
      simp

theorem iterate_indep {o o' : Opts ℝ} {pb : Pb ℝ EReal} (hp : Proper pb) (hx : NotCrossed pb) {s : State ℝ} {sc : SC}
    {skip : Bool} (hdb : o'.dbg = o.dbg) (ht0 : 0 ≤ o.tiny) (ht0' : 0 ≤ o'.tiny) (h : LoopInv pb s sc skip)
    (hreg : RegIter o pb s sc skip) (hreg' : RegIter o' pb s sc skip) :
    iterate o' pb s sc skip = iterate o pb s sc skip := by
  have hg := h.alg.good
  have hbody : ∀ s1 sc1, Enter pb s sc skip s1 sc1 → iterBody o' pb s1 sc1 = iterBody o pb s1 sc1 := by
    intro s1 sc1 he
    obtain ⟨hi, _⟩ := enter_inv hp hx h he
    have hc := hi.cand rfl
    have hg := hi.alg.good
    exact iterBody_indep hdb ht0 ht0' hg.dim.nbVar (Cand.scOk (pb := pb) hc.pre hg.dim.nbCstr hg.dim.nbBnd) hc.ineq
      (hreg s1 sc1 he) (hreg' s1 sc1 he)
  unfold iterate
  cases skip with
  | true => simp only [if_true]; exact hbody s sc (by simp [Enter])
  | false =>
    simp only [Bool.false_eq_true, if_false]
    have hsel : select pb s.nbVar s.A s.x = select pb pb.n s.A s.x := by rw [hg.dim.nbVar]
    rw [if_pos hg.selectOk, hsel, if_pos hg.selectOk]
    by_cases hi : (select pb pb.n s.A s.x).status = .inactive
    · rw [if_pos hi, if_pos hi]
    · rw [if_neg hi, if_neg hi]
      split_ifs
      · exact hbody _ _ (by simp [Enter, hi])
      · rfl

/-- Small enough `tiny` and large enough `bigBnd` are harmless for the whole run, whatever its length. -/
theorem ev_regLoop {dbg : Bool} {pb : Pb ℝ EReal} (hp : Proper pb) (hx : NotCrossed pb) (hpd : PosDefN pb.n (hess pb))
    {e : Nat} (k : Nat) : ∀ {s : State ℝ} {sc : SC} {skip : Bool}, LoopInv pb s sc skip → DInv pb e s sc skip →
    remaining pb s skip ≤ k → Ev dbg (fun o => ∀ fuel, RegLoop o pb fuel s sc skip) := by
  induction k using Nat.strong_induction_on with
  | _ k ih =>
    intro s sc skip h hD hk
    have hev := ev_regIter (dbg := dbg) pb s sc skip
    obtain ⟨o0, hd0, ht0, _, hr0⟩ := hev.exists
    by_cases hc : ∃ s1 sc1 k1, iterate o0 pb s sc skip = .ok (.cont s1 sc1 k1)
    · obtain ⟨s1, sc1, k1, hc⟩ := hc
      obtain ⟨a1, a2, _, _, a5⟩ := iterate_remaining hp hx ht0 hpd h hD hr0 hc
      have := ih (remaining pb s1 k1) (by omega) (a1.setIt (s1.it + 1)) (a2.setIt (s1.it + 1)) le_rfl
      refine (hev.and this).mono ?_
      rintro o hd ht ⟨b1, b2⟩ fuel
      cases fuel with
      | zero => trivial
      | succ fuel =>
        refine ⟨b1, ?_⟩
        rw [iterate_indep hp hx (hd.trans hd0.symm) ht0 ht h hr0 b1, hc]
        exact b2 fuel
    · refine hev.mono ?_
      rintro o hd ht b1 fuel
      cases fuel with
      | zero => trivial
      | succ fuel =>
        refine ⟨b1, ?_⟩
        rw [iterate_indep hp hx (hd.trans hd0.symm) ht0 ht h hr0 b1]
        split
        · rename_i heq; exact absurd ⟨_, _, _, heq⟩ hc
        · trivial

/-! ### Initialisation -/

/-- Gradient of constraint `i` (general constraints first, then bounds). -/
def grad (pb : Pb ℝ EReal) (i a : Nat) : ℝ := if i < pb.m then pb.C a i else if a = i - pb.m then 1 else 0

/-- The gradients of the equality constraints and fixed variables are linearly independent. -/
def EqIndep (pb : Pb ℝ EReal) : Prop :=
  ∀ c : Nat → ℝ, (∀ i, ¬ (i < pb.m + pb.nb ∧ IsEqIdx pb i) → c i = 0) →
    (∀ a < pb.n, ∑ i ∈ range (pb.m + pb.nb), c i * grad pb i a = 0) → ∀ i, c i = 0

theorem normal_eq_grad {pb : Pb ℝ EReal} {sc : SC} (hok : scOk pb sc = true) (he : sc.status.isEq = true) (a : Nat) :
    normal pb sc a = grad pb sc.p a := by
  obtain ⟨p, st⟩ := sc
  cases st <;> simp [Status.isEq] at he
  · simp [scOk] at hok; simp [normal, grad, hok]
  · simp [scOk] at hok; simp [normal, grad, show ¬ p < pb.m by omega]

theorem indep_z {pb : Pb ℝ EReal} (hind : EqIndep pb) {s : State ℝ} {sc : SC} (h : Alg pb s (fun _ => 0))
    (hact : ∀ k < s.A.q, (s.A.act k).status.isEq = true ∧ IsEqIdx pb (s.A.act k).p)
    (hp : s.A.activatePre sc.p sc.status = true) (he : sc.status.isEq = true) (hix : IsEqIdx pb sc.p) :
    0 < normn pb.n (computeStep pb s sc).z := by
  have hsc := Cand.scOk (pb := pb) hp h.good.dim.nbCstr h.good.dim.nbBnd
  have hw := h.good.dim.wf
  have hfacts := computeStep_facts (s := s) (sc := sc) h.good.dim.nbVar
    (by rw [← h.good.dim.nbVar]; exact h.good.q_le) h.fac hsc
  rw [normn_pos]
  by_contra hz
  push Not at hz
  have hplt : ∀ sc' : SC, scOk pb sc' = true → sc'.p < pb.m + pb.nb := by
    intro sc' h'
    obtain ⟨p, st⟩ := sc'
    cases st <;> simp [scOk] at h' <;> simp only <;> omega
  have hsp := hfacts.split
  have hq : (computeStep pb s sc).A = s.A := rfl
  rw [hq] at hsp
  set r := (computeStep pb s sc).r with hr
  set z := (computeStep pb s sc).z
  have hinact : s.A.statusAt sc.p = .inactive := by
    simp [ActiveSet.activatePre] at hp
    tauto
  have hne : ∀ k < s.A.q, s.A.get k ≠ sc.p := by
    intro k hk hc
    have := (ActiveSet.get_lt s.A hw k (by rw [← hw.q_eq]; exact hk)).2
    rw [hc] at this
    exact this hinact
  have h1 := hind (fun i => (if i = sc.p then 1 else 0) - ∑ k ∈ range s.A.q, if s.A.get k = i then r k else 0) ?_ ?_ sc.p
  · simp only [if_true] at h1
    rw [sum_eq_zero (fun k hk => by rw [if_neg (hne k (mem_range.1 hk))])] at h1
    norm_num at h1
  · intro i hi
    have h1 : i ≠ sc.p := by
      rintro rfl; exact hi ⟨hplt sc hsc, hix⟩
    rw [if_neg h1, sum_eq_zero]
    · simp
    · intro k hk
      have hk := mem_range.1 hk
      rw [if_neg]
      rintro rfl
      exact hi ⟨hplt _ (h.scOk hk), (hact k hk).2⟩
  · intro a ha
    have e := hsp a ha
    rw [sum_eq_zero (s := range pb.n) (fun b hb => by rw [hz b (mem_range.1 hb), mul_zero]), add_zero,
      normal_eq_grad hsc he] at e
    have e1 : ∀ i ∈ range (pb.m + pb.nb), ((if i = sc.p then 1 else 0) - ∑ k ∈ range s.A.q, if s.A.get k = i then r k else 0)
        * grad pb i a = (if i = sc.p then grad pb i a else 0)
          - ∑ k ∈ range s.A.q, (if s.A.get k = i then r k * grad pb i a else 0) := by
      intro i _
      rw [sub_mul, Finset.sum_mul]
      congr 1
      · split_ifs <;> simp
      · apply sum_congr rfl; intro k _; split_ifs <;> simp
    rw [sum_congr rfl e1, sum_sub_distrib, sum_ite_eq' , if_pos (mem_range.2 (hplt sc hsc)), sum_comm, e, sub_eq_zero]
    apply sum_congr rfl
    intro k hk
    have hk := mem_range.1 hk
    have hok := h.scOk hk
    rw [sum_ite_eq, if_pos (mem_range.2 (show s.A.get k < _ from hplt _ hok)), normal_eq_grad hok (hact k hk).1]
    rfl

theorem addInitial_indep {o o' : Opts ℝ} {pb : Pb ℝ EReal} {s : State ℝ} {sc : SC} (hdb : o'.dbg = o.dbg)
    (hn : s.nbVar = pb.n) (h : o.tiny < normn pb.n (computeStep pb s sc).z)
    (h' : o'.tiny < normn pb.n (computeStep pb s sc).z) :
    addInitialConstraint o' pb s sc = addInitialConstraint o pb s sc := by
  unfold addInitialConstraint
  simp only []
  have e : ∀ (o : Opts ℝ), o.tiny < normn pb.n (computeStep pb s sc).z →
      initStep o pb (computeStep pb { s with u := upd s.u s.A.q 0 } sc) sc =
      if sc.status = .equality then
        (toK (pb.bl sc.p) - colDot pb s.nbVar sc.p s.x) / colDot pb s.nbVar sc.p (computeStep pb s sc).z
      else (toK (pb.xl (sc.p - pb.m)) - s.x (sc.p - pb.m)) / (computeStep pb s sc).z (sc.p - pb.m) := by
    intro o ho
    unfold initStep
    rw [if_pos]
    · rfl
    · rw [ltb_real]
      show o.tiny < normn s.nbVar (computeStep pb s sc).z
      rw [hn]; exact ho
  rw [e o h, e o' h']
  simp only [add_dbg hdb]

theorem ev_regInit {dbg : Bool} {pb : Pb ℝ EReal} (hind : EqIndep pb) (l : List SC) : ∀ {s : State ℝ},
    Alg pb s (fun _ => 0) → ActAll s.A l → (∀ k < s.A.q, (s.A.act k).status.isEq = true ∧ IsEqIdx pb (s.A.act k).p) →
    (∀ sc ∈ l, sc.status.isEq = true ∧ IsEqIdx pb sc.p) → Ev dbg (fun o => RegInit o pb l s) := by
  induction l with
  | nil => intro s _ _ _ _; exact Ev.const trivial
  | cons sc l ih =>
    intro s h ha hact hl
    obtain ⟨he, hix⟩ := hl sc List.mem_cons_self
    have hz := indep_z hind h hact ha.1 he hix
    have hev := ev_tiny (dbg := dbg) hz
    obtain ⟨o0, hd0, ht0, _, h0⟩ := hev.exists
    obtain ⟨s1, g1, g2, g3⟩ := addInitial_alg (o := o0) ht0 h ha.1 he h0
    have hw := h.good.dim.wf
    have hih := ih g2 (by rw [g3]; exact ha.2) ?_ (fun c hc => hl c (List.mem_cons_of_mem _ hc))
    · refine (hev.and hih).mono ?_
      rintro o hd ht ⟨b1, b2⟩
      refine ⟨b1, ?_⟩
      rw [addInitial_indep (hd.trans hd0.symm) h.good.dim.nbVar h0 b1, g1]
      exact b2
    · intro k hk
      rw [g3] at hk ⊢
      rw [hw.q_activate ha.1] at hk
      obtain ⟨d1, d2⟩ := act_activate hw ha.1
      by_cases hkq : k = s.A.q
      · rw [hkq, d2]; exact ⟨he, hix⟩
      · rw [d1 k (by omega)]; exact hact k (by omega)

/-! ### The whole solve -/

/-- The initialisation of two runs with the same build and harmless thresholds is the same. -/
theorem addInitials_indep {o o' : Opts ℝ} {pb : Pb ℝ EReal} (hdb : o'.dbg = o.dbg) (ht0 : 0 ≤ o.tiny)
    (l : List SC) : ∀ {s : State ℝ}, Alg pb s (fun _ => 0) → ActAll s.A l → (∀ sc ∈ l, sc.status.isEq = true) →
    RegInit o pb l s → RegInit o' pb l s → addInitials o' pb l s = addInitials o pb l s := by
  induction l with
  | nil => intro s _ _ _ _ _; rfl
  | cons sc l ih =>
    intro s h ha he h1 h2
    have e := addInitial_indep hdb h.good.dim.nbVar h1.1 h2.1
    obtain ⟨s1, g1, g2, g3⟩ := addInitial_alg (o := o) ht0 h ha.1 (he sc List.mem_cons_self) h1.1
    have r1 := h1.2
    have r2 := h2.2
    rw [e] at r2
    rw [g1] at r1 r2
    simp only [addInitials, e, g1]
    exact ih g2 (by rw [g3]; exact ha.2) (fun c hc => he c (List.mem_cons_of_mem _ hc)) r1 r2

theorem init_indep {o o' : Opts ℝ} {pb : Pb ℝ EReal} (hdb : o'.dbg = o.dbg) (ht0 : 0 ≤ o.tiny) {s : State ℝ}
    (hd : Dim pb s) (hc : cholOk pb) (h : RegInitAll o pb s) (h' : RegInitAll o' pb s) :
    init_ o' pb s = init_ o pb s := by
  have hpt : ∀ s, initPoint o' pb s = initPoint o pb s := by
    intro s; unfold initPoint; rw [hdb]
  have hdG : Dim pb { s with G := (chol s.nbVar pb.G s.nbVar).1 } := by
    obtain ⟨h0, h1, b, c, h2, h3, h4, h5, h6, h7, h8⟩ := hd
    exact ⟨h0, h1, b, c, h2, h3, h4, h5, h6, h7, h8⟩
  have halg := initPoint_alg (o := o) hdG (by unfold cholOk at hc; simp only [hd.nbVar]; rw [← hc])
  have hst : ∀ i, (initPoint o pb { s with G := (chol s.nbVar pb.G s.nbVar).1 }).A.statusAt i = .inactive :=
    fun i => reset_statusAt _ i
  unfold RegInitAll at h h'
  rw [hpt] at h'
  unfold init_ initActiveSet
  simp only [hpt]
  rw [addInitials_indep hdb ht0 _ halg (actAll_eqList pb _ halg.good.dim.wf hst) eqList_eqStatus h h']

theorem ev_regSolve {dbg : Bool} {pb : Pb ℝ EReal} (hp : Proper pb) (hx : NotCrossed pb) (hc : cholOk pb) {e : Nat}
    (he : EqFirst pb e) (hind : EqIndep pb) {s : State ℝ} (hi : Inv s) :
    Ev dbg (fun o => o.warmStart = false → RegSolve o pb s) := by
  have hd0 : ∀ o : Opts ℝ, Dim pb (solveStart o pb s) := fun o => start_dim hi
  -- the starting state only depends on `dbg`
  have hstart : ∀ o o' : Opts ℝ, o'.dbg = o.dbg → o.warmStart = false → o'.warmStart = false →
      solveStart o' pb s = solveStart o pb s := by
    intro o o' h1 h2 h3
    unfold solveStart preInit
    rw [h1, h2, h3]
  let o0 : Opts ℝ := ⟨0, 0, false, 0, dbg⟩
  have hpt : ∀ o : Opts ℝ, o.dbg = dbg → ∀ s, initPoint o pb s = initPoint o0 pb s := by
    intro o h s
    unfold initPoint
    rw [h]
  have hdG : Dim pb { solveStart o0 pb s with G := (chol (solveStart o0 pb s).nbVar pb.G (solveStart o0 pb s).nbVar).1 } := by
    obtain ⟨h0, h1, b, c, h2, h3, h4, h5, h6, h7, h8⟩ := hd0 o0
    exact ⟨h0, h1, b, c, h2, h3, h4, h5, h6, h7, h8⟩
  have halg := initPoint_alg (o := o0) hdG (by
    unfold cholOk at hc; simp only [(hd0 o0).nbVar]; rw [← hc])
  have hst : ∀ i, (initPoint o0 pb { solveStart o0 pb s with G := (chol (solveStart o0 pb s).nbVar pb.G (solveStart o0 pb s).nbVar).1 }).A.statusAt i = .inactive :=
    fun i => reset_statusAt _ i
  have hq0 : (initPoint o0 pb { solveStart o0 pb s with G := (chol (solveStart o0 pb s).nbVar pb.G (solveStart o0 pb s).nbVar).1 }).A.q = 0 :=
    ActiveSet.reset_q _
  have hinit : Ev dbg (fun o => o.warmStart = false → RegInitAll o pb (solveStart o pb s)) := by
    refine (ev_regInit hind _ halg (actAll_eqList pb _ halg.good.dim.wf hst) (by intro k hk; omega) ?_).mono ?_
    · intro sc hsc
      exact ⟨eqList_eqStatus sc hsc, ((mem_eqList halg.good.dim.nbCstr halg.good.dim.nbBnd sc).1 hsc).2.1⟩
    · intro o hdo _ h hws
      unfold RegInitAll
      rw [hstart o0 o hdo rfl hws, hpt o hdo]
      exact h
  -- a reference run
  obtain ⟨or, hdr, htr, hwr, hrr⟩ := hinit.exists
  have hrr := hrr hwr
  obtain ⟨s1, g1, _⟩ := init_loopInv hp htr (hd0 or) hc hrr
  obtain ⟨k1, k2⟩ := init_both hp htr (hd0 or) hc hrr he g1
  refine (hinit.and (ev_regLoop hp hx (posDef_of_chol hc) _ k1 k2 le_rfl)).mono ?_
  rintro o hdo hto ⟨b1, b2⟩ hws
  have b1 := b1 hws
  refine ⟨hto, b1, ?_⟩
  intro s2 h2
  have hs := hstart or o (hdo.trans hdr.symm) hwr hws
  have : s1 = s2 := by
    have hin := init_indep (o := or) (o' := o) (hdo.trans hdr.symm) htr (hd0 or) hc hrr (by rw [← hs]; exact b1)
    rw [hs, hin, g1] at h2
    cases h2
    rfl
  subst this
  exact b2 _

/-- Transfer to another solver state or build, for what only depends on the observables. -/
theorem optimal_congr {pb : Pb ℝ EReal} {x y : Nat → ℝ} (h : ∀ i < pb.n, x i = y i) (hx : IsUniqueOptimal pb x) :
    IsUniqueOptimal pb y := by
  have hrow : ∀ i, row pb y i = row pb x i := by
    intro i; apply sum_congr rfl; intro a ha; rw [h a (mem_range.1 ha)]
  have hob := obj_congr pb h
  obtain ⟨⟨⟨h1, h2⟩, h3⟩, h4⟩ := hx
  refine ⟨⟨⟨fun i hi => by rw [hrow]; exact h1 i hi, fun hb i hi => by rw [← h i hi]; exact h2 hb i hi⟩, ?_⟩, ?_⟩
  · intro w hw; rw [← hob]; exact h3 w hw
  · intro w hw i hi; rw [← h i hi]; exact h4 w hw i hi

theorem KKT_congr {pb : Pb ℝ EReal} {x y l l' : Nat → ℝ} (h : ∀ i < pb.n, x i = y i) (hl : ∀ i < pb.m + pb.nb, l i = l' i)
    (hk : KKT pb x l) : KKT pb y l' := by
  have hrow : ∀ i, row pb y i = row pb x i := by
    intro i; apply sum_congr rfl; intro a ha; rw [h a (mem_range.1 ha)]
  have hg : ∀ i < pb.m, l i = l' i := fun i hi => hl i (by omega)
  have hb : pb.useBnd = true → ∀ i < pb.n, l (pb.m + i) = l' (pb.m + i) := by
    intro hu i hi; apply hl; simp [Pb.nb, hu]; exact hi
  obtain ⟨⟨h1, h2⟩, h3, h4, h5, h6, h7⟩ := hk
  refine ⟨⟨fun i hi => by rw [hrow]; exact h1 i hi, fun hb i hi => by rw [← h i hi]; exact h2 hb i hi⟩, ?_, ?_, ?_, ?_, ?_⟩
  · intro a ha
    refine Eq.trans ?_ (h3 a ha)
    congr 1
    · congr 1
      · congr 1
        apply sum_congr rfl; intro b hb'; rw [h b (mem_range.1 hb')]
      · apply sum_congr rfl; intro i hi; rw [hg i (mem_range.1 hi)]
    · split_ifs with hu
      · rw [hb hu a ha]
      · rfl
  · intro i hi hlt; rw [hrow]; exact h4 i hi (by rw [hg i hi]; exact hlt)
  · intro i hi hlt; rw [hrow]; exact h5 i hi (by rw [hg i hi]; exact hlt)
  · intro hu i hi hlt; rw [← h i hi]; exact h6 hu i hi (by rw [hb hu i hi]; exact hlt)
  · intro hu i hi hlt; rw [← h i hi]; exact h7 hu i hi (by rw [hb hu i hi]; exact hlt)

/-! ### Warm start option of the base solver -/

theorem loop_ws (o : Opts ℝ) (pb : Pb ℝ EReal) (b : Bool) (fuel : Nat) : ∀ (s : State ℝ) (sc : SC) (skip : Bool),
    loop { o with warmStart := b } pb fuel s sc skip = loop o pb fuel s sc skip := by
  induction fuel with
  | zero => intro s sc skip; rfl
  | succ fuel ih =>
    intro s sc skip
    simp only [loop]
    rw [show iterate { o with warmStart := b } pb s sc skip = iterate o pb s sc skip from rfl]
    split <;> first | rfl | exact ih _ _ _

theorem addInitials_ws (o : Opts ℝ) (pb : Pb ℝ EReal) (b : Bool) (l : List SC) : ∀ (s : State ℝ),
    addInitials { o with warmStart := b } pb l s = addInitials o pb l s := by
  induction l with
  | nil => intro s; rfl
  | cons sc l ih =>
    intro s
    simp only [addInitials]
    rw [show addInitialConstraint { o with warmStart := b } pb s sc = addInitialConstraint o pb s sc from rfl]
    split <;> first | rfl | exact ih _

/-- The initialisation of the base solver only depends on the sizes of the active set it is given. -/
theorem init_A (o : Opts ℝ) {pb : Pb ℝ EReal} (hc : cholOk pb) {s : State ℝ} (hn : s.nbVar = pb.n) {A1 A2 : ActiveSet}
    (hA : A1.reset = A2.reset) : init_ o pb { s with A := A1 } = init_ o pb { s with A := A2 } := by
  unfold cholOk at hc
  have : ∀ G, initPoint o pb { s with A := A1, G := G } = initPoint o pb { s with A := A2, G := G } := by
    intro G
    unfold initPoint
    simp only [hA]
  rw [← hn] at hc
  unfold init_
  simp only []
  rw [hc, this]
  simp

/-- The base solver starts from scratch whatever `warmStart`. -/
theorem solve_ws (o : Opts ℝ) {pb : Pb ℝ EReal} (hc : cholOk pb) {s : State ℝ} (hi : Inv s) (b : Bool) :
    solve { o with warmStart := b } pb s = solve o pb s := by
  have hd := resize_dim_pb hi pb
  unfold solve dualSolve
  have e0 : ∀ s, init_ { o with warmStart := b } pb s = init_ o pb s := by
    intro s
    unfold init_ initActiveSet
    simp only [addInitials_ws]
    rfl
  have e : init_ { o with warmStart := b } pb (preInit { o with warmStart := b } (resize s pb.n pb.m pb.useBnd)) =
      init_ o pb (preInit o (resize s pb.n pb.m pb.useBnd)) := by
    generalize resize s pb.n pb.m pb.useBnd = s at *
    rw [e0]
    have h1 : preInit { o with warmStart := b } s
        = { preInit o s with A := (preInit { o with warmStart := b } s).A } := rfl
    have h2 : preInit o s = { preInit o s with A := (preInit o s).A } := rfl
    rw [h1]
    conv_rhs => rw [h2]
    refine init_A o hc (s := preInit o s) hd.nbVar ?_
    have h3 : ∀ o : Opts ℝ, (preInit o s).A.reset = s.A.reset := by
      intro o
      unfold preInit
      simp only []
      split_ifs
      · rfl
      · simp [ActiveSet.reset]
    rw [h3, h3]
  rw [e]
  simp only [loop_ws]
  rfl

/-! ### Final theorems -/

theorem calls_safe (cs : List (Call ℝ EReal)) : ∀ (s : State ℝ), Inv s → (∀ c ∈ cs, c.Admissible) →
    ∃ s', calls cs s = .ok s' ∧ Inv s' := by
  induction cs with
  | nil => intro s h _; exact ⟨s, rfl, h⟩
  | cons c cs ih =>
    intro s hs hc
    obtain ⟨s1, h1, h2⟩ := call_safe hs c (hc c List.mem_cons_self)
    simp only [calls, h1]
    exact ih s1 h2 (fun d hd => hc d (List.mem_cons_of_mem _ hd))

/-- With linearly independent equality gradients there are at most `n` of them. -/
theorem numEq_le {pb : Pb ℝ EReal} (hp : Proper pb) (hx : NotCrossed pb) (hc : cholOk pb) {e : Nat}
    (he : EqFirst pb e) (hind : EqIndep pb) : numEq pb ≤ pb.n := by
  obtain ⟨o, _, ht, hws, hr⟩ := (ev_regSolve (dbg := false) hp hx hc he hind (inv_empty (K := ℝ))).exists
  have hr := hr hws
  obtain ⟨s', h1, h2, l, h3, _, _, A0, h4, h5, h6⟩ := init_loopInv hp ht (start_dim inv_empty) hc hr.init
  rw [← eqList_length h4 h5, ← h6, ← h3, ← h2.alg.good.dim.nbVar]
  exact h2.alg.good.q_le

/-- Specification: what the result of `solve` on the problem is worth, for every solver state reached by public calls.
`SUCCESS` comes with the unique minimiser and its multipliers; `INFEASIBLE` is only given to infeasible problems;
`objectiveValue()` is the objective at `solution()` and a lower bound of the objective over the feasible set, whatever the
status. No other status than `MAX_ITER_REACHED` is possible. -/
def Sound (o : Opts ℝ) (pb : Pb ℝ EReal) : Prop :=
  ∀ cs : List (Call ℝ EReal), (∀ c ∈ cs, c.Admissible) →
    ∃ s t s', calls cs (State.empty : State ℝ) = .ok s ∧ solve o pb s = .ok (t, s') ∧
      (t = .success ∨ t = .infeasible ∨ t = .maxIterReached) ∧
      (t = .success → IsUniqueOptimal pb s'.x ∧ KKT pb s'.x (multipliers s').u) ∧
      (t = .infeasible → ¬ ∃ y, Feasible pb y) ∧
      (t = .maxIterReached → o.maxIter < (pb.n + 1) * (7 ^ (pb.m + pb.nb) + 1)) ∧
      s'.f = obj pb s'.x ∧ ∀ y, Feasible pb y → s'.f ≤ obj pb y

/-- **Existence of harmless thresholds (C07, C08, C09, C17, C18).** In exact arithmetic, for every problem with a positive
definite Hessian, bounds that do not cross, equality constraints first and linearly independent, all small enough `tiny`
and all large enough `bigBnd` make the solver sound, after any history of the solver and for all other options. -/
theorem exists_thresholds {pb : Pb ℝ EReal} (hp : Proper pb) (hx : NotCrossed pb)
    (hpd : (Matrix.of fun i j : Fin pb.n => hess pb i j).PosDef) {e : Nat} (he : EqFirst pb e) (hind : EqIndep pb) :
    ∃ ε > 0, ∃ β : ℝ, ∀ o : Opts ℝ, 0 ≤ o.tiny → o.tiny < ε → β < o.bigBnd → Sound o pb := by
  have hc : cholOk pb := by
    rw [show (fun i j : Fin pb.n => hess pb i j) = fun i j : Fin pb.n => symLow pb.G i j from rfl] at hpd
    unfold cholOk
    rcases hch : (chol pb.n pb.G pb.n) with ⟨P, _ | c⟩
    · rfl
    · exact absurd ((posDefN_iff pb.n _).2 hpd) (chol_not_posDef hch)
  obtain ⟨ε, hε, β, hev⟩ := ev_regSolve (dbg := false) hp hx hc he hind (inv_empty (K := ℝ))
  have hnum := numEq_le hp hx hc he hind
  refine ⟨ε, hε, β, ?_⟩
  intro o h0 h1 h2 cs hcs
  obtain ⟨s, g1, g2⟩ := calls_safe cs _ inv_empty hcs
  have law := fpLaws_real o h0
  obtain ⟨t, s', g3, _⟩ := solve_safe law g2 (fun _ => hnum)
  -- reference run
  set o1 : Opts ℝ := { o with dbg := false, warmStart := false } with ho1
  have hr := hev o1 rfl h0 h1 h2 rfl
  obtain ⟨t1, s1, k3, _⟩ := solve_safe (fpLaws_real o1 h0) (inv_empty (K := ℝ)) (fun _ => hnum)
  have g3' : solve { o with warmStart := false } pb s = .ok (t, s') := by rw [solve_ws o hc g2]; exact g3
  have hobs := solve_sim (o := { o with warmStart := false }) (o' := o1) ⟨rfl, rfl, rfl⟩ (fpLaws_real _ h0)
    (fpLaws_real o1 h0) rfl rfl ⟨rfl, rfl, rfl, fun _ _ _ _ => rfl, rfl, rfl, rfl, rfl, rfl, rfl⟩ (fun _ => hnum)
    g2 inv_empty g3' k3
  have ht : t = t1 := congrArg Obs.status hobs
  subst ht
  have hne : t ≠ .nonPosHessian := by
    rcases solve_cases k3 with ⟨t2, e1, e2, e3⟩ | ⟨s2, e1, e2⟩
    · rcases init_nonpos (start_dim inv_empty) e2 with ⟨a, _⟩ | ⟨a, b⟩
      · exact absurd a e1
      · exact absurd hc b
    · have := loop_it _ e2
      rcases this with ⟨rfl, _⟩ | ⟨rfl | rfl, _⟩ <;> simp
  obtain ⟨_, hfin, _⟩ := solve_finalDual hp hx inv_empty he hr k3 hne
  have hall : s1.A.nbAll = pb.m + pb.nb := by
    have : Dim pb s1 := by
      rcases hfin with ⟨_, a, _⟩ | ⟨_, _, _, a, _⟩ | ⟨_, _, _, a, _⟩ <;> exact a.alg.good.dim
    simp [ActiveSet.nbAll, this.nbCstr, this.nbBnd]
  have hx1 := congrArg Obs.solution hobs
  have hf1 := congrArg Obs.objective hobs
  have hu1 := congrArg Obs.multipliers hobs
  have hxx : ∀ i < pb.n, s1.x i = s'.x i := by
    simp only [obs, hne, if_false, Option.some.injEq] at hx1
    intro i hi
    have := congrArg (fun l => l[i]?) hx1
    simpa [hi] using this.symm
  have hff : s'.f = s1.f := by simpa [obs, hne] using hf1
  have huu : ∀ i < pb.m + pb.nb, (multipliers s1).u i = (multipliers s').u i := by
    simp only [obs] at hu1
    have hl := congrArg List.length hu1
    simp only [List.length_map, List.length_range] at hl
    intro i hi
    have := congrArg (fun l => l[i]?) hu1
    have hi1 : i < s1.A.nbAll := by rw [hall]; exact hi
    have hi2 : i < s'.A.nbAll := by rw [hl]; exact hi1
    simpa [hi1, hi2] using this.symm
  refine ⟨s, t, s', g1, g3, ?_, ?_, ?_, ?_, ?_, ?_⟩
  · rcases hfin with ⟨a, _⟩ | ⟨a, _⟩ | ⟨a, _⟩ <;> simp [a]
  · rintro rfl
    have hopt := C07_success_optimal_partial hp hx inv_empty he hr k3
    exact ⟨optimal_congr hxx hopt.1, KKT_congr hxx huu hopt.2⟩
  · rintro rfl
    exact C09_infeasible_partial hp hx inv_empty he hr k3
  · rintro rfl
    by_contra hmax
    exact C18_terminates_partial hp hx inv_empty he hr (not_lt.1 hmax) k3 rfl
  · rw [hff, C08_objective_partial hp hx inv_empty hr k3 hne]
    exact obj_congr pb hxx
  · intro y hy
    rw [hff]
    exact C17_lower_bound_partial hp hx inv_empty he hr k3 hne hy

/-- **C18 (partial).** In exact arithmetic, for every problem with a positive definite Hessian, bounds that do not cross,
equality constraints first and linearly independent: for all small enough `tiny`, all large enough `bigBnd` and all
`maxIter ≥ (n+1)(7^(m+nb)+1)`, after any history of the solver, `solve` returns `SUCCESS` with the unique minimiser if the
problem is feasible and `INFEASIBLE` otherwise.

Missing: crossed bounds, equalities after inequalities, and the fixed values `1e-14` and `bigBnd` (all false). -/
theorem C18_exact_solver_partial {pb : Pb ℝ EReal} (hp : Proper pb) (hx : NotCrossed pb)
    (hpd : (Matrix.of fun i j : Fin pb.n => hess pb i j).PosDef) {e : Nat} (he : EqFirst pb e) (hind : EqIndep pb) :
    ∃ ε > 0, ∃ β : ℝ, ∀ o : Opts ℝ, 0 ≤ o.tiny → o.tiny < ε → β < o.bigBnd →
      (pb.n + 1) * (7 ^ (pb.m + pb.nb) + 1) ≤ o.maxIter →
      ∀ cs : List (Call ℝ EReal), (∀ c ∈ cs, c.Admissible) →
        ∃ s t s', calls cs (State.empty : State ℝ) = .ok s ∧ solve o pb s = .ok (t, s') ∧
          ((∃ y, Feasible pb y) → t = .success ∧ IsUniqueOptimal pb s'.x) ∧
          ((¬ ∃ y, Feasible pb y) → t = .infeasible) := by
  obtain ⟨ε, hε, β, h⟩ := exists_thresholds hp hx hpd he hind
  refine ⟨ε, hε, β, fun o h0 h1 h2 hmax cs hcs => ?_⟩
  obtain ⟨s, t, s', g1, g2, g3, g4, g5, g6, _⟩ := h o h0 h1 h2 cs hcs
  refine ⟨s, t, s', g1, g2, ?_, ?_⟩
  · intro hf
    rcases g3 with rfl | rfl | rfl
    · exact ⟨rfl, (g4 rfl).1⟩
    · exact absurd hf (g5 rfl)
    · have := g6 rfl; omega
  · intro hf
    rcases g3 with rfl | rfl | rfl
    · exact absurd ⟨_, (g4 rfl).1.1.1⟩ hf
    · rfl
    · have := g6 rfl; omega

/-! ### A concrete problem meeting the hypotheses -/

/-- `min ½‖x‖² s.t. x₀ + x₁ = 1, x₀ ≥ 3/4`. -/
noncomputable def exPbEq : Pb ℝ EReal where
  n := 2
  m := 2
  useBnd := false
  G := fun i j => if i = j then 1 else 0
  a := fun _ => 0
  C := fun a i => if i = 0 then 1 else if a = 0 then 1 else 0
  bl := fun i => if i = 0 then ((1 : ℝ) : EReal) else ((3 / 4 : ℝ) : EReal)
  bu := fun i => if i = 0 then ((1 : ℝ) : EReal) else ⊤
  xl := fun _ => ⊥
  xu := fun _ => ⊤

theorem exPbEq_hyp : Proper exPbEq ∧ NotCrossed exPbEq ∧ (Matrix.of fun i j : Fin exPbEq.n => hess exPbEq i j).PosDef ∧
    EqFirst exPbEq 1 ∧ EqIndep exPbEq ∧ ∃ y, Feasible exPbEq y := by
  refine ⟨⟨?_, ?_, by simp [exPbEq], by simp [exPbEq]⟩, ⟨?_, by simp [exPbEq]⟩, ?_, ⟨by simp [exPbEq, Pb.nb], ?_⟩, ?_, ?_⟩
  · intro i _; simp only [exPbEq]; split_ifs <;> exact EReal.coe_ne_top _
  · intro i _; simp only [exPbEq]; split_ifs
    · exact EReal.coe_ne_bot _
    · simp
  · intro i _; simp only [exPbEq]; split_ifs <;> simp
  · refine (posDefN_iff 2 exPbEq.G).1 ?_
    intro v hv
    simp only [sum_range_succ, sum_range_zero, symLow, exPbEq]
    norm_num
    obtain ⟨i, hi, hne⟩ := hv
    have : i = 0 ∨ i = 1 := by omega
    rcases this with rfl | rfl
    · have := mul_self_pos.2 hne; have := mul_self_nonneg (v 1); linarith
    · have := mul_self_pos.2 hne; have := mul_self_nonneg (v 0); linarith
  · intro i hi
    have hi : i < 2 := by simpa [exPbEq, Pb.nb] using hi
    have : i = 0 ∨ i = 1 := by omega
    rcases this with rfl | rfl <;> simp [isEqB, exPbEq, bEq]
  · intro c h1 h2 i
    by_cases hi : i = 0
    · subst hi
      have h3 := h2 1 (by simp [exPbEq])
      simp [exPbEq, Pb.nb, grad, sum_range_succ] at h3
      exact h3
    · apply h1
      rintro ⟨a, b⟩
      have hi : i < 2 := by simpa [exPbEq, Pb.nb] using a
      have : i = 1 := by omega
      subst this
      rcases b with ⟨_, b⟩ | ⟨b, _⟩
      · simp [exPbEq] at b
      · simp [exPbEq] at b
  · refine ⟨fun i => if i = 0 then 1 else 0, ?_, by simp [exPbEq]⟩
    intro i hi
    have hi : i < 2 := by simpa [exPbEq] using hi
    have : i = 0 ∨ i = 1 := by omega
    rcases this with rfl | rfl
    · simp [row, exPbEq]
    · simp [row, exPbEq]
      exact_mod_cast (by norm_num : (3 / 4 : ℝ) ≤ 1)

/-- The hypotheses of C07, C08, C09, C17, C18 are met by a run on this problem, which ends with `SUCCESS`. -/
example : ∃ (o : Opts ℝ) (pb : Pb ℝ EReal) (s : State ℝ) (e : Nat), Proper pb ∧ NotCrossed pb ∧ Inv s ∧ EqFirst pb e ∧
    RegSolve o pb s ∧ (pb.n + 1) * (7 ^ (pb.m + pb.nb) + 1) ≤ o.maxIter := by
  obtain ⟨h1, h2, h3, h4, h5, h6⟩ := exPbEq_hyp
  have hc : cholOk exPbEq := by
    rw [show (fun i j : Fin exPbEq.n => hess exPbEq i j) = fun i j : Fin exPbEq.n => symLow exPbEq.G i j from rfl] at h3
    unfold cholOk
    rcases hch : (chol exPbEq.n exPbEq.G exPbEq.n) with ⟨P, _ | c⟩
    · rfl
    · exact absurd ((posDefN_iff exPbEq.n _).2 h3) (chol_not_posDef hch)
  obtain ⟨ε, hε, β, h⟩ := ev_regSolve (dbg := false) h1 h2 hc h4 h5 (inv_empty (K := ℝ))
  exact ⟨⟨_, β + 1, false, 0, false⟩, exPbEq, State.empty, 1, h1, h2, inv_empty, h4,
    h _ rfl le_rfl hε (by simp) rfl, le_rfl⟩

end JrlQp
