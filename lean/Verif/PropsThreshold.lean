import Verif.ExactBackward
import Verif.PropsCounter

/-!
# What does not depend on the thresholds (C17, C34), and what does (C07, C08, C17)
-/

namespace JrlQp

open NumOps Finset Spec

theorem reach_start {o : Opts ℝ} {pb : Pb ℝ EReal} (hp : Proper pb) {s0 : State ℝ} (hi : Inv s0) (ht0 : 0 ≤ o.tiny)
    (hreg : RegInitAll o pb (solveStart o pb s0)) {s1}
    (h : init_ o pb (preInit o (resize s0 pb.n pb.m pb.useBnd)) = .ok (.success, s1)) :
    LoopInv (shiftA pb (fun _ => 0)) (plusF s1 0) ⟨0, .inactive⟩ false ∧ ∀ e, EqFirst pb e → DInv pb e s1 ⟨0, .inactive⟩ false := by
  have hd : Dim pb (solveStart o pb s0) := start_dim hi
  have hc : cholOk pb := by
    rcases init_nonpos hd h with ⟨_, a⟩ | ⟨a, _⟩
    · exact a
    · cases a
  refine ⟨?_, fun e he => (init_both hp ht0 hd hc hreg he h).2⟩
  obtain ⟨s2, g1, g2, _⟩ := init_loopInv hp ht0 hd hc hreg
  rw [show preInit o (resize s0 pb.n pb.m pb.useBnd) = solveStart o pb s0 from rfl] at h
  rw [h] at g1
  cases g1
  have e1 : shiftA pb (fun _ => 0) = pb := by simp [shiftA]
  have e2 : plusF s1 0 = s1 := by simp [plusF]
  rw [e1, e2]; exact g2

/-- Invariant of the reachable states, arbitrary thresholds and order of the constraints. -/
theorem reach_tight {o : Opts ℝ} {pb : Pb ℝ EReal} (hp : Proper pb) (hx : NotCrossed pb) {s0 : State ℝ} (hi : Inv s0)
    (ht0 : 0 ≤ o.tiny) (hreg : RegInitAll o pb (solveStart o pb s0)) {s sc skip} (h : Reach o pb s0 s sc skip) :
    ∃ δ c, LoopInv (shiftA pb δ) (plusF s c) sc skip := by
  induction h with
  | start h => exact ⟨_, _, (reach_start hp hi ht0 hreg h).1⟩
  | next _ h ih =>
    obtain ⟨δ, c, ih⟩ := ih
    obtain ⟨δ', c', h1⟩ := iterate_tight hp hx ht0 ih h
    exact ⟨δ', c', h1.setIt _⟩

theorem reach_back {o : Opts ℝ} {pb : Pb ℝ EReal} (hp : Proper pb) (hx : NotCrossed pb) {s0 : State ℝ} (hi : Inv s0)
    (ht0 : 0 ≤ o.tiny) (hreg : RegInitAll o pb (solveStart o pb s0)) {e : Nat} (he : EqFirst pb e) {s sc skip}
    (h : Reach o pb s0 s sc skip) : ∃ k δ c, BInvT o pb e k s sc skip δ c := by
  induction h with
  | start h =>
    obtain ⟨h1, h2⟩ := reach_start hp hi ht0 hreg h
    exact ⟨0, _, _, Pert.zero, h1, h2 e he⟩
  | next _ h ih =>
    obtain ⟨k, δ, c, ih⟩ := ih
    rcases iterate_back hp hx ht0 ih h with ⟨h1, _⟩ | ⟨_, h1⟩ | ⟨s2, sc2, k2, h1, ⟨δ', c', h2⟩, _⟩
    · cases h1
    · cases h1
    · cases h1
      exact ⟨k + 1, δ', c', h2.pert, h2.inv.setIt _, h2.dual.setIt _⟩

/-! ## C34 -/

/-- **C34, tightness.** In exact arithmetic, for bounds that do not cross and equality constraints that are independent for
the threshold on the direction (nothing to check if there is none), whatever the thresholds and the order of the
constraints: at the beginning of every iteration each active constraint is satisfied with equality on its active side. -/
theorem C34_tight {o : Opts ℝ} {pb : Pb ℝ EReal} (hp : Proper pb) (hx : NotCrossed pb) {s0 : State ℝ}
    (hi : Inv s0) (ht0 : 0 ≤ o.tiny) (hreg : RegInitAll o pb (solveStart o pb s0)) {s sc skip}
    (h : Reach o pb s0 s sc skip) : Tight pb s.A s.x := by
  obtain ⟨δ, c, h1⟩ := reach_tight hp hx hi ht0 hreg h
  exact h1.tight

/-- **C34, signs.** If moreover the equality constraints come first, the multipliers of the active inequality
constraints, and of the constraint being added, are non-negative at the beginning of every iteration. -/
theorem C34_multipliers_nonneg {o : Opts ℝ} {pb : Pb ℝ EReal} (hp : Proper pb) (hx : NotCrossed pb)
    {s0 : State ℝ} (hi : Inv s0) (ht0 : 0 ≤ o.tiny) (hreg : RegInitAll o pb (solveStart o pb s0)) {e : Nat}
    (he : EqFirst pb e) {s sc skip} (h : Reach o pb s0 s sc skip) :
    (∀ k < s.A.q, s.A.statusAt (s.A.get k) ≠ .equality → s.A.statusAt (s.A.get k) ≠ .fixed → 0 ≤ s.u k) ∧
    (skip = true → 0 ≤ s.u s.A.q) := by
  obtain ⟨_, δ, c, hb⟩ := reach_back hp hx hi ht0 hreg he h
  have hD := hb.dual
  refine ⟨fun k hk ha hb' => hD.pos k hk ?_, hD.cpos⟩
  by_contra hc
  have := (hD.pre.act (hb.inv.alg.good.dim.wf : s.A.WF) hk).2 (by omega)
  simp only [ActiveSet.act] at this
  cases hs : s.A.statusAt (s.A.get k) <;> simp_all [Status.isEq]

/-! ## C17 -/

/-- **C17, one iteration.** In exact arithmetic, whatever the thresholds, an iteration does not decrease the objective
value and strictly increases it if it adds a constraint. -/
theorem C17_monotone {o : Opts ℝ} {pb : Pb ℝ EReal} (hp : Proper pb) (hx : NotCrossed pb) {s0 : State ℝ}
    (hi : Inv s0) (ht0 : 0 ≤ o.tiny) (hreg : RegInitAll o pb (solveStart o pb s0)) {e : Nat} (he : EqFirst pb e) {s sc skip}
    (h : Reach o pb s0 s sc skip) {s' sc' skip'} (hr : iterate o pb s sc skip = .ok (.cont s' sc' skip')) :
    s.f ≤ s'.f ∧ (s.A.active.length < s'.A.active.length → s.f < s'.f) := by
  obtain ⟨k, δ, c, hb⟩ := reach_back hp hx hi ht0 hreg he h
  rcases iterate_back hp hx ht0 hb hr with ⟨a, _⟩ | ⟨_, a⟩ | ⟨s2, sc2, k2, h1, ⟨δ', c', h2⟩, h3, h4, h5⟩
  · cases a
  · cases a
  · cases h1
    refine ⟨h3, fun hlt => h4 ?_⟩
    by_contra hsk
    have := h5 (by simpa using hsk)
    have w1 : s'.A.WF := h2.inv.alg.good.dim.wf
    have w2 : s.A.WF := hb.inv.alg.good.dim.wf
    rw [w1.q_eq, w2.q_eq] at this
    omega

theorem iterBody_done_f {o : Opts ℝ} {pb : Pb ℝ EReal} {s s' : State ℝ} {sc : SC} {t}
    (h : iterBody o pb s sc = .ok (.done t s')) : s'.f = s.f := by
  unfold iterBody at h
  simp only [] at h
  split_ifs at h <;> cases h <;> rfl

theorem iterate_done_f {o : Opts ℝ} {pb : Pb ℝ EReal} {s s' : State ℝ} {sc : SC} {skip : Bool} {t}
    (h : iterate o pb s sc skip = .ok (.done t s')) : s'.f = s.f := by
  unfold iterate at h
  simp only [] at h
  split_ifs at h
  · exact iterBody_done_f h
  · cases h; rfl
  · exact iterBody_done_f (s := { s with u := upd s.u s.A.q 0 }) h

/-- **C17, observable form.** Whatever the thresholds, solving the same problem with a larger `maxIter` never gives a
smaller `objectiveValue()`. -/
theorem C17_monotone_maxIter {o : Opts ℝ} {pb : Pb ℝ EReal} (hp : Proper pb) (hx : NotCrossed pb) {s0 : State ℝ}
    (hi : Inv s0) (ht0 : 0 ≤ o.tiny) (hreg : RegInitAll o pb (solveStart o pb s0)) {e : Nat} (he : EqFirst pb e) (hc : cholOk pb)
    {N M : Nat} (hNM : N ≤ M) {t t' s s'} (h : solve { o with maxIter := N } pb s0 = .ok (t, s))
    (h' : solve { o with maxIter := M } pb s0 = .ok (t', s')) : s.f ≤ s'.f := by
  have hst : ∀ N, solveStart { o with maxIter := N } pb s0 = solveStart o pb s0 := fun N => rfl
  have hd : Dim pb (solveStart o pb s0) := start_dim hi
  have hcase : ∀ {N t s}, solve { o with maxIter := N } pb s0 = .ok (t, s) →
      ∃ s1, init_ o pb (solveStart o pb s0) = .ok (.success, s1) ∧ loop o pb (N - s1.it) s1 ⟨0, .inactive⟩ false = .ok (t, s) := by
    intro N t s h
    rcases solve_cases h with ⟨t1, h1, h2, h3⟩ | ⟨s1, h1, h2⟩
    · rw [init_maxIter, hst] at h2
      rcases init_nonpos hd h2 with ⟨a, _⟩ | ⟨_, a⟩
      · exact absurd a h1
      · exact absurd hc a
    · rw [init_maxIter, hst] at h1
      rw [loop_maxIter] at h2
      exact ⟨s1, h1, h2⟩
  obtain ⟨s1, a1, a2⟩ := hcase h
  obtain ⟨s2, b1, b2⟩ := hcase h'
  rw [a1] at b1
  cases b1
  have hmono : ∀ (m : Nat) {s sc skip}, Reach o pb s0 s sc skip → ∀ {t r},
      loop o pb m s sc skip = .ok (t, r) → s.f ≤ r.f := by
    intro m
    induction m with
    | zero =>
      intro s sc skip _ t r h1
      simp only [loop, Except.ok.injEq, Prod.mk.injEq] at h1
      rw [h1.2]
    | succ m ih =>
      intro s sc skip hr t r h1
      simp only [loop] at h1
      cases hit : iterate o pb s sc skip with
      | error e => simp [hit] at h1
      | ok it =>
        rw [hit] at h1
        cases it with
        | done t1 s1 =>
          simp only [Except.ok.injEq, Prod.mk.injEq] at h1
          rw [← h1.2, iterate_done_f hit]
        | cont s1 sc1 k1 =>
          have h2 := (C17_monotone hp hx hi ht0 hreg he hr hit).1
          have h3 := ih (Reach.next hr hit) h1
          exact h2.trans h3
  have key : ∀ (n m : Nat), n ≤ m → ∀ {s sc skip}, Reach o pb s0 s sc skip → ∀ {t t' r r'},
      loop o pb n s sc skip = .ok (t, r) → loop o pb m s sc skip = .ok (t', r') → r.f ≤ r'.f := by
    intro n
    induction n with
    | zero =>
      intro m _ s sc skip hr t t' r r' h1 h2
      simp only [loop, Except.ok.injEq, Prod.mk.injEq] at h1
      rw [← h1.2]
      exact hmono m hr h2
    | succ n ih =>
      intro m hm s sc skip hr t t' r r' h1 h2
      obtain ⟨m, rfl⟩ : ∃ m', m = m' + 1 := ⟨m - 1, by omega⟩
      simp only [loop] at h1 h2
      cases hit : iterate o pb s sc skip with
      | error e => simp [hit] at h1
      | ok it =>
        rw [hit] at h1 h2
        cases it with
        | done t1 s1 =>
          simp only [Except.ok.injEq, Prod.mk.injEq] at h1 h2
          rw [← h1.2, ← h2.2]
        | cont s1 sc1 k1 => exact ih m (by omega) (Reach.next hr hit) h1 h2
  exact key _ _ (by omega) (Reach.start a1) a2 b2

/-! ## A run on which the threshold on the direction matters -/

/-- A direction below the threshold: constraint `l`, with the smallest ratio, is dropped, and the state is an exact one of
the problem with a shifted linear term. -/
theorem exec_neglect {o : Opts ℝ} (law : FpLaws ℝ o) (ht0 : 0 ≤ o.tiny) {pb : Pb ℝ EReal} (hpd : PosDefN pb.n (hess pb))
    {s : State ℝ} {sc0 sc : SC} (h : LoopInv pb s sc0 false) (hsel : select pb pb.n s.A s.x = sc)
    (hne : sc.status ≠ .inactive) (hfc : BndFin pb sc) {z r : Nat → ℝ} (hd : StepData pb s sc z r) (hz : normn pb.n z ≤ o.tiny)
    {l : Nat} (hl : l < s.A.q) (he : elig s.A l) (hrl : 0 < r l)
    (hr : ∀ k < s.A.q, elig s.A k → 0 < r k → s.u k / r k < o.bigBnd ∧ (k = l ∨ s.u l / r l < s.u k / r k)) :
    ∃ s' c, iterate o pb s sc0 false = .ok (.cont s' sc true) ∧ s'.A = s.A.deactivate l ∧ s'.it = s.it ∧ s'.x = s.x ∧ s'.f = s.f ∧
      ∃ δ, (∀ a < pb.n, δ a = s.u l / r l * ∑ b ∈ range pb.n, hess pb a b * z b) ∧
        LoopInv (shiftA pb δ) (plusF s' c) sc true := by
  have h0 : Alg pb s (fun _ => 0) := h.alg.congr (by simp)
  obtain ⟨hc, h1, hit⟩ := iterate_enter (o := o) (sc0 := sc0) h0 hsel hne
  obtain ⟨s1, hs1⟩ : ∃ s1 : State ℝ, s1 = { s with u := upd s.u s.A.q 0 } := ⟨_, rfl⟩
  rw [← hs1] at h1 hit
  have hg1 := h1.good
  have hA1 : s1.A = s.A := by rw [hs1]
  have hc1 : Cand s1.A sc := by rw [hA1]; exact hc
  have hsc := Cand.scOk (pb := pb) hc.pre h0.good.dim.nbCstr h0.good.dim.nbBnd
  obtain ⟨ez, er⟩ := stepUnique hpd h1 hsc (z := z) (r := r) (by rw [hA1]; exact hd.split) (by rw [hA1]; exact hd.orth)
  have hl1 : LoopInv pb s1 sc true := by
    refine ⟨h1.congr (by intro a _; simp [hs1, upd]), fun _ => hc1, by rw [hA1]; exact h.fin, fun _ => hfc⟩
  have eu : ∀ k < s.A.q, (computeStep pb s1 sc).u k = s.u k := by
    intro k hk
    have : k ≠ s.A.q := by omega
    simp [computeStep, hs1, upd, this]
  have eA : (computeStep pb s1 sc).A = s.A := hA1
  have ex : (computeStep pb s1 sc).x = s.x := by rw [hs1]; rfl
  have ef : (computeStep pb s1 sc).f = s.f := by rw [hs1]; rfl
  have eit : (computeStep pb s1 sc).it = s.it := by rw [hs1]; rfl
  rw [hA1] at er
  obtain ⟨r', hr', _⟩ := iterBody_safe law hg1 hc1
  have hbody := hr'
  unfold iterBody at hbody
  split_ifs at hbody with hok
  have hn : (computeStep pb s1 sc).nbVar = pb.n := hg1.dim.nbVar
  obtain ⟨s2, hs2⟩ : ∃ s2, s2 = computeStep pb s1 sc := ⟨_, rfl⟩
  rw [← hs2] at hbody ez er eu eA ex ef eit hn
  simp only [] at hbody
  by_cases h2 : stepLenOk o s2 sc = true
  swap
  · rw [if_neg h2] at hbody; cases hbody
  rw [if_pos h2] at hbody
  have ht2 : (computeStepLength o pb s2 sc).t2 = o.bigBnd := by
    show (if ltb o.tiny (normn s2.nbVar s2.z) = true then fullStep pb s2.nbVar s2.x s2.z sc else o.bigBnd) = _
    rw [hn, normn_congr ez, if_neg (by rw [ltb_real]; exact not_lt.2 hz)]
  have hratio := ratio_spec s2.A s2.u s2.r o.bigBnd s2.A.q
  simp only at hratio
  have ht1 : (computeStepLength o pb s2 sc).t1
      = ((List.range s2.A.q).foldl (ratioStep s2.A s2.u s2.r) (o.bigBnd, 0)).1 := rfl
  have hl' : (computeStepLength o pb s2 sc).l
      = ((List.range s2.A.q).foldl (ratioStep s2.A s2.u s2.r) (o.bigBnd, 0)).2 := rfl
  generalize (List.range s2.A.q).foldl (ratioStep s2.A s2.u s2.r) (o.bigBnd, 0) = acc at *
  generalize computeStepLength o pb s2 sc = sl at *
  obtain ⟨g1, g2, g3⟩ := hratio
  rw [eA] at g2 g3
  have hml := g2 l hl he (by rw [er l hl]; exact hrl)
  rw [eu l hl, er l hl] at hml
  have hlb := (hr l hl he hrl).1
  rcases g3 with ⟨g3, g4⟩ | ⟨g3, g4, g5, g6, g7⟩
  · exfalso
    rw [g3] at hml
    exact absurd hlb (not_lt.2 hml)
  rw [er _ g3] at g5 g6
  rw [eu _ g3] at g6
  have hll : acc.2 = l := by
    rcases (hr _ g3 g4 g5).2 with h | h
    · exact h
    · exfalso; rw [g6] at hml; linarith
  rw [hll] at g6
  simp only [leb_real, eqb_real, stdMin, ltb_real, ht1, hl', ht2, hll] at hbody
  rw [if_neg (not_lt.2 g1)] at hbody
  rw [if_neg (not_le.2 g7), if_pos le_rfl] at hbody
  split_ifs at hbody with h3
  cases hbody
  have hl2 : l < s2.A.q := by rw [eA]; exact hl
  have hr2 : 0 < s2.r l := by rw [er l hl]; exact hrl
  obtain ⟨c, hc'⟩ := loopInv_drop (o := o) hl1 hs2 hl2 hr2
  have et : acc.1 = s2.u l / s2.r l := by rw [g6, eu l hl, er l hl]
  rw [← et] at hc'
  refine ⟨_, c, hit hr', ?_, ?_, ?_, ?_, _, ?_, hc'⟩
  · show (s2.A.deactivate l) = _
    rw [eA]
  · show s2.it = _; rw [eit]
  · show s2.x = _; rw [ex]
  · show s2.f = _; rw [ef]
  · intro a _
    rw [g6]
    congr 1
    apply sum_congr rfl
    intro b hb
    rw [ez b (mem_range.1 hb)]

/-- `min ½‖x‖²` subject to `x₀ ≥ K` and `x₀/2 + d x₁ ≥ K/2 + 1`. -/
noncomputable def cexThr (K d : ℝ) : Pb ℝ EReal :=
  ⟨2, 2, false, fun i j => if i = j then 1 else 0, fun _ => 0,
    fun a i => if i = 0 then (if a = 0 then 1 else 0) else (if a = 0 then 1 / 2 else d),
    fun i => if i = 0 then (K : EReal) else ((K / 2 + 1 : ℝ) : EReal), fun _ => ⊤, fun _ => 0, fun _ => 0⟩

/-- The run on `cexThr` for `d` below the threshold: three iterations, then `SUCCESS`. -/
theorem cexThr_run {o : Opts ℝ} (ht : o.tiny < 1 / 2) {K d : ℝ} (hd : 0 < d) (hdt : d ≤ o.tiny) (hK : 2 < K)
    (hKb : 2 * K < o.bigBnd) {s : State ℝ} (hi : Inv s) :
    ∃ s', (s'.x 0 = K + 2 / (1 + 4 * d ^ 2) ∧ s'.x 1 = 4 * d / (1 + 4 * d ^ 2)) ∧
      s'.f = obj (cexThr K d) s'.x + 8 * K * d ^ 2 / (1 + 4 * d ^ 2) ∧
      (4 ≤ o.maxIter → solve o (cexThr K d) s = .ok (.success, s')) ∧
      (o.maxIter = 3 → solve o (cexThr K d) s = .ok (.maxIterReached, s')) := by
  have ht0 : 0 ≤ o.tiny := hd.le.trans hdt
  obtain ⟨pb, hpb⟩ : ∃ pb, pb = cexThr K d := ⟨_, rfl⟩
  have hpd : PosDefN (cexThr K d).n (hess (cexThr K d)) := posDef_id (fun i j => rfl)
  have hc : cholOk (cexThr K d) := cholOk_of_posDefN hpd
  have law := fpLaws_real o ht0
  have hn : (cexThr K d).n = 2 := rfl
  have hD : 0 < 1 + 4 * d ^ 2 := by positivity
  have heq : ∀ A : ActiveSet, A.nbCstr = (cexThr K d).m → A.nbBnd = (cexThr K d).nb → eqList (cexThr K d) A = [] := by
    intro A h1 h2
    rw [show (cexThr K d).m = 2 from rfl] at h1
    rw [show (cexThr K d).nb = 0 from rfl] at h2
    have b0 : (cexThr K d).bl 0 ≠ (cexThr K d).bu 0 := EReal.coe_ne_top _
    have b1 : (cexThr K d).bl 1 ≠ (cexThr K d).bu 1 := EReal.coe_ne_top _
    simp [eqList, h1, h2, List.range_succ, b0, b1]
  obtain ⟨s0, h1, hq0, hst0, hit0, hrun⟩ := solve_start_nil ht0 hc hi heq
  have hx0 := (Alg.point hpd h1 (x := fun _ => 0) (u := fun _ => 0) (by intro a _; rw [hq0]; simp [cexThr])
    (by intro k hk; omega)).1
  have ex0 := hx0 0 (by rw [hn]; omega)
  have ex1 := hx0 1 (by rw [hn]; omega)
  have htt : o.tiny * o.tiny < 1 / 4 := by nlinarith
  -- first iteration: constraint 0 is added
  have hsel0 : select (cexThr K d) (cexThr K d).n s0.A s0.x = ⟨0, .lower⟩ := by
    rw [select_two h1.good.dim.nbCstr h1.good.dim.nbBnd,
      selGen_lower (i := 0) (hst0 0) (c := 0) (b := K) (a := 0) _ _ ?_ rfl rfl (by linarith),
      selGen_none (i := 1) (hst0 1) (c := 0) (b := K / 2 + 1) (a := 0 - K) _ _ ?_ rfl rfl rfl (by linarith)]
    all_goals simp [row, hn, sum_range_succ, ex0, ex1]
  obtain ⟨s1, l1, l2, l3, l4, l5, l6, l7⟩ := exec_full law ht0 hpd (sc0 := ⟨0, .inactive⟩) (sc := ⟨0, .lower⟩) h1 hsel0 (by simp)
    (z := fun i => if i = 0 then 1 else 0) (r := fun _ => 0) (t := K) ⟨by
      intro a ha
      rw [hq0, hn] at *
      interval_cases a <;> simp [normal, cexThr, hess, sum_range_succ], by
      intro k hk; omega⟩
    (by simp [rhs, ndot, normal, hn, sum_range_succ, ex0, ex1]; simp [cexThr])
    (lt_normn ht0 (by rw [hn]; simp [sum_range_succ]; linarith)) (by linarith) (by intro k hk; omega)
  rw [hq0] at l3 l5
  obtain ⟨px, pu⟩ := Alg.point hpd l2 (x := fun i => if i = 0 then K else 0) (u := fun _ => K)
    (by
      intro a ha
      rw [l3, hn] at *
      simp only [sum_range_succ, sum_range_zero, l5]
      interval_cases a <;> simp [normal, cexThr, hess]) (by
      intro k hk
      have : k = 0 := by omega
      subst this
      rw [l5]; simp [rhs, ndot, normal, hn, sum_range_succ]; simp [cexThr])
  have px0 := px 0 (by rw [hn]; omega)
  have px1 := px 1 (by rw [hn]; omega)
  simp at px0 px1
  have pu0 := pu 0 (by omega)
  have ls0 : s1.A.statusAt 0 = .lower := by rw [l6 0]; rfl
  have ls1 : s1.A.statusAt 1 = .inactive := by rw [l6 1]; exact hst0 1
  -- second iteration: constraint 0 is dropped without moving
  have hsel1 : select (cexThr K d) (cexThr K d).n s1.A s1.x = ⟨1, .lower⟩ := by
    rw [select_two l2.good.dim.nbCstr l2.good.dim.nbBnd, selGen_active (i := 0) (by rw [ls0]; simp),
      selGen_lower (i := 1) ls1 (c := K / 2) (b := K / 2 + 1) (a := 0) _ _ ?_ rfl rfl (by linarith)]
    simp [row, hn, sum_range_succ, px0, px1, cexThr]
    ring
  have m2 : LoopInv (cexThr K d) { s1 with it := s1.it + 1 } ⟨0, .lower⟩ false := by
    refine ⟨(l2.setIt _).congr (by simp), by simp, ?_, by simp⟩
    intro k hk
    have hk : k < s1.A.q := hk
    have : k = 0 := by omega
    subst this
    show BndFin _ (s1.A.act 0)
    rw [l5]
    exact ⟨K, rfl⟩
  obtain ⟨s2, c, n1, n2, n3, n4, n5, δ, n6, n7⟩ := exec_neglect law ht0 hpd (sc0 := ⟨0, .lower⟩) m2 hsel1 (by simp) ⟨K / 2 + 1, rfl⟩
    (z := fun i => if i = 0 then 0 else d) (r := fun _ => 1 / 2) ⟨by
      intro a ha
      show _ = ∑ k ∈ range s1.A.q, _ * normal _ (s1.A.act k) a + _
      rw [l3, hn] at *
      simp only [sum_range_succ, sum_range_zero, l5]
      interval_cases a <;> simp [normal, cexThr, hess], by
      intro k hk
      have hk : k < s1.A.q := hk
      have : k = 0 := by omega
      subst this
      show ndot _ (s1.A.act 0) _ = 0
      rw [l5]; simp [ndot, normal, hn, sum_range_succ]; simp [cexThr]⟩
    (by
      rw [hn]
      simp only [normn, dotn, esum_real, sumTo, sqrt_real, zero_add, if_true, mul_zero, one_ne_zero, if_false]
      rw [Real.sqrt_mul_self hd.le]; exact hdt) (l := 0) (show 0 < s1.A.q by omega)
    ⟨by show s1.A.statusAt 0 ≠ _; rw [ls0]; simp, by show s1.A.statusAt 0 ≠ _; rw [ls0]; simp⟩ (by norm_num) (by
      intro k hk _ _
      have hk : k < s1.A.q := hk
      have : k = 0 := by omega
      subst this
      refine ⟨?_, Or.inl rfl⟩
      show s1.u 0 / (1 / 2) < _
      rw [pu0]; linarith)
  have n4 : s2.x = s1.x := n4
  have n2 : s2.A = s1.A.deactivate 0 := n2
  have n5 : s2.f = s1.f := n5
  have hq2 : s2.A.q = 0 := by
    rw [n2, l2.good.dim.wf.q_deactivate (by have := l2.good.dim.wf.q_eq; simp [ActiveSet.deactivatePre]; omega)]
    omega
  have hst2 : ∀ i, s2.A.statusAt i = .inactive := by
    intro i
    have hw := l2.good.dim.wf
    rw [n2, ActiveSet.deactivate_statusAt _ hw _ _ (by rw [← hw.q_eq]; omega)]
    have : s1.A.get 0 = 0 := congrArg SC.p l5
    rw [this, l6 i]
    simp only []
    split_ifs
    · rfl
    · exact hst0 i
  have n60 : δ 0 = 0 := by
    rw [n6 0 (by rw [hn]; omega), hn]; simp [sum_range_succ, hess, cexThr]
  have n61 : δ 1 = 2 * K * d := by
    rw [n6 1 (by rw [hn]; omega), hn]
    show s1.u 0 / (1 / 2) * _ = _
    rw [pu0]
    simp only [sum_range_succ, sum_range_zero, hess, cexThr]
    norm_num
    left; ring
  have eobj : ∀ v : Nat → ℝ, obj (shiftA (cexThr K d) δ) v = obj (cexThr K d) v + 2 * K * d * v 1 := by
    intro v
    simp only [obj]
    show _ + ∑ i ∈ range 2, ((cexThr K d).a i + δ i) * v i = _ + ∑ i ∈ range 2, (cexThr K d).a i * v i + _
    simp only [sum_range_succ, sum_range_zero, n60, n61]
    have : ∀ v : Nat → ℝ, (1 / 2 * ∑ i ∈ range (shiftA (cexThr K d) δ).n, ∑ j ∈ range (shiftA (cexThr K d) δ).n, v i * hess (shiftA (cexThr K d) δ) i j * v j)
      = 1 / 2 * ∑ i ∈ range (cexThr K d).n, ∑ j ∈ range (cexThr K d).n, v i * hess (cexThr K d) i j * v j := fun v => rfl
    rw [this]
    ring
  have hc0 : c = 0 := by
    have h := n7.alg.f
    have h : s2.f + c = obj (shiftA (cexThr K d) δ) s2.x := h
    rw [eobj, n4, px1, n5, l2.f] at h
    linarith
  subst hc0
  -- third iteration: constraint 1 is added
  obtain ⟨pb', hpb'⟩ : ∃ pb', pb' = shiftA (cexThr K d) δ := ⟨_, rfl⟩
  have hadd0 : plusF s2 0 = s2 := by simp [plusF]
  rw [hadd0] at n7
  have m3 : LoopInv pb' { s2 with it := s2.it + 1 } ⟨1, .lower⟩ true := by rw [hpb']; exact n7.setIt _
  have hn' : pb'.n = 2 := by rw [hpb']; rfl
  have hpd' : PosDefN pb'.n (hess pb') := by rw [hpb']; exact hpd
  have hcC : ∀ a i, pb'.C a i = if i = 0 then (if a = 0 then 1 else 0) else (if a = 0 then 1 / 2 else d) := by
    intro a i; rw [hpb']; rfl
  have hcG : ∀ a b, hess pb' a b = if a = b then 1 else 0 := by
    intro a b; rw [hpb']; simp [hess, shiftA, cexThr, eq_comm]
  have hcb : pb'.bl 1 = ((K / 2 + 1 : ℝ) : EReal) := by rw [hpb']; rfl
  have hslope : ndot pb' ⟨1, .lower⟩ (fun i => if i = 0 then 1 / 2 else d) = (1 + 4 * d ^ 2) / 4 := by
    simp [ndot, normal, hn', sum_range_succ, hcC]; ring
  obtain ⟨s3, q1, q2, q3, q4, q5, q6, q7⟩ := body_full law ht0 hpd' (s := { s2 with it := s2.it + 1 }) (sc := ⟨1, .lower⟩)
    (m3.alg.congr (by simp)) (m3.cand rfl) (z := fun i => if i = 0 then 1 / 2 else d) (r := fun _ => 0) (t := 4 / (1 + 4 * d ^ 2)) ⟨by
      intro a ha
      rw [hn'] at *
      show _ = ∑ k ∈ range s2.A.q, _ + _
      rw [hq2]
      interval_cases a <;> simp [normal, hcC, hcG, sum_range_succ], by
      intro k hk
      have hk : k < s2.A.q := hk
      omega⟩
    (by
      rw [hslope]
      have e1 : rhs pb' ⟨1, .lower⟩ = K / 2 + 1 := by simp [rhs, hcb, ← EReal.coe_one, ← EReal.coe_add]
      have e2 : ndot pb' ⟨1, .lower⟩ s2.x = K / 2 := by
        rw [n4]; simp [ndot, normal, hn', sum_range_succ, hcC, px0, px1]; ring
      show rhs pb' _ - ndot pb' _ s2.x = _
      rw [e1, e2]
      field_simp
      ring)
    (lt_normn ht0 (by rw [hn']; simp [sum_range_succ]; nlinarith))
    (by
      have : 4 / (1 + 4 * d ^ 2) ≤ 4 := by
        rw [div_le_iff₀ hD]; nlinarith [sq_nonneg d]
      linarith)
    (by
      intro k hk
      have hk : k < s2.A.q := hk
      omega)
  have q3 : s3.A.q = 1 := by rw [q3]; show s2.A.q + 1 = 1; omega
  have q5 : s3.A.act 0 = ⟨1, .lower⟩ := by
    have : s3.A.act s2.A.q = ⟨1, .lower⟩ := q5
    rwa [hq2] at this
  obtain ⟨rx, _⟩ := Alg.point hpd' q2 (x := fun i => if i = 0 then K + 2 / (1 + 4 * d ^ 2) else 4 * d / (1 + 4 * d ^ 2))
    (u := fun _ => 2 * K + 4 / (1 + 4 * d ^ 2))
    (by
      intro a ha
      have ha0 : pb'.a 0 = 0 := by rw [hpb']; simp [shiftA, cexThr, n60]
      have ha1 : pb'.a 1 = 2 * K * d := by rw [hpb']; simp [shiftA, cexThr, n61]
      rw [q3, hn'] at *
      simp only [sum_range_succ, sum_range_zero, q5]
      interval_cases a
      · simp [normal, hcC, hcG, ha0]; field_simp; ring
      · simp [normal, hcC, hcG, ha1]; field_simp; ring) (by
      intro k hk
      have : k = 0 := by omega
      subst this
      rw [q5]
      simp [rhs, ndot, normal, hn', sum_range_succ, hcC, hcb, ← EReal.coe_one, ← EReal.coe_add]
      field_simp
      ring)
  have rx0 := rx 0 (by rw [hn']; omega)
  have rx1 := rx 1 (by rw [hn']; omega)
  simp at rx0 rx1
  have q1' : iterate o (cexThr K d) { s2 with it := s2.it + 1 } ⟨1, .lower⟩ true = .ok (.cont s3 ⟨1, .lower⟩ false) := by
    rw [← iterate_shiftA o (cexThr K d) δ, ← hpb']
    unfold iterate
    rw [if_pos rfl]; exact q1
  have r2 : Alg pb' { s3 with it := s3.it + 1 } (fun _ => 0) := q2.setIt _
  have st0 : s3.A.statusAt 0 = .inactive := by rw [q6 0]; exact hst2 0
  have st1 : s3.A.statusAt 1 = .lower := by rw [q6 1]; rfl
  refine ⟨{ s3 with it := s3.it + 1 }, ⟨rx0, rx1⟩, ?_, ?_, ?_⟩
  · show s3.f = obj (cexThr K d) s3.x + _
    rw [q2.f, hpb', eobj, rx1]
    field_simp
    ring
  · intro hm
    obtain ⟨m, hm'⟩ : ∃ m, o.maxIter = m + 1 + 1 + 1 + 1 := ⟨o.maxIter - 4, by omega⟩
    rw [hrun .success { s3 with it := s3.it + 1 }]
    · rfl
    · rw [hm', loop_cont l1, loop_cont n1, loop_cont q1']
      apply loop_done
      rw [← iterate_shiftA o (cexThr K d) δ, ← hpb']
      apply exec_success r2.good
      have b1 : s3.A.nbCstr = 2 := by have := r2.good.dim.nbCstr; rw [hpb'] at this; exact this
      have b2 : s3.A.nbBnd = 0 := by have := r2.good.dim.nbBnd; rw [hpb'] at this; exact this
      rw [select_two b1 b2,
        selGen_none (i := 0) st0 (c := K + 2 / (1 + 4 * d ^ 2)) (b := K) (a := 0) _ _ ?_ (by rw [hpb']; rfl) (by rw [hpb']; rfl) rfl ?_,
        selGen_active (i := 1) (by show s3.A.statusAt 1 ≠ _; rw [st1]; simp)]
      · simp [row, hn', sum_range_succ, rx0, rx1, hcC]
      · have : 0 < 2 / (1 + 4 * d ^ 2) := by positivity
        linarith
  · intro hm
    rw [hrun .maxIterReached { s3 with it := s3.it + 1 }]
    · rfl
    · rw [hm, loop_cont l1, loop_cont n1, loop_cont q1']
      rfl


/-- Uncrossed bounds, positive definite Hessian, no equality constraint: `cexThr` meets the assumptions of C07, C08 and C17 other
than the one on the thresholds. -/
theorem cexThr_valid (K d : ℝ) : Proper (cexThr K d) ∧ NotCrossed (cexThr K d) ∧ PosDefN (cexThr K d).n (hess (cexThr K d)) ∧
    EqFirst (cexThr K d) 0 := by
  have hne : ∀ i, (cexThr K d).bl i ≠ ⊤ := by
    intro i h
    have h : (if i = 0 then (K : EReal) else ((K / 2 + 1 : ℝ) : EReal)) = ⊤ := h
    split_ifs at h <;> exact EReal.coe_ne_top _ h
  have hf : (cexThr K d).useBnd ≠ true := by show false ≠ true; simp
  refine ⟨⟨fun i _ => hne i, fun i _ => ?_, fun h => absurd h hf, fun h => absurd h hf⟩, ⟨fun i _ => le_top, fun h => absurd h hf⟩,
    posDef_id (fun i j => rfl), Nat.zero_le _, ?_⟩
  · show (⊤ : EReal) ≠ ⊥; simp
  · intro i hi
    have hi : i < 2 := hi
    simp only [isEqB, show (cexThr K d).m = 2 from rfl, hi, if_true]
    simp [show (cexThr K d).bu i = ⊤ from rfl, hne i]

/-- The minimiser of `cexThr K d`: the projection of `0` on the line `x₀/2 + d x₁ = K/2 + 1`. -/
noncomputable def thrMin (K d : ℝ) (i : Nat) : ℝ := if i = 0 then (K + 2) / (1 + 4 * d ^ 2) else 2 * d * (K + 2) / (1 + 4 * d ^ 2)

theorem obj_cexThr (K d : ℝ) (v : Nat → ℝ) : obj (cexThr K d) v = (v 0 ^ 2 + v 1 ^ 2) / 2 := by
  simp only [obj, show (cexThr K d).n = 2 from rfl, sum_range_succ, sum_range_zero, hess, cexThr]
  norm_num
  ring

theorem thrMin_feasible {K d : ℝ} (hK : 2 * K * d ^ 2 ≤ 1) : Feasible (cexThr K d) (thrMin K d) := by
  have hD : 0 < 1 + 4 * d ^ 2 := by positivity
  refine ⟨?_, by intro h; have h : false = true := h; cases h⟩
  intro i hi
  refine ⟨?_, le_top⟩
  have hi : i < 2 := hi
  interval_cases i
  · show ((K : ℝ) : EReal) ≤ _
    rw [EReal.coe_le_coe_iff]
    simp only [row, show (cexThr K d).n = 2 from rfl, sum_range_succ, sum_range_zero, thrMin, cexThr]
    norm_num
    rw [le_div_iff₀ hD]; nlinarith
  · show ((K / 2 + 1 : ℝ) : EReal) ≤ _
    rw [EReal.coe_le_coe_iff]
    simp only [row, show (cexThr K d).n = 2 from rfl, sum_range_succ, sum_range_zero, thrMin, cexThr]
    norm_num
    apply le_of_eq
    field_simp
    ring

/-- **C07 is false below the step threshold.** For `0 < d ≤ tiny` and `K` in a range that contains `(2, bigBnd/2)` when `tiny` and `bigBnd`
have their defaults, `solve` returns `SUCCESS` at a feasible point that is worse than another feasible point by `2K²d²/(1+4d²)`:
the direction `(0, d)` that the dropped constraint leaves is treated as null. -/
theorem C07_threshold_false {o : Opts ℝ} (ht : o.tiny < 1 / 2) (hm : 4 ≤ o.maxIter) {K d : ℝ} (hd : 0 < d) (hdt : d ≤ o.tiny)
    (hK : 2 < K) (hKb : 2 * K < o.bigBnd) (hKd : 2 * K * d ^ 2 ≤ 1) {s : State ℝ} (hi : Inv s) :
    ∃ s' y, solve o (cexThr K d) s = .ok (.success, s') ∧ Feasible (cexThr K d) y ∧
      obj (cexThr K d) s'.x = obj (cexThr K d) y + 2 * K ^ 2 * d ^ 2 / (1 + 4 * d ^ 2) ∧ obj (cexThr K d) y < obj (cexThr K d) s'.x ∧
      ¬ IsOptimal (cexThr K d) s'.x := by
  obtain ⟨s', ⟨h1, h2⟩, h3, h4, h5⟩ := cexThr_run ht hd hdt hK hKb hi
  have hD : 0 < 1 + 4 * d ^ 2 := by positivity
  have e : obj (cexThr K d) s'.x = obj (cexThr K d) (thrMin K d) + 2 * K ^ 2 * d ^ 2 / (1 + 4 * d ^ 2) := by
    rw [obj_cexThr, obj_cexThr, h1, h2]
    simp only [thrMin]
    norm_num
    field_simp
    ring
  have hpos : 0 < 2 * K ^ 2 * d ^ 2 / (1 + 4 * d ^ 2) := by positivity
  have hlt : obj (cexThr K d) (thrMin K d) < obj (cexThr K d) s'.x := by rw [e]; linarith
  exact ⟨s', thrMin K d, h4 hm, thrMin_feasible hKd, e, hlt, fun h => absurd (h.2 _ (thrMin_feasible hKd)) (not_le.2 hlt)⟩

/-- **C08 is false below the step threshold**: on the same problem `objectiveValue()` exceeds the objective function at `solution()`. -/
theorem C08_threshold_false {o : Opts ℝ} (ht : o.tiny < 1 / 2) (hm : 4 ≤ o.maxIter) {K d : ℝ} (hd : 0 < d) (hdt : d ≤ o.tiny)
    (hK : 2 < K) (hKb : 2 * K < o.bigBnd) {s : State ℝ} (hi : Inv s) :
    ∃ s', solve o (cexThr K d) s = .ok (.success, s') ∧ obj (cexThr K d) s'.x < s'.f ∧
      s'.f = obj (cexThr K d) s'.x + 8 * K * d ^ 2 / (1 + 4 * d ^ 2) := by
  obtain ⟨s', _, h3, h4, _⟩ := cexThr_run ht hd hdt hK hKb hi
  have hpos : 0 < 8 * K * d ^ 2 / (1 + 4 * d ^ 2) := by positivity
  exact ⟨s', h4 hm, by rw [h3]; linarith, h3⟩

/-- **C17's lower bound is false below the step threshold**: stopped by `maxIter`, the solver reports an objective value that exceeds
the value of a feasible point. -/
theorem C17_threshold_false {o : Opts ℝ} (ht : o.tiny < 1 / 2) (hm : o.maxIter = 3) {K d : ℝ} (hd : 0 < d) (hdt : d ≤ o.tiny)
    (hK : 2 < K) (hKb : 2 * K < o.bigBnd) (hKd : 2 * K * d ^ 2 ≤ 1) {s : State ℝ} (hi : Inv s) :
    ∃ s' y, solve o (cexThr K d) s = .ok (.maxIterReached, s') ∧ Feasible (cexThr K d) y ∧ obj (cexThr K d) y < s'.f := by
  obtain ⟨s', ⟨h1, h2⟩, h3, _, h5⟩ := cexThr_run ht hd hdt hK hKb hi
  have hD : 0 < 1 + 4 * d ^ 2 := by positivity
  refine ⟨s', thrMin K d, h5 hm, thrMin_feasible hKd, ?_⟩
  have e : obj (cexThr K d) s'.x = obj (cexThr K d) (thrMin K d) + 2 * K ^ 2 * d ^ 2 / (1 + 4 * d ^ 2) := by
    rw [obj_cexThr, obj_cexThr, h1, h2]
    simp only [thrMin]
    norm_num
    field_simp
    ring
  have p1 : 0 < 2 * K ^ 2 * d ^ 2 / (1 + 4 * d ^ 2) := by positivity
  have p2 : 0 < 8 * K * d ^ 2 / (1 + 4 * d ^ 2) := by positivity
  rw [h3, e]; linarith

/-- The hypotheses are met with the default thresholds: `tiny = 1e-14`, `bigBnd = 1e100`, `d = 1e-14`, `K = 1e27`: the point
returned is then worse than the minimum by more than `1e26`. -/
example {o : Opts ℝ} (h1 : o.tiny = 1e-14) (h2 : o.bigBnd = 1e100) (hm : 4 ≤ o.maxIter) : ∃ s' y,
    solve o (cexThr 1e27 1e-14) State.empty = .ok (.success, s') ∧
    Feasible (cexThr 1e27 1e-14) y ∧ obj (cexThr 1e27 1e-14) y + 1e26 ≤ obj (cexThr 1e27 1e-14) s'.x := by
  obtain ⟨s', y, a, b, c, _⟩ := C07_threshold_false (o := o) (by rw [h1]; norm_num) hm (K := 1e27) (d := 1e-14) (by norm_num)
    (by rw [h1]) (by norm_num) (by rw [h2]; norm_num) (by norm_num) inv_empty
  refine ⟨s', y, a, b, ?_⟩
  rw [c]
  norm_num

theorem cexThr_regInit (o : Opts ℝ) (K d : ℝ) {s : State ℝ} (hi : Inv s) : RegInitAll o (cexThr K d) (solveStart o (cexThr K d) s) := by
  apply regInit_of_noEq (start_dim hi)
  intro i hi h
  have hi : i < 2 := hi
  rcases h with ⟨_, h⟩ | ⟨h, _⟩
  · exact (cexThr_valid K d).1.bl i hi h
  · have h : 2 ≤ i := h
    omega

/-- C45 is not vacuous, and the perturbation it allows does occur: `cexThr K d` meets its hypotheses, and the perturbation is not zero. -/
example {o : Opts ℝ} (ht : o.tiny < 1 / 2) (hm : 4 ≤ o.maxIter) {K d : ℝ} (hd : 0 < d) (hdt : d ≤ o.tiny)
    (hK : 2 < K) (hKb : 2 * K < o.bigBnd) (hKd : 2 * K * d ^ 2 ≤ 1) {s : State ℝ} (hi : Inv s) :
    ∃ s', solve o (cexThr K d) s = .ok (.success, s') ∧ ∃ k ≤ s'.it, ∃ δ, Pert o (cexThr K d) k δ ∧
      IsUniqueOptimal (shiftA (cexThr K d) δ) s'.x ∧ δ ≠ fun _ => 0 := by
  obtain ⟨s', y, h1, h2, _, h4, _⟩ := C07_threshold_false ht hm hd hdt hK hKb hKd hi
  obtain ⟨v1, v2, v3, v4⟩ := cexThr_valid K d
  obtain ⟨k, hk, δ, p1, p2, p3, p4⟩ := C45_backward v1 v2 (hd.le.trans hdt) hi v4 (cexThr_regInit o K d hi) h1
  refine ⟨s', h1, k, hk, δ, p1, p2, ?_⟩
  intro h0
  have := C45_suboptimality p2.1 h2
  rw [h0] at this
  simp at this
  linarith

end JrlQp
