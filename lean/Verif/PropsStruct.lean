import Verif.StructInv
import Verif.ExactThreshold
import Verif.PropsExp

/-!
# Properties of the structured solver `BlockGISolver`

C40: on a problem given by blocks, `BlockGISolver::solve` returns what the dense solver returns on the assembled problem
(`BPb.dense`, in `Verif.StructDense`).
C41: problems with equality constraints, and warm starts with an active constraint, are refused.
-/

namespace JrlQp

open NumOps Finset Spec

/-- The states a `BlockGISolver` goes through in any sequence of public calls that do not fail. -/
inductive BReach : BState ℝ → Prop
  | new : BReach BState.empty
  | resize {bs} (h : BReach bs) (n m : Nat) (ub : Bool) (fresh : Nat → ℝ) : BReach (bresize bs n m ub fresh)
  | solve {bs} (h : BReach bs) {o : Opts ℝ} {pb : BPb ℝ EReal} {as : List Status} {fresh : Nat → ℝ} {t bs'}
      (e : bsolve o pb as fresh bs = .ok (t, bs')) : BReach bs'
  | multipliers {bs} (h : BReach bs) : BReach { bs with s := JrlQp.multipliers bs.s }
  | resetActiveSet {bs} (h : BReach bs) : BReach { bs with s := JrlQp.resetActiveSet bs.s }

theorem BReach.inv {bs : BState ℝ} (h : BReach bs) : BInv bs := by
  induction h with
  | new => exact binv_empty
  | resize _ n m ub fresh ih => exact (bresize_inv ih n m ub fresh).1
  | solve _ e ih => exact bsolve_inv ih e
  | multipliers _ ih =>
    have k : ∀ s : State ℝ, (JrlQp.multipliers s).nbVar = s.nbVar ∧ (JrlQp.multipliers s).A = s.A ∧
        (JrlQp.multipliers s).szX = s.szX ∧ (JrlQp.multipliers s).szZ = s.szZ ∧ (JrlQp.multipliers s).szD = s.szD ∧
        (JrlQp.multipliers s).szU = s.szU ∧ (JrlQp.multipliers s).szR = s.szR := by
      intro s; unfold JrlQp.multipliers; split_ifs <;> exact ⟨rfl, rfl, rfl, rfl, rfl, rfl, rfl⟩
    rename_i bs _
    obtain ⟨k1, k2, k3, k4, k5, k6, k7⟩ := k bs.s
    exact ih.keep ⟨k1, k3, k4, k5, k6, k7, rfl, by rw [k2], by rw [k2], by rw [k2]; exact id, id⟩
  | resetActiveSet _ ih =>
    exact ih.keep ⟨rfl, rfl, rfl, rfl, rfl, rfl, rfl, rfl, rfl, fun hw => ActiveSet.wf_reset _ hw.size, id⟩

theorem BRel.obs {pb : BPb ℝ EReal} {sl slt : (Nat → ℝ) → Nat → ℝ} {bs : BState ℝ} {s : State ℝ} (h : BRel pb sl slt bs s)
    (hne : s.needToExpand = true) (t : Term) : obs pb.n (t, bs.s) = obs pb.n (t, s) := by
  have hm : (multipliers bs.s).u = (multipliers s).u := by
    unfold multipliers
    rw [h.need, if_pos hne, if_pos hne]
    simp only [h.A, h.u]
    -- only the first `q` entries of `r` are read
    have key : ∀ (k : Nat) (r r' : Nat → ℝ), k ≤ s.A.q → (∀ j < k, r j = r' j) →
        expandK s.A r (fun _ => 0) k = expandK s.A r' (fun _ => 0) k := by
      intro k
      induction k with
      | zero => intro r r' _ _; rfl
      | succ k ih =>
        intro r r' hk hr
        simp only [expandK]
        rw [ih r r' (by omega) (fun j hj => hr j (by omega)), hr k (by omega)]
    refine key _ _ _ le_rfl ?_
    intro j hj
    simp [wr, hj]
  simp only [JrlQp.obs, h.it, h.A, h.x, h.f, hm]

theorem noEq_numEq {pb : BPb ℝ EReal} (he : pb.NoEq) : numEq pb.dense = 0 := by
  have h1 : (List.range pb.m).countP (fun i => bEq ℝ (pb.bl i) (pb.bu i)) = 0 := by
    rw [List.countP_eq_zero]
    intro i hi
    simpa using he.1 i (List.mem_range.1 hi)
  have h2 : (List.range pb.nb).countP (fun i => bEq ℝ (pb.xl i) (pb.xu i)) = 0 := by
    rw [List.countP_eq_zero]
    intro i hi
    simpa using he.2 i (List.mem_range.1 hi)
  have : numEq pb.dense = (List.range pb.m).countP (fun i => bEq ℝ (pb.bl i) (pb.bu i))
      + (List.range pb.nb).countP (fun i => bEq ℝ (pb.xl i) (pb.xu i)) := rfl
  rw [this, h1, h2]

/-- **C40.** For a block tri-diagonal or block arrow positive definite Hessian, block-diagonal constraints, no equality, a
structured solver with any history and a dense solver with any history give the same status, number of iterations, active
set, multipliers, solution and objective, with the same options (no warm start). In exact arithmetic; for all thresholds. -/
theorem C40_structured_equals_dense {pb : BPb ℝ EReal} (hok : pb.G.ok) (hpd : PosDefN pb.n pb.G.dense)
    (hc : pb.C.nbVar = pb.n) (he : pb.NoEq) {o : Opts ℝ} (ht0 : 0 ≤ o.tiny) (hw : o.warmStart = false) (fresh : Nat → ℝ)
    {bs : BState ℝ} (hb : BReach bs) (cs : List (Call ℝ EReal)) (hcs : ∀ c ∈ cs, c.Admissible) :
    ∃ t bs' s0 s', bsolve o pb [] fresh bs = .ok (t, bs') ∧ calls cs (State.empty : State ℝ) = .ok s0 ∧
      solve o pb.dense s0 = .ok (t, s') ∧ obs pb.n (t, bs'.s) = obs pb.n (t, s') := by
  obtain ⟨t, bs', s1, sl, slt, e1, e2, e3⟩ := bsolve_brel hok hpd hc he ht0 hw fresh hb.inv
  obtain ⟨s0, c1, c2⟩ := calls_safe cs _ (inv_empty (K := ℝ)) hcs
  have law : FpLaws ℝ o := fpLaws_real o ht0
  have hq : cholOk pb.dense → numEq pb.dense ≤ pb.dense.n := by intro _; rw [noEq_numEq he]; exact Nat.zero_le _
  obtain ⟨t', s', e4, _⟩ := solve_safe law c2 hq
  have hs := solve_sim ⟨rfl, rfl, rfl⟩ law law hw hw (pb := pb.dense) (pb' := pb.dense)
    ⟨rfl, rfl, rfl, fun _ _ _ _ => rfl, rfl, rfl, rfl, rfl, rfl, rfl⟩ hq hb.inv.base c2 e2 e4
  have ht : t = t' := congrArg Obs.status hs
  subst ht
  refine ⟨t, bs', s0, s', e1, c1, e4, ?_⟩
  have hne : s1.needToExpand = true := by
    unfold solve dualSolve at e2
    split at e2
    · cases e2
    · rename_i t2 s2 h2
      have hn2 := init_need h2
      split_ifs at e2 with h3
      · obtain ⟨_, rfl⟩ := terminate_eq e2
        exact hn2
      · split at e2
        · cases e2
        · rename_i t3 s3 h4
          obtain ⟨_, rfl⟩ := terminate_eq e2
          exact (loop_need _ h4).trans hn2
  rw [e3.obs hne t]
  exact hs

/-- **C40**, consequence: with small enough thresholds and a large enough `maxIter`, the structured solver returns SUCCESS with
the unique minimiser of the assembled problem when it is feasible, INFEASIBLE otherwise. -/
theorem C40_structured_solves {pb : BPb ℝ EReal} (hok : pb.G.ok) (hpd : PosDefN pb.n pb.G.dense) (hc : pb.C.nbVar = pb.n)
    (he : pb.NoEq) (hp : Proper pb.dense) (hx : NotCrossed pb.dense) :
    ∃ ε > 0, ∃ β : ℝ, ∀ o : Opts ℝ, 0 ≤ o.tiny → o.tiny < ε → β < o.bigBnd → o.warmStart = false →
      (pb.n + 1) * (7 ^ (pb.m + pb.nb) + 1) ≤ o.maxIter → ∀ (fresh : Nat → ℝ) (bs : BState ℝ), BReach bs →
        ∃ t bs', bsolve o pb [] fresh bs = .ok (t, bs') ∧
          ((∃ y, Feasible pb.dense y) → t = .success ∧ IsUniqueOptimal pb.dense bs'.s.x) ∧
          ((¬ ∃ y, Feasible pb.dense y) → t = .infeasible) := by
  have hiE : ∀ i < pb.dense.m + pb.dense.nb, ¬ IsEqIdx pb.dense i ∧ isEqB pb.dense i ≠ true := by
    intro i hi
    have hd : pb.dense.m = pb.m ∧ pb.dense.nb = pb.nb := ⟨rfl, rfl⟩
    rw [hd.1, hd.2] at hi
    unfold isEqB IsEqIdx
    rw [hd.1]
    by_cases h1 : i < pb.m
    · have h2 := he.1 i h1
      exact ⟨by rintro (⟨_, h⟩ | ⟨h, _⟩); exacts [h2 h, absurd h (by omega)], by rw [if_pos h1]; simpa [BPb.dense] using h2⟩
    · have h2 := he.2 (i - pb.m) (by omega)
      exact ⟨by rintro (⟨h, _⟩ | ⟨_, h⟩); exacts [h1 h, h2 h], by rw [if_neg h1]; simpa [BPb.dense] using h2⟩
  have hef : EqFirst pb.dense 0 := ⟨Nat.zero_le _, fun i hi => ⟨fun h => absurd h (hiE i hi).2, fun h => absurd h (Nat.not_lt_zero _)⟩⟩
  have hind : EqIndep pb.dense := by
    intro c h1 _ i
    apply h1
    rintro ⟨h2, h3⟩
    exact (hiE i h2).1 h3
  obtain ⟨ε, hε, β, h⟩ := C18_exact_solver_partial hp hx (by
    refine (posDefN_iff pb.n pb.dense.G).1 ?_
    show PosDefN pb.n (hess pb.dense)
    rw [hess_dense']; exact hpd) hef hind
  refine ⟨ε, hε, β, fun o h1 h2 h3 hw h4 fresh bs hb => ?_⟩
  obtain ⟨t, bs', s0, s', e1, e2, e3, e4⟩ := C40_structured_equals_dense hok hpd hc he h1 hw fresh hb [] (by simp)
  obtain ⟨s0', t', s'', f1, f2, f3, f4⟩ := h o h1 h2 h3 h4 [] (by simp)
  rw [e2] at f1
  simp only [Except.ok.injEq] at f1
  subst f1
  rw [e3] at f2
  simp only [Except.ok.injEq, Prod.mk.injEq] at f2
  obtain ⟨rfl, rfl⟩ := f2
  refine ⟨t, bs', e1, fun hfe => ?_, f4⟩
  obtain ⟨rfl, hopt⟩ := f3 hfe
  refine ⟨rfl, ?_⟩
  have hsol : (List.range pb.n).map bs'.s.x = (List.range pb.n).map s'.x := by
    have := congrArg Obs.solution e4
    simpa [JrlQp.obs] using this
  refine optimal_congr (fun i hi => ?_) hopt
  exact (List.map_inj_left.1 hsol i (List.mem_range.2 hi)).symm

/-! ## What is not supported -/

theorem bsolve_refuses {pb : BPb ℝ EReal} (hok : pb.G.ok) (hpd : PosDefN pb.n pb.G.dense) {o : Opts ℝ} {bs : BState ℝ}
    (hi : BInv bs) (hg : bs.g = pb.G) (hn : bs.s.nbVar = pb.n) (hm : bs.s.A.nbCstr = pb.m) (hnb : bs.s.A.nbBnd = pb.nb)
    (hlen : o.warmStart = true → bs.as = [] ∨ bs.as.length = pb.m + pb.nb) (hwo : WarmOk o pb.sides bs.as)
    (h1 : numWant o pb.sides bs.as (·.isEq) ≤ pb.n) (h2 : ∃ i < pb.m + pb.nb, want o pb.sides bs.as i ≠ .inactive)
    (h3 : 0 < pb.n) : bdualSolve o pb bs = .error .assertFailed := by
  have hA : (preInit o bs.s).A.nbCstr = pb.m ∧ (preInit o bs.s).A.nbBnd = pb.nb ∧ (preInit o bs.s).A.WF := by
    simp only [preInit]
    split_ifs
    · exact ⟨hm, hnb, hi.wf⟩
    · exact ⟨hm, hnb, ActiveSet.wf_reset _ hi.wf.size⟩
  obtain ⟨a1, a2, a3⟩ := hA
  obtain ⟨t, A, e1, _, _, _, e2⟩ := processInitial_spec (pb := pb.sides) hwo pb.n a3 a1 a2
  have e3 : t = .success ∧ A.q ≠ 0 := by
    rcases e2 with ⟨_, h⟩ | ⟨ht, _, hq, _⟩
    · omega
    · refine ⟨ht, ?_⟩
      rw [hq]
      have : 0 < numWant o pb.sides bs.as (· != .inactive) := by
        obtain ⟨i, hi', hne⟩ := h2
        unfold numWant
        rw [List.countP_pos_iff]
        exact ⟨i, List.mem_range.2 hi', by simpa using hne⟩
      omega
  obtain ⟨hdec, _⟩ := SG_spec pb.G hok hpd
  have hbi : bInit o pb { bs with s := preInit o bs.s } = .error .assertFailed := by
    unfold bInit
    simp only []
    have hn' : (preInit o bs.s).nbVar = pb.n := hn
    rw [if_pos (by
      simp only [hn', a1, a2, a3.size, le_refl, decide_true, Bool.true_and, Bool.or_eq_true, Bool.not_eq_true',
        ActiveSet.nbAll, decide_eq_true_eq]
      by_cases hw : o.warmStart = true
      · rcases hlen hw with h | h
        · exact Or.inl (Or.inr (by rw [h]; rfl))
        · exact Or.inr h
      · exact Or.inl (Or.inl (by simpa using hw)))]
    rw [hn', e1]
    simp only [e3.1, ne_eq, not_true_eq_false, if_false, hg, hdec, Bool.true_eq_false]
    unfold bInitPoint
    rw [if_neg (by rintro ⟨h, _⟩; exact e3.2 h)]
  unfold bdualSolve
  rw [hbi]

/-- **C41.** A well-posed problem with at least one equality constraint or fixed variable (and not more than variables) is not
solved: the (debug build of the) solver stops on an assertion, whatever its history. -/
theorem C41_equality_refused {pb : BPb ℝ EReal} (hok : pb.G.ok) (hpd : PosDefN pb.n pb.G.dense) (hc : pb.C.nbVar = pb.n)
    {o : Opts ℝ} (hw : o.warmStart = false) (he : (∃ i < pb.m, pb.bl i = pb.bu i) ∨ ∃ i < pb.nb, pb.xl i = pb.xu i)
    (hle : numEq pb.dense ≤ pb.n) (h3 : 0 < pb.n) (fresh : Nat → ℝ) {bs : BState ℝ} (hb : BReach bs) :
    bsolve o pb [] fresh bs = .error .assertFailed := by
  unfold bsolve
  rw [if_pos ⟨hc, Or.inr rfl, Or.inr rfl⟩]
  simp only [hw, Bool.false_eq_true, if_false]
  have hi := hb.inv
  obtain ⟨k1, k2, k3, k4⟩ := bresize_inv (bs := { bs with g := pb.G })
    ⟨hi.wf, hi.szX, hi.szZ, hi.szD, hi.szU, hi.szR, hi.szCx, hi.qn, hi.ld, hi.size, hi.szE⟩ pb.n pb.m pb.useBnd fresh
  have hgg : (bresize { bs with g := pb.G } pb.n pb.m pb.useBnd fresh).g = pb.G := by
    unfold bresize; simp only []; split_ifs <;> rfl
  generalize bresize { bs with g := pb.G } pb.n pb.m pb.useBnd fresh = bs0 at *
  have hwo : WarmOk o pb.sides bs0.as := ⟨fun h => absurd h (by rw [hw]; simp), fun h => absurd h (by rw [hw]; simp)⟩
  have hwant : ∀ i, want o pb.sides bs0.as i = if isEqC pb.sides i then if i < pb.m then .equality else .fixed else .inactive := by
    intro i
    unfold want
    simp only [hw, Bool.false_eq_true, if_false]
    rfl
  refine bsolve_refuses hok hpd k1 hgg k2 k3 k4 (fun h => by rw [hw] at h; cases h) hwo ?_ ?_ h3
  · refine le_trans (le_of_eq ?_) hle
    have : numEq pb.dense = (List.range (pb.m + pb.nb)).countP (isEqB pb.dense) := (countP_isEqB pb.dense).symm
    rw [this, numWant]
    apply List.countP_congr
    intro i _
    rw [hwant]
    have hs : isEqC pb.sides i = isEqB pb.dense i := rfl
    rw [hs]
    by_cases h : isEqB pb.dense i = true
    · rw [if_pos h]; split_ifs <;> simp [Status.isEq, h]
    · rw [if_neg h]; simp only [Status.isEq]; simpa using h
  · rcases he with ⟨i, hi', e⟩ | ⟨i, hi', e⟩
    · refine ⟨i, Nat.lt_add_right _ hi', ?_⟩
      rw [hwant, if_pos (by unfold isEqC; rw [if_pos (show i < pb.sides.m from hi')]; simpa [BPb.sides] using e), if_pos hi']
      simp
    · refine ⟨pb.m + i, Nat.add_lt_add_left hi' _, ?_⟩
      have hlt : ¬ pb.m + i < pb.sides.m := by show ¬ pb.m + i < pb.m; omega
      rw [hwant, if_pos (by
        unfold isEqC; rw [if_neg hlt]
        have : pb.m + i - pb.sides.m = i := by show pb.m + i - pb.m = i; omega
        rw [this]
        simpa [BPb.sides] using e), if_neg (show ¬ pb.m + i < pb.m from hlt)]
      simp

/-- **C41**, warm start: a warm start vector asking for one active constraint, with a side that is not infinite, is refused
as well. -/
theorem C41_warm_start_refused {pb : BPb ℝ EReal} (hok : pb.G.ok) (hpd : PosDefN pb.n pb.G.dense) (hc : pb.C.nbVar = pb.n)
    (he : pb.NoEq) {o : Opts ℝ} (hw : o.warmStart = true) {as : List Status} (hlen : as.length = pb.m + pb.nb)
    (hgen : ∀ i < pb.m, as.getD i .inactive = .inactive ∨ as.getD i .inactive = .lower ∨ as.getD i .inactive = .upper)
    (hbnd : ∀ i < pb.nb, as.getD (pb.m + i) .inactive = .inactive ∨ as.getD (pb.m + i) .inactive = .lowerBound ∨
      as.getD (pb.m + i) .inactive = .upperBound)
    (hact : ∃ i < pb.m, as.getD i .inactive = .lower ∧ ((-o.bigBnd : ℝ) : EReal) ≤ pb.bl i) (fresh : Nat → ℝ)
    {bs : BState ℝ} (hb : BReach bs) (h3 : 0 < pb.n) :
    bsolve o pb as fresh bs = .error .assertFailed := by
  obtain ⟨i0, hi0, ha0, hf0⟩ := hact
  have hne : as ≠ [] := by
    intro h
    rw [h] at hlen
    simp only [List.length_nil] at hlen
    omega
  unfold bsolve
  rw [if_pos ⟨hc, Or.inl hlen, Or.inl hw⟩]
  simp only [hw, if_true, if_neg hne]
  have hi := hb.inv
  obtain ⟨k1, k2, k3, k4⟩ := bresize_inv (bs := { bs with g := pb.G })
    ⟨hi.wf, hi.szX, hi.szZ, hi.szD, hi.szU, hi.szR, hi.szCx, hi.qn, hi.ld, hi.size, hi.szE⟩ pb.n pb.m pb.useBnd fresh
  have hgg : (bresize { bs with g := pb.G } pb.n pb.m pb.useBnd fresh).g = pb.G := by
    unfold bresize; simp only []; split_ifs <;> rfl
  generalize bresize { bs with g := pb.G } pb.n pb.m pb.useBnd fresh = bs0 at *
  have hwo : WarmOk o pb.sides as := by
    refine ⟨fun _ _ i hi' => ?_, fun _ _ i hi' => ?_⟩
    · rcases hgen i hi' with h | h | h
      · exact Or.inl h
      · exact Or.inr (by rw [h]; rfl)
      · exact Or.inr (by rw [h]; rfl)
    · rcases hbnd i hi' with h | h | h
      · exact Or.inl h
      · exact Or.inr (by show (as.getD (pb.m + i) .inactive).isBound = true; rw [h]; rfl)
      · exact Or.inr (by show (as.getD (pb.m + i) .inactive).isBound = true; rw [h]; rfl)
  have hnoE : ∀ i < pb.m + pb.nb, isEqC pb.sides i = false := by
    intro i hi'
    unfold isEqC
    by_cases h : i < pb.m
    · rw [if_pos (show i < pb.sides.m from h)]
      have := he.1 i h
      rw [← Bool.not_eq_true]
      simpa [BPb.sides] using this
    · rw [if_neg (show ¬ i < pb.sides.m from h)]
      have := he.2 (i - pb.m) (by omega)
      rw [← Bool.not_eq_true]
      simpa [BPb.sides] using this
  refine bsolve_refuses (bs := { bs0 with as := as }) hok hpd
    ⟨k1.wf, k1.szX, k1.szZ, k1.szD, k1.szU, k1.szR, k1.szCx, k1.qn, k1.ld, k1.size, k1.szE⟩ hgg k2 k3 k4 (fun _ => Or.inr hlen)
    hwo ?_ ?_ h3
  · have : numWant o pb.sides as (·.isEq) = 0 := by
      unfold numWant
      rw [List.countP_eq_zero]
      intro i hi'
      have hi2 : i < pb.m + pb.nb := List.mem_range.1 hi'
      unfold want
      rw [hnoE i hi2]
      simp only [Bool.false_eq_true, if_false, hw, if_true]
      split_ifs
      · simp [Status.isEq]
      · by_cases h : i < pb.m
        · rcases hgen i h with h | h | h <;> rw [h] <;> simp [Status.isEq]
        · have h' := hbnd (i - pb.m) (by omega)
          rw [show pb.m + (i - pb.m) = i from by omega] at h'
          rcases h' with h | h | h <;> rw [h] <;> simp [Status.isEq]
    show numWant o pb.sides as (·.isEq) ≤ pb.n
    rw [this]; exact Nat.zero_le _
  · refine ⟨i0, Nat.lt_add_right _ hi0, ?_⟩
    show want o pb.sides as i0 ≠ .inactive
    unfold want
    rw [hnoE i0 (Nat.lt_add_right _ hi0)]
    simp only [Bool.false_eq_true, if_false, hw, if_true, ha0]
    rw [if_neg (by
      rintro (h | h)
      · cases h
      · have h' : bLt ℝ (pb.bl i0) (ofK (-o.bigBnd)) = true := h
        simp only [bLt_real] at h'
        exact absurd h' (not_lt.2 hf0))]
    simp

/-! ## The hypotheses are met -/

/-- Hessian `[[2, 1], [1, 2]]` in two blocks, one constraint on each variable. -/
noncomputable def exBPb (bu : EReal) : BPb ℝ EReal :=
  ⟨⟨.tri, 2, fun _ => 1, fun _ _ _ => 2, fun _ _ _ => 1, false⟩, fun _ => 0, ⟨2, fun _ => 1, fun _ => 1, fun _ _ _ => 1⟩,
    fun _ => ((1 : ℝ) : EReal), fun _ => bu, false, fun _ => 0, fun _ => 0⟩

theorem exBPb_pd (bu : EReal) : PosDefN (exBPb bu).n (exBPb bu).G.dense := by
  intro v hv
  have hn : (exBPb bu).n = 2 := by simp [BPb.n, exBPb, SG.nbVar, off]
  rw [hn] at hv ⊢
  have e : ∀ p < 2, ∀ q < 2, (exBPb bu).G.dense p q = if p = q then 2 else 1 := by
    intro p hp q hq
    interval_cases p <;> interval_cases q <;>
      simp [SG.dense, JrlQp.dense, SG.entry, exBPb, blkOf, off, triMat, symLow]
  simp only [sum_range_succ, sum_range_zero]
  rw [e 0 (by norm_num) 0 (by norm_num), e 0 (by norm_num) 1 (by norm_num), e 1 (by norm_num) 0 (by norm_num),
    e 1 (by norm_num) 1 (by norm_num)]
  norm_num
  obtain ⟨i, hi, hne⟩ := hv
  have hne' : v 0 ≠ 0 ∨ v 1 ≠ 0 := by interval_cases i <;> simp [hne]
  rcases hne' with h | h
  · have := mul_self_pos.2 h
    nlinarith [mul_self_nonneg (v 0 + 2 * v 1)]
  · have := mul_self_pos.2 h
    nlinarith [mul_self_nonneg (2 * v 0 + v 1)]

/-- The hypotheses of C40 are met by a problem with an active constraint at the solution (`x ≥ 1`, unconstrained minimum 0), and
those of C41 by the same problem with equalities. -/
theorem C40_hypotheses_met :
    (exBPb ⊤).G.ok ∧ PosDefN (exBPb ⊤).n (exBPb ⊤).G.dense ∧ (exBPb ⊤).C.nbVar = (exBPb ⊤).n ∧ (exBPb ⊤).NoEq ∧
      Proper (exBPb ⊤).dense ∧ NotCrossed (exBPb ⊤).dense ∧ (∃ y, Feasible (exBPb ⊤).dense y) ∧
      ¬ Feasible (exBPb ⊤).dense (fun _ => 0) := by
  have hm : (exBPb ⊤).m = 2 := by simp [BPb.m, exBPb, StrC.nbCstr, off]
  have hn : (exBPb ⊤).n = 2 := by simp [BPb.n, exBPb, SG.nbVar, off]
  have hC : ∀ p < 2, ∀ i < 2, (exBPb ⊤).dense.C p i = if p = i then 1 else 0 := by
    intro p hp q hq
    interval_cases p <;> interval_cases q <;> simp [BPb.dense, StrC.dense, exBPb, blkOf, off]
  have hrow : ∀ (x : Nat → ℝ), ∀ i < 2, row (exBPb ⊤).dense x i = x i := by
    intro x i hi
    have hn' : (exBPb ⊤).dense.n = 2 := hn
    simp only [row, hn', sum_range_succ, sum_range_zero, hC 0 (by norm_num) i hi, hC 1 (by norm_num) i hi]
    interval_cases i <;> simp
  refine ⟨⟨by simp [exBPb], by simp [exBPb]⟩, exBPb_pd ⊤, by simp [BPb.n, exBPb, SG.nbVar, StrC.nbVar, off], ⟨?_, ?_⟩, ⟨?_, ?_, ?_, ?_⟩,
    ⟨?_, ?_⟩, ⟨fun _ => 1, ⟨?_, ?_⟩⟩, ?_⟩
  · intro i _; simpa [exBPb] using EReal.coe_ne_top 1
  · intro i hi; simp [BPb.nb, exBPb] at hi
  · intro i _; simpa [exBPb, BPb.dense] using EReal.coe_ne_top 1
  · intro i _; simp [exBPb, BPb.dense]
  · intro h; simp [exBPb, BPb.dense] at h
  · intro h; simp [exBPb, BPb.dense] at h
  · intro i _; simp [exBPb, BPb.dense]
  · intro h; simp [exBPb, BPb.dense] at h
  · intro i hi
    have hi' : i < 2 := by rw [← hm]; exact hi
    rw [hrow _ i hi']
    exact ⟨le_refl _, le_top⟩
  · intro h; simp [exBPb, BPb.dense] at h
  · intro h
    have h1 := (h.gen 0 (by show 0 < (exBPb ⊤).m; rw [hm]; norm_num)).1
    rw [hrow _ 0 (by norm_num)] at h1
    have h2 : ((1 : ℝ) : EReal) ≤ ((0 : ℝ) : EReal) := h1
    rw [EReal.coe_le_coe_iff] at h2
    norm_num at h2

theorem C41_hypotheses_met : (exBPb 1).G.ok ∧ PosDefN (exBPb 1).n (exBPb 1).G.dense ∧ (exBPb 1).C.nbVar = (exBPb 1).n ∧
    (∃ i < (exBPb 1).m, (exBPb 1).bl i = (exBPb 1).bu i) ∧ numEq (exBPb 1).dense ≤ (exBPb 1).n ∧ 0 < (exBPb 1).n := by
  have hm : (exBPb 1).m = 2 := by simp [BPb.m, exBPb, StrC.nbCstr, off]
  have hn : (exBPb 1).n = 2 := by simp [BPb.n, exBPb, SG.nbVar, off]
  refine ⟨⟨by simp [exBPb], by simp [exBPb]⟩, exBPb_pd 1, by simp [BPb.n, exBPb, SG.nbVar, StrC.nbVar, off],
    ⟨0, by rw [hm]; norm_num, by simp [exBPb]⟩, ?_, by rw [hn]; norm_num⟩
  have h1 : numEq (exBPb 1).dense = (List.range (exBPb 1).m).countP (fun i => bEq ℝ ((exBPb 1).bl i) ((exBPb 1).bu i)) + 0 := rfl
  rw [h1, hn]
  refine le_trans (List.countP_le_length) ?_
  rw [List.length_range, hm]

end JrlQp
