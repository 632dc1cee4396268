import Verif.PropsLogStep
import Verif.PropsBlockLog2
import Verif.PropsStructSuccess
import Verif.StructSim

/-!
# C85: the log shows the steps (structured solver), and the selected constraint for the warm-started and structured solvers
-/

namespace JrlQp
namespace Log

open NumOps Matlab Spec

section Generic

variable {K B : Type} [Zero K] [One K] [Add K] [Sub K] [Neg K] [Mul K] [Div K] [NumOps K B] [SumOps K]

/-- One iteration of the main loop. -/
def stepB (o : Opts K) (pb : BPb K B) (c : BState K × SC × Bool) : Option (BState K × SC × Bool) :=
  match biterate o pb c.1 c.2.1 c.2.2 with
  | .ok (.cont bs sc skip) => some ({ bs with s := { bs.s with it := bs.s.it + 1 } }, sc, skip)
  | _ => none

/-- The calls of an iteration after `startIter`. -/
def tailB (o : Opts K) (pb : BPb K B) (c : BState K × SC × Bool) : Calls K B := biterTail o pb c.1 c.2.1 c.2.2

/-- The state common to the solvers. -/
def viewB (c : BState K × SC × Bool) : State K × SC × Bool := (c.1.s, c.2.1, c.2.2)

theorem trail_bent {o : Opts K} {pb : BPb K B} (k : Nat) : ∀ {bs : BState K} {sc : SC} {skip : Bool},
    bent o pb k bs sc skip = (trail (stepB o pb) k (bs, sc, skip)).map fun c => (c.1, c.2.2) := by
  induction k with
  | zero => intro bs sc skip; rfl
  | succ k ih =>
    intro bs sc skip
    simp only [bent, trail, stepB]
    cases biterate o pb bs sc skip with
    | error e => rfl
    | ok r =>
      cases r with
      | done t s1 => rfl
      | cont s1 sc1 b1 => exact ih

theorem trail_of_bent {o : Opts K} {pb : BPb K B} {k : Nat} {bs bk : BState K} {sc : SC} {skip b : Bool} (h : bent o pb k bs sc skip = some (bk, b)) :
    ∃ sck, trail (stepB o pb) k (bs, sc, skip) = some (bk, sck, b) := by
  rw [trail_bent] at h
  cases hc : trail (stepB o pb) k (bs, sc, skip) with
  | none => rw [hc] at h; cases h
  | some c =>
    rw [hc] at h
    simp only [Option.map_some, Option.some.injEq, Prod.mk.injEq] at h
    exact ⟨c.2.1, by rw [← h.1, ← h.2]⟩

theorem bloopLog_shows {flags : BitVec 32} {shw : K ⊕ B → Word} {pre : List (Word × Int)} {id nm : Word} {o : Opts K} {pb : BPb K B} (fuel : Nat) :
    ∀ {bs : BState K} {sc : SC} {skip : Bool} {iter : Int}, ∀ i v,
    Stmt.assign (pathOf pre id i nm) v ∈ expectedAll shw flags pre id iter (bloopLog o pb fuel bs sc skip) ↔
      ∃ k, k < fuel ∧ i = ((bs.s.it : Int) + 1) + k ∧ ∃ c, trail (stepB o pb) k (bs, sc, skip) = some c ∧
        ∃ w, (∃ e ∈ tailB o pb c, Member flags nm w e) ∧ v = w.value shw := by
  induction fuel with
  | zero => intro bs sc skip iter i v; simp [bloopLog, expectedAll]
  | succ fuel ih =>
    intro bs sc skip iter i v
    simp only [bloopLog, biterLog_eq, List.cons_append, expectedAll, expectedAll_append, List.mem_append]
    rw [mem_expectedAll fun c hc => (biterTail_plain _ _ _ _ _ c hc).1, mem_expected]
    have h0 : ¬ (i = iter + 1 ∧ ∃ w, Member flags nm w (LogCall.startIter (K := K ⊕ B) bs.s.it) ∧ v = w.value shw) := by
      rintro ⟨-, w, ⟨f, vals, e, -⟩, -⟩; cases e
    rw [or_iff_right h0]
    have hlater : ∀ (X : Prop), (X ↔ ∃ k, k < fuel ∧ i = ((bs.s.it : Int) + 1) + (k + 1 : Nat) ∧ ∃ c, trail (stepB o pb) (k + 1) (bs, sc, skip) = some c ∧
        ∃ w, (∃ e ∈ tailB o pb c, Member flags nm w e) ∧ v = w.value shw) →
        ((i = LogCall.next (K := K ⊕ B) iter (.startIter bs.s.it) + 1 ∧ ∃ w, (∃ e ∈ biterTail o pb bs sc skip, Member flags nm w e) ∧ v = w.value shw) ∨ X ↔
        ∃ k, k < fuel + 1 ∧ i = ((bs.s.it : Int) + 1) + k ∧ ∃ c, trail (stepB o pb) k (bs, sc, skip) = some c ∧
          ∃ w, (∃ e ∈ tailB o pb c, Member flags nm w e) ∧ v = w.value shw) := by
      intro X hX
      rw [hX]
      constructor
      · rintro (⟨rfl, h3⟩ | ⟨k, h2, h4, h5⟩)
        · exact ⟨0, by omega, by simp [LogCall.next], _, rfl, h3⟩
        · exact ⟨k + 1, by omega, h4, h5⟩
      · rintro ⟨k, h2, h4, h5⟩
        cases k with
        | zero =>
          obtain ⟨c, hc, h5⟩ := h5
          cases hc
          exact .inl ⟨by rw [h4]; simp [LogCall.next], h5⟩
        | succ k => exact .inr ⟨k, by omega, h4, h5⟩
    refine hlater _ ?_
    cases hr : biterate o pb bs sc skip with
    | error e => simp [expectedAll, trail, stepB, hr]
    | ok r =>
      cases r with
      | done t1 s1 => simp [expectedAll, trail, stepB, hr]
      | cont s1 sc1 b1 =>
        have hi : s1.s.it = bs.s.it := biterate_same hr
        rw [ih]
        simp only [hi, trail, stepB, hr, Option.bind_some]
        constructor
        · rintro ⟨k, h2, h4, h5⟩; exact ⟨k, h2, by rw [h4]; push_cast; ring, h5⟩
        · rintro ⟨k, h2, h4, h5⟩; exact ⟨k, h2, by rw [h4]; push_cast; ring, h5⟩

theorem bRemove_moves {o : Opts K} {bs bs' : BState K} {l : Nat} (h : bRemove o bs l = some bs') :
    l < bs.s.A.q ∧ bs'.s.A = bs.s.A.deactivate l ∧ bs'.s.x = bs.s.x ∧
    bs'.s.u = (if o.dbg then upd (fun j => if l ≤ j ∧ j < bs.s.A.q then bs.s.u (j + 1) else bs.s.u j) bs.s.A.q 0
      else fun j => if l ≤ j ∧ j < bs.s.A.q then bs.s.u (j + 1) else bs.s.u j) := by
  unfold bRemove at h
  simp only [] at h
  by_cases hc : (decide (l < bs.s.A.q) && bs.s.A.deactivatePre l && decide (bs.s.A.q + 1 ≤ bs.s.szU)) = true
  · rw [if_pos hc] at h
    simp only [Option.map_eq_some_iff] at h
    obtain ⟨qr, -, rfl⟩ := h
    simp only [Bool.and_eq_true, decide_eq_true_eq] at hc
    exact ⟨hc.1.1, rfl, rfl, rfl⟩
  · rw [if_neg hc] at h
    cases h

theorem bAdd_moves {bs bs' : BState K} {sc : SC} (h : bAdd bs sc = some bs') :
    bs'.s.A = bs.s.A.activate sc.p sc.status ∧ bs'.s.x = bs.s.x ∧ bs'.s.u = bs.s.u := by
  unfold bAdd at h
  split_ifs at h
  simp only [Option.map_eq_some_iff] at h
  obtain ⟨qr, -, rfl⟩ := h
  exact ⟨rfl, rfl, rfl⟩

theorem biterBody_goes {flags : BitVec 32} {o : Opts K} {pb : BPb K B} {bs bs' : BState K} {sc sc' : SC} {b : Bool} (h : biterBody o pb bs sc = .ok (.cont bs' sc' b)) :
    sc' = sc ∧ ∃ (z r : Nat → K) (t : K) (act : Bool) (l : Nat),
      Moves bs.s.nbVar bs.s bs'.s sc.p sc.status z r t (bs.s.u bs.s.A.q) act l ∧ b = !act ∧
      (LogFlags.iterationBasicDetails.bits &&& flags ≠ 0 → Logs flags (bbodyLog o pb bs sc) ['z'] (lvec bs.s.nbVar z) ∧
        Logs flags (bbodyLog o pb bs sc) ['r'] (lvec bs.s.A.q r) ∧ Logs flags (bbodyLog o pb bs sc) ['t'] (.num (.inl t))) ∧
      (LogFlags.activeSet.bits &&& flags ≠ 0 → Logs flags (bbodyLog o pb bs sc) "Activate".toList (.bool act) ∧
        Logs flags (bbodyLog o pb bs sc) ['l'] (.int l)) ∧
      ∀ w, ¬ ∃ e ∈ bbodyLog o pb bs sc, Member flags ['s', 'c'] w e := by
  unfold biterBody at h
  split at h
  swap
  · cases h
  cases hc : bComputeStep pb bs sc with
  | none => rw [hc] at h; cases h
  | some S =>
    simp only [hc] at h
    have hlog : bbodyLog o pb bs sc =
      [.comment LogFlags.iterationBasicDetails.bits "Step computation".toList,
        .log LogFlags.iterationBasicDetails.bits
          [(['z'], lvec S.s.nbVar S.s.z), (['r'], lvec S.s.A.q S.s.r),
            (['t'], .num (.inl (stdMin (bComputeStepLength o pb S.s sc).t1 (bComputeStepLength o pb S.s sc).t2)))]] ++
      if leb o.bigBnd (stdMin (bComputeStepLength o pb S.s sc).t1 (bComputeStepLength o pb S.s sc).t2) then []
      else [.log LogFlags.activeSet.bits [("Activate".toList, .bool (!leb o.bigBnd (bComputeStepLength o pb S.s sc).t2 &&
        eqb (stdMin (bComputeStepLength o pb S.s sc).t1 (bComputeStepLength o pb S.s sc).t2) (bComputeStepLength o pb S.s sc).t2)),
        (['l'], .int (bComputeStepLength o pb S.s sc).l)]] := by
      unfold bbodyLog
      rw [hc]
    obtain ⟨hSx, -, hSA, -⟩ := bComputeStep_same hc
    have hSn : S.s.nbVar = bs.s.nbVar := (bComputeStep_keep hc).nbVar
    have hSu : S.s.u = bs.s.u := by
      unfold bComputeStep at hc
      simp only [Option.bind_eq_some_iff, Option.map_eq_some_iff] at hc
      obtain ⟨d, -, z, -, r, -, rfl⟩ := hc
      rfl
    have hsd : ∀ nm ∈ stepNames, ∀ w, ∀ e ∈ ([] : Calls K B), ¬ Member flags nm w e := by
      intro nm _ w e he; simp at he
    generalize bComputeStepLength o pb S.s sc = sl at *
    generalize stdMin sl.t1 sl.t2 = t at *
    rw [hSn, hSA] at hlog
    by_cases k1 : stepLenOk o S.s sc = true
    swap
    · rw [if_neg k1] at h; cases h
    rw [if_pos k1] at h
    by_cases k2 : leb o.bigBnd t = true
    · rw [if_pos k2] at h; cases h
    rw [if_neg k2] at h hlog
    by_cases k3 : leb o.bigBnd sl.t2 = true
    · rw [if_pos k3] at h
      rw [k3] at hlog
      cases hr : bRemove o { S with s := dualUpdate S.s t } sl.l with
      | none => rw [hr] at h; cases h
      | some R =>
        rw [hr] at h
        cases h
        obtain ⟨r1, r2, r3, r4⟩ := bRemove_moves hr
        refine ⟨rfl, S.s.z, S.s.r, t, false, sl.l, moves_remove (o := o) (s := bs.s) ?_ (.inr fun _ _ => rfl) ?_ (r3.trans hSx) ?_, rfl, stepLog_logs hsd rfl rfl hlog⟩
        · rw [← hSA]; exact r1
        · rw [← hSA]; exact r2
        · rw [← hSA, ← hSu]; exact r4
    rw [if_neg k3] at h
    rw [show leb o.bigBnd sl.t2 = false by simpa using k3] at hlog
    have hxx : ∀ i < bs.s.nbVar, (bFullUpdate pb S.s sc t).x i = bs.s.x i + t * S.s.z i := by
      intro i hi
      rw [← hSx]
      simp only [bFullUpdate, dualUpdate, wr]
      rw [if_pos (by omega)]
    by_cases k4 : eqb t sl.t2 = true
    · rw [if_pos k4] at h
      rw [k4] at hlog
      cases hr : bAdd { S with s := bFullUpdate pb S.s sc t } sc with
      | none => rw [hr] at h; cases h
      | some R =>
        rw [hr] at h
        cases h
        obtain ⟨r2, r3, r4⟩ := bAdd_moves hr
        refine ⟨rfl, S.s.z, S.s.r, t, true, sl.l, moves_add ?_ ?_ ?_, rfl, stepLog_logs hsd rfl rfl hlog⟩
        · rw [r3]; exact hxx
        · rw [← hSA]; exact r2
        · rw [← hSA, ← hSu]; exact r4
    · rw [if_neg k4] at h
      rw [show eqb t sl.t2 = false by simpa using k4] at hlog
      cases hr : bRemove o { S with s := bFullUpdate pb S.s sc t } sl.l with
      | none => rw [hr] at h; cases h
      | some R =>
        rw [hr] at h
        cases h
        obtain ⟨r1, r2, r3, r4⟩ := bRemove_moves hr
        refine ⟨rfl, S.s.z, S.s.r, t, false, sl.l, moves_remove (o := o) (s := bFullUpdate pb S.s sc t) ?_ (.inl hxx) ?_ r3 ?_, rfl, stepLog_logs hsd rfl rfl hlog⟩
        · rw [← hSA]; exact r1
        · rw [← hSA]; exact r2
        · rw [← hSA, ← hSu]; exact r4

theorem goesB (flags : BitVec 32) (o : Opts K) (pb : BPb K B) : Goes flags (stepB o pb) (tailB o pb) viewB := by
  rintro ⟨bs, sc, skip⟩ ⟨bs', sc', b⟩ h
  simp only [stepB] at h
  cases hr : biterate o pb bs sc skip with
  | error e => rw [hr] at h; cases h
  | ok r =>
    rw [hr] at h
    cases r with
    | done t1 s1 => cases h
    | cont s1 sc1 b1 =>
      simp only [Option.some.injEq, Prod.mk.injEq] at h
      obtain ⟨rfl, rfl, rfl⟩ := h
      have hhead : ∀ nm ∈ stepNames, ∀ w, ¬ Member flags nm w (LogCall.log (K := K ⊕ B) LogFlags.activeSetDetails.bits
          [(['A', '_'], .active ((List.range bs.s.A.q).map fun k => (bs.s.A.get k : Int)))]) ∧
          ¬ Member flags nm w (LogCall.log (K := K ⊕ B) LogFlags.iterationBasicDetails.bits
            [(['x'], lvec bs.s.nbVar bs.s.x), (['u'], lvec (if skip then bs.s.A.q + 1 else bs.s.A.q) bs.s.u), (['f', '_'], .num (.inl bs.s.f))]) := by
        intro nm hnm w
        rw [mem_log, mem_log]
        revert hnm
        simp only [stepNames, List.mem_cons, List.not_mem_nil, or_false, Prod.mk.injEq]
        rintro (rfl | rfl | rfl | rfl | rfl | rfl) <;> simp
      unfold biterate at hr
      simp only [] at hr
      cases skip with
      | true =>
        rw [if_pos rfl] at hr
        obtain ⟨e0, z, r, t, act, l, g1, g2, g3, g4, g5⟩ := biterBody_goes (flags := flags) hr
        have ht : ∀ nm ∈ stepNames, ∀ w, (∃ e ∈ tailB o pb (bs, sc, true), Member flags nm w e) ↔ ∃ e ∈ bbodyLog o pb bs sc, Member flags nm w e := by
          intro nm hnm w
          simp only [tailB, biterTail, biterLog, List.cons_append, List.tail_cons, List.nil_append, if_true, List.exists_mem_cons_iff]
          have := hhead nm hnm w
          simp only [if_true] at this
          rw [or_iff_right this.1, or_iff_right this.2]
        refine ⟨z, r, t, bs.s.u bs.s.A.q, act, l, by rw [e0]; exact g1, .inr rfl, g2, fun hf => ?_, fun hf => ?_, fun _ => ⟨e0, fun w => ?_⟩, fun h => by cases h⟩
        · obtain ⟨k1, k2, k3⟩ := g3 hf
          exact ⟨fun w => (ht _ (by simp [stepNames]) w).trans (k1 w), fun w => (ht _ (by simp [stepNames]) w).trans (k2 w),
            fun w => (ht _ (by simp [stepNames]) w).trans (k3 w)⟩
        · obtain ⟨k1, k2⟩ := g4 hf
          exact ⟨fun w => (ht _ (by simp [stepNames]) w).trans (k1 w), fun w => (ht _ (by simp [stepNames]) w).trans (k2 w)⟩
        · rw [ht _ (by simp [stepNames])]; exact g5 w
      | false =>
        rw [if_neg (by simp)] at hr
        generalize hsc : bselect pb bs.s.A bs.s.x bs.cx = c0 at hr
        obtain ⟨sc0, cx0⟩ := c0
        split_ifs at hr with k1 k2 k3
        · cases hr
        obtain ⟨e0, z, r, t, act, l, g1, g2, g3, g4, g5⟩ := biterBody_goes (flags := flags) hr
        have ht : ∀ nm ∈ stepNames, ∀ w, (∃ e ∈ tailB o pb (bs, sc, false), Member flags nm w e) ↔
            Member flags nm w (.log LogFlags.activeSet.bits [(['s', 'c'], .sel sc0.p (sc0.status.toNat))]) ∨
              ∃ e ∈ bbodyLog o pb { bs with cx := cx0, s := { bs.s with u := upd bs.s.u bs.s.A.q 0 } } sc0, Member flags nm w e := by
          intro nm hnm w
          simp only [tailB, biterTail, biterLog, List.cons_append, List.tail_cons, List.nil_append, Bool.false_eq_true, if_false, hsc, if_neg k2,
            List.exists_mem_cons_iff]
          have := hhead nm hnm w
          simp only [Bool.false_eq_true, if_false] at this
          rw [or_iff_right this.1, or_iff_right this.2]
        have hno : ∀ nm, nm ≠ ['s', 'c'] → ∀ w, ¬ Member (V := K ⊕ B) flags nm w (.log LogFlags.activeSet.bits [(['s', 'c'], .sel sc0.p (sc0.status.toNat))]) := by
          intro nm hnm w
          rw [mem_log]
          simp [hnm]
        have hM : Moves bs.s.nbVar bs.s { s1.s with it := s1.s.it + 1 } sc0.p sc0.status z r t 0 act l := by
          have hz : upd bs.s.u bs.s.A.q 0 bs.s.A.q = (0 : K) := by simp [upd]
          simp only [hz] at g1
          obtain ⟨m1, m2⟩ := g1
          refine ⟨fun h => ?_, fun h => ?_⟩
          · obtain ⟨n1, n2, n3, n4, n5⟩ := m1 h
            refine ⟨n1, n2, n3, fun j hj => ?_, n5⟩
            have := n4 j hj
            simpa [upd, Nat.ne_of_lt hj] using this
          · obtain ⟨n1, n2, n3, n4, n5, n6, n7⟩ := m2 h
            refine ⟨n1, n2, n3, n4, fun j hj => ?_, fun j h1 h2 => ?_, n7⟩
            · have := n5 j hj
              have hne : j ≠ bs.s.A.q := by simp only at n1; omega
              simpa [upd, hne] using this
            · have := n6 j h1 h2
              simpa [upd, Nat.ne_of_lt h2] using this
        refine ⟨z, r, t, 0, act, l, by rw [e0]; exact hM, .inl rfl, g2, fun hf => ?_, fun hf => ?_, fun h => (by cases h), fun _ hf => ?_⟩
        · obtain ⟨k1, k2, k3⟩ := g3 hf
          exact ⟨fun w => (ht _ (by simp [stepNames]) w).trans ((or_iff_right (hno _ (by decide) w)).trans (k1 w)),
            fun w => (ht _ (by simp [stepNames]) w).trans ((or_iff_right (hno _ (by decide) w)).trans (k2 w)),
            fun w => (ht _ (by simp [stepNames]) w).trans ((or_iff_right (hno _ (by decide) w)).trans (k3 w))⟩
        · obtain ⟨k1, k2⟩ := g4 hf
          exact ⟨fun w => (ht _ (by simp [stepNames]) w).trans ((or_iff_right (hno _ (by decide) w)).trans (k1 w)),
            fun w => (ht _ (by simp [stepNames]) w).trans ((or_iff_right (hno _ (by decide) w)).trans (k2 w))⟩
        · intro w
          rw [ht _ (by simp [stepNames]), or_iff_left (g5 w), mem_log, e0]
          simp only [List.mem_cons, List.not_mem_nil, or_false, Prod.mk.injEq, true_and]
          constructor
          · exact fun h => h.2.2.1
          · rintro rfl; exact ⟨hf, by decide, rfl, rfl⟩

/-- **C85, structured solver.** The same for the structured solver, without the flags `INPUT` and `NO_ITER` (see C84). -/
theorem C85_structured {shw : K ⊕ B → Word} (hs : ∀ x, Clean (shw x)) {g : Logger} {pre : List (Word × Int)} {id : Word} (hg : Named g pre id)
    (hf : (LogFlags.input.bits ||| LogFlags.noIter.bits) &&& g.flags = 0)
    {o : Opts K} {pb : BPb K B} {as : List Status} {fresh : Nat → K} {bs bs' : BState K} {t : Term}
    (h : bsolve o pb as fresh bs = .ok (t, bs')) (ht : t ≠ .nonPosHessian) (ht' : t ≠ .overconstrainedProblem) :
    ∃ S, readScript (blockText shw g o pb as fresh bs) = some S ∧ ∀ k < bs'.s.it, k < o.maxIter →
      ∃ a b, bsolve { o with maxIter := k } pb as fresh bs = .ok (.maxIterReached, a) ∧
        bsolve { o with maxIter := k + 1 } pb as fresh bs = .ok (.maxIterReached, b) ∧
        StepShown shw g.flags S pre id pb.n 1 (k + 1) a.s b.s := by
  refine ⟨_, block_read hs hg hf o pb as fresh bs, ?_⟩
  obtain ⟨b0, hz, hn0, h1, h2, h3⟩ := (bsolve_run h).2.2 ht ht'
  rw [h2]
  have hq : ∀ c ∈ processLog o pb.sides (bArgs o pb as fresh bs).as (bArgs o pb as fresh bs).s.A, c.quiet :=
    fun c hc => (processLog_quiet _ _ _ _ c hc).1
  intro k hk hkm
  obtain ⟨a, ba, ha⟩ := bloop_ent k h1 (by omega) (by omega)
  obtain ⟨b, bb, hb⟩ := bloop_ent (k + 1) h1 (by omega) (by omega)
  refine ⟨a, b, h3 _ _ _ ha, h3 _ _ _ hb, ?_⟩
  obtain ⟨sca, ta⟩ := trail_of_bent ha
  obtain ⟨scb, tb⟩ := trail_of_bent hb
  have hn : a.s.nbVar = pb.n := (bent_nbVar _ ha).trans hn0
  have hS : Shows shw g.flags (expectedAll shw g.flags pre id g.iter (.startIter (-1) :: (processLog o pb.sides (bArgs o pb as fresh bs).as (bArgs o pb as fresh bs).s.A ++
      (bloopLog o pb o.maxIter b0 ⟨0, .inactive⟩ false ++ termLog t)))) pre id (stepB o pb) (tailB o pb) (b0, ⟨0, .inactive⟩, false) 1 o.maxIter stepNames := by
    intro nm hnm i v
    rw [blockLog_loop hq (fun c hc => (termLog_plain _ c hc).1) (fun w c hc => termLog_member hc), bloopLog_shows]
    simp [hz]
  have := (goesB g.flags o pb).step hS rfl hkm ta tb
  simp only [viewB, hn] at this
  rwa [add_comm] at this

theorem biterTail_sc {o : Opts K} {pb : BPb K B} {bs : BState K} {sc : SC} {skip : Bool} {flags : BitVec 32} {w : LVal (K ⊕ B)}
    (h : ∃ c ∈ biterTail o pb bs sc skip, Member flags ['s', 'c'] w c) :
    (bselect pb bs.s.A bs.s.x bs.cx).1.status ≠ .inactive ∧
      w = .sel (bselect pb bs.s.A bs.s.x bs.cx).1.p ((bselect pb bs.s.A bs.s.x bs.cx).1.status.toNat) := by
  obtain ⟨c, hc, h⟩ := h
  unfold biterTail biterLog at hc
  simp only [List.cons_append, List.tail_cons, List.nil_append, List.mem_cons] at hc
  rcases hc with rfl | rfl | hc
  · rw [mem_log] at h; simp at h
  · rw [mem_log] at h; simp at h
  · have hb : ∀ bs sc, c ∈ bbodyLog o pb bs sc → False := by
      intro s sc hc
      have := bbodyLog_names hc h
      revert this
      decide
    cases skip with
    | true => exact (hb _ _ (by simpa using hc)).elim
    | false =>
      simp only [Bool.false_eq_true, if_false] at hc
      split_ifs at hc with hs
      · simp at hc
      · rcases List.mem_cons.1 hc with rfl | hc
        · rw [mem_log] at h
          exact ⟨hs, by simpa using h.2.2.1⟩
        · exact (hb _ _ hc).elim

theorem bent_le {o : Opts K} {pb : BPb K B} (k : Nat) : ∀ {fuel : Nat} {bs : BState K} {sc : SC} {skip : Bool} {t : Term} {bs' bk : BState K} {b : Bool},
    bloop o pb fuel bs sc skip = .ok (t, bs') → bent o pb k bs sc skip = some (bk, b) → k ≤ fuel → bs.s.it + k ≤ bs'.s.it := by
  induction k with
  | zero => intro fuel bs sc skip t bs' bk b h _ _; exact (bloop_le _ h).1
  | succ k ih =>
    intro fuel bs sc skip t bs' bk b h he hk
    obtain ⟨fuel, rfl⟩ : ∃ f, fuel = f + 1 := ⟨fuel - 1, by omega⟩
    simp only [bloop] at h
    simp only [bent] at he
    cases hr : biterate o pb bs sc skip with
    | error e => rw [hr] at h; cases h
    | ok r =>
      rw [hr] at h he
      cases r with
      | done t1 s1 => cases he
      | cont s1 sc1 b1 =>
        have hi : s1.s.it = bs.s.it := biterate_same hr
        have := ih h he (by omega)
        simp only at this
        omega

theorem dropLoop_dimsA {o : Opts K} {pb : Pb K B} (fuel : Nat) : ∀ {xs ys : XState K}, dropLoop o pb fuel xs = .ok ys → dimsA ys.s = dimsA xs.s := by
  induction fuel with
  | zero =>
    intro xs ys h
    simp only [dropLoop] at h
    split_ifs at h
    cases h; rfl
  | succ fuel ih =>
    intro xs ys h
    simp only [dropLoop] at h
    split at h
    · cases h; rfl
    · rename_i l hl
      split_ifs at h
      rw [ih h]
      have : (initPoints pb (dropAt o xs l)).s.A = xs.s.A.deactivate l := rfl
      simp only [dimsA, this, ActiveSet.deactivate_nbCstr, ActiveSet.deactivate_nbBnd]

theorem xinit_dimsA {o : Opts K} {pb : Pb K B} {xs xs' : XState K} (hw : xs.s.A.WF) (h : xinit o pb xs = .ok (.success, xs')) : dimsA xs'.s = dimsA xs.s := by
  obtain ⟨t0, A, hA, ⟨h1, h2, -⟩ | ⟨-, -, h1, -⟩ | ⟨-, -, -, e⟩⟩ := xinit_parts h
  · exact absurd h2.symm h1
  · cases h1
  · rw [dropLoop_dimsA _ e]
    obtain ⟨k1, k2, -⟩ := process_keep hw hA
    exact Prod.ext k1 k2

end Generic

/-- The selected constraint is the most violated one among the inactive ones. -/
theorem select_violated {pb : Pb ℝ EReal} (hx : NotCrossed pb) {A : ActiveSet} (h1 : A.nbCstr = pb.m) (h2 : A.nbBnd = pb.nb) {x : Nat → ℝ}
    (h : (select pb pb.n A x).status ≠ .inactive) : ∃ viol : EReal,
      ViolatedSide pb x (select pb pb.n A x).p (select pb pb.n A x).status.toNat viol ∧ A.statusAt (select pb pb.n A x).p = .inactive ∧
        ∀ p' code' viol', ViolatedSide pb x p' code' viol' → A.statusAt p' = .inactive → viol' ≤ viol := by
  obtain ⟨acc, hacc, hi⟩ := select_inv hx (A := A) h1 h2 x
  rw [← hacc] at h ⊢
  obtain ⟨g1, g2, g3, g4⟩ := hi.some h
  refine ⟨-acc.smin, ⟨EReal.neg_pos.2 g1, ?_⟩, g4, ?_⟩
  · rw [g2]
    unfold viol slackHi slackLo
    rcases g3 with ⟨a, b | b⟩ | ⟨a, a', b | b⟩
    · refine .inl ⟨a, .inl ⟨by rw [b]; rfl, ?_⟩⟩
      simp [b, Status.isUpper, a, neg_coe_sub]
    · refine .inl ⟨a, .inr ⟨by rw [b]; rfl, ?_⟩⟩
      simp [b, Status.isUpper, a, neg_sub_coe]
    · refine .inr ⟨acc.sc.p - pb.m, by omega, by omega, .inl ⟨by rw [b]; rfl, ?_⟩⟩
      simp [b, Status.isUpper, show ¬ acc.sc.p < pb.m by omega, neg_coe_sub]
    · refine .inr ⟨acc.sc.p - pb.m, by omega, by omega, .inr ⟨by rw [b]; rfl, ?_⟩⟩
      simp [b, Status.isUpper, show ¬ acc.sc.p < pb.m by omega, neg_sub_coe]
  · rintro p' code' viol' ⟨-, hp⟩ hst
    have hlt : p' < pb.m + pb.nb := by
      rcases hp with ⟨a, -⟩ | ⟨j, a, rfl, -⟩ <;> omega
    obtain ⟨m1, m2⟩ := hi.min p' hlt hst
    rw [EReal.le_neg]
    unfold slackLo at m1
    unfold slackHi at m2
    rcases hp with ⟨a, ⟨-, rfl⟩ | ⟨-, rfl⟩⟩ | ⟨j, a, rfl, ⟨-, rfl⟩ | ⟨-, rfl⟩⟩
    · rw [if_pos a] at m1; rw [neg_sub_coe]; exact m1
    · rw [if_pos a] at m2; rw [neg_coe_sub]; exact m2
    · rw [if_neg (by omega), Nat.add_sub_cancel_left] at m1; rw [neg_sub_coe]; exact m1
    · rw [if_neg (by omega), Nat.add_sub_cancel_left] at m2; rw [neg_coe_sub]; exact m2

/-- **C75, the selected constraint.** As `C73_selected`, for the warm-started solver. -/
theorem C75_selected {shw : ℝ ⊕ EReal → Word} (hs : ∀ x, Clean (shw x)) {g : Logger} {pre : List (Word × Int)} {id : Word} (hg : Named g pre id)
    {o : Opts ℝ} {pb : Pb ℝ EReal} (hx : NotCrossed pb) {as : List Status} {xs xs' : XState ℝ} (hi : XInv xs) {t : Term} (h : xsolve o pb as xs = .ok (t, xs'))
    (ht : t ≠ .nonPosHessian) (ht' : t ≠ .overconstrainedProblem) :
    ∃ S, readScript (script shw g (xsolveLog o pb as xs)) = some S ∧ ∀ i v, Stmt.assign (pathOf pre id i ['s', 'c']) v ∈ S →
      ∃ k ≤ xs'.s.it, i = (k : Int) + 1 ∧ ∃ xk, xsolve { o with maxIter := k } pb as xs = .ok (.maxIterReached, xk) ∧
        ∃ (p code : Nat) (viol : EReal), v = .cell [decInt p, decInt code] ∧ ViolatedSide pb xk.s.x p code viol ∧ xk.s.A.statusAt p = .inactive ∧
          ∀ p' code' viol', ViolatedSide pb xk.s.x p' code' viol' → xk.s.A.statusAt p' = .inactive → viol' ≤ viol := by
  obtain ⟨x0, h0, h1, -⟩ := xsolve_parts h ht ht'
  have ha := xsolve_args h
  have hn0 : x0.s.nbVar = pb.n := (xinit_nbVar h0).trans (xstart_nbVar o pb as xs)
  refine ⟨_, C71_script hs hg _ (xsolveLog_ok o pb as xs), ?_⟩
  intro i v hv
  rw [xsolveLog_loop h0 h1] at hv
  obtain ⟨k, h2, h3, h4, sk, b, h5, h6, h7⟩ := loopLog_sc _ h1 i v hv
  have hn : sk.nbVar = pb.n := (ent_nbVar _ h5).trans hn0
  have hA : dimsA sk = (pb.m, pb.nb) := by
    have hw : (xsolveStart o pb as xs).s.A.WF := (preInit_dim (o := o) (resize_dim_pb hi.inv pb)).wf
    rw [ent_dimsA _ h5, xinit_dimsA hw h0]
    obtain ⟨-, e1, e2⟩ := resize_dims xs.s pb.n pb.m pb.useBnd
    obtain ⟨-, e3, e4⟩ := preInit_dims o (resize xs.s pb.n pb.m pb.useBnd)
    exact Prod.ext (e3.trans e1) (e4.trans e2)
  rw [hn] at h6 h7
  obtain ⟨viol, g1, g2, g3⟩ := select_violated hx (congrArg Prod.fst hA) (congrArg Prod.snd hA) h6
  exact ⟨x0.s.it + k, h3, h4, { x0 with s := sk }, xsolve_stop ha h0 (by omega) h5, _, _, viol, h7, g1, g2, g3⟩

/-- **C84, the selected constraint.** As `C73_selected`, for the structured solver; the constraints are the ones of the dense problem. -/
theorem C84_selected {shw : ℝ ⊕ EReal → Word} (hs : ∀ x, Clean (shw x)) {g : Logger} {pre : List (Word × Int)} {id : Word} (hg : Named g pre id)
    (hf : (LogFlags.input.bits ||| LogFlags.noIter.bits) &&& g.flags = 0)
    {o : Opts ℝ} {pb : BPb ℝ EReal} (hx : NotCrossed pb.dense) {as : List Status} {fresh : Nat → ℝ} {bs bs' : BState ℝ} (hi : BInv bs) {t : Term}
    (h : bsolve o pb as fresh bs = .ok (t, bs')) (ht : t ≠ .nonPosHessian) (ht' : t ≠ .overconstrainedProblem) :
    ∃ S, readScript (blockText shw g o pb as fresh bs) = some S ∧ ∀ i v, Stmt.assign (pathOf pre id i ['s', 'c']) v ∈ S →
      ∃ k ≤ bs'.s.it, i = (k : Int) + 1 ∧ ∃ bk, bsolve { o with maxIter := k } pb as fresh bs = .ok (.maxIterReached, bk) ∧
        ∃ (p code : Nat) (viol : EReal), v = .cell [decInt p, decInt code] ∧ ViolatedSide pb.dense bk.s.x p code viol ∧ bk.s.A.statusAt p = .inactive ∧
          ∀ p' code' viol', ViolatedSide pb.dense bk.s.x p' code' viol' → bk.s.A.statusAt p' = .inactive → viol' ≤ viol := by
  refine ⟨_, block_read hs hg hf o pb as fresh bs, ?_⟩
  obtain ⟨b0, hz, hn0, h1, h2, h3⟩ := (bsolve_run h).2.2 ht ht'
  rw [h2]
  have hq : ∀ c ∈ processLog o pb.sides (bArgs o pb as fresh bs).as (bArgs o pb as fresh bs).s.A, c.quiet :=
    fun c hc => (processLog_quiet _ _ _ _ c hc).1
  intro i v hv
  rw [blockLog_loop hq (fun c hc => (termLog_plain _ c hc).1) (fun w c hc => termLog_member hc), bloopLog_shows] at hv
  obtain ⟨k, hkm, hk, ⟨bk, sck, b⟩, htr, w, hw, rfl⟩ := hv
  have he : bent o pb k b0 ⟨0, .inactive⟩ false = some (bk, b) := by rw [trail_bent, htr]; rfl
  have hrun := h3 _ _ _ he
  obtain ⟨d1, d2⟩ := bsolve_dims hi hrun
  have hC : pb.C.nbVar = pb.n := by
    by_contra hne
    unfold bsolve at h
    rw [if_neg (fun hh => hne hh.1)] at h
    cases h
  obtain ⟨e1, rfl⟩ := biterTail_sc hw
  rw [bselect_eq pb hC bk.s.A d1 bk.s.x] at e1 ⊢
  obtain ⟨viol, g1, g2, g3⟩ := select_violated hx (A := bk.s.A) d1 d2 e1
  refine ⟨k, ?_, by rw [hk, hz]; push_cast; ring, bk, hrun, _, _, viol, rfl, g1, g2, g3⟩
  have := bent_le k h1 he (by omega)
  omega

end Log
end JrlQp
