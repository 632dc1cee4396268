import Verif.LogStep

/-!
# C85: the log shows the steps (dense solver and warm-started solver)
-/

namespace JrlQp
namespace Log

open NumOps Matlab

variable {K B : Type} [Zero K] [One K] [Add K] [Sub K] [Neg K] [Mul K] [Div K] [NumOps K B] [SumOps K]

/-- One iteration of the main loop. -/
def stepD (o : Opts K) (pb : Pb K B) (c : State K × SC × Bool) : Option (State K × SC × Bool) :=
  match iterate o pb c.1 c.2.1 c.2.2 with
  | .ok (.cont s sc skip) => some ({ s with it := s.it + 1 }, sc, skip)
  | _ => none

/-- The calls of an iteration after `startIter`. -/
def tailD (o : Opts K) (pb : Pb K B) (c : State K × SC × Bool) : Calls K B := iterTail o pb c.1 c.2.1 c.2.2

theorem trail_ent {o : Opts K} {pb : Pb K B} (k : Nat) : ∀ {s : State K} {sc : SC} {skip : Bool},
    ent o pb k s sc skip = (trail (stepD o pb) k (s, sc, skip)).map fun c => (c.1, c.2.2) := by
  induction k with
  | zero => intro s sc skip; rfl
  | succ k ih =>
    intro s sc skip
    simp only [ent, trail, stepD]
    cases iterate o pb s sc skip with
    | error e => rfl
    | ok r =>
      cases r with
      | done t s1 => rfl
      | cont s1 sc1 b1 => exact ih

theorem trail_of_ent {o : Opts K} {pb : Pb K B} {k : Nat} {s sk : State K} {sc : SC} {skip b : Bool} (h : ent o pb k s sc skip = some (sk, b)) :
    ∃ sck, trail (stepD o pb) k (s, sc, skip) = some (sk, sck, b) := by
  rw [trail_ent] at h
  cases hc : trail (stepD o pb) k (s, sc, skip) with
  | none => rw [hc] at h; cases h
  | some c =>
    rw [hc] at h
    simp only [Option.map_some, Option.some.injEq, Prod.mk.injEq] at h
    exact ⟨c.2.1, by rw [← h.1, ← h.2]⟩

theorem loopLog_shows {flags : BitVec 32} {shw : K ⊕ B → Word} {pre : List (Word × Int)} {id nm : Word} {o : Opts K} {pb : Pb K B} (fuel : Nat) :
    ∀ {s : State K} {sc : SC} {skip : Bool} {iter : Int}, ∀ i v,
    Stmt.assign (pathOf pre id i nm) v ∈ expectedAll shw flags pre id iter (loopLog o pb fuel s sc skip) ↔
      ∃ k, k < fuel ∧ i = ((s.it : Int) + 1) + k ∧ ∃ c, trail (stepD o pb) k (s, sc, skip) = some c ∧
        ∃ w, (∃ e ∈ tailD o pb c, Member flags nm w e) ∧ v = w.value shw := by
  induction fuel with
  | zero => intro s sc skip iter i v; simp [loopLog, expectedAll]
  | succ fuel ih =>
    intro s sc skip iter i v
    simp only [loopLog, iterLog_eq, List.cons_append, expectedAll, expectedAll_append, List.mem_append]
    rw [mem_expectedAll fun c hc => (iterTail_plain _ _ _ _ _ c hc).1, mem_expected]
    have h0 : ¬ (i = iter + 1 ∧ ∃ w, Member flags nm w (LogCall.startIter (K := K ⊕ B) s.it) ∧ v = w.value shw) := by
      rintro ⟨-, w, ⟨f, vals, e, -⟩, -⟩; cases e
    rw [or_iff_right h0]
    have hlater : ∀ (X : Prop), (X ↔ ∃ k, k < fuel ∧ i = ((s.it : Int) + 1) + (k + 1 : Nat) ∧ ∃ c, trail (stepD o pb) (k + 1) (s, sc, skip) = some c ∧
        ∃ w, (∃ e ∈ tailD o pb c, Member flags nm w e) ∧ v = w.value shw) →
        ((i = LogCall.next (K := K ⊕ B) iter (.startIter s.it) + 1 ∧ ∃ w, (∃ e ∈ iterTail o pb s sc skip, Member flags nm w e) ∧ v = w.value shw) ∨ X ↔
        ∃ k, k < fuel + 1 ∧ i = ((s.it : Int) + 1) + k ∧ ∃ c, trail (stepD o pb) k (s, sc, skip) = some c ∧
          ∃ w, (∃ e ∈ tailD o pb c, Member flags nm w e) ∧ v = w.value shw) := by
      intro X hX
      rw [hX]
      constructor
      · rintro (⟨rfl, h3⟩ | ⟨k, h2, h4, h5⟩)
        · exact ⟨0, by omega, by simp [LogCall.next], _, rfl, h3⟩
        · exact ⟨k + 1, by omega, h4, h5⟩
      · rintro ⟨k, h2, h4, h5⟩
        cases k with
        | zero =>
          obtain ⟨c, hc, h5⟩ := h5
          cases hc
          exact .inl ⟨by rw [h4]; simp [LogCall.next], h5⟩
        | succ k => exact .inr ⟨k, by omega, h4, h5⟩
    refine hlater _ ?_
    cases hr : iterate o pb s sc skip with
    | error e => simp [expectedAll, trail, stepD, hr]
    | ok r =>
      cases r with
      | done t1 s1 => simp [expectedAll, trail, stepD, hr]
      | cont s1 sc1 b1 =>
        have hi : s1.it = s.it := iterate_it hr
        rw [ih]
        simp only [hi, trail, stepD, hr, Option.bind_some]
        constructor
        · rintro ⟨k, h2, h4, h5⟩; exact ⟨k, h2, by rw [h4]; push_cast; ring, h5⟩
        · rintro ⟨k, h2, h4, h5⟩; exact ⟨k, h2, by rw [h4]; push_cast; ring, h5⟩

/-! ## One iteration -/

theorem mem_log {flags f : BitVec 32} {nm : Word} {w : LVal (K ⊕ B)} {vals : List (Word × LVal (K ⊕ B))} :
    Member flags nm w (.log f vals) ↔ f &&& flags ≠ 0 ∧ f &&& noIterationFlag = 0 ∧ (nm, w) ∈ vals ∧ emptyVec w = false := by
  constructor
  · rintro ⟨f', vals', e, h⟩
    injection e with e1 e2
    subst e1 e2
    exact h
  · intro h; exact ⟨f, vals, rfl, h⟩

theorem mem_comment {flags f : BitVec 32} {nm : Word} {w : LVal (K ⊕ B)} {t : Word} : ¬ Member flags nm w (.comment f t) := by
  rintro ⟨f', vals', e, h⟩; cases e

/-- What the second part of an iteration logs, when it goes on. -/
theorem stepLog_logs {flags : BitVec 32} {l0 : Calls K B} (h0 : ∀ nm ∈ stepNames, ∀ w, ∀ e ∈ l0, ¬ Member flags nm w e) {f g : LVal (K ⊕ B)} {t : K} {act : Bool} {l : Nat}
    (hf : emptyVec f = false) (hg : emptyVec g = false) {c : Calls K B}
    (hc : c = l0 ++ [.comment LogFlags.iterationBasicDetails.bits "Step computation".toList,
      .log LogFlags.iterationBasicDetails.bits [(['z'], f), (['r'], g), (['t'], .num (.inl t))]] ++
      [.log LogFlags.activeSet.bits [("Activate".toList, .bool act), (['l'], .int l)]]) :
    (LogFlags.iterationBasicDetails.bits &&& flags ≠ 0 → Logs flags c ['z'] f ∧ Logs flags c ['r'] g ∧ Logs flags c ['t'] (.num (.inl t))) ∧
    (LogFlags.activeSet.bits &&& flags ≠ 0 → Logs flags c "Activate".toList (.bool act) ∧ Logs flags c ['l'] (.int l)) ∧
    ∀ w, ¬ ∃ e ∈ c, Member flags ['s', 'c'] w e := by
  subst hc
  have key : ∀ nm ∈ stepNames, ∀ w, (∃ e ∈ l0 ++ [.comment LogFlags.iterationBasicDetails.bits "Step computation".toList,
      .log LogFlags.iterationBasicDetails.bits [(['z'], f), (['r'], g), (['t'], .num (.inl t))]] ++
      [.log LogFlags.activeSet.bits [("Activate".toList, .bool act), (['l'], .int l)]], Member flags nm w e) ↔
      (LogFlags.iterationBasicDetails.bits &&& flags ≠ 0 ∧ (nm = ['z'] ∧ w = f ∨ nm = ['r'] ∧ w = g ∨ nm = ['t'] ∧ w = .num (.inl t))) ∨
      (LogFlags.activeSet.bits &&& flags ≠ 0 ∧ (nm = "Activate".toList ∧ w = .bool act ∨ nm = ['l'] ∧ w = .int l)) := by
    intro nm hnm w
    constructor
    · rintro ⟨e, he, h⟩
      simp only [List.mem_append, List.mem_cons, List.not_mem_nil, or_false] at he
      rcases he with (he | rfl | rfl) | rfl
      · exact absurd h (h0 nm hnm w e he)
      · exact absurd h mem_comment
      · rw [mem_log] at h
        refine .inl ⟨h.1, ?_⟩
        simpa using h.2.2.1
      · rw [mem_log] at h
        refine .inr ⟨h.1, ?_⟩
        simpa using h.2.2.1
    · rintro (⟨h1, h2⟩ | ⟨h1, h2⟩)
      · refine ⟨.log LogFlags.iterationBasicDetails.bits [(['z'], f), (['r'], g), (['t'], .num (.inl t))], by simp, mem_log.2 ⟨h1, by decide, by simpa using h2, ?_⟩⟩
        rcases h2 with ⟨-, rfl⟩ | ⟨-, rfl⟩ | ⟨-, rfl⟩
        · exact hf
        · exact hg
        · rfl
      · refine ⟨.log LogFlags.activeSet.bits [("Activate".toList, .bool act), (['l'], .int l)], by simp, mem_log.2 ⟨h1, by decide, by simpa using h2, ?_⟩⟩
        rcases h2 with ⟨-, rfl⟩ | ⟨-, rfl⟩ <;> rfl
  refine ⟨fun hb => ⟨?_, ?_, ?_⟩, fun hb => ⟨?_, ?_⟩, ?_⟩
  · intro w; rw [key _ (by simp [stepNames])]; simpa using fun _ => hb
  · intro w; rw [key _ (by simp [stepNames])]; simpa using fun _ => hb
  · intro w; rw [key _ (by simp [stepNames])]; simpa using fun _ => hb
  · intro w; rw [key _ (by simp [stepNames])]; simpa using fun _ => hb
  · intro w; rw [key _ (by simp [stepNames])]; simpa using fun _ => hb
  · intro w; rw [key _ (by simp [stepNames])]; simp

/-- The removal of an active constraint after a step. -/
theorem moves_remove {o : Opts K} {s a : State K} {l : Nat} (hl : l < a.A.q) {p : Nat} {st : Status} {z r : Nat → K} {t : K} {n : Nat}
    (hx : (∀ i < n, s.x i = a.x i + t * z i) ∨ ∀ i < n, s.x i = a.x i) {b : State K}
    (hb : b.A = a.A.deactivate l) (hbx : b.x = s.x)
    (hu : b.u = (if o.dbg then upd (fun j => if l ≤ j ∧ j < a.A.q then dualStep a.A.q t a.u r (j + 1) else dualStep a.A.q t a.u r j) a.A.q 0
      else fun j => if l ≤ j ∧ j < a.A.q then dualStep a.A.q t a.u r (j + 1) else dualStep a.A.q t a.u r j)) :
    Moves n a b p st z r t (a.u a.A.q) false l := by
  have hu' : ∀ j < a.A.q, b.u j = if l ≤ j ∧ j < a.A.q then dualStep a.A.q t a.u r (j + 1) else dualStep a.A.q t a.u r j := by
    intro j hj
    rw [hu]
    cases o.dbg with
    | false => rfl
    | true => simp only [if_true, upd]; rw [if_neg (by omega)]
  refine ⟨by simp, fun _ => ⟨hl, by rw [hb, ActiveSet.deactivate_active], by rw [hb, ActiveSet.deactivate_status], by rw [hbx]; exact hx, ?_, ?_, ?_⟩⟩
  · intro j hj
    rw [hu' j (by omega), if_neg (by omega), dualStep, if_pos (by omega)]
  · intro j h1 h2
    rw [hu' j (by omega), if_pos ⟨h1, by omega⟩, dualStep, if_pos h2]
  · rw [hu' _ (by omega), if_pos ⟨by omega, by omega⟩, dualStep, show a.A.q - 1 + 1 = a.A.q by omega, if_neg (by omega), if_pos rfl]

theorem moves_add {a b : State K} {p : Nat} {st : Status} {z r : Nat → K} {t : K} {n l : Nat}
    (hx : ∀ i < n, b.x i = a.x i + t * z i) (hb : b.A = a.A.activate p st) (hu : b.u = dualStep a.A.q t a.u r) :
    Moves n a b p st z r t (a.u a.A.q) true l := by
  refine ⟨fun _ => ⟨by rw [hb, ActiveSet.activate_active], ?_, hx, ?_, ?_⟩, by simp⟩
  · rw [hb, ActiveSet.activate_status]
  · intro j hj; rw [hu, dualStep, if_pos hj]
  · rw [hu, dualStep, if_neg (by omega), if_pos rfl]

theorem iterBody_goes {flags : BitVec 32} {o : Opts K} {pb : Pb K B} {s s' : State K} {sc sc' : SC} {b : Bool} (h : iterBody o pb s sc = .ok (.cont s' sc' b)) :
    sc' = sc ∧ ∃ (z r : Nat → K) (t : K) (act : Bool) (l : Nat),
      Moves s.nbVar s s' sc.p sc.status z r t (s.u s.A.q) act l ∧ b = !act ∧
      (LogFlags.iterationBasicDetails.bits &&& flags ≠ 0 → Logs flags (bodyLog o pb s sc) ['z'] (lvec s.nbVar z) ∧
        Logs flags (bodyLog o pb s sc) ['r'] (lvec s.A.q r) ∧ Logs flags (bodyLog o pb s sc) ['t'] (.num (.inl t))) ∧
      (LogFlags.activeSet.bits &&& flags ≠ 0 → Logs flags (bodyLog o pb s sc) "Activate".toList (.bool act) ∧
        Logs flags (bodyLog o pb s sc) ['l'] (.int l)) ∧
      ∀ w, ¬ ∃ e ∈ bodyLog o pb s sc, Member flags ['s', 'c'] w e := by
  have hsd : ∀ nm ∈ stepNames, ∀ w, ∀ e ∈ stepDbg (B := B) o (computeStep pb s sc), ¬ Member flags nm w e := by
    intro nm hnm w e he hm
    have := stepDbg_names he hm
    revert this hnm
    simp only [stepNames, List.mem_cons, List.not_mem_nil, or_false]
    rintro (rfl | rfl | rfl | rfl | rfl | rfl) <;> decide
  unfold iterBody at h
  simp only [] at h
  have hlog : bodyLog o pb s sc = stepDbg o (computeStep pb s sc) ++
    [.comment LogFlags.iterationBasicDetails.bits "Step computation".toList,
      .log LogFlags.iterationBasicDetails.bits
        [(['z'], lvec s.nbVar (computeStep pb s sc).z), (['r'], lvec s.A.q (computeStep pb s sc).r),
          (['t'], .num (.inl (stdMin (computeStepLength o pb (computeStep pb s sc) sc).t1 (computeStepLength o pb (computeStep pb s sc) sc).t2)))]] ++
    if leb o.bigBnd (stdMin (computeStepLength o pb (computeStep pb s sc) sc).t1 (computeStepLength o pb (computeStep pb s sc) sc).t2) then []
    else [.log LogFlags.activeSet.bits [("Activate".toList, .bool (!leb o.bigBnd (computeStepLength o pb (computeStep pb s sc) sc).t2 &&
      eqb (stdMin (computeStepLength o pb (computeStep pb s sc) sc).t1 (computeStepLength o pb (computeStep pb s sc) sc).t2)
        (computeStepLength o pb (computeStep pb s sc) sc).t2)), (['l'], .int (computeStepLength o pb (computeStep pb s sc) sc).l)]] := rfl
  have hc : computeStep pb s sc = { s with d := (computeStep pb s sc).d, z := (computeStep pb s sc).z, r := (computeStep pb s sc).r } := rfl
  generalize computeStep pb s sc = S at *
  generalize computeStepLength o pb S sc = sl at *
  generalize stdMin sl.t1 sl.t2 = t at *
  have hSA : S.A = s.A := by rw [hc]
  have hSx : S.x = s.x := by rw [hc]
  have hSu : S.u = s.u := by rw [hc]
  have hSn : S.nbVar = s.nbVar := by rw [hc]
  split_ifs at h with g1 g2 g3 g4 g5 g6 g7 g8 <;> cases h
  · rw [if_neg g3, g4] at hlog
    refine ⟨rfl, S.z, S.r, t, false, sl.l, moves_remove (o := o) (s := s) ?_ (.inr fun _ _ => rfl) ?_ hSx ?_, rfl, stepLog_logs hsd rfl rfl hlog⟩
    · simp only [removeOk, Bool.and_eq_true, decide_eq_true_eq] at g5
      rw [← hSA]; exact g5.1.1.1.1.1
    · rw [← hSA]; rfl
    · rw [← hSA, ← hSu]; rfl
  · rw [if_neg g3, show leb o.bigBnd sl.t2 = false by simpa using g4, g6] at hlog
    refine ⟨rfl, S.z, S.r, t, true, sl.l, moves_add ?_ ?_ ?_, rfl, stepLog_logs hsd rfl rfl hlog⟩
    · intro i hi
      rw [← hSx]
      simp only [addConstraint, fullUpdate, dualUpdate, primalStep, wr]
      rw [if_pos (by omega)]
    · rw [← hSA]; rfl
    · rw [← hSA, ← hSu]; rfl
  · rw [if_neg g3, show leb o.bigBnd sl.t2 = false by simpa using g4, show eqb t sl.t2 = false by simpa using g6] at hlog
    refine ⟨rfl, S.z, S.r, t, false, sl.l, moves_remove (o := o) (s := (fullUpdate pb S sc t)) ?_ (.inl ?_) ?_ rfl ?_, rfl, stepLog_logs hsd rfl rfl hlog⟩
    · simp only [removeOk, Bool.and_eq_true, decide_eq_true_eq] at g8
      rw [← hSA]; exact g8.1.1.1.1.1
    · intro i hi
      rw [← hSx]
      simp only [addConstraint, fullUpdate, dualUpdate, primalStep, wr]
      rw [if_pos (by omega)]
    · rw [← hSA]; rfl
    · rw [← hSA, ← hSu]; rfl

theorem goesD (flags : BitVec 32) (o : Opts K) (pb : Pb K B) : Goes flags (stepD o pb) (tailD o pb) (fun c => c) := by
  rintro ⟨s, sc, skip⟩ ⟨s', sc', b⟩ h
  simp only [stepD] at h
  cases hr : iterate o pb s sc skip with
  | error e => rw [hr] at h; cases h
  | ok r =>
    rw [hr] at h
    cases r with
    | done t1 s1 => cases h
    | cont s1 sc1 b1 =>
      simp only [Option.some.injEq, Prod.mk.injEq] at h
      obtain ⟨rfl, rfl, rfl⟩ := h
      have hhead : ∀ nm ∈ stepNames, ∀ w, ¬ Member flags nm w (LogCall.log (K := K ⊕ B) LogFlags.activeSetDetails.bits
          [(['A', '_'], .active ((List.range s.A.q).map fun k => (s.A.get k : Int)))]) ∧
          ¬ Member flags nm w (LogCall.log (K := K ⊕ B) LogFlags.iterationBasicDetails.bits
            [(['x'], lvec s.nbVar s.x), (['u'], lvec (if skip then s.A.q + 1 else s.A.q) s.u), (['f', '_'], .num (.inl s.f))]) := by
        intro nm hnm w
        rw [mem_log, mem_log]
        revert hnm
        simp only [stepNames, List.mem_cons, List.not_mem_nil, or_false, Prod.mk.injEq]
        rintro (rfl | rfl | rfl | rfl | rfl | rfl) <;> simp
      unfold iterate at hr
      simp only [] at hr
      cases skip with
      | true =>
        rw [if_pos rfl] at hr
        obtain ⟨e0, z, r, t, act, l, g1, g2, g3, g4, g5⟩ := iterBody_goes (flags := flags) hr
        have ht : ∀ nm ∈ stepNames, ∀ w, (∃ e ∈ tailD o pb (s, sc, true), Member flags nm w e) ↔ ∃ e ∈ bodyLog o pb s sc, Member flags nm w e := by
          intro nm hnm w
          simp only [tailD, iterTail, iterLog, List.cons_append, List.tail_cons, List.nil_append, if_true, List.exists_mem_cons_iff]
          have := hhead nm hnm w
          simp only [if_true] at this
          rw [or_iff_right this.1, or_iff_right this.2]
        refine ⟨z, r, t, s.u s.A.q, act, l, by rw [e0]; exact g1, .inr rfl, g2, fun hf => ?_, fun hf => ?_, fun _ => ⟨e0, fun w => ?_⟩, fun h => by cases h⟩
        · obtain ⟨k1, k2, k3⟩ := g3 hf
          exact ⟨fun w => (ht _ (by simp [stepNames]) w).trans (k1 w), fun w => (ht _ (by simp [stepNames]) w).trans (k2 w),
            fun w => (ht _ (by simp [stepNames]) w).trans (k3 w)⟩
        · obtain ⟨k1, k2⟩ := g4 hf
          exact ⟨fun w => (ht _ (by simp [stepNames]) w).trans (k1 w), fun w => (ht _ (by simp [stepNames]) w).trans (k2 w)⟩
        · rw [ht _ (by simp [stepNames])]; exact g5 w
      | false =>
        rw [if_neg (by simp)] at hr
        generalize hsc : select pb s.nbVar s.A s.x = sc0 at hr
        split_ifs at hr with k1 k2 k3
        · cases hr
        obtain ⟨e0, z, r, t, act, l, g1, g2, g3, g4, g5⟩ := iterBody_goes (flags := flags) hr
        have ht : ∀ nm ∈ stepNames, ∀ w, (∃ e ∈ tailD o pb (s, sc, false), Member flags nm w e) ↔
            Member flags nm w (.log LogFlags.activeSet.bits [(['s', 'c'], .sel sc0.p (sc0.status.toNat))]) ∨
              ∃ e ∈ bodyLog o pb { s with u := upd s.u s.A.q 0 } sc0, Member flags nm w e := by
          intro nm hnm w
          simp only [tailD, iterTail, iterLog, List.cons_append, List.tail_cons, List.nil_append, Bool.false_eq_true, if_false, hsc, if_neg k2,
            List.exists_mem_cons_iff]
          have := hhead nm hnm w
          simp only [Bool.false_eq_true, if_false] at this
          rw [or_iff_right this.1, or_iff_right this.2]
        have hno : ∀ nm, nm ≠ ['s', 'c'] → ∀ w, ¬ Member (V := K ⊕ B) flags nm w (.log LogFlags.activeSet.bits [(['s', 'c'], .sel sc0.p (sc0.status.toNat))]) := by
          intro nm hnm w
          rw [mem_log]
          simp [hnm]
        have hM : Moves s.nbVar s { s1 with it := s1.it + 1 } sc0.p sc0.status z r t 0 act l := by
          have hz : upd s.u s.A.q 0 s.A.q = (0 : K) := by simp [upd]
          simp only [hz] at g1
          obtain ⟨m1, m2⟩ := g1
          refine ⟨fun h => ?_, fun h => ?_⟩
          · obtain ⟨n1, n2, n3, n4, n5⟩ := m1 h
            refine ⟨n1, n2, n3, fun j hj => ?_, n5⟩
            have := n4 j hj
            simpa [upd, Nat.ne_of_lt hj] using this
          · obtain ⟨n1, n2, n3, n4, n5, n6, n7⟩ := m2 h
            refine ⟨n1, n2, n3, n4, fun j hj => ?_, fun j h1 h2 => ?_, n7⟩
            · have := n5 j hj
              have hne : j ≠ s.A.q := by simp only at n1; omega
              simpa [upd, hne] using this
            · have := n6 j h1 h2
              simpa [upd, Nat.ne_of_lt h2] using this
        refine ⟨z, r, t, 0, act, l, by rw [e0]; exact hM, .inl rfl, g2, fun hf => ?_, fun hf => ?_, fun h => (by cases h), fun _ hf => ?_⟩
        · obtain ⟨k1, k2, k3⟩ := g3 hf
          exact ⟨fun w => (ht _ (by simp [stepNames]) w).trans ((or_iff_right (hno _ (by decide) w)).trans (k1 w)),
            fun w => (ht _ (by simp [stepNames]) w).trans ((or_iff_right (hno _ (by decide) w)).trans (k2 w)),
            fun w => (ht _ (by simp [stepNames]) w).trans ((or_iff_right (hno _ (by decide) w)).trans (k3 w))⟩
        · obtain ⟨k1, k2⟩ := g4 hf
          exact ⟨fun w => (ht _ (by simp [stepNames]) w).trans ((or_iff_right (hno _ (by decide) w)).trans (k1 w)),
            fun w => (ht _ (by simp [stepNames]) w).trans ((or_iff_right (hno _ (by decide) w)).trans (k2 w))⟩
        · intro w
          rw [ht _ (by simp [stepNames]), or_iff_left (g5 w), mem_log, e0]
          simp only [List.mem_cons, List.not_mem_nil, or_false, Prod.mk.injEq, true_and]
          constructor
          · exact fun h => h.2.2.1
          · rintro rfl; exact ⟨hf, by decide, rfl, rfl⟩

/-! ## The theorems -/

/-- **C85.** The log shows the steps. When `solve` returns another status than `NON_POS_HESSIAN`, for each iteration `k` that is followed by another one or by the end
(`k < iterations()`, so that the solves stopped after `k` and `k + 1` iterations return two successive iterates), the members `z`, `r`, `t`, `Activate` and `l` of
the index `k + 1` and the last selected constraint `sc` tell how the iterate changes: the constraint that becomes active or the position of the active constraint that is
removed, the primal variables moved by `t z` (or not moved, possible only with a removal) and the multipliers moved by `- t r`. -/
theorem C85_step {shw : K ⊕ B → Word} (hs : ∀ x, Clean (shw x)) {g : Logger} {pre : List (Word × Int)} {id : Word} (hg : Named g pre id)
    {o : Opts K} {pb : Pb K B} {s s' : State K} {t : Term} (h : solve o pb s = .ok (t, s')) (ht : t ≠ .nonPosHessian) :
    ∃ S, readScript (script shw g (solveLog o pb s)) = some S ∧ ∀ k < s'.it, k < o.maxIter →
      ∃ a b, solve { o with maxIter := k } pb s = .ok (.maxIterReached, a) ∧ solve { o with maxIter := k + 1 } pb s = .ok (.maxIterReached, b) ∧
        StepShown shw g.flags S pre id pb.n 1 (k + 1) a b := by
  refine ⟨_, C71_script hs hg _ (solveLog_ok o pb s), ?_⟩
  obtain ⟨s0, h0, hz, h1⟩ := solve_parts h ht
  intro k hk hkm
  obtain ⟨a, ba, ha⟩ := loop_ent k h1 (by omega) (by omega)
  obtain ⟨b, bb, hb⟩ := loop_ent (k + 1) h1 (by omega) (by omega)
  refine ⟨a, b, solve_stop h0 hz ha, solve_stop h0 hz hb, ?_⟩
  obtain ⟨sca, ta⟩ := trail_of_ent ha
  obtain ⟨scb, tb⟩ := trail_of_ent hb
  have hn : a.nbVar = pb.n := by
    rw [ent_nbVar _ ha, init_nbVar h0, (preInit_dims _ _).1, (resize_dims _ _ _ _).1]
  have hS : Shows shw g.flags (expectedAll shw g.flags pre id g.iter (solveLog o pb s)) pre id (stepD o pb) (tailD o pb) (s0, ⟨0, .inactive⟩, false) 1 o.maxIter stepNames := by
    intro nm hnm i v
    rw [solveLog_loop h0 hz h1 (by
      revert hnm
      simp only [stepNames, List.mem_cons, List.not_mem_nil, or_false]
      rintro (rfl | rfl | rfl | rfl | rfl | rfl) <;> decide), loopLog_shows]
    simp [hz]
  have := (goesD g.flags o pb).step hS rfl hkm ta tb
  simp only [hn] at this
  rwa [add_comm] at this

/-- **C85, warm-started solver.** The same for the warm-started solver, from the initial point (the call with `maxIter = 0`) on. -/
theorem C85_warm {shw : K ⊕ B → Word} (hs : ∀ x, Clean (shw x)) {g : Logger} {pre : List (Word × Int)} {id : Word} (hg : Named g pre id)
    {o : Opts K} {pb : Pb K B} {as : List Status} {xs xs' : XState K} {t : Term} (h : xsolve o pb as xs = .ok (t, xs'))
    (ht : t ≠ .nonPosHessian) (ht' : t ≠ .overconstrainedProblem) :
    ∃ S x0, readScript (script shw g (xsolveLog o pb as xs)) = some S ∧ xsolve { o with maxIter := 0 } pb as xs = .ok (.maxIterReached, x0) ∧
      ∀ k, x0.s.it ≤ k → k < xs'.s.it → k < o.maxIter →
        ∃ a b, xsolve { o with maxIter := k } pb as xs = .ok (.maxIterReached, a) ∧ xsolve { o with maxIter := k + 1 } pb as xs = .ok (.maxIterReached, b) ∧
          StepShown shw g.flags S pre id pb.n (x0.s.it + 1) (k + 1) a.s b.s := by
  obtain ⟨x0, h0, h1, -⟩ := xsolve_parts h ht ht'
  have ha := xsolve_args h
  have hn0 : x0.s.nbVar = pb.n := (xinit_nbVar h0).trans (xstart_nbVar o pb as xs)
  refine ⟨_, x0, C71_script hs hg _ (xsolveLog_ok o pb as xs), (xsolve_stop (sk := x0.s) (b := false) (j := 0) ha h0 (by simp) rfl).trans rfl, ?_⟩
  intro k hk0 hk hkm
  obtain ⟨j, rfl⟩ : ∃ j, k = x0.s.it + j := ⟨k - x0.s.it, by omega⟩
  obtain ⟨a, ba, hea⟩ := loop_ent j h1 (by omega) (by omega)
  obtain ⟨b, bb, heb⟩ := loop_ent (j + 1) h1 (by omega) (by omega)
  refine ⟨{ x0 with s := a }, { x0 with s := b }, xsolve_stop ha h0 (by omega) hea, xsolve_stop ha h0 (by omega) heb, ?_⟩
  obtain ⟨sca, ta⟩ := trail_of_ent hea
  obtain ⟨scb, tb⟩ := trail_of_ent heb
  have hn : a.nbVar = pb.n := (ent_nbVar _ hea).trans hn0
  have hS : Shows shw g.flags (expectedAll shw g.flags pre id g.iter (xsolveLog o pb as xs)) pre id (stepD o pb) (tailD o pb) (x0.s, ⟨0, .inactive⟩, false)
      (x0.s.it + 1) (o.maxIter - x0.s.it) stepNames := by
    intro nm hnm i v
    rw [xsolveLog_loop h0 h1, loopLog_shows]
  have := (goesD g.flags o pb).step hS rfl (show j < o.maxIter - x0.s.it by omega) ta tb
  simp only [hn] at this
  rw [show ((x0.s.it : Int) + 1 + j) = ((x0.s.it + j : Nat) : Int) + 1 by push_cast; ring] at this
  exact this

end Log
end JrlQp
