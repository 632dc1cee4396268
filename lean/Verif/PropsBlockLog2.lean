import Verif.PropsBlockLog
import Verif.StructInv

/-!
# C84: the iterates and the status in the log of the structured solver
-/

namespace JrlQp
namespace Log

open NumOps Matlab

variable {K B : Type} [Zero K] [One K] [Add K] [Sub K] [Neg K] [Mul K] [Div K] [NumOps K B] [SumOps K]

/-! ## The main loop -/

theorem bComputeStep_same {pb : BPb K B} {bs bs' : BState K} {sc : SC} (h : bComputeStep pb bs sc = some bs') :
    bs'.s.x = bs.s.x ∧ bs'.s.f = bs.s.f ∧ bs'.s.A = bs.s.A ∧ bs'.s.it = bs.s.it := by
  unfold bComputeStep at h
  simp only [Option.bind_eq_some_iff, Option.map_eq_some_iff] at h
  obtain ⟨d, -, z, -, r, -, rfl⟩ := h
  exact ⟨rfl, rfl, rfl, rfl⟩

theorem bAdd_same {bs bs' : BState K} {sc : SC} (h : bAdd bs sc = some bs') : bs'.s.it = bs.s.it := by
  unfold bAdd at h
  split_ifs at h
  simp only [Option.map_eq_some_iff] at h
  obtain ⟨qr, -, rfl⟩ := h
  rfl

theorem bRemove_same {o : Opts K} {bs bs' : BState K} {l : Nat} (h : bRemove o bs l = some bs') : bs'.s.it = bs.s.it := by
  unfold bRemove at h
  simp only [] at h
  by_cases hc : (decide (l < bs.s.A.q) && bs.s.A.deactivatePre l && decide (bs.s.A.q + 1 ≤ bs.s.szU)) = true
  · rw [if_pos hc] at h
    simp only [Option.map_eq_some_iff] at h
    obtain ⟨qr, -, rfl⟩ := h
    rfl
  · rw [if_neg hc] at h
    cases h

/-- What an iteration keeps. -/
def bSame (it : Nat) (bs : BState K) : BIter K → Prop
  | .done t bs' => (t = .success ∨ t = .infeasible) ∧ bs'.s.x = bs.s.x ∧ bs'.s.f = bs.s.f ∧ bs'.s.A = bs.s.A ∧ bs'.s.it = it
  | .cont bs' _ _ => bs'.s.it = it

theorem biterBody_same {o : Opts K} {pb : BPb K B} {bs : BState K} {sc : SC} {r : BIter K} (h : biterBody o pb bs sc = .ok r) :
    bSame bs.s.it bs r := by
  unfold biterBody at h
  split_ifs at h
  split at h
  · cases h
  · rename_i b1 e1
    obtain ⟨k1, k2, k3, k4⟩ := bComputeStep_same e1
    simp only [] at h
    split_ifs at h
    · cases h
      exact ⟨.inr rfl, k1, k2, k3, k4⟩
    · split at h
      · cases h
      · rename_i b2 e2
        cases h
        exact (bRemove_same e2).trans k4
    · split at h
      · cases h
      · rename_i b2 e2
        cases h
        exact (bAdd_same e2).trans k4
    · split at h
      · cases h
      · rename_i b2 e2
        cases h
        exact (bRemove_same e2).trans k4

theorem biterate_same {o : Opts K} {pb : BPb K B} {bs : BState K} {sc : SC} {skip : Bool} {r : BIter K}
    (h : biterate o pb bs sc skip = .ok r) : bSame bs.s.it bs r := by
  unfold biterate at h
  simp only [] at h
  split_ifs at h
  · exact biterBody_same h
  · cases h
    exact ⟨.inl rfl, rfl, rfl, rfl, rfl⟩
  · have := biterBody_same h
    cases r <;> exact this

/-- The state of the main loop after `k` complete iterations, and the flag `skipStep1`. -/
def bent (o : Opts K) (pb : BPb K B) : Nat → BState K → SC → Bool → Option (BState K × Bool)
  | 0, bs, _, skip => some (bs, skip)
  | k + 1, bs, sc, skip =>
    match biterate o pb bs sc skip with
    | .ok (.cont bs sc skip) => bent o pb k { bs with s := { bs.s with it := bs.s.it + 1 } } sc skip
    | _ => none

theorem bent_loop {o : Opts K} {pb : BPb K B} (k : Nat) : ∀ {bs : BState K} {sc : SC} {skip : Bool} {bk : BState K} {b : Bool},
    bent o pb k bs sc skip = some (bk, b) → bloop o pb k bs sc skip = .ok (.maxIterReached, bk) ∧ bk.s.it = bs.s.it + k := by
  induction k with
  | zero => intro s sc skip sk b h; simp only [bent, Option.some.injEq, Prod.mk.injEq] at h; exact ⟨by rw [← h.1]; rfl, by rw [← h.1]; rfl⟩
  | succ k ih =>
    intro s sc skip sk b h
    simp only [bent] at h
    split at h
    · rename_i s1 sc1 b1 hr
      have h1 := ih h
      have h2 : s1.s.it = s.s.it := biterate_same hr
      refine ⟨?_, ?_⟩
      · simp only [bloop, hr]; exact h1.1
      · rw [h1.2]; simp only [h2]; omega
    · simp at h

theorem bloop_le {o : Opts K} {pb : BPb K B} (fuel : Nat) : ∀ {bs : BState K} {sc : SC} {skip : Bool} {t : Term} {bs' : BState K},
    bloop o pb fuel bs sc skip = .ok (t, bs') → bs.s.it ≤ bs'.s.it ∧ ((t = .maxIterReached ∧ bs'.s.it = bs.s.it + fuel) ∨
      ((t = .success ∨ t = .infeasible) ∧ bs'.s.it < bs.s.it + fuel ∧ ∃ bk b, bent o pb (bs'.s.it - bs.s.it) bs sc skip = some (bk, b) ∧
        bs'.s.x = bk.s.x ∧ bs'.s.f = bk.s.f ∧ bs'.s.A = bk.s.A)) := by
  induction fuel with
  | zero =>
    intro s sc skip t s' h
    simp only [bloop, Except.ok.injEq, Prod.mk.injEq] at h
    exact ⟨by rw [h.2], .inl ⟨h.1.symm, by rw [h.2]; rfl⟩⟩
  | succ fuel ih =>
    intro s sc skip t s' h
    simp only [bloop] at h
    cases hr : biterate o pb s sc skip with
    | error e => rw [hr] at h; cases h
    | ok r =>
      rw [hr] at h
      cases r with
      | done t1 s1 =>
        simp only [Except.ok.injEq, Prod.mk.injEq] at h
        obtain ⟨rfl, rfl⟩ := h
        obtain ⟨h0, h1, h2, h3, h4⟩ := biterate_same hr
        refine ⟨by omega, .inr ⟨h0, by omega, s, skip, ?_, h1, h2, h3⟩⟩
        rw [h4, Nat.sub_self]; rfl
      | cont s1 sc1 b1 =>
        simp only at h
        have hi : s1.s.it = s.s.it := biterate_same hr
        obtain ⟨h1, h2⟩ := ih h
        simp only at h1 h2
        refine ⟨by omega, h2.imp (fun h => ⟨h.1, by omega⟩) ?_⟩
        rintro ⟨h0, hlt, sk, b, h3, h4⟩
        refine ⟨h0, by omega, sk, b, ?_, h4⟩
        rw [show s'.s.it - s.s.it = (s'.s.it - (s1.s.it + 1)) + 1 by omega]
        simp only [bent, hr]
        exact h3

theorem bloop_ent {o : Opts K} {pb : BPb K B} (k : Nat) : ∀ {fuel : Nat} {bs : BState K} {sc : SC} {skip : Bool} {t : Term} {bs' : BState K},
    bloop o pb fuel bs sc skip = .ok (t, bs') → k ≤ fuel → bs.s.it + k ≤ bs'.s.it → ∃ bk b, bent o pb k bs sc skip = some (bk, b) := by
  induction k with
  | zero => intro fuel s sc skip t s' _ _ _; exact ⟨s, skip, rfl⟩
  | succ k ih =>
    intro fuel s sc skip t s' h hk hle
    obtain ⟨fuel, rfl⟩ : ∃ f, fuel = f + 1 := ⟨fuel - 1, by omega⟩
    simp only [bloop] at h
    cases hr : biterate o pb s sc skip with
    | error e => rw [hr] at h; cases h
    | ok r =>
      rw [hr] at h
      cases r with
      | done t1 s1 =>
        simp only [Except.ok.injEq, Prod.mk.injEq] at h
        obtain ⟨rfl, rfl⟩ := h
        obtain ⟨-, -, -, -, this⟩ := biterate_same hr
        omega
      | cont s1 sc1 b1 =>
        simp only at h
        have hi : s1.s.it = s.s.it := biterate_same hr
        obtain ⟨sk, b, hs⟩ := ih h (by omega) (by simp only; omega)
        exact ⟨sk, b, by simp only [bent, hr]; exact hs⟩

theorem bent_nbVar {o : Opts K} {pb : BPb K B} (k : Nat) : ∀ {bs : BState K} {sc : SC} {skip : Bool} {bk : BState K} {b : Bool},
    bent o pb k bs sc skip = some (bk, b) → bk.s.nbVar = bs.s.nbVar := by
  intro bs sc skip bk b h
  exact (bloop_keep _ (bent_loop k h).1).nbVar

/-! ## The names -/

/-- A value logged once at the start of each iteration. -/
def BField (flags : BitVec 32) (nm : Word) (F : State K → Bool → LVal (K ⊕ B)) : Prop :=
  ∀ (o : Opts K) (pb : BPb K B) (bs : BState K) (sc : SC) (skip : Bool) (w : LVal (K ⊕ B)),
    (∃ c ∈ biterTail o pb bs sc skip, Member flags nm w c) ↔ w = F bs.s skip

theorem bbodyLog_names {o : Opts K} {pb : BPb K B} {bs : BState K} {sc : SC} {flags : BitVec 32} {nm : Word} {w : LVal (K ⊕ B)} {c : LogCall (K ⊕ B)}
    (hc : c ∈ bbodyLog o pb bs sc) (h : Member flags nm w c) : nm ∈ [['z'], ['r'], ['t'], "Activate".toList, ['l']] := by
  unfold bbodyLog at hc
  split at hc
  · simp at hc
  simp only [List.mem_append] at hc
  rcases hc with hc | hc
  · obtain ⟨f, vals, rfl, -, -, h1, -⟩ := h
    simp only [List.mem_cons, List.not_mem_nil, or_false, reduceCtorEq, false_or, LogCall.log.injEq] at hc
    rw [hc.2] at h1
    simp only [List.mem_cons, List.not_mem_nil, or_false, Prod.mk.injEq] at h1 ⊢
    tauto
  · obtain ⟨f, vals, rfl, -, -, h1, -⟩ := h
    split_ifs at hc
    · simp at hc
    · simp only [List.mem_cons, List.not_mem_nil, or_false, LogCall.log.injEq] at hc
      rw [hc.2] at h1
      simp only [List.mem_cons, List.not_mem_nil, or_false, Prod.mk.injEq] at h1 ⊢
      tauto

/-- The values logged under `nm` at an iteration, for the names that are only used at its start. -/
theorem biterTail_names {o : Opts K} {pb : BPb K B} {bs : BState K} {sc : SC} {skip : Bool} {flags : BitVec 32} {nm : Word}
    (hnm : nm ∉ [['s', 'c'], ['z'], ['r'], ['t'], "Activate".toList, ['l']]) (w : LVal (K ⊕ B)) :
    (∃ c ∈ biterTail o pb bs sc skip, Member flags nm w c) ↔
      (LogFlags.activeSetDetails.bits &&& flags ≠ 0 ∧ nm = ['A', '_'] ∧ w = .active ((List.range bs.s.A.q).map fun k => (bs.s.A.get k : Int))) ∨
      (LogFlags.iterationBasicDetails.bits &&& flags ≠ 0 ∧ ((nm = ['x'] ∧ w = lvec bs.s.nbVar bs.s.x) ∨
        (nm = ['u'] ∧ w = lvec (if skip then bs.s.A.q + 1 else bs.s.A.q) bs.s.u) ∨ (nm = ['f', '_'] ∧ w = .num (.inl bs.s.f)))) := by
  constructor
  · rintro ⟨c, hc, h⟩
    unfold biterTail biterLog at hc
    simp only [List.cons_append, List.tail_cons, List.nil_append, List.mem_cons] at hc
    rcases hc with rfl | rfl | hc
    · obtain ⟨f, vals, e, h0, -, h1, -⟩ := h
      injection e with e1 e2
      rw [← e2] at h1
      simp only [List.mem_cons, List.not_mem_nil, or_false, Prod.mk.injEq] at h1
      exact .inl ⟨e1 ▸ h0, h1⟩
    · obtain ⟨f, vals, e, h0, -, h1, -⟩ := h
      injection e with e1 e2
      rw [← e2] at h1
      simp only [List.mem_cons, List.not_mem_nil, or_false, Prod.mk.injEq] at h1
      exact .inr ⟨e1 ▸ h0, h1⟩
    · exfalso
      have hb : ∀ bs sc, c ∈ bbodyLog o pb bs sc → False := by
        intro s sc hc
        have := bbodyLog_names hc h
        exact hnm (List.mem_cons_of_mem _ this)
      cases skip with
      | true => exact hb _ _ (by simpa using hc)
      | false =>
        simp only [Bool.false_eq_true, if_false] at hc
        split_ifs at hc
        · simp at hc
        · rcases List.mem_cons.1 hc with rfl | hc
          · obtain ⟨f, vals, e, -, -, h1, -⟩ := h
            injection e with _ e2
            rw [← e2] at h1
            simp only [List.mem_cons, List.not_mem_nil, or_false, Prod.mk.injEq] at h1
            exact hnm (by simp [h1.1])
          · exact hb _ _ hc
  · rintro (⟨h0, rfl, rfl⟩ | ⟨h0, h⟩)
    · exact ⟨_, List.mem_cons_self, _, _, rfl, h0, by decide, by simp, rfl⟩
    · refine ⟨_, List.mem_cons_of_mem _ List.mem_cons_self, _, _, rfl, h0, by decide, ?_, ?_⟩
      · simpa using h
      · rcases h with ⟨-, rfl⟩ | ⟨-, rfl⟩ | ⟨-, rfl⟩ <;> rfl

theorem bfield_x {flags : BitVec 32} (hf : LogFlags.iterationBasicDetails.bits &&& flags ≠ 0) :
    BField (K := K) (B := B) flags ['x'] fun s _ => lvec s.nbVar s.x := by
  intro o pb s sc skip w
  rw [biterTail_names (by decide)]
  simp
  exact fun _ => hf

theorem bfield_u {flags : BitVec 32} (hf : LogFlags.iterationBasicDetails.bits &&& flags ≠ 0) :
    BField (K := K) (B := B) flags ['u'] fun s b => lvec (if b then s.A.q + 1 else s.A.q) s.u := by
  intro o pb s sc skip w
  rw [biterTail_names (by decide)]
  simp
  exact fun _ => hf

theorem bfield_f {flags : BitVec 32} (hf : LogFlags.iterationBasicDetails.bits &&& flags ≠ 0) :
    BField (K := K) (B := B) flags ['f', '_'] fun s _ => .num (.inl s.f) := by
  intro o pb s sc skip w
  rw [biterTail_names (by decide)]
  simp
  exact fun _ => hf

theorem bfield_A {flags : BitVec 32} (hf : LogFlags.activeSetDetails.bits &&& flags ≠ 0) :
    BField (K := K) (B := B) flags ['A', '_'] fun s _ => .active ((List.range s.A.q).map fun k => (s.A.get k : Int)) := by
  intro o pb s sc skip w
  rw [biterTail_names (by decide)]
  simp
  exact fun _ => hf

/-- What the loop assigns to a member. -/
theorem bloopLog_field {flags : BitVec 32} {nm : Word} {F : State K → Bool → LVal (K ⊕ B)} (hF : BField flags nm F) {shw : K ⊕ B → Word}
    {pre : List (Word × Int)} {id : Word} {o : Opts K} {pb : BPb K B} (fuel : Nat) : ∀ {bs : BState K} {sc : SC} {skip : Bool} {iter : Int} {t : Term}
    {bs' : BState K}, bloop o pb fuel bs sc skip = .ok (t, bs') → ∀ i v,
    Stmt.assign (pathOf pre id i nm) v ∈ expectedAll shw flags pre id iter (bloopLog o pb fuel bs sc skip) ↔
      ∃ k, k < fuel ∧ bs.s.it + k ≤ bs'.s.it ∧ i = (bs.s.it + k : Nat) + 1 ∧ ∃ bk b, bent o pb k bs sc skip = some (bk, b) ∧
        v = (F bk.s b).value shw := by
  induction fuel with
  | zero => intro s sc skip iter t s' _ i v; simp [bloopLog, expectedAll]
  | succ fuel ih =>
    intro s sc skip iter t s' h i v
    simp only [bloopLog, biterLog_eq, List.cons_append, expectedAll, expectedAll_append, List.mem_append]
    rw [mem_expectedAll fun c hc => (biterTail_plain _ _ _ _ _ c hc).1, mem_expected]
    have h1 : (∃ w, (∃ c ∈ biterTail o pb s sc skip, Member flags nm w c) ∧ v = w.value shw) ↔ v = (F s.s skip).value shw := by
      constructor
      · rintro ⟨w, hw, rfl⟩; rw [(hF o pb s sc skip w).1 hw]
      · rintro rfl; exact ⟨_, (hF o pb s sc skip _).2 rfl, rfl⟩
    have h0 : ¬ (i = iter + 1 ∧ ∃ w, Member flags nm w (LogCall.startIter (K := K ⊕ B) s.s.it) ∧ v = w.value shw) := by
      rintro ⟨-, w, ⟨f, vals, e, -⟩, -⟩; cases e
    rw [h1]
    have hle0 := (bloop_le _ h).1
    simp only [bloop] at h
    have hz : (∃ sk b, bent o pb 0 s sc skip = some (sk, b) ∧ v = (F sk.s b).value shw) ↔ v = (F s.s skip).value shw := by
      simp only [bent, Option.some.injEq, Prod.mk.injEq]
      constructor
      · rintro ⟨sk, b, ⟨rfl, rfl⟩, h⟩; exact h
      · intro h; exact ⟨s, skip, ⟨rfl, rfl⟩, h⟩
    have hlater : ∀ (X : Prop), (X ↔ ∃ k, k < fuel ∧ s.s.it + (k + 1) ≤ s'.s.it ∧ i = (s.s.it + (k + 1) : Nat) + 1 ∧
        ∃ sk b, bent o pb (k + 1) s sc skip = some (sk, b) ∧ v = (F sk.s b).value shw) → s.s.it ≤ s'.s.it →
        ((i = iter + 1 ∧ ∃ w, Member flags nm w (LogCall.startIter (K := K ⊕ B) s.s.it) ∧ v = w.value shw) ∨
          (i = LogCall.next (K := K ⊕ B) iter (.startIter s.s.it) + 1 ∧ v = (F s.s skip).value shw) ∨ X ↔
        ∃ k, k < fuel + 1 ∧ s.s.it + k ≤ s'.s.it ∧ i = (s.s.it + k : Nat) + 1 ∧ ∃ sk b, bent o pb k s sc skip = some (sk, b) ∧
          v = (F sk.s b).value shw) := by
      intro X hX hle
      rw [or_iff_right h0, hX]
      constructor
      · rintro (⟨rfl, h3⟩ | ⟨k, h2, h3, h4, h5⟩)
        · exact ⟨0, by omega, by omega, rfl, hz.2 h3⟩
        · exact ⟨k + 1, by omega, h3, h4, h5⟩
      · rintro ⟨k, h2, h3, h4, h5⟩
        cases k with
        | zero => exact .inl ⟨h4, hz.1 h5⟩
        | succ k => exact .inr ⟨k, by omega, h3, h4, h5⟩
    refine hlater _ ?_ hle0
    cases hr : biterate o pb s sc skip with
    | error e => rw [hr] at h; cases h
    | ok r =>
      rw [hr] at h
      cases r with
      | done t1 s1 => simp [expectedAll, bent, hr]
      | cont s1 sc1 b1 =>
        simp only at h
        have hi : s1.s.it = s.s.it := biterate_same hr
        rw [ih h]
        simp only [hi, bent, hr]
        constructor
        · rintro ⟨k, h2, h3, h4, h5⟩; exact ⟨k, h2, by omega, by rw [h4]; push_cast; ring, h5⟩
        · rintro ⟨k, h2, h3, h4, h5⟩; exact ⟨k, h2, by omega, by rw [h4]; push_cast; ring, h5⟩

/-! ## The call -/

theorem bInit_same {o : Opts K} {pb : BPb K B} {bs bs' : BState K} {t : Term} (h : bInit o pb bs = .ok (t, bs')) :
    (t = .success ∨ t = .overconstrainedProblem ∨ t = .nonPosHessian) ∧ bs'.s.it = bs.s.it ∧ bs'.s.nbVar = bs.s.nbVar := by
  unfold bInit at h
  simp only [] at h
  generalize ({ bs.qr with R := if o.dbg then ⟨bs.qr.R.size, fun _ => 0⟩ else bs.qr.R } : SQR K) = qr1 at h
  split at h
  · split at h
    · cases h
    · rename_i t1 A1 e1
      split_ifs at h with h1 h2
      · simp only [Except.ok.injEq, Prod.mk.injEq] at h
        obtain ⟨rfl, rfl⟩ := h
        refine ⟨.inr (.inl ?_), rfl, rfl⟩
        unfold processInitial at e1
        simp only [] at e1
        split at e1
        · cases e1
        · split at e1
          · cases e1
          · split_ifs at e1
            · cases e1; rfl
            · split at e1
              · cases e1
              · cases e1; exact absurd rfl h1
            · cases e1; exact absurd rfl h1
      · simp only [Except.ok.injEq, Prod.mk.injEq] at h
        obtain ⟨rfl, rfl⟩ := h
        exact ⟨.inr (.inr rfl), rfl, rfl⟩
      · split at h
        · cases h
        · rename_i b2 e2
          simp only [Except.ok.injEq, Prod.mk.injEq] at h
          obtain ⟨rfl, rfl⟩ := h
          refine ⟨.inl rfl, ?_⟩
          unfold bInitPoint at e2
          split_ifs at e2
          rw [Option.bind_eq_some_iff] at e2
          obtain ⟨y, _, e2⟩ := e2
          rw [Option.map_eq_some_iff] at e2
          obtain ⟨w, _, rfl⟩ := e2
          exact ⟨rfl, rfl⟩
  · cases h

/-- The state given to `init_`. -/
def bArgs (o : Opts K) (pb : BPb K B) (as : List Status) (fresh : Nat → K) (bs : BState K) : BState K :=
  let bs := bresize { bs with g := pb.G } pb.n pb.m pb.useBnd fresh
  if o.warmStart then { bs with as := if as = [] then bs.s.A.status else as } else bs

theorem bArgs_nbVar (o : Opts K) (pb : BPb K B) (as : List Status) (fresh : Nat → K) (bs : BState K) :
    (bArgs o pb as fresh bs).s.nbVar = pb.n := by
  have : (bresize { bs with g := pb.G } pb.n pb.m pb.useBnd fresh).s.nbVar = pb.n := by
    unfold bresize
    simp only []
    split_ifs <;> simp only [resizeP] <;> split_ifs <;> simp_all
  unfold bArgs
  simp only []
  split_ifs <;> exact this

theorem bloop_setMaxIter (o : Opts K) (N : Nat) (pb : BPb K B) (fuel : Nat) : ∀ (bs : BState K) (sc : SC) (skip : Bool),
    bloop { o with maxIter := N } pb fuel bs sc skip = bloop o pb fuel bs sc skip := by
  induction fuel with
  | zero => intro _ _ _; rfl
  | succ fuel ih =>
    intro s sc skip
    have : biterate { o with maxIter := N } pb s sc skip = biterate o pb s sc skip := rfl
    simp only [bloop, this, ih]

/-- The parts of a call. -/
theorem bsolve_run {o : Opts K} {pb : BPb K B} {as : List Status} {fresh : Nat → K} {bs bs' : BState K} {t : Term}
    (h : bsolve o pb as fresh bs = .ok (t, bs')) :
    (t = .success ∨ t = .nonPosHessian ∨ t = .infeasible ∨ t = .maxIterReached ∨ t = .overconstrainedProblem) ∧
    (∃ l, (∀ c ∈ l, c.Ok) ∧ bsolveLog o pb as fresh bs = l ++ termLog t) ∧
    (t ≠ .nonPosHessian → t ≠ .overconstrainedProblem → ∃ b0 : BState K, b0.s.it = 0 ∧ b0.s.nbVar = pb.n ∧
      bloop o pb o.maxIter b0 ⟨0, .inactive⟩ false = .ok (t, bs') ∧
      bsolveLog o pb as fresh bs = processLog o pb.sides (bArgs o pb as fresh bs).as (bArgs o pb as fresh bs).s.A ++
        (bloopLog o pb o.maxIter b0 ⟨0, .inactive⟩ false ++ termLog t) ∧
      ∀ k bk b, bent o pb k b0 ⟨0, .inactive⟩ false = some (bk, b) → bsolve { o with maxIter := k } pb as fresh bs = .ok (.maxIterReached, bk)) := by
  have hc : pb.C.nbVar = pb.n ∧ (as.length = pb.m + pb.nb ∨ as = []) ∧ (o.warmStart = true ∨ as = []) := by
    by_contra hn
    unfold bsolve at h
    rw [if_neg hn] at h
    cases h
  have e1 : bsolve o pb as fresh bs = bdualSolve o pb (bArgs o pb as fresh bs) := by
    unfold bsolve
    rw [if_pos hc]
    rfl
  have e2 : bsolveLog o pb as fresh bs = bdualSolveLog o pb (bArgs o pb as fresh bs) := by
    unfold bsolveLog
    rw [if_pos hc]
    rfl
  have e3 : ∀ k, bsolve { o with maxIter := k } pb as fresh bs = bdualSolve { o with maxIter := k } pb (bArgs o pb as fresh bs) := by
    intro k
    unfold bsolve
    rw [if_pos hc]
    rfl
  have hn := bArgs_nbVar o pb as fresh bs
  rw [e1] at h
  rw [e2]
  simp only [e3]
  generalize bArgs o pb as fresh bs = b1 at *
  have hok := bdualSolveLog_ok o pb b1
  unfold bdualSolve at h
  unfold bdualSolveLog at hok ⊢
  cases hi : bInit o pb { b1 with s := preInit o b1.s } with
  | error e => rw [hi] at h; cases h
  | ok r =>
    obtain ⟨t0, b0⟩ := r
    obtain ⟨hst, hit, hnv⟩ := bInit_same hi
    have hz : b0.s.it = 0 := hit
    have hn0 : b0.s.nbVar = pb.n := by
      rw [hnv]
      exact ((preInit_dims o b1.s).1).trans hn
    simp only [hi] at h hok ⊢
    rcases hst with rfl | rfl | rfl
    · simp only [ne_eq, not_true_eq_false, if_false, hz, Nat.sub_zero] at h hok ⊢
      cases hl : bloop o pb o.maxIter b0 ⟨0, .inactive⟩ false with
      | error e => rw [hl] at h; cases h
      | ok r =>
        obtain ⟨t1, b2⟩ := r
        rw [hl] at h
        have ht1 := (bloop_le _ hl).2
        have e4 : t1 = t ∧ b2 = bs' := by
          rcases ht1 with ⟨rfl, -⟩ | ⟨rfl | rfl, -⟩ <;>
            simpa [terminate, Except.map] using h
        obtain ⟨rfl, rfl⟩ := e4
        simp only [hl] at hok ⊢
        refine ⟨?_, ⟨_, ?_, (List.append_assoc _ _ _).symm⟩, fun _ _ => ⟨b0, hz, hn0, hl, rfl, ?_⟩⟩
        · rcases ht1 with ⟨rfl, -⟩ | ⟨rfl | rfl, -⟩ <;> simp
        · intro c hc
          refine hok c ?_
          rw [← List.append_assoc]
          exact List.mem_append_left _ hc
        · intro k bk b hk
          have h1 : bInit { o with maxIter := k } pb { b1 with s := preInit { o with maxIter := k } b1.s } = .ok (.success, b0) := hi
          unfold bdualSolve
          rw [h1]
          simp only [ne_eq, not_true_eq_false, if_false, hz, Nat.sub_zero]
          rw [bloop_setMaxIter, (bent_loop k hk).1]
          rfl
    · simp only [ne_eq, reduceCtorEq, not_false_eq_true, if_true] at h ⊢
      have e4 : t = .overconstrainedProblem := by
        simp only [terminate] at h
        cases hd : o.dbg <;> simp [hd, Except.map] at h
        exact h.1.symm
      subst e4
      exact ⟨by simp, ⟨_, fun c hc => (processLog_quiet _ _ _ _ c hc).2, rfl⟩, fun _ h => absurd rfl h⟩
    · simp only [ne_eq, reduceCtorEq, not_false_eq_true, if_true] at h ⊢
      have e4 : t = .nonPosHessian := by
        simp only [terminate, Except.map, Except.ok.injEq, Prod.mk.injEq] at h
        exact h.1.symm
      subst e4
      exact ⟨by simp, ⟨_, fun c hc => (processLog_quiet _ _ _ _ c hc).2, rfl⟩, fun h => absurd rfl h⟩

theorem blockLog_loop {shw : K ⊕ B → Word} {flags : BitVec 32} {pre : List (Word × Int)} {id nm : Word} {l m e : Calls K B}
    (hl : ∀ c ∈ l, c.quiet) (he : ∀ c ∈ e, c.plain) (he' : ∀ w, ∀ c ∈ e, ¬ Member flags nm w c) (iter i : Int) (v : Val) :
    Stmt.assign (pathOf pre id i nm) v ∈ expectedAll shw flags pre id iter (.startIter (-1) :: (l ++ (m ++ e))) ↔
      Stmt.assign (pathOf pre id i nm) v ∈ expectedAll shw flags pre id (-1) m := by
  simp only [expectedAll, List.mem_append, expectedAll_append]
  have e1 : ¬ Stmt.assign (pathOf pre id i nm) v ∈ expected shw flags pre id iter (LogCall.startIter (K := K ⊕ B) (-1)) := by
    rw [mem_expected]
    rintro ⟨-, w, ⟨f, vals, e, -⟩, -⟩; cases e
  have e2 : ∀ iter, ¬ Stmt.assign (pathOf pre id i nm) v ∈ expectedAll shw flags pre id iter l := by
    intro iter
    rw [mem_expectedAll fun c hc => (hl c hc).1]
    rintro ⟨-, w, h, -⟩
    exact quiet_member hl h
  have e3 : ∀ iter, ¬ Stmt.assign (pathOf pre id i nm) v ∈ expectedAll shw flags pre id iter e := by
    intro iter
    rw [mem_expectedAll he]
    rintro ⟨-, w, ⟨c, hc, h⟩, -⟩
    exact he' w c hc h
  rw [or_iff_right e1, or_iff_right (e2 _), or_iff_left (e3 _), nextAll_plain fun c hc => (hl c hc).1]
  rfl

theorem bassigned {flags : BitVec 32} {nm : Word} {F : State K → Bool → LVal (K ⊕ B)} (hF : BField flags nm F)
    {shw : K ⊕ B → Word} {pre : List (Word × Int)} {id : Word} {o : Opts K} {pb : BPb K B} {b0 bs' bk : BState K} {t : Term} {b : Bool} {k : Nat}
    {l : Calls K B} (hl : ∀ c ∈ l, c.quiet) (hz : b0.s.it = 0)
    (h1 : bloop o pb o.maxIter b0 ⟨0, .inactive⟩ false = .ok (t, bs')) (hk : k ≤ bs'.s.it) (hkm : k < o.maxIter)
    (hs : bent o pb k b0 ⟨0, .inactive⟩ false = some (bk, b)) (iter : Int) :
    Assigned (expectedAll shw flags pre id iter (.startIter (-1) :: (l ++ (bloopLog o pb o.maxIter b0 ⟨0, .inactive⟩ false ++ termLog t))))
      (pathOf pre id (k + 1) nm) ((F bk.s b).value shw) := by
  intro w
  rw [blockLog_loop hl (fun c hc => (termLog_plain _ c hc).1) (fun w c hc => termLog_member hc), bloopLog_field hF _ h1]
  constructor
  · rintro ⟨k', -, -, h4, sk', b', h5, rfl⟩
    have : k' = k := by rw [hz] at h4; push_cast at h4; omega
    subst this
    rw [hs] at h5
    simp only [Option.some.injEq, Prod.mk.injEq] at h5
    rw [h5.1, h5.2]
  · rintro rfl
    exact ⟨k, hkm, by omega, by rw [hz]; push_cast; ring, bk, b, hs, rfl⟩

/-- **C84, iterates.** The log of the structured solver shows the iterates: as `C73_iterates`, without the flags `INPUT` and
`NO_ITER`. -/
theorem C84_iterates {shw : K ⊕ B → Word} (hs : ∀ x, Clean (shw x)) {g : Logger} {pre : List (Word × Int)} {id : Word} (hg : Named g pre id)
    (hf : (LogFlags.input.bits ||| LogFlags.noIter.bits) &&& g.flags = 0)
    {o : Opts K} {pb : BPb K B} {as : List Status} {fresh : Nat → K} {bs bs' : BState K} {t : Term}
    (h : bsolve o pb as fresh bs = .ok (t, bs')) (ht : t ≠ .nonPosHessian) (ht' : t ≠ .overconstrainedProblem) :
    ∃ S, readScript (blockText shw g o pb as fresh bs) = some S ∧ ∀ k ≤ bs'.s.it, k < o.maxIter →
      ∃ bk, bsolve { o with maxIter := k } pb as fresh bs = .ok (.maxIterReached, bk) ∧
        (LogFlags.iterationBasicDetails.bits &&& g.flags ≠ 0 →
          Assigned S (pathOf pre id (k + 1) ['x']) (column shw pb.n bk.s.x) ∧
          Assigned S (pathOf pre id (k + 1) ['f', '_']) (.mat [[shw (.inl bk.s.f)]]) ∧
          (Assigned S (pathOf pre id (k + 1) ['u']) (column shw bk.s.A.q bk.s.u) ∨
            Assigned S (pathOf pre id (k + 1) ['u']) (column shw (bk.s.A.q + 1) bk.s.u))) ∧
        (LogFlags.activeSetDetails.bits &&& g.flags ≠ 0 →
          Assigned S (pathOf pre id (k + 1) ['A', '_']) (rowInts ((List.range bk.s.A.q).map fun j => (bk.s.A.get j : Int)))) := by
  refine ⟨_, block_read hs hg hf o pb as fresh bs, ?_⟩
  obtain ⟨b0, hz, hn0, h1, h2, h3⟩ := (bsolve_run h).2.2 ht ht'
  rw [h2]
  have hq : ∀ c ∈ processLog o pb.sides (bArgs o pb as fresh bs).as (bArgs o pb as fresh bs).s.A, c.quiet :=
    fun c hc => (processLog_quiet _ _ _ _ c hc).1
  intro k hk hkm
  obtain ⟨bk, b, hsk⟩ := bloop_ent k h1 (by omega) (by omega)
  have hn : bk.s.nbVar = pb.n := (bent_nbVar _ hsk).trans hn0
  refine ⟨bk, h3 _ _ _ hsk, fun hf => ⟨?_, ?_, ?_⟩, fun hf => ?_⟩
  · have := bassigned (shw := shw) (pre := pre) (id := id) (bfield_x hf) hq hz h1 hk hkm hsk g.iter
    simpa only [value_lvec, hn] using this
  · exact bassigned (shw := shw) (pre := pre) (id := id) (bfield_f hf) hq hz h1 hk hkm hsk g.iter
  · have := bassigned (shw := shw) (pre := pre) (id := id) (bfield_u hf) hq hz h1 hk hkm hsk g.iter
    simp only [value_lvec] at this
    cases b with
    | false => exact .inl (by simpa using this)
    | true => exact .inr (by simpa using this)
  · exact bassigned (shw := shw) (pre := pre) (id := id) (bfield_A hf) hq hz h1 hk hkm hsk g.iter

/-- **C84, last iterate.** When the structured solver returns `SUCCESS` or `INFEASIBLE`, the last iterate of the log is
`solution()` and `objectiveValue()`, and the last active set is the final one. -/
theorem C84_last {shw : K ⊕ B → Word} (hs : ∀ x, Clean (shw x)) {g : Logger} {pre : List (Word × Int)} {id : Word} (hg : Named g pre id)
    (hf : (LogFlags.input.bits ||| LogFlags.noIter.bits) &&& g.flags = 0)
    {o : Opts K} {pb : BPb K B} {as : List Status} {fresh : Nat → K} {bs bs' : BState K} {t : Term}
    (h : bsolve o pb as fresh bs = .ok (t, bs')) (ht : t = .success ∨ t = .infeasible) :
    ∃ S, readScript (blockText shw g o pb as fresh bs) = some S ∧
      (LogFlags.iterationBasicDetails.bits &&& g.flags ≠ 0 →
        Assigned S (pathOf pre id (bs'.s.it + 1) ['x']) (column shw pb.n bs'.s.x) ∧
        Assigned S (pathOf pre id (bs'.s.it + 1) ['f', '_']) (.mat [[shw (.inl bs'.s.f)]]) ∧
        ∀ i v, Stmt.assign (pathOf pre id i ['x']) v ∈ S → ∃ k : Nat, i = k + 1 ∧ k ≤ bs'.s.it) ∧
      (LogFlags.activeSetDetails.bits &&& g.flags ≠ 0 →
        Assigned S (pathOf pre id (bs'.s.it + 1) ['A', '_']) (rowInts ((List.range bs'.s.A.q).map fun j => (bs'.s.A.get j : Int)))) := by
  refine ⟨_, block_read hs hg hf o pb as fresh bs, ?_⟩
  obtain ⟨b0, hz, hn0, h1, h2, -⟩ := (bsolve_run h).2.2 (by rcases ht with rfl | rfl <;> simp) (by rcases ht with rfl | rfl <;> simp)
  rw [h2]
  have hq : ∀ c ∈ processLog o pb.sides (bArgs o pb as fresh bs).as (bArgs o pb as fresh bs).s.A, c.quiet :=
    fun c hc => (processLog_quiet _ _ _ _ c hc).1
  obtain ⟨-, hkm, bk, b, hsk, e1, e2, e3⟩ := (bloop_le _ h1).2.resolve_left (by rintro ⟨rfl, -⟩; rcases ht with ht | ht <;> cases ht)
  rw [hz] at hsk hkm
  rw [Nat.sub_zero] at hsk
  rw [Nat.zero_add] at hkm
  have hn : bk.s.nbVar = pb.n := (bent_nbVar _ hsk).trans hn0
  refine ⟨fun hf => ⟨?_, ?_, ?_⟩, fun hf => ?_⟩
  · have := bassigned (shw := shw) (pre := pre) (id := id) (bfield_x hf) hq hz h1 le_rfl hkm hsk g.iter
    rw [e1]
    simpa only [value_lvec, hn] using this
  · rw [e2]
    exact bassigned (shw := shw) (pre := pre) (id := id) (bfield_f hf) hq hz h1 le_rfl hkm hsk g.iter
  · intro i v hv
    rw [blockLog_loop hq (fun c hc => (termLog_plain _ c hc).1) (fun w c hc => termLog_member hc), bloopLog_field (bfield_x hf) _ h1] at hv
    obtain ⟨k, -, h3, h4, -⟩ := hv
    exact ⟨k, by rw [h4, hz]; push_cast; ring, by omega⟩
  · rw [e3]
    exact bassigned (shw := shw) (pre := pre) (id := id) (bfield_A hf) hq hz h1 le_rfl hkm hsk g.iter

/-- **C84, status.** With `TERMINATION`, the last line of the log of the structured solver is the comment of the status it
returns, except for `OVERCONSTRAINED_PROBLEM`, which is not commented. -/
theorem C84_status {shw : K ⊕ B → Word} (hs : ∀ x, Clean (shw x)) {g : Logger} {pre : List (Word × Int)} {id : Word} (hg : Named g pre id)
    (hf : (LogFlags.input.bits ||| LogFlags.noIter.bits) &&& g.flags = 0) (hf' : LogFlags.termination.bits &&& g.flags ≠ 0)
    {o : Opts K} {pb : BPb K B} {as : List Status} {fresh : Nat → K} {bs bs' : BState K} {t : Term}
    (h : bsolve o pb as fresh bs = .ok (t, bs')) (ht : t ≠ .overconstrainedProblem) :
    ∃ S c, readScript (blockText shw g o pb as fresh bs) = some S ∧ S.getLast? = some (.comment (' ' :: c)) ∧
      ∀ t' text, termText t' = some text → (c = text.toList ↔ t' = t) := by
  obtain ⟨hst, ⟨l, -, hl⟩, -⟩ := bsolve_run h
  obtain ⟨text, htext⟩ : ∃ text, termText t = some text := by
    rcases hst with rfl | rfl | rfl | rfl | rfl
    · exact ⟨_, rfl⟩
    · exact ⟨_, rfl⟩
    · exact ⟨_, rfl⟩
    · exact ⟨_, rfl⟩
    · exact absurd rfl ht
  refine ⟨_, text.toList, block_read hs hg hf o pb as fresh bs, ?_, ?_⟩
  · rw [hl, show termLog (K := K) (B := B) t = [.comment LogFlags.termination.bits text.toList] by unfold termLog; rw [htext],
      ← List.cons_append, expectedAll_append]
    simp only [expectedAll, expected, if_neg hf']
    simp
  · intro t' text' ht'
    constructor
    · intro h1
      have : text = text' := String.toList_injective h1
      subst this
      exact termText_injective ht' htext
    · rintro rfl
      rw [htext] at ht'
      cases ht'
      rfl

end Log
end JrlQp
