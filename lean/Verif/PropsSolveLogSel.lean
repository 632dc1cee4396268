import Verif.PropsSolveLogEx
import Verif.ExactSelect

/-!
# C73: the constraint selected at an iteration, as shown by the log
-/

namespace JrlQp
namespace Log

open NumOps Matlab Spec

section Generic

variable {K B : Type} [Zero K] [One K] [Add K] [Sub K] [Neg K] [Mul K] [Div K] [NumOps K B] [SumOps K]

theorem iterTail_sc {o : Opts K} {pb : Pb K B} {s : State K} {sc : SC} {skip : Bool} {flags : BitVec 32} {w : LVal (K ⊕ B)}
    (h : ∃ c ∈ iterTail o pb s sc skip, Member flags ['s', 'c'] w c) :
    skip = false ∧ (select pb s.nbVar s.A s.x).status ≠ .inactive ∧
      w = .sel (select pb s.nbVar s.A s.x).p ((select pb s.nbVar s.A s.x).status.toNat) := by
  obtain ⟨c, hc, h⟩ := h
  unfold iterTail iterLog at hc
  simp only [List.cons_append, List.tail_cons, List.nil_append, List.mem_cons] at hc
  rcases hc with rfl | rfl | hc
  · obtain ⟨f, vals, e, h0, -, h1, -⟩ := h
    injection e with e1 e2
    rw [← e2] at h1
    simp at h1
  · obtain ⟨f, vals, e, h0, -, h1, -⟩ := h
    injection e with e1 e2
    rw [← e2] at h1
    simp at h1
  · have hb : ∀ s sc, c ∈ bodyLog o pb s sc → False := by
      intro s sc hc
      have := bodyLog_names hc h
      revert this
      decide
    cases skip with
    | true => exact (hb _ _ (by simpa using hc)).elim
    | false =>
      simp only [Bool.false_eq_true, if_false] at hc
      split_ifs at hc with hs
      · simp at hc
      · rcases List.mem_cons.1 hc with rfl | hc
        · obtain ⟨f, vals, e, -, -, h1, -⟩ := h
          injection e with _ e2
          rw [← e2] at h1
          simp only [List.mem_cons, List.not_mem_nil, or_false, Prod.mk.injEq, true_and] at h1
          exact ⟨rfl, hs, h1⟩
        · exact (hb _ _ hc).elim

theorem loopLog_sc {flags : BitVec 32} {shw : K ⊕ B → Word} {pre : List (Word × Int)} {id : Word} {o : Opts K} {pb : Pb K B} (fuel : Nat) :
    ∀ {s : State K} {sc : SC} {skip : Bool} {iter : Int} {t : Term} {s' : State K}, loop o pb fuel s sc skip = .ok (t, s') → ∀ i v,
    Stmt.assign (pathOf pre id i ['s', 'c']) v ∈ expectedAll shw flags pre id iter (loopLog o pb fuel s sc skip) →
      ∃ k, k < fuel ∧ s.it + k ≤ s'.it ∧ i = (s.it + k : Nat) + 1 ∧ ∃ sk b, ent o pb k s sc skip = some (sk, b) ∧
        (select pb sk.nbVar sk.A sk.x).status ≠ .inactive ∧
        v = (LVal.sel (K := K ⊕ B) (select pb sk.nbVar sk.A sk.x).p ((select pb sk.nbVar sk.A sk.x).status.toNat)).value shw := by
  induction fuel with
  | zero => intro s sc skip iter t s' _ i v; simp [loopLog, expectedAll]
  | succ fuel ih =>
    intro s sc skip iter t s' h i v
    simp only [loopLog, iterLog_eq, List.cons_append, expectedAll, expectedAll_append, List.mem_append]
    rw [mem_expectedAll fun c hc => (iterTail_plain _ _ _ _ _ c hc).1, mem_expected]
    have hle := (loop_le _ h).1
    rintro (⟨-, w, ⟨f, vals, e, -⟩, -⟩ | ⟨hi, w, hw, rfl⟩ | hm)
    · cases e
    · obtain ⟨-, h2, rfl⟩ := iterTail_sc hw
      exact ⟨0, by omega, by omega, hi, s, skip, rfl, h2, rfl⟩
    · simp only [loop] at h
      cases hr : iterate o pb s sc skip with
      | error e => rw [hr] at h; cases h
      | ok r =>
        rw [hr] at h hm
        cases r with
        | done t1 s1 => simp [expectedAll] at hm
        | cont s1 sc1 b1 =>
          simp only at h hm
          have hi : s1.it = s.it := iterate_it hr
          obtain ⟨k, h1, h2, h3, sk, b, h4, h5⟩ := ih h i v hm
          simp only at h2 h3
          refine ⟨k + 1, by omega, by omega, by rw [h3, hi]; push_cast; ring, sk, b, ?_, h5⟩
          simp only [ent, hr]
          exact h4

/-- The numbers of constraints and of bounds of the active set. -/
def dimsA (s : State K) : Nat × Nat := (s.A.nbCstr, s.A.nbBnd)

theorem addConstraint_dimsA (o : Opts K) (s : State K) (sc : SC) : dimsA (addConstraint o s sc) = dimsA s := by
  have : (addConstraint o s sc).A = s.A.activate sc.p sc.status := rfl
  simp only [dimsA, this, ActiveSet.activate_nbCstr, ActiveSet.activate_nbBnd]

theorem removeConstraint_dimsA (o : Opts K) (s : State K) (l : Nat) : dimsA (removeConstraint o s l) = dimsA s := by
  have : (removeConstraint o s l).A = s.A.deactivate l := rfl
  simp only [dimsA, this, ActiveSet.deactivate_nbCstr, ActiveSet.deactivate_nbBnd]

theorem iterBody_cont_dimsA {o : Opts K} {pb : Pb K B} {s s' : State K} {sc sc' : SC} {b : Bool}
    (h : iterBody o pb s sc = .ok (.cont s' sc' b)) : dimsA s' = dimsA s := by
  unfold iterBody at h
  simp only [] at h
  split_ifs at h <;> cases h
  · rw [removeConstraint_dimsA]; rfl
  · rw [addConstraint_dimsA]; rfl
  · rw [removeConstraint_dimsA]; rfl

theorem iterate_cont_dimsA {o : Opts K} {pb : Pb K B} {s s' : State K} {sc sc' : SC} {skip b : Bool}
    (h : iterate o pb s sc skip = .ok (.cont s' sc' b)) : dimsA s' = dimsA s := by
  unfold iterate at h
  simp only [] at h
  split_ifs at h
  · exact iterBody_cont_dimsA h
  · simp at h
  · have := iterBody_cont_dimsA h
    rw [this]; rfl

theorem ent_dimsA {o : Opts K} {pb : Pb K B} (k : Nat) : ∀ {s : State K} {sc : SC} {skip : Bool} {sk : State K} {b : Bool},
    ent o pb k s sc skip = some (sk, b) → dimsA sk = dimsA s := by
  induction k with
  | zero => intro s sc skip sk b h; simp only [ent, Option.some.injEq, Prod.mk.injEq] at h; rw [← h.1]
  | succ k ih =>
    intro s sc skip sk b h
    simp only [ent] at h
    split at h
    · rename_i s1 sc1 b1 hr
      have := ih h
      rw [this, ← iterate_cont_dimsA hr]; rfl
    · simp at h

theorem addInitials_dimsA {o : Opts K} {pb : Pb K B} (l : List SC) : ∀ {s s' : State K}, addInitials o pb l s = .ok s' → dimsA s' = dimsA s := by
  induction l with
  | nil => intro s s' h; simp [addInitials] at h; rw [h]
  | cons sc l ih =>
    intro s s' h
    simp only [addInitials] at h
    cases hr : addInitialConstraint o pb s sc with
    | error e => simp [hr] at h
    | ok s1 =>
      simp only [hr] at h
      rw [ih h]
      unfold addInitialConstraint at hr
      simp only [] at hr
      split_ifs at hr
      cases hr
      rw [addConstraint_dimsA]; rfl

theorem init_dimsA {o : Opts K} {pb : Pb K B} {s s' : State K} {t} (h : init_ o pb s = .ok (t, s')) : dimsA s' = dimsA s := by
  unfold init_ at h
  simp only [] at h
  split_ifs at h
  · cases h; rfl
  · unfold initActiveSet at h
    split_ifs at h
    split at h
    · cases h
    · rename_i s1 hs1
      cases h
      rw [addInitials_dimsA _ hs1]; rfl

end Generic

/-- The constraint number `p` (general constraints first, then the bounds) is violated by `x` on the side named by the code of its `ActivationStatus`
(1 LOWER, 2 UPPER, 4 LOWER_BOUND, 5 UPPER_BOUND), and `viol` is by how much. -/
def ViolatedSide (pb : Pb ℝ EReal) (x : Nat → ℝ) (p : Nat) (code : Nat) (viol : EReal) : Prop :=
  0 < viol ∧
    (p < pb.m ∧ (code = 1 ∧ viol = pb.bl p - (row pb x p : ℝ) ∨ code = 2 ∧ viol = (row pb x p : ℝ) - pb.bu p) ∨
      ∃ i < pb.nb, p = pb.m + i ∧ (code = 4 ∧ viol = pb.xl i - (x i : ℝ) ∨ code = 5 ∧ viol = (x i : ℝ) - pb.xu i))

theorem neg_coe_sub (a : ℝ) (b : EReal) : -((a : EReal) - b) = b - a := by
  induction b using EReal.rec with
  | bot => simp
  | top => simp
  | coe y => norm_cast; ring

theorem neg_sub_coe (a : ℝ) (b : EReal) : -(b - (a : EReal)) = a - b := by
  induction b using EReal.rec with
  | bot => simp
  | top => simp
  | coe y => norm_cast; ring

/-- **C73, the selected constraint.** When the log shows a selected constraint `sc = {p, code}` at the index `k + 1`: the constraint `p` is violated, on the
side named by the code, by the iterate `x` of the same index; it is not active there; and no constraint that is not active there is more violated. -/
theorem C73_selected {shw : ℝ ⊕ EReal → Word} (hs : ∀ x, Clean (shw x)) {g : Logger} {pre : List (Word × Int)} {id : Word} (hg : Named g pre id)
    {o : Opts ℝ} {pb : Pb ℝ EReal} (hx : NotCrossed pb) {s s' : State ℝ} {t : Term} (h : solve o pb s = .ok (t, s')) (ht : t ≠ .nonPosHessian) :
    ∃ S, readScript (script shw g (solveLog o pb s)) = some S ∧ ∀ i v, Stmt.assign (pathOf pre id i ['s', 'c']) v ∈ S →
      ∃ k ≤ s'.it, i = (k : Int) + 1 ∧ ∃ sk, solve { o with maxIter := k } pb s = .ok (.maxIterReached, sk) ∧
        ∃ (p code : Nat) (viol : EReal), v = .cell [decInt p, decInt code] ∧ ViolatedSide pb sk.x p code viol ∧ sk.A.statusAt p = .inactive ∧
          ∀ p' code' viol', ViolatedSide pb sk.x p' code' viol' → sk.A.statusAt p' = .inactive → viol' ≤ viol := by
  refine ⟨_, C71_script hs hg _ (solveLog_ok o pb s), ?_⟩
  obtain ⟨s0, h0, hz, h1⟩ := solve_parts h ht
  intro i v hv
  rw [solveLog_loop h0 hz h1 (by decide)] at hv
  obtain ⟨k, h2, h3, h4, sk, b, h5, h6, h7⟩ := loopLog_sc _ h1 i v hv
  rw [hz, Nat.zero_add] at h3 h4
  have hn : sk.nbVar = pb.n := by
    rw [ent_nbVar _ h5, init_nbVar h0, (preInit_dims _ _).1, (resize_dims _ _ _ _).1]
  have hA : dimsA sk = (pb.m, pb.nb) := by
    rw [ent_dimsA _ h5, init_dimsA h0]
    have d1 := preInit_dims o (resize s pb.n pb.m pb.useBnd)
    have d2 := resize_dims s pb.n pb.m pb.useBnd
    show (_, _) = _
    rw [d1.2.1, d1.2.2, d2.2.1, d2.2.2]
    rfl
  obtain ⟨acc, hacc, hi⟩ := select_inv hx (A := sk.A) (congrArg Prod.fst hA) (congrArg Prod.snd hA) sk.x
  rw [hn, ← hacc] at h6 h7
  obtain ⟨g1, g2, g3, g4⟩ := hi.some h6
  refine ⟨k, h3, h4, sk, solve_stop h0 hz h5, acc.sc.p, acc.sc.status.toNat, -acc.smin, h7, ⟨EReal.neg_pos.2 g1, ?_⟩, g4, ?_⟩
  · rw [g2]
    unfold viol slackHi slackLo
    rcases g3 with ⟨a, b | b⟩ | ⟨a, a', b | b⟩
    · refine .inl ⟨a, .inl ⟨by rw [b]; rfl, ?_⟩⟩
      simp [b, Status.isUpper, a, neg_coe_sub]
    · refine .inl ⟨a, .inr ⟨by rw [b]; rfl, ?_⟩⟩
      simp [b, Status.isUpper, a, neg_sub_coe]
    · refine .inr ⟨acc.sc.p - pb.m, by omega, by omega, .inl ⟨by rw [b]; rfl, ?_⟩⟩
      simp [b, Status.isUpper, show ¬ acc.sc.p < pb.m by omega, neg_coe_sub]
    · refine .inr ⟨acc.sc.p - pb.m, by omega, by omega, .inr ⟨by rw [b]; rfl, ?_⟩⟩
      simp [b, Status.isUpper, show ¬ acc.sc.p < pb.m by omega, neg_sub_coe]
  · rintro p' code' viol' ⟨-, hp⟩ hst
    have hlt : p' < pb.m + pb.nb := by
      rcases hp with ⟨a, -⟩ | ⟨j, a, rfl, -⟩ <;> omega
    obtain ⟨m1, m2⟩ := hi.min p' hlt hst
    rw [EReal.le_neg]
    unfold slackLo at m1
    unfold slackHi at m2
    rcases hp with ⟨a, ⟨-, rfl⟩ | ⟨-, rfl⟩⟩ | ⟨j, a, rfl, ⟨-, rfl⟩ | ⟨-, rfl⟩⟩
    · rw [if_pos a] at m1; rw [neg_sub_coe]; exact m1
    · rw [if_pos a] at m2; rw [neg_coe_sub]; exact m2
    · rw [if_neg (by omega), Nat.add_sub_cancel_left] at m1; rw [neg_sub_coe]; exact m1
    · rw [if_neg (by omega), Nat.add_sub_cancel_left] at m2; rw [neg_coe_sub]; exact m2

/-- **C73, the first selection is shown.** With `ACTIVE_SET`, when the point reached after the equality constraints violates a constraint that is not active,
the log shows a selected constraint at the index 1. -/
theorem C73_selected_first {shw : ℝ ⊕ EReal → Word} (hs : ∀ x, Clean (shw x)) {g : Logger} {pre : List (Word × Int)} {id : Word} (hg : Named g pre id)
    (hf : LogFlags.activeSet.bits &&& g.flags ≠ 0) {o : Opts ℝ} {pb : Pb ℝ EReal} (hx : NotCrossed pb) (hit : 0 < o.maxIter) {s s' s0 : State ℝ} {t : Term}
    (h : solve o pb s = .ok (t, s')) (h0 : solve { o with maxIter := 0 } pb s = .ok (.maxIterReached, s0))
    {p code : Nat} {viol : EReal} (hv : ViolatedSide pb s0.x p code viol) (hp : s0.A.statusAt p = .inactive) :
    ∃ S v, readScript (script shw g (solveLog o pb s)) = some S ∧ Stmt.assign (pathOf pre id 1 ['s', 'c']) v ∈ S := by
  have ht : t ≠ .nonPosHessian := by
    rintro rfl
    obtain ⟨e0, g1, g2, g3⟩ := solve_parts h0 (by simp)
    rw [init_setMaxIter] at g1
    unfold solve dualSolve at h
    have g1' : init_ o pb (preInit o (resize s pb.n pb.m pb.useBnd)) = .ok (.success, e0) := g1
    rw [g1'] at h
    simp only [ne_eq, not_true_eq_false, if_false, g2, Nat.sub_zero] at h
    cases hl : loop o pb o.maxIter e0 ⟨0, .inactive⟩ false with
    | error e => simp [hl] at h
    | ok r =>
      obtain ⟨t1, s1⟩ := r
      simp only [hl] at h
      rcases loop_it _ hl with ⟨rfl, -⟩ | ⟨rfl | rfl, -⟩ <;> simp [terminate] at h
  obtain ⟨e0, g1, g2, g3⟩ := solve_parts h ht
  have e : s0 = e0 := by
    have := solve_stop (k := 0) (sk := e0) (b := false) g1 g2 rfl
    rw [h0] at this
    simpa using this
  subst e
  have hn : s0.nbVar = pb.n := by
    rw [init_nbVar g1, (preInit_dims _ _).1, (resize_dims _ _ _ _).1]
  have hA : dimsA s0 = (pb.m, pb.nb) := by
    rw [init_dimsA g1]
    have d1 := preInit_dims o (resize s pb.n pb.m pb.useBnd)
    have d2 := resize_dims s pb.n pb.m pb.useBnd
    show (_, _) = _
    rw [d1.2.1, d1.2.2, d2.2.1, d2.2.2]
    rfl
  have hsel : (select pb s0.nbVar s0.A s0.x).status ≠ .inactive := by
    obtain ⟨acc, hacc, hi⟩ := select_inv hx (A := s0.A) (congrArg Prod.fst hA) (congrArg Prod.snd hA) s0.x
    rw [hn, ← hacc]
    intro hc
    have hz := hi.none hc
    obtain ⟨k1, k2⟩ := hv
    have hlt : p < pb.m + pb.nb := by
      rcases k2 with ⟨a, -⟩ | ⟨j, a, rfl, -⟩ <;> omega
    obtain ⟨m1, m2⟩ := hi.min p hlt hp
    rw [hz] at m1 m2
    unfold slackLo at m1
    unfold slackHi at m2
    have hle : viol ≤ 0 := by
      rw [← neg_zero, EReal.le_neg]
      rcases k2 with ⟨a, ⟨-, rfl⟩ | ⟨-, rfl⟩⟩ | ⟨j, a, rfl, ⟨-, rfl⟩ | ⟨-, rfl⟩⟩
      · rw [if_pos a] at m1; rw [neg_sub_coe]; exact m1
      · rw [if_pos a] at m2; rw [neg_coe_sub]; exact m2
      · rw [if_neg (by omega), Nat.add_sub_cancel_left] at m1; rw [neg_sub_coe]; exact m1
      · rw [if_neg (by omega), Nat.add_sub_cancel_left] at m2; rw [neg_coe_sub]; exact m2
    exact absurd k1 (not_lt.2 hle)
  refine ⟨_, (LVal.sel (K := ℝ ⊕ EReal) (select pb s0.nbVar s0.A s0.x).p ((select pb s0.nbVar s0.A s0.x).status.toNat)).value shw,
    C71_script hs hg _ (solveLog_ok o pb s), ?_⟩
  rw [solveLog_loop g1 g2 g3 (by decide)]
  obtain ⟨f, hf'⟩ : ∃ f, o.maxIter = f + 1 := ⟨o.maxIter - 1, by omega⟩
  rw [hf']
  simp only [loopLog, iterLog_eq, List.cons_append, expectedAll, expectedAll_append, List.mem_append]
  refine .inr (.inl ?_)
  rw [mem_expectedAll fun c hc => (iterTail_plain _ _ _ _ _ c hc).1]
  refine ⟨by rw [g2]; rfl, _, ⟨.log LogFlags.activeSet.bits
    [(['s', 'c'], .sel (select pb s0.nbVar s0.A s0.x).p ((select pb s0.nbVar s0.A s0.x).status.toNat))], ?_, _, _, rfl, hf, by decide, by simp, rfl⟩, rfl⟩
  unfold iterTail iterLog
  simp only [List.cons_append, List.tail_cons, List.nil_append, Bool.false_eq_true, if_false, if_neg hsel]
  simp

open Finset in
/-- For `x₀ ≥ 1`, `x₀ + x₁ = 0`, the log shows that the first constraint is selected, on its lower side. -/
example {shw : ℝ ⊕ EReal → Word} (hs : ∀ x, Clean (shw x)) :
    ∃ S, readScript (script shw allLogger (solveLog (exLogOpts false) cexEq State.empty)) = some S ∧
      Stmt.assign [(['l', 'o', 'g'], some 1), (['s', 'c'], none)] (.cell [['0'], ['1']]) ∈ S := by
  have hpd : PosDefN cexEq.n (hess cexEq) := posDef_id (fun i j => rfl)
  have hc : cholOk cexEq := cholOk_of_posDefN hpd
  have hn : cexEq.n = 2 := rfl
  have heq := eqList_mid (pb := cexEq) rfl (Or.inl rfl) (by simp only [cexEq, if_true]; exact EReal.coe_ne_top _) rfl
    (by intro h; simp [cexEq] at h)
  have ht0 : (0 : ℝ) ≤ (exLogOpts false).tiny := by simp only [exLogOpts]; norm_num
  have ht : (exLogOpts false).tiny * (exLogOpts false).tiny ≤ 1 / 4 := by simp only [exLogOpts]; norm_num
  obtain ⟨s0, h1, hq0, hact0, hst0, hit0, hrun⟩ := solve_start_one (o := { exLogOpts false with maxIter := 0 }) ht0 hc inv_empty heq (z := fun _ => 1)
    (by intro a ha; rw [hn] at ha ⊢; interval_cases a <;> simp [normal, cexEq, hess, sum_range_succ])
    (lt_normn ht0 (by rw [hn]; simp; linarith))
  obtain ⟨hx0, -⟩ := Alg.point hpd h1 (x := fun _ => 0) (u := fun _ => 0)
    (by intro a _; simp [cexEq]) (by
      intro k hk
      have : k = 0 := by omega
      subst this
      rw [hact0]; simp [rhs, ndot]; simp [cexEq])
  have h0 : solve { exLogOpts false with maxIter := 0 } cexEq State.empty = .ok (.maxIterReached, s0) := hrun _ _ rfl
  obtain ⟨s', h, -⟩ := C15_equality_dropped (o := exLogOpts false) (by simp only [exLogOpts]; norm_num) (by simp only [exLogOpts]; norm_num)
    (by simp only [exLogOpts]; norm_num) (by simp only [exLogOpts]; norm_num) (s := State.empty) inv_empty
  have hx : NotCrossed cexEq := by
    refine ⟨fun i hi => ?_, fun hi => ?_⟩
    · have : i = 0 ∨ i = 1 := by have : i < 2 := hi; omega
      rcases this with rfl | rfl <;> simp [cexEq]
    · exact absurd hi (by simp [cexEq])
  have hrow : row cexEq s0.x 0 = 0 := by
    simp [row, hn, sum_range_succ, hx0 0 (by rw [hn]; omega), hx0 1 (by rw [hn]; omega)]
  have hv : ViolatedSide cexEq s0.x 0 1 1 := ⟨by simp, .inl ⟨by simp [cexEq], .inl ⟨rfl, by rw [hrow]; simp [cexEq]⟩⟩⟩
  obtain ⟨S, v, g1, g2⟩ := C73_selected_first hs allLogger_named (by decide) hx (by simp [exLogOpts]) h h0 hv (hst0 0 (by simp))
  obtain ⟨S', g3, g4⟩ := C73_selected hs allLogger_named hx h (by simp)
  obtain rfl : S = S' := Option.some.inj (g1.symm.trans g3)
  obtain ⟨k, -, hk, sk, g5, p, code, viol, rfl, g6, g7, -⟩ := g4 _ _ g2
  obtain rfl : k = 0 := by omega
  rw [h0] at g5
  cases g5
  have hp : p = 0 ∧ code = 1 := by
    obtain ⟨k1, ⟨k2, k3⟩ | ⟨j, k2, -⟩⟩ := g6
    · have : p = 0 ∨ p = 1 := by have : p < 2 := k2; omega
      rcases this with rfl | rfl
      · rcases k3 with ⟨k3, -⟩ | ⟨-, k3⟩
        · exact ⟨rfl, k3⟩
        · rw [k3, hrow] at k1
          simp [cexEq] at k1
      · have : s0.A.statusAt 1 = .equality := by
          have h : s0.A.get 0 = 1 := congrArg SC.p hact0
          have h' : s0.A.statusAt (s0.A.get 0) = .equality := congrArg SC.status hact0
          rwa [h] at h'
        rw [this] at g7; cases g7
    · exact absurd k2 (by simp [cexEq, Pb.nb])
  obtain ⟨rfl, rfl⟩ := hp
  have e0 : decInt ((0 : Nat) : Int) = ['0'] := by decide +kernel
  have e1 : decInt ((1 : Nat) : Int) = ['1'] := by decide +kernel
  rw [e0, e1] at g2
  exact ⟨S, g1, g2⟩

end Log
end JrlQp
