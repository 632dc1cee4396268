import Verif.PropsBox
import Verif.PropsExpSim
import Verif.PropsCounter

/-!
# What SUCCESS means in any arithmetic (C49, C50)

No law of arithmetic is used in this file: the theorems hold for IEEE doubles, with rounding errors, infinities and NaN.
-/

set_option linter.unusedSectionVars false

namespace JrlQp

open NumOps

variable {K B : Type} [Zero K] [One K] [Add K] [Sub K] [Neg K] [Mul K] [Div K] [NumOps K B] [SumOps K]

/-! ### Specification -/

/-- The value `v` (computed) is not found to be outside of `[l, u]`: neither `v - l < 0` nor `u - v < 0` is true, with the arithmetic of
the solver. -/
def NotOutside (K : Type) {B : Type} [Zero K] [One K] [Add K] [Sub K] [Neg K] [Mul K] [Div K] [NumOps K B] (v : K) (l u : B) : Prop :=
  bLt K (slackLow v l) (bZero K) = false ∧ bLt K (slackUp u v) (bZero K) = false

/-- No constraint whose status is `INACTIVE` is found to be violated at `x`. -/
def NoViolation (pb : Pb K B) (A : ActiveSet) (x : Nat → K) : Prop :=
  (∀ i < pb.m, A.statusAt i = .inactive → NotOutside K (esum (.slack pb.n i) (fun a => pb.C a i * x a) pb.n) (pb.bl i) (pb.bu i)) ∧
  (pb.useBnd = true → ∀ i < pb.n, A.statusAt (pb.m + i) = .inactive → NotOutside K (x i) (pb.xl i) (pb.xu i))

/-! ### Selection -/

theorem selGen_clean {pb : Pb K B} {n : Nat} {A : ActiveSet} {x : Nat → K} (l : List Nat) : ∀ {acc : Sel B},
    (l.foldl (selGen pb n A x) acc).sc.status = .inactive →
    acc.sc.status = .inactive ∧ l.foldl (selGen pb n A x) acc = acc ∧
      ∀ i ∈ l, A.isActive i = false → bLt K (slackLow (colDot pb n i x) (pb.bl i)) acc.smin = false ∧
        bLt K (slackUp (pb.bu i) (colDot pb n i x)) acc.smin = false := by
  induction l with
  | nil => intro acc h; exact ⟨h, rfl, by simp⟩
  | cons i l ih =>
    intro acc h
    rw [List.foldl_cons] at h ⊢
    obtain ⟨h1, h2, h3⟩ := ih h
    have key : selGen pb n A x acc i = acc ∧ (A.isActive i = false → bLt K (slackLow (colDot pb n i x) (pb.bl i)) acc.smin = false ∧
        bLt K (slackUp (pb.bu i) (colDot pb n i x)) acc.smin = false) := by
      unfold selGen at h1 ⊢
      dsimp only at h1 ⊢
      by_cases a1 : A.isActive i = true
      · rw [if_pos a1]; exact ⟨rfl, fun h => by rw [a1] at h; cases h⟩
      rw [if_neg a1] at h1 ⊢
      by_cases a2 : bLt K (slackLow (colDot pb n i x) (pb.bl i)) acc.smin = true
      · rw [if_pos a2] at h1; cases h1
      rw [if_neg a2] at h1 ⊢
      by_cases a3 : bLt K (slackUp (pb.bu i) (colDot pb n i x)) acc.smin = true
      · rw [if_pos a3] at h1; cases h1
      rw [if_neg a3]
      exact ⟨rfl, fun _ => ⟨by simpa using a2, by simpa using a3⟩⟩
    rw [key.1] at h1 h2 h3 ⊢
    refine ⟨h1, h2, fun j hj => ?_⟩
    rcases List.mem_cons.1 hj with rfl | hj
    · exact key.2
    · exact h3 j hj

theorem selBnd_clean {pb : Pb K B} {A : ActiveSet} {x : Nat → K} (l : List Nat) : ∀ {acc : Sel B},
    (l.foldl (selBnd pb A x) acc).sc.status = .inactive →
    acc.sc.status = .inactive ∧
      ∀ i ∈ l, A.isActiveBnd i = false → bLt K (slackLow (x i) (pb.xl i)) acc.smin = false ∧
        bLt K (slackUp (pb.xu i) (x i)) acc.smin = false := by
  induction l with
  | nil => intro acc h; exact ⟨h, by simp⟩
  | cons i l ih =>
    intro acc h
    rw [List.foldl_cons] at h
    obtain ⟨h1, h3⟩ := ih h
    have key : selBnd pb A x acc i = acc ∧ (A.isActiveBnd i = false → bLt K (slackLow (x i) (pb.xl i)) acc.smin = false ∧
        bLt K (slackUp (pb.xu i) (x i)) acc.smin = false) := by
      unfold selBnd at h1 ⊢
      by_cases a1 : A.isActiveBnd i = true
      · rw [if_pos a1]; exact ⟨rfl, fun h => by rw [a1] at h; cases h⟩
      rw [if_neg a1] at h1 ⊢
      by_cases a2 : bLt K (slackLow (x i) (pb.xl i)) acc.smin = true
      · rw [if_pos a2] at h1; cases h1
      rw [if_neg a2] at h1 ⊢
      by_cases a3 : bLt K (slackUp (pb.xu i) (x i)) acc.smin = true
      · rw [if_pos a3] at h1; cases h1
      rw [if_neg a3]
      exact ⟨rfl, fun _ => ⟨by simpa using a2, by simpa using a3⟩⟩
    rw [key.1] at h1 h3
    refine ⟨h1, fun j hj => ?_⟩
    rcases List.mem_cons.1 hj with rfl | hj
    · exact key.2
    · exact h3 j hj

theorem select_clean {pb : Pb K B} {s : State K} (hd : Dim pb s) (h : (select pb s.nbVar s.A s.x).status = .inactive) :
    NoViolation pb s.A s.x := by
  unfold select at h
  dsimp only at h
  obtain ⟨h1, h2⟩ := selBnd_clean _ h
  obtain ⟨_, h3, h4⟩ := selGen_clean _ h1
  rw [h3] at h2
  constructor
  · intro i hi hs
    have := h4 i (List.mem_range.2 (by rw [hd.nbCstr]; exact hi)) (by simp [ActiveSet.isActive, hs])
    rw [hd.nbVar] at this
    exact this
  · intro hb i hi hs
    have e : pb.nb = pb.n := by simp [Pb.nb, hb]
    exact h2 i (List.mem_range.2 (by rw [hd.nbBnd, e]; exact hi))
      (by simp [ActiveSet.isActiveBnd, ActiveSet.statusAtBnd, hd.nbCstr, hs])

/-- The main loop returns `SUCCESS` only when the selection finds nothing. -/
theorem loop_clean {o : Opts K} (law : FpLaws K o) {pb : Pb K B} (fuel : Nat) : ∀ {s : State K} {sc : SC} {skip : Bool} {t s'},
    Good pb s → (skip = true → Cand s.A sc) → loop o pb fuel s sc skip = .ok (t, s') →
    Good pb s' ∧ (t = .success → NoViolation pb s'.A s'.x) := by
  induction fuel with
  | zero =>
    intro s sc skip t s' hg _ h
    cases h
    exact ⟨hg, by simp⟩
  | succ fuel ih =>
    intro s sc skip t s' hg hc h
    obtain ⟨r, hr, hs⟩ := iterate_safe law (sc := sc) (skip := skip) hg hc
    simp only [loop, hr] at h
    cases r with
    | cont s1 sc1 skip1 =>
      exact ih (s := { s1 with it := s1.it + 1 }) (hs.1.of_eq rfl rfl rfl rfl rfl rfl rfl rfl rfl) hs.2.2 h
    | done t1 s1 =>
      cases h
      refine ⟨hs.2.1, fun ht => ?_⟩
      subst ht
      unfold iterate at hr
      dsimp only at hr
      split_ifs at hr with a1 a2 a3 a4
      · have := iterBody_it hr; simp at this
      · cases hr; exact select_clean hg.dim a3
      · have := iterBody_it hr; simp at this

/-- What is known of the final active set in any arithmetic: one status for each constraint and bound, at most `n` of them different
from `INACTIVE`. -/
def FewActive (pb : Pb K B) (A : ActiveSet) : Prop :=
  A.status.length = pb.m + (if pb.useBnd then pb.n else 0) ∧ A.status.countP (· != .inactive) ≤ pb.n

theorem Good.few {pb : Pb K B} {s : State K} (h : Good pb s) : FewActive pb s.A := by
  refine ⟨by rw [h.dim.wf.size, h.dim.nbCstr, h.dim.nbBnd]; rfl, ?_⟩
  have h1 := h.dim.wf.len
  have h2 := h.dim.wf.q_eq
  have h3 := h.q_le
  rw [h.dim.nbVar, h2] at h3
  unfold ActiveSet.cnt at h1
  omega

/-! ### Property theorems -/

/-- **C49, C50, base solver.** In any arithmetic (rounding errors, infinities and NaN included) and after any history, when `solve` returns
`SUCCESS` none of the constraints and bounds reported `INACTIVE` is found to be violated by `solution()`; and unless the Hessian is
rejected, `activeSet()` holds one status for each constraint and bound, at most `nbVar` of them not `INACTIVE`. -/
theorem C49_success {o : Opts K} (law : FpLaws K o) {pb : Pb K B} {s : State K} (hi : Inv s) (hq : cholOk pb → numEq pb ≤ pb.n) {t s'}
    (h : solve o pb s = .ok (t, s')) :
    (t = .success → NoViolation pb s'.A s'.x) ∧ (t ≠ .nonPosHessian → FewActive pb s'.A) := by
  unfold solve dualSolve at h
  obtain ⟨t0, s0, h1, h2, h3⟩ := init_safe (o := o) (preInit_dim (o := o) (resize_dim_pb hi pb)) hq
  rw [h1] at h
  dsimp only at h
  have hin := init_it h1
  by_cases ht : t0 = .success
  · rw [if_neg (by simpa using ht)] at h
    cases hl : loop o pb (o.maxIter - s0.it) s0 ⟨0, .inactive⟩ false with
    | error e => rw [hl] at h; cases h
    | ok r =>
      obtain ⟨t1, s1⟩ := r
      rw [hl] at h
      dsimp only at h
      obtain ⟨hg, hn⟩ := loop_clean law _ (h3 ht) (by simp) hl
      have : terminate o t1 s1 = .ok (t1, s1) := by
        rcases loop_it _ hl with ⟨rfl, _⟩ | ⟨rfl | rfl, _⟩ <;> rfl
      rw [this] at h
      cases h
      exact ⟨hn, fun _ => hg.few⟩
  · rw [if_pos ht] at h
    have := hin.2.resolve_left ht
    subst this
    cases h
    exact ⟨by simp, by simp⟩

/-- **C49, C50, warm-started solver.** -/
theorem C49_warm_success {o : Opts K} (law : FpLaws K o) {pb : Pb K B} {as : List Status} {xs : XState K} (hi : XInv xs)
    (ha : ArgOk o pb as) {t xs'} (h : xsolve o pb as xs = .ok (t, xs')) :
    (t = .success → NoViolation pb xs'.s.A xs'.s.x) ∧
    (t = .success ∨ t = .infeasible ∨ t = .maxIterReached → FewActive pb xs'.s.A) := by
  rcases xsolve_cases hi ha with ⟨_, h2⟩ | ⟨_, _, xs1, _, h2⟩ | ⟨_, A, xs1, _, _, _, h2, h3⟩
  · rcases h2 with ⟨_, h2⟩ | ⟨_, xs1, _, h2⟩
    · rw [h2] at h; cases h
    · rw [h2] at h; cases h; exact ⟨by simp, by simp⟩
  · rw [h2] at h; cases h; exact ⟨by simp, by simp⟩
  · rw [h3] at h
    cases hl : loop o pb (o.maxIter - xs1.s.it) xs1.s ⟨0, .inactive⟩ false with
    | error e => rw [hl] at h; cases h
    | ok r =>
      obtain ⟨t1, s1⟩ := r
      rw [hl] at h
      dsimp only at h
      obtain ⟨hg, hn⟩ := loop_clean law _ h2.good.good (by simp) hl
      have : terminate o t1 s1 = .ok (t1, s1) := by
        rcases loop_it _ hl with ⟨rfl, _⟩ | ⟨rfl | rfl, _⟩ <;> rfl
      rw [this] at h
      cases h
      exact ⟨hn, fun _ => hg.few⟩

/-- **C49, C50, box solver.** -/
theorem C49_box_success {o : Opts K} (law : FpLaws K o) {n : Nat} {x0 c : Nat → K} {bl inf : B} {xl xu : Nat → B} {s : State K}
    (hi : Inv s) {t s'} (h : boxSolve o n x0 c bl inf xl xu s = .ok (t, s')) :
    (t = .success → NoViolation (boxPb n x0 c bl inf xl xu) s'.A s'.x) ∧ FewActive (boxPb n x0 c bl inf xl xu) s'.A := by
  have hl := boxSolve_loop n x0 c bl inf xl xu hi h
  have hg := (box_fold (pb := boxPb n x0 c bl inf xl xu) rfl (boxPb_nb n x0 c bl inf xl xu)
    (BoxPre.start (o := o) (boxPb_dim o n x0 c bl inf xl xu hi)) n le_rfl).good
  obtain ⟨h1, h2⟩ := loop_clean law _ (s := boxReady o n x0 c bl inf xl xu s) hg (by simp) hl
  exact ⟨h2, h1.few⟩

/-- In exact arithmetic, "not found to be outside" is "inside". -/
theorem notOutside_real (v : ℝ) {l u : EReal} (hl : l ≠ ⊤) (hu : u ≠ ⊥) : NotOutside ℝ v l u ↔ l ≤ v ∧ (v : EReal) ≤ u := by
  have e1 : (bLt ℝ (slackLow v l) (bZero ℝ) = false) ↔ ¬ ((v : EReal) - l < 0) := by
    show decide ((v : EReal) - l < 0) = false ↔ _
    rw [decide_eq_false_iff_not]
  have e2 : (bLt ℝ (slackUp u v) (bZero ℝ) = false) ↔ ¬ (u - (v : EReal) < 0) := by
    show decide (u - (v : EReal) < 0) = false ↔ _
    rw [decide_eq_false_iff_not]
  unfold NotOutside
  rw [e1, e2, not_lt, not_lt]
  refine and_congr ?_ ?_
  · induction l with
    | bot => simp
    | top => exact absurd rfl hl
    | coe l => rw [← EReal.coe_sub, ← EReal.coe_zero, EReal.coe_le_coe_iff, EReal.coe_le_coe_iff, sub_nonneg]
  · induction u with
    | bot => exact absurd rfl hu
    | top => simp
    | coe u => rw [← EReal.coe_sub, ← EReal.coe_zero, EReal.coe_le_coe_iff, EReal.coe_le_coe_iff, sub_nonneg]

/-- The hypotheses of `C49_success` are met by a run that returns `SUCCESS` with an active constraint (here with crossed bounds). -/
example : ∃ (o : Opts ℝ) (s' : State ℝ), FpLaws ℝ o ∧ (cholOk cexCrossed → numEq cexCrossed ≤ cexCrossed.n) ∧
    solve o cexCrossed State.empty = .ok (.success, s') ∧ NoViolation cexCrossed s'.A s'.x := by
  have hq : cholOk cexCrossed → numEq cexCrossed ≤ cexCrossed.n := by
    intro _
    unfold numEq
    have : cexCrossed.nb = 0 := rfl
    rw [this]
    exact (Nat.add_le_add_right List.countP_le_length _).trans (by simp [cexCrossed])
  obtain ⟨⟨s', h, _⟩, _⟩ := C07_crossed_false (o := ⟨10, 100, false, 0, false⟩) le_rfl (by norm_num) (by norm_num) (by norm_num)
    (inv_empty (K := ℝ))
  exact ⟨_, s', fpLaws_real _ le_rfl, hq, h, (C49_success (fpLaws_real _ le_rfl) inv_empty hq h).1 rfl⟩

end JrlQp
