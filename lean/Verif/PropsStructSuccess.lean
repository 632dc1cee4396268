import Verif.PropsStructAny
import Verif.PropsIeee

/-!
# What SUCCESS of the structured solver means in any arithmetic (C63)
-/

set_option linter.unusedSectionVars false

namespace JrlQp

open NumOps

section generic
variable {K B : Type} [Zero K] [One K] [Add K] [Sub K] [Neg K] [Mul K] [Div K] [NumOps K B] [SumOps K]

/-! ## Specification -/

/-- No constraint whose status is `INACTIVE` is found to be violated at `x`: constraint `c` of block `b` involves only the variables of
block `b`, its value is the computed dot product of its column with these variables. -/
def BNoViolation (pb : BPb K B) (A : ActiveSet) (x : Nat → K) : Prop :=
  (∀ b < pb.C.nb, ∀ c < pb.C.cols b, A.statusAt (off pb.C.cols b + c) = .inactive →
    NotOutside K (esum (.slack (pb.C.rows b) (off pb.C.cols b + c)) (fun a => pb.C.blk b a c * x (off pb.C.rows b + a)) (pb.C.rows b))
      (pb.bl (off pb.C.cols b + c)) (pb.bu (off pb.C.cols b + c))) ∧
  (pb.useBnd = true → ∀ i < pb.n, A.statusAt (pb.m + i) = .inactive → NotOutside K (x i) (pb.xl i) (pb.xu i))

/-- One status for each constraint and bound, at most `n` of them different from `INACTIVE`. -/
def BFewActive (pb : BPb K B) (A : ActiveSet) : Prop :=
  A.status.length = pb.m + (if pb.useBnd then pb.n else 0) ∧ A.status.countP (· != .inactive) ≤ pb.n

/-! ## Selection -/

theorem selGenCx_clean {pb : BPb K B} {A : ActiveSet} {cx : Nat → K} (l : List Nat) : ∀ {acc : Sel B},
    (l.foldl (selGenCx pb A cx) acc).sc.status = .inactive →
    acc.sc.status = .inactive ∧ l.foldl (selGenCx pb A cx) acc = acc ∧
      ∀ i ∈ l, A.isActive i = false → bLt K (slackLow (cx i) (pb.bl i)) acc.smin = false ∧
        bLt K (slackUp (pb.bu i) (cx i)) acc.smin = false := by
  induction l with
  | nil => intro acc h; exact ⟨h, rfl, by simp⟩
  | cons i l ih =>
    intro acc h
    rw [List.foldl_cons] at h ⊢
    obtain ⟨h1, h2, h3⟩ := ih h
    have key : selGenCx pb A cx acc i = acc ∧ (A.isActive i = false → bLt K (slackLow (cx i) (pb.bl i)) acc.smin = false ∧
        bLt K (slackUp (pb.bu i) (cx i)) acc.smin = false) := by
      unfold selGenCx at h1 ⊢
      by_cases a1 : A.isActive i = true
      · rw [if_pos a1]; exact ⟨rfl, fun h => by rw [a1] at h; cases h⟩
      rw [if_neg a1] at h1 ⊢
      by_cases a2 : bLt K (slackLow (cx i) (pb.bl i)) acc.smin = true
      · rw [if_pos a2] at h1; cases h1
      rw [if_neg a2] at h1 ⊢
      by_cases a3 : bLt K (slackUp (pb.bu i) (cx i)) acc.smin = true
      · rw [if_pos a3] at h1; cases h1
      rw [if_neg a3]
      exact ⟨rfl, fun _ => ⟨by simpa using a2, by simpa using a3⟩⟩
    rw [key.1] at h1 h2 h3 ⊢
    refine ⟨h1, h2, fun j hj => ?_⟩
    rcases List.mem_cons.1 hj with rfl | hj
    · exact key.2
    · exact h3 j hj

/-- Computed value of a constraint. -/
theorem transposeMult_blk (c : StrC K) (x out : Nat → K) {b : Nat} (hb : b < c.nb) {k : Nat} (hk : k < c.cols b) :
    c.transposeMult out x (off c.cols b + k) = esum (.slack (c.rows b) (off c.cols b + k)) (fun a => c.blk b a k * x (off c.rows b + a)) (c.rows b) := by
  have hlt : off c.cols b + k < off c.cols c.nb := by have h0 : off c.cols b + c.cols b ≤ off c.cols c.nb := off_le (sz := c.cols) hb; omega
  unfold StrC.transposeMult
  rw [c.multStep_fold, if_pos hlt, blkOf_eq hb hk]
  simp

theorem bselect_clean {pb : BPb K B} {A : ActiveSet} {x cx : Nat → K} (h1 : A.nbCstr = pb.m) (h2 : A.nbBnd = pb.nb)
    (h : (bselect pb A x cx).1.status = .inactive) : BNoViolation pb A x := by
  unfold bselect at h
  dsimp only at h
  obtain ⟨g1, g2⟩ := selBnd_clean _ h
  obtain ⟨_, g3, g4⟩ := selGenCx_clean _ g1
  rw [g3] at g2
  constructor
  · intro b hb c hc hs
    have hlt : off pb.C.cols b + c < off pb.C.cols pb.C.nb := by have h0 : off pb.C.cols b + pb.C.cols b ≤ off pb.C.cols pb.C.nb := off_le (sz := pb.C.cols) hb; omega
    have := g4 (off pb.C.cols b + c) (List.mem_range.2 (by rw [h1]; exact hlt)) (by simp [ActiveSet.isActive, hs])
    rw [transposeMult_blk pb.C x cx hb hc] at this
    exact this
  · intro hb i hi hs
    have e : pb.nb = pb.n := by simp [BPb.nb, hb]
    exact g2 i (List.mem_range.2 (by rw [h2, e]; exact hi))
      (by simp [ActiveSet.isActiveBnd, ActiveSet.statusAtBnd, h1, hs])

/-- The main loop returns `SUCCESS` only when the selection finds nothing. -/
theorem bloop_clean {o : Opts K} {pb : BPb K B} (fuel : Nat) : ∀ {bs : BState K} {sc : SC} {skip : Bool} {bs'},
    bs.s.A.nbCstr = pb.m → bs.s.A.nbBnd = pb.nb → bloop o pb fuel bs sc skip = .ok (.success, bs') → BNoViolation pb bs'.s.A bs'.s.x := by
  induction fuel with
  | zero => intro bs sc skip bs' _ _ h; cases h
  | succ fuel ih =>
    intro bs sc skip bs' h1 h2 h
    rw [bloop] at h
    cases hr : biterate o pb bs sc skip with
    | error e => rw [hr] at h; cases h
    | ok r =>
      rw [hr] at h
      have hk := iterate_keep hr
      cases r with
      | cont b1 sc1 skip1 =>
        have e1 : b1.s.A.nbCstr = pb.m := hk.nbCstr.trans h1
        have e2 : b1.s.A.nbBnd = pb.nb := hk.nbBnd.trans h2
        exact ih (bs := { b1 with s := { b1.s with it := b1.s.it + 1 } }) e1 e2 h
      | done t1 b1 =>
        simp only [Except.ok.injEq, Prod.mk.injEq] at h
        obtain ⟨rfl, rfl⟩ := h
        have hbody : ∀ {bs : BState K} {sc : SC} {b1}, biterBody o pb bs sc ≠ .ok (.done .success b1) := by
          intro bs sc b1 h
          unfold biterBody at h
          split_ifs at h with h0
          cases h1 : bComputeStep pb bs sc with
          | none => rw [h1] at h; cases h
          | some b1 =>
            rw [h1] at h
            simp only [] at h
            split_ifs at h with h2 h3 h4 h5
            · cases h
            · split at h
              · cases h
              · cases h
            · split at h
              · cases h
              · cases h
            · split at h
              · cases h
              · cases h
        unfold biterate at hr
        simp only [] at hr
        split_ifs at hr with a1 a2 a3 a4
        · exact absurd hr hbody
        · simp only [Except.ok.injEq, BIter.done.injEq] at hr
          rw [← hr.2]
          exact bselect_clean h1 h2 a3
        · exact absurd hr hbody

theorem terminate_same {o : Opts K} {t1 : Term} {s1 : State K} {r} (h : terminate o t1 s1 = .ok r) : t1 = r.1 := by
  unfold terminate at h
  cases t1 <;> simp only at h <;> (try split_ifs at h) <;> cases h <;> rfl

/-- **C63, structured solver.** In any arithmetic and after any history: when `BlockGISolver::solve` returns `SUCCESS`, none of the constraints
and bounds reported `INACTIVE` is found to be violated by `solution()`. No assumption on the problem, the arguments or the arithmetic. -/
theorem C63_success {o : Opts K} {pb : BPb K B} {as : List Status} {fresh : Nat → K} {bs bs' : BState K} (hi : BInv bs)
    (h : bsolve o pb as fresh bs = .ok (.success, bs')) : BNoViolation pb bs'.s.A bs'.s.x := by
  unfold bsolve at h
  rw [ite_eq_iff] at h
  obtain ⟨_, h⟩ := h.resolve_right (by rintro ⟨_, h⟩; cases h)
  simp only [] at h
  obtain ⟨h1, _, h3, h4⟩ := bresize_inv (bs := { bs with g := pb.G })
    ⟨hi.wf, hi.szX, hi.szZ, hi.szD, hi.szU, hi.szR, hi.szCx, hi.qn, hi.ld, hi.size, hi.szE⟩ pb.n pb.m pb.useBnd fresh
  have h2 : ∀ c : BState K, c = (if o.warmStart = true then
      { bresize { bs with g := pb.G } pb.n pb.m pb.useBnd fresh with
        as := if as = [] then (bresize { bs with g := pb.G } pb.n pb.m pb.useBnd fresh).s.A.status else as }
      else bresize { bs with g := pb.G } pb.n pb.m pb.useBnd fresh) → c.s.A.nbCstr = pb.m ∧ c.s.A.nbBnd = pb.nb ∧ c.s.A.WF := by
    rintro c rfl
    split
    · exact ⟨h3, h4, h1.wf⟩
    · exact ⟨h3, h4, h1.wf⟩
  obtain ⟨k1, k2, k3⟩ := h2 _ rfl
  unfold bdualSolve at h
  generalize (if o.warmStart = true then
      { bresize { bs with g := pb.G } pb.n pb.m pb.useBnd fresh with
        as := if as = [] then (bresize { bs with g := pb.G } pb.n pb.m pb.useBnd fresh).s.A.status else as }
      else bresize { bs with g := pb.G } pb.n pb.m pb.useBnd fresh) = c at *
  have k0 : BKeep c { c with s := preInit o c.s } := by
    refine ⟨rfl, rfl, rfl, rfl, rfl, rfl, rfl, ?_, ?_, ?_, id⟩
    · simp only [preInit]; split_ifs <;> rfl
    · simp only [preInit]; split_ifs <;> rfl
    · intro hw; simp only [preInit]; split_ifs
      · exact hw
      · exact ActiveSet.wf_reset _ hw.size
  split at h
  · cases h
  · rename_i t1 b1 e1
    have kk := k0.trans (bInit_keep (k0.wf k3) e1)
    split_ifs at h with hs
    · cases hx : terminate o t1 b1.s with
      | error e => rw [hx] at h; cases h
      | ok r =>
        rw [hx] at h
        simp only [Except.map, Except.ok.injEq, Prod.mk.injEq] at h
        have q1 := terminate_same hx
        exact absurd (q1.trans h.1) hs
    · split at h
      · cases h
      · rename_i t2 b2 e2
        cases hx : terminate o t2 b2.s with
        | error e => rw [hx] at h; cases h
        | ok r =>
          rw [hx] at h
          simp only [Except.map, Except.ok.injEq, Prod.mk.injEq] at h
          have q1 := terminate_same hx
          have ht : t2 = .success := q1.trans h.1
          rw [ht] at e2
          rw [← h.2]
          exact bloop_clean _ (kk.nbCstr.trans k1) (kk.nbBnd.trans k2) e2

theorem bsolve_dims {o : Opts K} {pb : BPb K B} {as : List Status} {fresh : Nat → K} {bs bs' : BState K} {t} (hi : BInv bs)
    (h : bsolve o pb as fresh bs = .ok (t, bs')) : bs'.s.A.nbCstr = pb.m ∧ bs'.s.A.nbBnd = pb.nb := by
  unfold bsolve at h
  rw [ite_eq_iff] at h
  obtain ⟨_, h⟩ := h.resolve_right (by rintro ⟨_, h⟩; cases h)
  simp only [] at h
  obtain ⟨h1, _, h3, h4⟩ := bresize_inv (bs := { bs with g := pb.G })
    ⟨hi.wf, hi.szX, hi.szZ, hi.szD, hi.szU, hi.szR, hi.szCx, hi.qn, hi.ld, hi.size, hi.szE⟩ pb.n pb.m pb.useBnd fresh
  by_cases hw : o.warmStart = true
  · rw [if_pos hw] at h
    have k := bdualSolve_keep (by exact h1.wf) h
    exact ⟨k.nbCstr.trans h3, k.nbBnd.trans h4⟩
  · rw [if_neg hw] at h
    have k := bdualSolve_keep (by exact h1.wf) h
    exact ⟨k.nbCstr.trans h3, k.nbBnd.trans h4⟩

/-- **C63.** The same after a sequence of legal calls, on a supported problem: `solve` answers, and SUCCESS means `BNoViolation`;
`activeSet()` holds one status for each constraint and bound, at most `nbVar` of them not `INACTIVE`. -/
theorem C63_success_calls (cs : List (BCall K B)) (hcs : ∀ c ∈ cs, c.Admissible) {o : Opts K} (har : Arith B o) {pb : BPb K B}
    {as : List Status} (ha : BArgOk o pb as) (fresh : Nat → K) :
    ∃ bs t bs', bcalls cs (BState.empty : BState K) = .ok bs ∧ bsolve o pb as fresh bs = .ok (t, bs') ∧
      (t = .success → BNoViolation pb bs'.s.A bs'.s.x) ∧ BFewActive pb bs'.s.A := by
  obtain ⟨bs, h1, h2⟩ := bcalls_safe cs (binv_empty (K := K)) hcs
  obtain ⟨t, b, b', e1, _, e3, _, _, _, _, _, _, e9⟩ := bsolve_sim (o := o) (o' := o) ⟨rfl, rfl, rfl⟩ har ha ha fresh fresh h2 h2
  refine ⟨bs, t, b, h1, e1, fun ht => ?_, ?_, ?_⟩
  · subst ht; exact C63_success h2 e1
  · obtain ⟨d1, d2⟩ := bsolve_dims h2 e1
    rw [e3.wf.size, d1, d2]; rfl
  · have h4 := e3.wf.len
    have h5 := e3.wf.q_eq
    rw [h5] at e9
    unfold ActiveSet.cnt at h4
    omega

end generic

/-! ## IEEE arithmetic -/

namespace Ieee

open Finset

variable {F : Fmt}

/-- Exact value of constraint `c` of block `b`. -/
noncomputable def exactBlockRow (pb : BPb (Fl F) (Fl F)) (x : Nat → Fl F) (b c : Nat) : ℝ :=
  ∑ a ∈ range (pb.C.rows b), (pb.C.blk b a c).val * (x (off pb.C.rows b + a)).val

/-- Bound of the rounding error made on it: it depends on the size of the block only, not on the size of the problem. -/
noncomputable def blockRowErr (pb : BPb (Fl F) (Fl F)) (x : Nat → Fl F) (b c : Nat) : ℝ :=
  dotErr F (pb.C.rows b) (∑ a ∈ range (pb.C.rows b), |(pb.C.blk b a c).val| * |(x (off pb.C.rows b + a)).val|)

/-- Constraints reported `INACTIVE` are satisfied up to rounding errors, bounds reported `INACTIVE` are satisfied exactly. -/
def BRoundedFeasible (pb : BPb (Fl F) (Fl F)) (A : ActiveSet) (x : Nat → Fl F) : Prop :=
  (∀ b < pb.C.nb, ∀ c < pb.C.cols b, A.statusAt (off pb.C.cols b + c) = .inactive →
    (esum (.slack (pb.C.rows b) (off pb.C.cols b + c)) (fun a => pb.C.blk b a c * x (off pb.C.rows b + a)) (pb.C.rows b)).Finite →
    (∀ v, (pb.bl (off pb.C.cols b + c)).ext = some v → v ≤ ((exactBlockRow pb x b c + blockRowErr pb x b c : ℝ) : EReal)) ∧
    (∀ v, (pb.bu (off pb.C.cols b + c)).ext = some v → ((exactBlockRow pb x b c - blockRowErr pb x b c : ℝ) : EReal) ≤ v)) ∧
  (pb.useBnd = true → ∀ i < pb.n, A.statusAt (pb.m + i) = .inactive → ∀ v, (x i).ext = some v →
    (∀ b, (pb.xl i).ext = some b → b ≤ v) ∧ (∀ b, (pb.xu i).ext = some b → v ≤ b))

theorem BNoViolation.rounded {pb : BPb (Fl F) (Fl F)} {A : ActiveSet} {x : Nat → Fl F} (h : BNoViolation pb A x) : BRoundedFeasible pb A x := by
  constructor
  · intro b hb c hc hs hf
    obtain ⟨h1, h2⟩ := (notOutside_iff _ _ _).1 (h.1 b hb c hc hs)
    obtain ⟨_, he⟩ := dot_err (.slack (pb.C.rows b) (off pb.C.cols b + c)) (fun a => pb.C.blk b a c) (fun a => x (off pb.C.rows b + a)) (pb.C.rows b) hf
    obtain ⟨sg, m, hm⟩ := (finite_iff _).1 hf
    have hx : (esum (.slack (pb.C.rows b) (off pb.C.cols b + c)) (fun a => pb.C.blk b a c * x (off pb.C.rows b + a)) (pb.C.rows b)).ext
        = some (((esum (.slack (pb.C.rows b) (off pb.C.cols b + c)) (fun a => pb.C.blk b a c * x (off pb.C.rows b + a)) (pb.C.rows b)).val : ℝ) : EReal) := by
      rw [hm]; exact ext_fin _ _
    obtain ⟨e1, e2⟩ := abs_le.1 he
    constructor
    · intro v hv
      refine (lt_false h1 hx hv).trans ?_
      rw [EReal.coe_le_coe_iff]
      unfold exactBlockRow blockRowErr
      linarith
    · intro v hv
      refine le_trans ?_ (lt_false h2 hv hx)
      rw [EReal.coe_le_coe_iff]
      unfold exactBlockRow blockRowErr
      linarith
  · intro hb i hi hs v hv
    obtain ⟨h1, h2⟩ := (notOutside_iff _ _ _).1 (h.2 hb i hi hs)
    exact ⟨fun b hb => lt_false h1 hv hb, fun b hb => lt_false h2 hb hv⟩

/-- **C63, IEEE arithmetic.** After any legal history SUCCESS means `BRoundedFeasible`. -/
theorem C63_ieee (cs : List (BCall (Fl F) (Fl F)))
    (h : ∀ c ∈ cs, ∀ o pb as fr, c = .solve o pb as fr → OptOk o ∧ BArgOk o pb as) {o : Opts (Fl F)} (ho : OptOk o)
    {pb : BPb (Fl F) (Fl F)} {as : List Status} (ha : BArgOk o pb as) (fresh : Nat → Fl F) :
    ∃ bs t bs', bcalls cs (BState.empty : BState (Fl F)) = .ok bs ∧ bsolve o pb as fresh bs = .ok (t, bs') ∧
      (t = .success → BRoundedFeasible pb bs'.s.A bs'.s.x) := by
  have ha0 : ∀ {o : Opts (Fl F)}, OptOk o → Arith (Fl F) o := fun h => ⟨fpLaws h, _, nulLaws h⟩
  have key : ∀ c ∈ cs, c.Admissible := by
    intro c hc
    cases c with
    | solve o pb as fr => exact ⟨ha0 (h _ hc o pb as fr rfl).1, (h _ hc o pb as fr rfl).2⟩
    | _ => trivial
  obtain ⟨bs, t, bs', h1, h2, h3, _⟩ := C63_success_calls cs key (ha0 ho) ha fresh
  exact ⟨bs, t, bs', h1, h2, fun ht => BNoViolation.rounded (h3 ht)⟩

/-- Two blocks of one variable, `-1 <= x_i <= 1`. -/
noncomputable def exBPbF (F : Fmt) : BPb (Fl F) (Fl F) :=
  ⟨⟨.tri, 2, fun _ => 1, fun _ _ _ => 1, fun _ _ _ => 0, false⟩, fun _ => 1, ⟨2, fun _ => 1, fun _ => 1, fun _ _ _ => 1⟩,
    fun _ => -1, fun _ => 1, false, fun _ => 0, fun _ => 0⟩

/-- The hypotheses of `C63_ieee` are met, with the default options, with and without a warm start. (That SUCCESS is returned: `C40_hypotheses_met`,
exact arithmetic, for C63_success and C63_success_calls.) -/
theorem C63_hypotheses_met : OptOk (exOptsF F) ∧ BArgOk (exOptsF F) (exBPbF F) [] ∧
    BArgOk { exOptsF F with warmStart := true } (exBPbF F) [.inactive, .inactive] := by
  have e1 : bEq (Fl F) (-1 : Fl F) (1 : Fl F) = false := by
    show decide (((-1 : ℝ) : EReal) = ((1 : ℝ) : EReal)) = false
    rw [decide_eq_false_iff_not, EReal.coe_eq_coe_iff]; norm_num
  have h1 : ∀ i < (exBPbF F).nb, bEq (Fl F) ((exBPbF F).xl i) ((exBPbF F).xu i) = false := by
    intro i hi; simp [BPb.nb, exBPbF] at hi
  have h2 : (exBPbF F).G.ok := ⟨by simp [exBPbF], by simp [exBPbF]⟩
  have h3 : (exBPbF F).C.nbVar = (exBPbF F).n := by simp [exBPbF, BPb.n, StrC.nbVar, SG.nbVar, off]
  refine ⟨exOptsF_ok, ⟨h2, h3, fun _ _ => e1, h1, ?_, by simp, by simp⟩, ⟨h2, h3, fun _ _ => e1, h1, by simp, ?_, by simp⟩⟩
  · simp [exOptsF]
  · intro _; simp [BPb.m, BPb.nb, exBPbF, StrC.nbCstr, off]

end Ieee

end JrlQp
