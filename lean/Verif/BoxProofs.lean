import Verif.Box
import Verif.ExactThreshold

/-!
# Box solver: lawless part (memory safety) and independence of the main loop from the objective
-/

namespace JrlQp

open NumOps

section generic

variable {K B : Type} [Zero K] [One K] [Add K] [Sub K] [Neg K] [Mul K] [Div K] [NumOps K B] [SumOps K]

/-- Lawless invariant of the loop of `init_`, after `i` turns. -/
structure BoxPre (pb : Pb K B) (i : Nat) (sq : State K × Nat) : Prop where
  dim : Dim pb sq.1
  q : sq.1.A.q = sq.2
  q_le : sq.2 ≤ i
  later : ∀ j, i ≤ j → sq.1.A.statusAt (j + 1) = .inactive
  zero : sq.1.A.statusAt 0 = .inactive
  noEq : EqPre 0 sq.1.A

theorem BoxPre.cand {pb : Pb K B} {i : Nat} {sq : State K × Nat} (h : BoxPre pb i sq) (hm : pb.m = 1)
    (hi : i < pb.nb) {st : Status} (hst : st = .lowerBound ∨ st = .upperBound) : Cand sq.1.A ⟨i + 1, st⟩ := by
  have h1 := h.dim.nbCstr
  have h2 := h.dim.nbBnd
  refine ⟨?_, by rcases hst with rfl | rfl <;> rfl⟩
  rw [ActiveSet.activatePre_iff]
  have h3 : i + 1 < sq.1.A.nbCstr + sq.1.A.nbBnd := by omega
  have h4 : sq.1.A.nbCstr ≤ i + 1 := by omega
  refine ⟨h3, h.later i le_rfl, ?_, Or.inr ⟨h4, ?_⟩⟩ <;> rcases hst with rfl | rfl <;> simp [Status.isBound]

theorem BoxPre.activate {pb : Pb K B} {i : Nat} {sq : State K × Nat} (h : BoxPre pb i sq) (hm : pb.m = 1)
    (hi : i < pb.nb) {st : Status} (hst : st = .lowerBound ∨ st = .upperBound) (x u : Nat → K) (f : K)
    (R J : Nat → Nat → K) :
    BoxPre pb (i + 1) ({ sq.1 with x := x, u := u, f := f, R := R, J := J, A := sq.1.A.activate (i + 1) st }, sq.2 + 1) := by
  have hc := h.cand hm hi hst
  have hw := h.dim.wf
  have h1 := h.dim.nbCstr
  have h2 := h.dim.nbBnd
  have hlen : i + 1 < sq.1.A.status.length := by rw [hw.size]; omega
  have ha : ∀ j, (sq.1.A.activate (i + 1) st).statusAt j = if j = i + 1 then st else sq.1.A.statusAt j :=
    fun j => ActiveSet.activate_statusAt _ _ _ _ hlen
  refine ⟨⟨h.dim.nbVar, ActiveSet.wf_activate _ hw _ _ hc.pre, ?_, ?_, h.dim.szX, h.dim.szZ, h.dim.szD, ?_, ?_, h.dim.szJ,
    h.dim.szRm⟩, ?_, ?_, ?_, ?_, ?_⟩
  · exact (ActiveSet.activate_nbCstr _ _ _).trans h1
  · exact (ActiveSet.activate_nbBnd _ _ _).trans h2
  · have := h.dim.szU; simp only [ActiveSet.activate_nbCstr, ActiveSet.activate_nbBnd]; exact this
  · have := h.dim.szR; simp only [ActiveSet.activate_nbCstr, ActiveSet.activate_nbBnd]; exact this
  · have := hw.q_activate hc.pre; have h3 := h.q; dsimp only at this ⊢; omega
  · have := h.q_le; dsimp only; omega
  · intro j hj
    dsimp only
    rw [ha, if_neg (by omega)]
    exact h.later j (by omega)
  · dsimp only
    rw [ha, if_neg (by omega)]
    exact h.zero
  · exact h.noEq.activate hw hc

theorem BoxPre.step {pb : Pb K B} {i : Nat} {sq : State K × Nat} (h : BoxPre pb i sq) (hm : pb.m = 1) (hi : i < pb.nb) :
    BoxPre pb (i + 1) (boxStep pb sq i) := by
  unfold boxStep
  dsimp only
  split_ifs
  · exact h.activate hm hi (Or.inl rfl) _ _ _ _ _
  · exact h.activate hm hi (Or.inr rfl) _ _ _ _ _
  · exact ⟨⟨h.dim.nbVar, h.dim.wf, h.dim.nbCstr, h.dim.nbBnd, h.dim.szX, h.dim.szZ, h.dim.szD, h.dim.szU, h.dim.szR, h.dim.szJ,
      h.dim.szRm⟩, h.q, by have := h.q_le; dsimp only; omega, fun j hj => h.later j (by omega), h.zero, h.noEq⟩

theorem BoxPre.start {o : Opts K} {pb : Pb K B} {s : State K} (h : Dim pb s) : BoxPre pb 0 (boxStart o s, 0) := by
  refine ⟨⟨h.nbVar, ActiveSet.wf_reset _ h.wf.size, h.nbCstr, h.nbBnd, h.szX, h.szZ, h.szD, h.szU, h.szR, h.szJ, h.szRm⟩,
    ActiveSet.reset_q _, le_rfl, fun j _ => reset_statusAt _ _, reset_statusAt _ _, ⟨by simp, by simp, ?_⟩⟩
  intro i
  have : (boxStart o s).A.statusAt i = .inactive := reset_statusAt s.A i
  dsimp only
  rw [this]; simp [Status.isEq]

theorem boxPb_nb (n : Nat) (x0 c : Nat → K) (bl inf : B) (xl xu : Nat → B) : (boxPb n x0 c bl inf xl xu).nb = n := by
  show (if decide (0 < n) = true then n else 0) = n
  by_cases h : 0 < n
  · rw [if_pos (by simpa using h)]
  · rw [if_neg (by simpa using h)]; omega

/-- The states met by the loop of `init_`. -/
theorem box_fold {pb : Pb K B} (hm : pb.m = 1) (hnb : pb.nb = pb.n) {s0 : State K × Nat} (h : BoxPre pb 0 s0) :
    ∀ i ≤ pb.n, BoxPre pb i ((List.range i).foldl (boxStep pb) s0) := by
  intro i
  induction i with
  | zero => intro _; exact h
  | succ i ih =>
    intro hi
    rw [List.range_succ, List.foldl_append]
    exact (ih (by omega)).step hm (by omega)

theorem boxInit_ok {o : Opts K} {pb : Pb K B} (hm : pb.m = 1) (hnb : pb.nb = pb.n) {s : State K} (h : Dim pb s) :
    boxInit o pb s = .ok (.success, ((List.range pb.n).foldl (boxStep pb) (boxStart o s, 0)).1) := by
  unfold boxInit
  have h1 := h.szU
  rw [h.nbCstr, h.nbBnd, hm, hnb] at h1
  have h0 := h.nbVar
  rw [if_pos]
  · rw [h0]
  · have e1 := h.szJ
    have e2 := h.szRm
    have e3 := h.szX
    rw [h0] at e1 e2 e3 ⊢
    simp [e1, e2, e3]
    omega

theorem BoxPre.good {pb : Pb K B} {sq : State K × Nat} (h : BoxPre pb pb.n sq) : Good pb sq.1 :=
  ⟨h.dim, by rw [h.q, h.dim.nbVar]; exact h.q_le⟩

/-- A call to the box solver never faults, and leaves a state in which any other call can be made. -/
theorem boxSolve_safe {o : Opts K} (law : FpLaws K o) (n : Nat) (x0 c : Nat → K) (bl inf : B) (xl xu : Nat → B)
    {s : State K} (h : Inv s) : ∃ t s', boxSolve o n x0 c bl inf xl xu s = .ok (t, s') ∧ Inv s' := by
  unfold boxSolve dualSolve
  dsimp only
  obtain ⟨pb, hpb⟩ : ∃ pb, pb = boxPb n x0 c bl inf xl xu := ⟨_, rfl⟩
  have hm : pb.m = 1 := by rw [hpb]; rfl
  have hn : pb.n = n := by rw [hpb]; rfl
  have hnb : pb.nb = pb.n := by rw [hn, hpb]; exact boxPb_nb n x0 c bl inf xl xu
  have hd : Dim pb (preInit o (resize s n 1 (decide (0 < n)))) := by
    have := preInit_dim (o := o) (resize_dim_pb h pb)
    rw [hpb] at this ⊢; exact this
  rw [← hpb, boxInit_ok hm hnb hd]
  dsimp only
  rw [if_neg (by simp)]
  have hg := (box_fold hm hnb (BoxPre.start (o := o) hd) pb.n le_rfl).good
  obtain ⟨t, s', h1, h2⟩ := loop_safe law _ hg (sc := ⟨0, .inactive⟩) (skip := false) (by simp)
  rw [h1]
  dsimp only
  refine ⟨t, s', ?_, h2.dim.inv⟩
  rcases loop_it _ h1 with ⟨rfl, _⟩ | ⟨rfl | rfl, _⟩ <;> simp [terminate]

/-- The main loop does not read the objective of the problem. -/
theorem loop_objFree (o : Opts K) (pb : Pb K B) (G : Nat → Nat → K) (a : Nat → K) (fuel : Nat) : ∀ (s : State K) (sc : SC)
    (skip : Bool), loop o { pb with G := G, a := a } fuel s sc skip = loop o pb fuel s sc skip := by
  induction fuel with
  | zero => intros; rfl
  | succ fuel ih =>
    intro s sc skip
    unfold loop
    have : iterate o { pb with G := G, a := a } s sc skip = iterate o pb s sc skip := rfl
    rw [this]
    split
    · rfl
    · rfl
    · exact ih _ _ _

end generic

open Finset Spec

/-- Adding `c` to the value of the objective. -/
def addF (c : ℝ) (s : State ℝ) : State ℝ := { s with f := s.f + c }

def Iter.addF (c : ℝ) : Iter ℝ → Iter ℝ
  | .done t s => .done t (JrlQp.addF c s)
  | .cont s sc skip => .cont (JrlQp.addF c s) sc skip

theorem iterBody_addF (o : Opts ℝ) (pb : Pb ℝ EReal) (c : ℝ) (s : State ℝ) (sc : SC) :
    iterBody o pb (addF c s) sc = (iterBody o pb s sc).map (Iter.addF c) := by
  have hp : ∀ (s : State ℝ) (t : ℝ), primalStep pb (addF c s) sc t = addF c (primalStep pb s sc t) := by
    intro s t
    simp only [primalStep, addF]
    congr 1
    ring
  have hfu : ∀ (s : State ℝ) (t : ℝ), fullUpdate pb (addF c s) sc t = addF c (fullUpdate pb s sc t) := by
    intro s t
    unfold fullUpdate
    rw [hp]; rfl
  unfold iterBody
  by_cases h1 : (computeStepOk pb s sc && decide (s.A.q < s.szU) && decide (s.nbVar ≤ s.szX)) = true
  all_goals rw [show (computeStepOk pb (addF c s) sc && decide ((addF c s).A.q < (addF c s).szU) &&
      decide ((addF c s).nbVar ≤ (addF c s).szX)) = (computeStepOk pb s sc && decide (s.A.q < s.szU) && decide (s.nbVar ≤ s.szX))
      from rfl]
  swap
  · rw [if_neg h1, if_neg h1]; rfl
  rw [if_pos h1, if_pos h1]
  dsimp only
  rw [show computeStep pb (addF c s) sc = addF c (computeStep pb s sc) from rfl]
  generalize computeStep pb s sc = s1
  rw [show computeStepLength o pb (addF c s1) sc = computeStepLength o pb s1 sc from rfl,
    show stepLenOk o (addF c s1) sc = stepLenOk o s1 sc from rfl]
  generalize computeStepLength o pb s1 sc = sl
  rw [show dualUpdate (addF c s1) (stdMin sl.t1 sl.t2) = addF c (dualUpdate s1 (stdMin sl.t1 sl.t2)) from rfl, hfu]
  generalize dualUpdate s1 (stdMin sl.t1 sl.t2) = s2
  generalize fullUpdate pb s1 sc (stdMin sl.t1 sl.t2) = s3
  rw [show removeOk (addF c s2) sl.l = removeOk s2 sl.l from rfl, show removeOk (addF c s3) sl.l = removeOk s3 sl.l from rfl,
    show addOk (addF c s3) sc = addOk s3 sc from rfl]
  split_ifs <;> rfl

theorem iterate_addF (o : Opts ℝ) (pb : Pb ℝ EReal) (c : ℝ) (s : State ℝ) (sc : SC) (skip : Bool) :
    iterate o pb (addF c s) sc skip = (iterate o pb s sc skip).map (Iter.addF c) := by
  unfold iterate
  by_cases h0 : skip = true
  · rw [if_pos h0, if_pos h0, iterBody_addF]
  rw [if_neg h0, if_neg h0, show selectOk pb (addF c s) = selectOk pb s from rfl]
  by_cases h1 : selectOk pb s = true
  swap
  · rw [if_neg h1, if_neg h1]; rfl
  rw [if_pos h1, if_pos h1]
  dsimp only
  rw [show select pb (addF c s).nbVar (addF c s).A (addF c s).x = select pb s.nbVar s.A s.x from rfl]
  generalize select pb s.nbVar s.A s.x = sc1
  by_cases h2 : sc1.status = .inactive
  · rw [if_pos h2, if_pos h2]; rfl
  rw [if_neg h2, if_neg h2]
  by_cases h3 : (decide (s.A.q < s.szU) && decide (s.A.q ≤ s.szR)) = true
  all_goals rw [show (decide ((addF c s).A.q < (addF c s).szU) && decide ((addF c s).A.q ≤ (addF c s).szR))
    = (decide (s.A.q < s.szU) && decide (s.A.q ≤ s.szR)) from rfl]
  swap
  · rw [if_neg h3, if_neg h3]; rfl
  rw [if_pos h3, if_pos h3]
  exact iterBody_addF o pb c { s with u := upd s.u s.A.q 0 } sc1

/-- The value of the objective is only carried along. -/
theorem loop_addF (o : Opts ℝ) (pb : Pb ℝ EReal) (c : ℝ) (fuel : Nat) : ∀ (s : State ℝ) (sc : SC) (skip : Bool),
    loop o pb fuel (addF c s) sc skip = (loop o pb fuel s sc skip).map (fun p => (p.1, addF c p.2)) := by
  induction fuel with
  | zero => intros; rfl
  | succ fuel ih =>
    intro s sc skip
    unfold loop
    rw [iterate_addF]
    cases h : iterate o pb s sc skip with
    | error e => rfl
    | ok r =>
      cases r with
      | done t s1 => rfl
      | cont s1 sc1 k1 => exact ih { s1 with it := s1.it + 1 } sc1 k1

end JrlQp
