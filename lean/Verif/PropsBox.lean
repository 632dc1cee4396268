import Verif.BoxExact
import Verif.PropsSim

/-!
# C25, C39: `BoxAndSingleConstraintSolver`
-/

namespace JrlQp

open NumOps

section generic

variable {K B : Type} [Zero K] [One K] [Add K] [Sub K] [Neg K] [Mul K] [Div K] [NumOps K B] [SumOps K]

/-- States of two runs of the loop of `init_` after `i` turns. -/
structure BSim (n i : Nat) (p p' : State K × Nat) : Prop where
  q : p'.2 = p.2
  q_le : p.2 ≤ i
  nbVar : p'.1.nbVar = p.1.nbVar
  A : p'.1.A = p.1.A
  it : p'.1.it = p.1.it
  f : p'.1.f = p.1.f
  need : p'.1.needToExpand = p.1.needToExpand
  x : VEq i p.1.x p'.1.x
  u : VEq p.2 p.1.u p'.1.u
  J : MEq n p.1.J p'.1.J
  R : UEq p.2 p.1.R p'.1.R

theorem BSim.step {pb : Pb K B} {n i : Nat} {p p' : State K × Nat} (h : BSim n i p p') :
    BSim n (i + 1) (boxStep pb p i) (boxStep pb p' i) := by
  have hx : ∀ v : K, VEq (i + 1) (upd p.1.x i v) (upd p'.1.x i v) := by
    intro v j hj
    unfold upd
    split_ifs with hji
    · rfl
    · exact h.x j (by omega)
  have hu : ∀ w : K, VEq (p.2 + 1) (upd p.1.u p.2 w) (upd p'.1.u p.2 w) := by
    intro v j hj
    unfold upd
    split_ifs with hji
    · rfl
    · exact h.u j (by omega)
  have hR : ∀ d : K, UEq (p.2 + 1) (boxCol p.1.R p.2 d) (boxCol p'.1.R p.2 d) := by
    intro d j hj i hi
    unfold boxCol
    by_cases hjq : j = p.2
    · by_cases hiq : i = p.2
      · rw [if_pos ⟨hjq, hiq⟩, if_pos ⟨hjq, hiq⟩]
      · rw [if_neg (fun hc => hiq hc.2), if_pos ⟨hjq, by omega⟩, if_neg (fun hc => hiq hc.2), if_pos ⟨hjq, by omega⟩]
    · rw [if_neg (fun hc => hjq hc.1), if_neg (fun hc => hjq hc.1), if_neg (fun hc => hjq hc.1), if_neg (fun hc => hjq hc.1)]
      exact h.R j (by omega) i hi
  have hJ : ∀ c, MEq n (upd2 p.1.J i c 1) (upd2 p'.1.J i c 1) := by
    intro c a ha b hb
    unfold upd2
    split_ifs
    · rfl
    · exact h.J a ha b hb
  unfold boxStep
  dsimp only
  rw [h.q, h.nbVar, h.A, h.f]
  have := h.q_le
  split_ifs
  · exact ⟨rfl, by dsimp only; omega, rfl, rfl, h.it, rfl, h.need, hx _, hu _, hJ _, hR _⟩
  · exact ⟨rfl, by dsimp only; omega, rfl, rfl, h.it, rfl, h.need, hx _, hu _, hJ _, hR _⟩
  · exact ⟨rfl, by dsimp only; omega, rfl, rfl, h.it, rfl, h.need, hx _, h.u, hJ _, h.R⟩

theorem bsim_fold {pb : Pb K B} {n : Nat} {p p' : State K × Nat} (h : BSim n 0 p p') (i : Nat) :
    BSim n i ((List.range i).foldl (boxStep pb) p) ((List.range i).foldl (boxStep pb) p') := by
  induction i with
  | zero => exact h
  | succ i ih =>
    rw [List.range_succ, List.foldl_append, List.foldl_append]
    exact ih.step

theorem reset_congr {A A' : ActiveSet} (h : A.WF) (h' : A'.WF) (e1 : A'.nbCstr = A.nbCstr) (e2 : A'.nbBnd = A.nbBnd) :
    A'.reset = A.reset := by
  have e3 : A'.status.length = A.status.length := by rw [h.size, h'.size, e1, e2]
  simp only [ActiveSet.reset, e1, e2, e3]

/-- The state in which a call of the box solver enters the main loop. -/
def boxReady (o : Opts K) (n : Nat) (x0 c : Nat → K) (bl inf : B) (xl xu : Nat → B) (s : State K) : State K :=
  ((List.range n).foldl (boxStep (boxPb n x0 c bl inf xl xu))
    (boxStart o (preInit o (resize s n 1 (decide (0 < n)))), 0)).1

theorem boxPb_dim (o : Opts K) (n : Nat) (x0 c : Nat → K) (bl inf : B) (xl xu : Nat → B) {s : State K} (h : Inv s) :
    Dim (boxPb n x0 c bl inf xl xu) (preInit o (resize s n 1 (decide (0 < n)))) :=
  preInit_dim (o := o) (resize_dim_pb h (boxPb n x0 c bl inf xl xu))

theorem boxReady_pre (o : Opts K) (n : Nat) (x0 c : Nat → K) (bl inf : B) (xl xu : Nat → B) {s : State K} (h : Inv s) :
    BoxPre (boxPb n x0 c bl inf xl xu) n ((List.range n).foldl (boxStep (boxPb n x0 c bl inf xl xu))
      (boxStart o (preInit o (resize s n 1 (decide (0 < n)))), 0)) :=
  box_fold rfl (boxPb_nb n x0 c bl inf xl xu) (BoxPre.start (boxPb_dim o n x0 c bl inf xl xu h)) n le_rfl

theorem boxSteps_keep (pb : Pb K B) (l : List Nat) : ∀ p : State K × Nat, (l.foldl (boxStep pb) p).1.it = p.1.it ∧
    (l.foldl (boxStep pb) p).1.needToExpand = p.1.needToExpand := by
  induction l with
  | nil => intro p; exact ⟨rfl, rfl⟩
  | cons i l ih =>
    intro p
    have hs : (boxStep pb p i).1.it = p.1.it ∧ (boxStep pb p i).1.needToExpand = p.1.needToExpand := by
      unfold boxStep
      dsimp only
      split_ifs <;> exact ⟨rfl, rfl⟩
    obtain ⟨a, b⟩ := ih (boxStep pb p i)
    exact ⟨a.trans hs.1, b.trans hs.2⟩

theorem boxReady_it (o : Opts K) (n : Nat) (x0 c : Nat → K) (bl inf : B) (xl xu : Nat → B) (s : State K) :
    (boxReady o n x0 c bl inf xl xu s).it = 0 := (boxSteps_keep _ _ _).1

theorem boxReady_need (o : Opts K) (n : Nat) (x0 c : Nat → K) (bl inf : B) (xl xu : Nat → B) (s : State K) :
    (boxReady o n x0 c bl inf xl xu s).needToExpand = true := (boxSteps_keep _ _ _).2

/-- A call of the box solver is a run of the main loop. -/
theorem boxSolve_loop {o : Opts K} (n : Nat) (x0 c : Nat → K) (bl inf : B) (xl xu : Nat → B) {s : State K} (h : Inv s) {t s'}
    (hs : boxSolve o n x0 c bl inf xl xu s = .ok (t, s')) :
    loop o (boxPb n x0 c bl inf xl xu) o.maxIter (boxReady o n x0 c bl inf xl xu s) ⟨0, .inactive⟩ false = .ok (t, s') := by
  unfold boxSolve dualSolve at hs
  dsimp only at hs
  rw [boxInit_ok rfl (boxPb_nb n x0 c bl inf xl xu) (boxPb_dim o n x0 c bl inf xl xu h)] at hs
  dsimp only at hs
  rw [if_neg (by simp)] at hs
  change (match loop o (boxPb n x0 c bl inf xl xu) (o.maxIter - (boxReady o n x0 c bl inf xl xu s).it)
    (boxReady o n x0 c bl inf xl xu s) ⟨0, .inactive⟩ false with
    | .error e => (.error e : Except Fault (Term × State K))
    | .ok (t, s) => terminate o t s) = _ at hs
  rw [boxReady_it, Nat.sub_zero] at hs
  cases hl : loop o (boxPb n x0 c bl inf xl xu) o.maxIter (boxReady o n x0 c bl inf xl xu s) ⟨0, .inactive⟩ false with
  | error e => rw [hl] at hs; cases hs
  | ok r =>
    obtain ⟨t1, s1⟩ := r
    rw [hl] at hs
    dsimp only at hs
    have : terminate o t1 s1 = .ok (t1, s1) := by
      rcases loop_it _ hl with ⟨rfl, _⟩ | ⟨rfl | rfl, _⟩ <;> rfl
    rw [this] at hs
    exact hs

theorem boxReady_sim (o o' : Opts K) (n : Nat) (x0 c : Nat → K) (bl inf : B) (xl xu : Nat → B) {s s' : State K}
    (h : Inv s) (h' : Inv s') : Sim 0 (boxReady o n x0 c bl inf xl xu s) (boxReady o' n x0 c bl inf xl xu s') := by
  have hd := boxPb_dim o n x0 c bl inf xl xu h
  have hd' := boxPb_dim o' n x0 c bl inf xl xu h'
  have hA := reset_congr hd.wf hd'.wf (by rw [hd.nbCstr, hd'.nbCstr]) (by rw [hd.nbBnd, hd'.nbBnd])
  have hn := hd.nbVar
  have hn' := hd'.nbVar
  have h0 : BSim n 0 (boxStart o (preInit o (resize s n 1 (decide (0 < n)))), 0)
      (boxStart o' (preInit o' (resize s' n 1 (decide (0 < n)))), 0) := by
    refine ⟨rfl, le_rfl, hn'.trans hn.symm, hA, rfl, rfl, rfl, ?_, ?_, ?_, ?_⟩
    · intro i hi; omega
    · intro i hi; omega
    · intro i hi j hj
      simp only [boxStart]
      rw [if_pos ⟨by rw [hn]; exact hi, by rw [hn]; exact hj⟩, if_pos ⟨by rw [hn']; exact hi, by rw [hn']; exact hj⟩]
    · intro i hi; omega
  have hb := bsim_fold (pb := boxPb n x0 c bl inf xl xu) h0 n
  have hp := boxReady_pre o n x0 c bl inf xl xu h
  have hnv : (boxReady o n x0 c bl inf xl xu s).nbVar = n := hp.dim.nbVar
  have hq : (boxReady o n x0 c bl inf xl xu s).A.q = _ := hp.q
  refine ⟨hb.nbVar, hb.A, hb.it, hb.f, hb.need, ?_, ?_, ?_, ?_⟩
  · rw [hnv]; exact hb.x
  · rw [hq]; exact hb.u
  · rw [hnv]; exact hb.J
  · rw [hq]; exact hb.R

/-- Equal observable results of two calls of the box solver, whatever the build type and the state of the workspaces. -/
theorem boxSolve_sim {o o' : Opts K} (ho : OEq o o') (law : FpLaws K o) (law' : FpLaws K o') (n : Nat) (x0 c : Nat → K)
    (bl inf : B) (xl xu : Nat → B) {s s' : State K} (h : Inv s) (h' : Inv s') {r r'}
    (hs : boxSolve o n x0 c bl inf xl xu s = .ok r) (hs' : boxSolve o' n x0 c bl inf xl xu s' = .ok r') :
    obs n r = obs n r' := by
  obtain ⟨t, w⟩ := r
  obtain ⟨t', w'⟩ := r'
  have hl := boxSolve_loop n x0 c bl inf xl xu h hs
  have hl' := boxSolve_loop n x0 c bl inf xl xu h' hs'
  have hg : Good (boxPb n x0 c bl inf xl xu) (boxReady o n x0 c bl inf xl xu s) := (boxReady_pre o n x0 c bl inf xl xu h).good
  have hg' : Good (boxPb n x0 c bl inf xl xu) (boxReady o' n x0 c bl inf xl xu s') :=
    (boxReady_pre o' n x0 c bl inf xl xu h').good
  rw [ho.maxIter] at hl'
  obtain ⟨rfl, hs1⟩ := loop_sim ho law law' o.maxIter (sc := ⟨0, .inactive⟩) (skip := false)
    (by simpa using boxReady_sim o o' n x0 c bl inf xl xu h h') hg hg' (by simp) hl hl'
  obtain ⟨v, v', z1, z2⟩ := loop_safe law o.maxIter (sc := ⟨0, .inactive⟩) (skip := false) hg (by simp)
  rw [hl] at z1
  simp only [Except.ok.injEq, Prod.mk.injEq] at z1
  obtain ⟨rfl, rfl⟩ := z1
  have hne : w.needToExpand = true := by rw [loop_need _ hl, boxReady_need]
  have hvar : w.nbVar = n := z2.dim.nbVar
  simp only [obs, hs1.A, hs1.it, hs1.f, Obs.mk.injEq, true_and]
  refine ⟨?_, ?_, trivial⟩
  · apply List.map_congr_left
    intro i _
    exact (multipliers_sim hs1 hne z2.dim.wf i).symm
  · split_ifs
    · rfl
    · congr 1
      apply List.map_congr_left
      intro i hi
      exact hs1.x i (by rw [hvar]; exact List.mem_range.1 hi)

/-- A call to a box solver: arguments of `solve`, with the options in force. -/
structure BoxCall (K B : Type) where
  o : Opts K
  n : Nat
  x0 : Nat → K
  c : Nat → K
  bl : B
  inf : B
  xl : Nat → B
  xu : Nat → B

/-- A call on a box solver in state `s`. -/
def boxCall (b : BoxCall K B) (s : State K) : Except Fault (State K) :=
  (boxSolve b.o b.n b.x0 b.c b.bl b.inf b.xl b.xu s).map Prod.snd

/-- A sequence of calls on the same box solver. -/
def boxCalls : List (BoxCall K B) → State K → Except Fault (State K)
  | [], s => .ok s
  | b :: cs, s =>
    (boxCall b s).bind (boxCalls cs)

theorem boxCalls_cons (b : BoxCall K B) (cs : List (BoxCall K B)) (s s1 : State K) (h : boxCall b s = .ok s1) :
    boxCalls (b :: cs) s = boxCalls cs s1 := by
  show (boxCall b s).bind (boxCalls cs) = _
  rw [h, Except.bind]

/-- The calls use options whose `bigBnd` is not NaN, on a scalar type with the properties of doubles listed in `FpLaws`. -/
def BoxCall.Admissible (b : BoxCall K B) : Prop := FpLaws K b.o

theorem boxCalls_safe (cs : List (BoxCall K B)) : ∀ (s : State K), Inv s → (∀ b ∈ cs, b.Admissible) →
    ∃ s', boxCalls cs s = .ok s' ∧ Inv s' := by
  induction cs with
  | nil => intro s h _; exact ⟨s, rfl, h⟩
  | cons b cs ih =>
    intro s h hc
    have law : FpLaws K b.o := hc b List.mem_cons_self
    obtain ⟨t, s1, h1, h2⟩ := boxSolve_safe law b.n b.x0 b.c b.bl b.inf b.xl b.xu h
    have hc' : ∀ b' ∈ cs, b'.Admissible := fun b' hb => hc b' (List.mem_cons_of_mem b hb)
    obtain ⟨s', h3, h4⟩ := ih s1 h2 hc'
    have h1' : boxCall b s = .ok s1 := by rw [boxCall, h1]; rfl
    have e : boxCalls (b :: cs) s = boxCalls cs s1 := boxCalls_cons b cs s s1 h1'
    exact ⟨s', e.trans h3, h4⟩

/-- **C39, safety.** Any sequence of calls of the box solver, with any sizes and values (`NaN`, infinite and crossed bounds
included), runs without access outside of a workspace. -/
theorem C39_box_no_fault (cs : List (BoxCall K B)) (h : ∀ b ∈ cs, b.Admissible) :
    ∃ s', boxCalls cs (State.empty : State K) = .ok s' := by
  obtain ⟨s', h1, _⟩ := boxCalls_safe cs _ inv_empty h
  exact ⟨s', h1⟩

/-- **C39, no influence of the history.** Solving a problem after any two histories, in a debug or a release build, with or
without the warm start option, gives the same observable results. -/
theorem C39_box_history (cs cs' : List (BoxCall K B)) (h : ∀ b ∈ cs, b.Admissible) (h' : ∀ b ∈ cs', b.Admissible)
    {o o' : Opts K} (law : FpLaws K o) (law' : FpLaws K o')
    (hm : o'.maxIter = o.maxIter) (hb : o'.bigBnd = o.bigBnd) (ht : o'.tiny = o.tiny) (n : Nat) (x0 c : Nat → K)
    (bl inf : B) (xl xu : Nat → B) :
    ∃ s s' r r', boxCalls cs (State.empty : State K) = .ok s ∧ boxCalls cs' (State.empty : State K) = .ok s' ∧
      boxSolve o n x0 c bl inf xl xu s = .ok r ∧ boxSolve o' n x0 c bl inf xl xu s' = .ok r' ∧ obs n r = obs n r' := by
  obtain ⟨s, h1, h2⟩ := boxCalls_safe cs _ inv_empty h
  obtain ⟨s', h1', h2'⟩ := boxCalls_safe cs' _ inv_empty h'
  obtain ⟨t, w, h3, _⟩ := boxSolve_safe law n x0 c bl inf xl xu h2
  obtain ⟨t', w', h3', _⟩ := boxSolve_safe law' n x0 c bl inf xl xu h2'
  exact ⟨s, s', _, _, h1, h1', h3, h3', boxSolve_sim ⟨hm, hb, ht⟩ law law' n x0 c bl inf xl xu h2 h2' h3 h3'⟩

end generic

open Finset Spec

/-! ### Specification -/

/-- `x` is in the box and in the half-space `c'x ≥ bl`. -/
def BoxFeasible (n : Nat) (c : Nat → ℝ) (bl : EReal) (xl xu : Nat → EReal) (x : Nat → ℝ) : Prop :=
  bl ≤ ((∑ i ∈ range n, c i * x i : ℝ) : EReal) ∧ ∀ i < n, xl i ≤ ((x i : ℝ) : EReal) ∧ ((x i : ℝ) : EReal) ≤ xu i

/-- Square of the Euclidean distance. -/
def dist2 (n : Nat) (x y : Nat → ℝ) : ℝ := ∑ i ∈ range n, (x i - y i) ^ 2

/-- `x` is the point of `S` closest to `x0`, and the only one. -/
def IsProjection (n : Nat) (S : (Nat → ℝ) → Prop) (x0 x : Nat → ℝ) : Prop :=
  S x ∧ ∀ y, S y → dist2 n x x0 ≤ dist2 n y x0 ∧ (dist2 n y x0 = dist2 n x x0 → ∀ i < n, y i = x i)

/-- The data of the box solver is meaningful: `bl` is not `+∞`, lower bounds are not `+∞`, upper bounds are not `-∞`, and
the bounds do not cross. -/
structure BoxData (n : Nat) (bl : EReal) (xl xu : Nat → EReal) : Prop where
  bl : bl ≠ ⊤
  low : ∀ i < n, xl i ≠ ⊤
  up : ∀ i < n, xu i ≠ ⊥
  le : ∀ i < n, xl i ≤ xu i

section exact

variable {n : Nat} {x0 c : Nat → ℝ} {bl : EReal} {xl xu : Nat → EReal}

theorem BoxData.proper (h : BoxData n bl xl xu) : Proper (boxSpec n x0 c bl xl xu) :=
  ⟨fun _ _ => h.bl, fun _ _ => by simp [boxSpec, boxPb], fun _ => h.low, fun _ => h.up⟩

theorem BoxData.notCrossed (h : BoxData n bl xl xu) : NotCrossed (boxSpec n x0 c bl xl xu) :=
  ⟨fun _ _ => by simp [boxSpec, boxPb], fun _ => h.le⟩

theorem boxFeasible_iff (y : Nat → ℝ) : Feasible (boxSpec n x0 c bl xl xu) y ↔ BoxFeasible n c bl xl xu y := by
  constructor
  · rintro ⟨h1, h2⟩
    refine ⟨(h1 0 (by simp [boxSpec, boxPb])).1, fun i hi => ?_⟩
    exact h2 (show decide (0 < n) = true by simp; omega) i hi
  · rintro ⟨h1, h2⟩
    refine ⟨fun i hi => ⟨h1, ?_⟩, fun _ i hi => h2 i hi⟩
    show _ ≤ (⊤ : EReal)
    exact le_top

/-- An optimal point of the quadratic program is a projection. -/
theorem projection_of_optimal {x : Nat → ℝ} (h : IsUniqueOptimal (boxSpec n x0 c bl xl xu) x) :
    IsProjection n (BoxFeasible n c bl xl xu) x0 x := by
  obtain ⟨⟨h1, h2⟩, h3⟩ := h
  refine ⟨(boxFeasible_iff x).1 h1, fun y hy => ?_⟩
  have hy' := (boxFeasible_iff (x0 := x0) y).2 hy
  have h4 := h2 y hy'
  rw [boxSpec_obj, boxSpec_obj] at h4
  refine ⟨by unfold dist2; linarith, fun he => ?_⟩
  refine h3 y ⟨hy', fun w hw => ?_⟩
  have h5 := h2 w hw
  rw [boxSpec_obj, boxSpec_obj] at h5
  rw [boxSpec_obj, boxSpec_obj]
  unfold dist2 at he
  linarith

/-- The state from which the main loop is run, with the value of the objective of `boxSpec`. -/
noncomputable def boxEntry (o : Opts ℝ) (n : Nat) (x0 c : Nat → ℝ) (bl : EReal) (xl xu : Nat → EReal) (s : State ℝ) : State ℝ :=
  addF (boxShift n x0) (boxReady o n x0 c bl ⊤ xl xu s)

theorem boxReady_x (o : Opts ℝ) (hd : BoxData n bl xl xu) {s : State ℝ} (h : Inv s) :
    BoxX (boxPb n x0 c bl ⊤ xl xu) x0 n (boxReady o n x0 c bl ⊤ xl xu s) :=
  boxX_fold (pb := boxPb n x0 c bl ⊤ xl xu) rfl (boxPb_nb _ _ _ _ _ _ _)
    ⟨fun _ _ => hd.bl, fun _ _ => by simp [boxPb], fun _ => hd.low, fun _ => hd.up⟩ ⟨fun _ _ => by simp [boxPb], fun _ => hd.le⟩
    (BoxPre.start (boxPb_dim o n x0 c bl ⊤ xl xu h)) (BoxX.start (boxPb_dim o n x0 c bl ⊤ xl xu h) x0) n le_rfl

theorem boxEntry_inv (o : Opts ℝ) (hd : BoxData n bl xl xu) {s : State ℝ} (h : Inv s) :
    LoopInv (boxSpec n x0 c bl xl xu) (boxEntry o n x0 c bl xl xu s) ⟨0, .inactive⟩ false ∧
      DInv (boxSpec n x0 c bl xl xu) 0 (boxEntry o n x0 c bl xl xu s) ⟨0, .inactive⟩ false :=
  box_inv (boxReady_pre o n x0 c bl ⊤ xl xu h) (boxReady_x o hd h)

theorem boxEntry_loop {o : Opts ℝ} {s : State ℝ} (h : Inv s) {t s'} (hs : boxSolve o n x0 c bl ⊤ xl xu s = .ok (t, s')) :
    loop o (boxSpec n x0 c bl xl xu) o.maxIter (boxEntry o n x0 c bl xl xu s) ⟨0, .inactive⟩ false
      = .ok (t, addF (boxShift n x0) s') := by
  have hl := boxSolve_loop n x0 c bl ⊤ xl xu h hs
  unfold boxSpec boxEntry
  rw [loop_objFree, loop_addF, hl]
  rfl

/-- The thresholds `1e-14` and `bigBnd` are harmless in this call (see `RegLoop`). -/
def RegBox (o : Opts ℝ) (n : Nat) (x0 c : Nat → ℝ) (bl : EReal) (xl xu : Nat → EReal) (s : State ℝ) : Prop :=
  0 ≤ o.tiny ∧ RegLoop o (boxSpec n x0 c bl xl xu) o.maxIter (boxEntry o n x0 c bl xl xu s) ⟨0, .inactive⟩ false

theorem clamp_mem {v : ℝ} {l u : EReal} (h1 : l ≠ ⊤) (h2 : u ≠ ⊥) (h : l ≤ u) :
    l ≤ ((clamp v l u : ℝ) : EReal) ∧ ((clamp v l u : ℝ) : EReal) ≤ u := by
  unfold clamp
  split_ifs with h3 h4
  · rw [EReal.coe_toReal h1 (ne_bot_of_gt h3)]; exact ⟨le_rfl, h⟩
  · rw [EReal.coe_toReal (ne_top_of_lt h4) h2]; exact ⟨h, le_rfl⟩
  · exact ⟨not_lt.1 h3, not_lt.1 h4⟩

theorem clamp_best {v w : ℝ} {l u : EReal} (h1 : l ≠ ⊤) (h2 : u ≠ ⊥) (hl : l ≤ (w : EReal)) (hu : (w : EReal) ≤ u) :
    (clamp v l u - v) ^ 2 ≤ (w - v) ^ 2 ∧ ((w - v) ^ 2 = (clamp v l u - v) ^ 2 → w = clamp v l u) := by
  unfold clamp
  split_ifs with h3 h4
  · have e := EReal.coe_toReal h1 (ne_bot_of_gt h3)
    rw [← e] at h3 hl
    have a : v < l.toReal := by exact_mod_cast h3
    have b : l.toReal ≤ w := by exact_mod_cast hl
    exact ⟨by nlinarith, fun hh => by nlinarith⟩
  · have e := EReal.coe_toReal (ne_top_of_lt h4) h2
    rw [← e] at h4 hu
    have a : u.toReal < v := by exact_mod_cast h4
    have b : w ≤ u.toReal := by exact_mod_cast hu
    exact ⟨by nlinarith, fun hh => by nlinarith⟩
  · refine ⟨by simpa using sq_nonneg _, fun hh => ?_⟩
    rw [sub_self] at hh
    have : w - v = 0 := by simpa using hh
    linarith

/-- **C25, start.** `init_` puts `solution()` at the projection of `x0` on the box, componentwise, and
`objectiveValue()` at half of the square of its distance to `x0`. -/
theorem C25_start (o : Opts ℝ) (hd : BoxData n bl xl xu) {s : State ℝ} (h : Dim (boxPb n x0 c bl ⊤ xl xu) s) :
    ∃ s1, boxInit o (boxPb n x0 c bl ⊤ xl xu) s = .ok (.success, s1) ∧
      IsProjection n (fun y => ∀ i < n, xl i ≤ ((y i : ℝ) : EReal) ∧ ((y i : ℝ) : EReal) ≤ xu i) x0 s1.x ∧
      s1.f = 1 / 2 * dist2 n s1.x x0 := by
  refine ⟨_, boxInit_ok rfl (boxPb_nb _ _ _ _ _ _ _) h, ?_⟩
  have hX := boxX_fold (pb := boxPb n x0 c bl ⊤ xl xu) rfl (boxPb_nb _ _ _ _ _ _ _)
    ⟨fun _ _ => hd.bl, fun _ _ => by simp [boxPb], fun _ => hd.low, fun _ => hd.up⟩ ⟨fun _ _ => by simp [boxPb], fun _ => hd.le⟩
    (BoxPre.start (o := o) h) (BoxX.start (o := o) h x0) n le_rfl
  change BoxX (boxPb n x0 c bl ⊤ xl xu) x0 n ((List.range n).foldl (boxStep (boxPb n x0 c bl ⊤ xl xu)) (boxStart o s, 0)).1 at hX
  change IsProjection n _ x0 ((List.range n).foldl (boxStep (boxPb n x0 c bl ⊤ xl xu)) (boxStart o s, 0)).1.x ∧
    ((List.range n).foldl (boxStep (boxPb n x0 c bl ⊤ xl xu)) (boxStart o s, 0)).1.f
      = 1 / 2 * dist2 n ((List.range n).foldl (boxStep (boxPb n x0 c bl ⊤ xl xu)) (boxStart o s, 0)).1.x x0
  generalize ((List.range n).foldl (boxStep (boxPb n x0 c bl ⊤ xl xu)) (boxStart o s, 0)).1 = s1 at hX
  have hx : ∀ i < n, s1.x i = clamp (x0 i) (xl i) (xu i) := hX.x
  have hin : ∀ i < n, xl i ≤ ((s1.x i : ℝ) : EReal) ∧ ((s1.x i : ℝ) : EReal) ≤ xu i := by
    intro i hi
    rw [hx i hi]
    exact clamp_mem (hd.low i hi) (hd.up i hi) (hd.le i hi)
  have hbest : ∀ i < n, ∀ v : ℝ, xl i ≤ (v : EReal) → (v : EReal) ≤ xu i →
      (s1.x i - x0 i) ^ 2 ≤ (v - x0 i) ^ 2 ∧ ((v - x0 i) ^ 2 = (s1.x i - x0 i) ^ 2 → v = s1.x i) := by
    intro i hi v h1 h2
    rw [hx i hi]
    exact clamp_best (hd.low i hi) (hd.up i hi) h1 h2
  refine ⟨⟨hin, fun y hy => ⟨?_, fun he => ?_⟩⟩, ?_⟩
  · exact Finset.sum_le_sum fun i hi => (hbest i (mem_range.1 hi) (y i) (hy i (mem_range.1 hi)).1 (hy i (mem_range.1 hi)).2).1
  · have := (Finset.sum_eq_sum_iff_of_le (fun i hi =>
      (hbest i (mem_range.1 hi) (y i) (hy i (mem_range.1 hi)).1 (hy i (mem_range.1 hi)).2).1)).1 he.symm
    intro i hi
    exact (hbest i hi (y i) (hy i hi).1 (hy i hi).2).2 (this i (mem_range.2 hi)).symm
  · have h1 : s1.f = ∑ j ∈ range n, 1 / 2 * (s1.x j - x0 j) ^ 2 := hX.f
    rw [h1, dist2, Finset.mul_sum]

/-- **C25 (partial), success.** In exact arithmetic, when the thresholds `1e-14` and `bigBnd` are harmless, `SUCCESS` means
that `solution()` is the projection of `x0` on the intersection of the box and the half-space, that `objectiveValue()` is half
of the square of its distance to `x0`, and that `multipliers()` certify it (KKT conditions of the quadratic program).

Missing: fixed thresholds, for which the statement is false in general (`c` tiny). -/
theorem C25_success_partial {o : Opts ℝ} (hd : BoxData n bl xl xu) {s : State ℝ} (h : Inv s)
    (hr : RegBox o n x0 c bl xl xu s) {s'} (hs : boxSolve o n x0 c bl ⊤ xl xu s = .ok (.success, s')) :
    IsProjection n (BoxFeasible n c bl xl xu) x0 s'.x ∧ s'.f = 1 / 2 * dist2 n s'.x x0 ∧
      KKT (boxSpec n x0 c bl xl xu) s'.x (multipliers s').u := by
  obtain ⟨i1, i2⟩ := boxEntry_inv (x0 := x0) (c := c) o hd h
  have hl := boxEntry_loop h hs
  rcases (loop_finalDual hd.proper hd.notCrossed hr.1 i1 i2 hr.2 hl).1 with ⟨_, h1, h2, h3⟩ | ⟨h1, _⟩ | ⟨h1, _⟩
  · have hne : (addF (boxShift n x0) s').needToExpand = true := by
      rw [loop_need _ hl]; exact boxReady_need o n x0 c bl ⊤ xl xu s
    have ho : IsUniqueOptimal (boxSpec n x0 c bl xl xu) (addF (boxShift n x0) s').x :=
      success_optimal hd.notCrossed (posDefN_kd (boxSpec_hess n x0 c bl xl xu)) h1 h3 h2
    have hk : KKT (boxSpec n x0 c bl xl xu) (addF (boxShift n x0) s').x (multipliers (addF (boxShift n x0) s')).u :=
      success_KKT hd.notCrossed h1 h3 h2 hne
    have hmu : (multipliers (addF (boxShift n x0) s')).u = (multipliers s').u := by
      unfold multipliers
      rw [if_pos hne, if_pos (show s'.needToExpand = true from hne)]
      rfl
    rw [hmu] at hk
    refine ⟨projection_of_optimal ho, ?_, hk⟩
    have := h1.alg.f
    change s'.f + boxShift n x0 = obj (boxSpec n x0 c bl xl xu) s'.x at this
    rw [boxSpec_obj] at this
    unfold boxShift at this
    unfold dist2
    linarith
  · cases h1
  · cases h1

/-- **C25 (partial), infeasibility.** `INFEASIBLE` means that the intersection is empty. Same conditions as above. -/
theorem C25_infeasible_partial {o : Opts ℝ} (hd : BoxData n bl xl xu) {s : State ℝ} (h : Inv s)
    (hr : RegBox o n x0 c bl xl xu s) {s'} (hs : boxSolve o n x0 c bl ⊤ xl xu s = .ok (.infeasible, s')) :
    ¬ ∃ y, BoxFeasible n c bl xl xu y := by
  obtain ⟨i1, i2⟩ := boxEntry_inv (x0 := x0) (c := c) o hd h
  have hl := boxEntry_loop h hs
  rcases (loop_finalDual hd.proper hd.notCrossed hr.1 i1 i2 hr.2 hl).1 with ⟨h1, _⟩ | ⟨_, h1, _⟩ | ⟨h1, _⟩
  · cases h1
  · rintro ⟨y, hy⟩
    exact h1 ⟨y, (boxFeasible_iff y).2 hy⟩
  · cases h1

/-- **C25 (partial), termination.** Same conditions; a large enough `maxIter` is never reached. -/
theorem C25_terminates_partial {o : Opts ℝ} (hd : BoxData n bl xl xu) {s : State ℝ} (h : Inv s)
    (hr : RegBox o n x0 c bl xl xu s) (hmax : (n + 1) * (7 ^ (1 + n) + 1) ≤ o.maxIter) {t s'}
    (hs : boxSolve o n x0 c bl ⊤ xl xu s = .ok (t, s')) : t = .success ∨ t = .infeasible := by
  obtain ⟨i1, i2⟩ := boxEntry_inv (x0 := x0) (c := c) o hd h
  have hl := boxEntry_loop h hs
  have hrem := remaining_le (boxSpec n x0 c bl xl xu) _ i1.alg.good false
  have hnb : (boxSpec n x0 c bl xl xu).nb = n := boxPb_nb n x0 c bl ⊤ xl xu
  rw [hnb] at hrem
  change _ ≤ (n + 1) * (7 ^ (1 + n) + 1) at hrem
  exact loop_terminates hd.proper hd.notCrossed hr.1 (posDefN_kd (boxSpec_hess n x0 c bl xl xu)) _ i1 i2 hr.2 (by omega) hl

/-- Specification: after any history of the solver, the answer on this problem is right. -/
def BoxSound (o : Opts ℝ) (n : Nat) (x0 c : Nat → ℝ) (bl : EReal) (xl xu : Nat → EReal) : Prop :=
  ∀ cs : List (BoxCall ℝ EReal), (∀ b ∈ cs, b.Admissible) →
    ∃ s t s', boxCalls cs (State.empty : State ℝ) = .ok s ∧ boxSolve o n x0 c bl ⊤ xl xu s = .ok (t, s') ∧
      (t = .success ∨ t = .infeasible ∨ t = .maxIterReached) ∧
      (t = .success → IsProjection n (BoxFeasible n c bl xl xu) x0 s'.x ∧ s'.f = 1 / 2 * dist2 n s'.x x0) ∧
      (t = .infeasible → ¬ ∃ y, BoxFeasible n c bl xl xu y) ∧
      (t = .maxIterReached → o.maxIter < (n + 1) * (7 ^ (1 + n) + 1))

theorem dist2_congr {x y : Nat → ℝ} (h : ∀ i < n, x i = y i) (z : Nat → ℝ) : dist2 n x z = dist2 n y z :=
  Finset.sum_congr rfl fun i hi => by rw [h i (mem_range.1 hi)]

theorem projection_congr {x y : Nat → ℝ} (h : ∀ i < n, x i = y i) (hx : IsProjection n (BoxFeasible n c bl xl xu) x0 x) :
    IsProjection n (BoxFeasible n c bl xl xu) x0 y := by
  obtain ⟨⟨h1, h2⟩, h3⟩ := hx
  refine ⟨⟨?_, fun i hi => by rw [← h i hi]; exact h2 i hi⟩, fun w hw => ?_⟩
  · rw [Finset.sum_congr rfl (g := fun i => c i * x i) (fun i hi => by rw [h i (mem_range.1 hi)])]; exact h1
  · rw [← dist2_congr h]
    refine ⟨(h3 w hw).1, fun he i hi => ?_⟩
    rw [← h i hi]
    exact (h3 w hw).2 he i hi

/-- **C25 (partial), existence of harmless thresholds.** For all data with bounds that do not cross, all small enough `tiny`
and all large enough `bigBnd` make the box solver right, after any history and for all other options. -/
theorem C25_thresholds_partial (x0 c : Nat → ℝ) (hd : BoxData n bl xl xu) :
    ∃ ε > 0, ∃ β : ℝ, ∀ o : Opts ℝ, 0 ≤ o.tiny → o.tiny < ε → β < o.bigBnd → BoxSound o n x0 c bl xl xu := by
  have hpd := posDefN_kd (n := n) (boxSpec_hess n x0 c bl xl xu)
  -- the entry state depends on the build type only
  obtain ⟨o0, ho0⟩ : ∃ o0 : Opts ℝ, o0 = ⟨0, 0, false, 0, false⟩ := ⟨_, rfl⟩
  obtain ⟨i1, i2⟩ := boxEntry_inv (x0 := x0) (c := c) o0 hd (inv_empty (K := ℝ))
  obtain ⟨ε, hε, β, hev⟩ := ev_regLoop (dbg := false) hd.proper hd.notCrossed hpd _ i1 i2 le_rfl
  refine ⟨ε, hε, β, ?_⟩
  intro o h0 h1 h2 cs hcs
  obtain ⟨s, g1, g2⟩ := boxCalls_safe cs _ (inv_empty (K := ℝ)) hcs
  have law := fpLaws_real o h0
  obtain ⟨t, s', g3, _⟩ := boxSolve_safe law n x0 c bl ⊤ xl xu g2
  obtain ⟨o1, ho1⟩ : ∃ o1 : Opts ℝ, o1 = { o with dbg := false, warmStart := false } := ⟨_, rfl⟩
  have hm1 : o1.maxIter = o.maxIter := by rw [ho1]
  have law1 : FpLaws ℝ o1 := fpLaws_real o1 (by rw [ho1]; exact h0)
  obtain ⟨t1, s1, k3, _⟩ := boxSolve_safe law1 n x0 c bl ⊤ xl xu (inv_empty (K := ℝ))
  have hentry : boxEntry o1 n x0 c bl xl xu (State.empty : State ℝ) = boxEntry o0 n x0 c bl xl xu (State.empty : State ℝ) := by
    rw [ho1, ho0]; rfl
  have hr : RegBox o1 n x0 c bl xl xu (State.empty : State ℝ) := by
    refine ⟨by rw [ho1]; exact h0, ?_⟩
    rw [hentry]
    exact hev o1 (by rw [ho1]) (by rw [ho1]; exact h0) (by rw [ho1]; exact h1) (by rw [ho1]; exact h2) _
  have hobs := boxSolve_sim (o := o) (o' := o1) ⟨hm1, by rw [ho1], by rw [ho1]⟩ law law1 n x0 c bl ⊤ xl xu g2 inv_empty g3 k3
  have ht : t = t1 := congrArg Obs.status hobs
  subst ht
  have hcase : t = .success ∨ t = .infeasible ∨ t = .maxIterReached := by
    rcases loop_it _ (boxSolve_loop n x0 c bl ⊤ xl xu g2 g3) with ⟨rfl, _⟩ | ⟨rfl | rfl, _⟩ <;> simp
  have hne : t ≠ .nonPosHessian := by rcases hcase with rfl | rfl | rfl <;> simp
  have hx1 := congrArg Obs.solution hobs
  have hf1 := congrArg Obs.objective hobs
  have hxx : ∀ i < n, s1.x i = s'.x i := by
    simp only [obs, hne, if_false, Option.some.injEq] at hx1
    intro i hi
    have := congrArg (fun l => l[i]?) hx1
    simpa [hi] using this.symm
  have hff : s'.f = s1.f := by simpa [obs, hne] using hf1
  refine ⟨s, t, s', g1, g3, hcase, ?_, ?_, ?_⟩
  · rintro rfl
    obtain ⟨a, b, _⟩ := C25_success_partial hd inv_empty hr k3
    exact ⟨projection_congr hxx a, by rw [hff, b, dist2_congr hxx]⟩
  · rintro rfl
    exact C25_infeasible_partial hd inv_empty hr k3
  · rintro rfl
    by_contra hmax
    rcases C25_terminates_partial hd inv_empty hr (by rw [hm1]; omega) k3 with a | a <;> cases a

/-- The hypotheses of the theorems above are met: the box `[0, 1]²`, the point `(2, -1)`, the half-space `x + y ≥ 3/2`. -/
example : BoxData 2 ((3 / 2 : ℝ) : EReal) (fun _ => ((0 : ℝ) : EReal)) (fun _ => ((1 : ℝ) : EReal)) ∧
    ∃ (o : Opts ℝ), 0 < o.tiny ∧ BoxSound o 2 (fun i => if i = 0 then 2 else -1) (fun _ => 1) ((3 / 2 : ℝ) : EReal)
      (fun _ => ((0 : ℝ) : EReal)) (fun _ => ((1 : ℝ) : EReal)) ∧
    (∃ y, BoxFeasible 2 (fun _ => 1) ((3 / 2 : ℝ) : EReal) (fun _ => ((0 : ℝ) : EReal)) (fun _ => ((1 : ℝ) : EReal)) y) := by
  have hd : BoxData 2 ((3 / 2 : ℝ) : EReal) (fun _ => ((0 : ℝ) : EReal)) (fun _ => ((1 : ℝ) : EReal)) :=
    ⟨EReal.coe_ne_top _, fun _ _ => EReal.coe_ne_top _, fun _ _ => EReal.coe_ne_bot _,
      fun _ _ => by exact_mod_cast zero_le_one⟩
  refine ⟨hd, ?_⟩
  obtain ⟨ε, hε, β, h⟩ := C25_thresholds_partial (fun i => if i = 0 then 2 else -1) (fun _ => 1) hd
  refine ⟨⟨1000, β + 1, false, ε / 2, false⟩, half_pos hε, h _ (half_pos hε).le (by simpa using half_lt_self hε) (by simp), ?_⟩
  refine ⟨fun _ => 1, ?_, fun i _ => ⟨by exact_mod_cast zero_le_one, le_rfl⟩⟩
  rw [EReal.coe_le_coe_iff]
  norm_num

end exact
end JrlQp
