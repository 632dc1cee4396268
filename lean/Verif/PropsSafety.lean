import Verif.SolverSafety

/-!
# Properties C05 (statuses, iteration bound) and C12 (no out-of-bounds access)

Valid for any scalar arithmetic (`K`), in particular IEEE doubles with NaN and infinities.
-/

set_option linter.unusedSectionVars false

namespace JrlQp

open NumOps

variable {K B : Type} [Zero K] [One K] [Add K] [Sub K] [Neg K] [Mul K] [Div K] [NumOps K B] [SumOps K]

/-! ## Iteration counts and statuses -/

theorem iterBody_it {o : Opts K} {pb : Pb K B} {s : State K} {sc : SC} {r} (h : iterBody o pb s sc = .ok r) :
    match r with
    | .done t s' => t = .infeasible ∧ s'.it = s.it
    | .cont s' _ _ => s'.it = s.it := by
  unfold iterBody at h
  simp only [] at h
  split_ifs at h <;> cases h
  · exact ⟨rfl, rfl⟩
  all_goals rfl

theorem iterate_it {o : Opts K} {pb : Pb K B} {s : State K} {sc : SC} {skip} {r}
    (h : iterate o pb s sc skip = .ok r) :
    match r with
    | .done t s' => (t = .infeasible ∨ t = .success) ∧ s'.it = s.it
    | .cont s' _ _ => s'.it = s.it := by
  unfold iterate at h
  simp only [] at h
  split_ifs at h with h1 h2 h3 h4
  · have := iterBody_it h
    cases r with
    | done t s' => exact ⟨Or.inl this.1, this.2⟩
    | cont s' sc' k => exact this
  · cases h; exact ⟨Or.inr rfl, rfl⟩
  · have := iterBody_it h
    cases r with
    | done t s' => exact ⟨Or.inl this.1, this.2⟩
    | cont s' sc' k => exact this

theorem loop_it {o : Opts K} {pb : Pb K B} (fuel : Nat) : ∀ {s : State K} {sc : SC} {skip} {t s'},
    loop o pb fuel s sc skip = .ok (t, s') →
    (t = .maxIterReached ∧ s'.it = s.it + fuel) ∨ ((t = .infeasible ∨ t = .success) ∧ s'.it < s.it + fuel) := by
  induction fuel with
  | zero => intro s sc skip t s' h; simp [loop] at h; left; exact ⟨h.1.symm, by rw [← h.2]; rfl⟩
  | succ fuel ih =>
    intro s sc skip t s' h
    simp only [loop] at h
    cases hr : iterate o pb s sc skip with
    | error e => simp [hr] at h
    | ok r =>
      have hi := iterate_it hr
      rw [hr] at h
      cases r with
      | done t1 s1 =>
        simp only [Except.ok.injEq, Prod.mk.injEq] at h
        obtain ⟨rfl, rfl⟩ := h
        right; exact ⟨hi.1, by have := hi.2; omega⟩
      | cont s1 sc1 k1 =>
        simp only at h hi
        rcases ih h with ⟨h1, h2⟩ | ⟨h1, h2⟩
        · left; refine ⟨h1, ?_⟩; simp only at h2; omega
        · right; refine ⟨h1, ?_⟩; simp only at h2; omega

theorem addInitial_it {o : Opts K} {pb : Pb K B} {s s' : State K} {sc : SC}
    (h : addInitialConstraint o pb s sc = .ok s') : s'.it = s.it := by
  unfold addInitialConstraint at h
  simp only [] at h
  split_ifs at h
  cases h; rfl

theorem addInitials_it {o : Opts K} {pb : Pb K B} (l : List SC) : ∀ {s s' : State K},
    addInitials o pb l s = .ok s' → s'.it = s.it := by
  induction l with
  | nil => intro s s' h; simp [addInitials] at h; rw [h]
  | cons sc l ih =>
    intro s s' h
    simp only [addInitials] at h
    cases hr : addInitialConstraint o pb s sc with
    | error e => simp [hr] at h
    | ok s1 => simp only [hr] at h; rw [ih h, addInitial_it hr]

theorem init_it {o : Opts K} {pb : Pb K B} {s s' : State K} {t} (h : init_ o pb s = .ok (t, s')) :
    s'.it = s.it ∧ (t = .success ∨ t = .nonPosHessian) := by
  unfold init_ at h
  simp only [] at h
  split_ifs at h
  · cases h; exact ⟨rfl, Or.inr rfl⟩
  · unfold initActiveSet at h
    split_ifs at h
    split at h
    · cases h
    · rename_i s1 hs1
      cases h
      exact ⟨by rw [addInitials_it _ hs1]; rfl, Or.inl rfl⟩

/-- **C05.** Whenever `solve` returns (see `C12_no_fault_partial` for when it does), the status is one of four values,
`iterations()` is at most `maxIter`, equal to it exactly when the status is `MAX_ITER_REACHED` (unless the Hessian was
rejected before the first iteration). -/
theorem C05_status_and_iterations (o : Opts K) (pb : Pb K B) (s s' : State K) (t : Term)
    (h : solve o pb s = .ok (t, s')) :
    (t = .success ∨ t = .nonPosHessian ∨ t = .infeasible ∨ t = .maxIterReached) ∧
    s'.it ≤ o.maxIter ∧
    (t = .maxIterReached → s'.it = o.maxIter) ∧
    (t = .success ∨ t = .infeasible → s'.it < o.maxIter) ∧
    (t = .nonPosHessian → s'.it = 0) := by
  unfold solve dualSolve at h
  cases hi : init_ o pb (preInit o (resize s pb.n pb.m pb.useBnd)) with
  | error e => simp [hi] at h
  | ok r =>
    obtain ⟨t0, s0⟩ := r
    have h0 := init_it hi
    have hz : s0.it = 0 := h0.1
    simp only [hi] at h
    by_cases ht : t0 = .success
    · subst ht
      simp only [ne_eq, not_true_eq_false, if_false] at h
      cases hl : loop o pb (o.maxIter - s0.it) s0 ⟨0, .inactive⟩ false with
      | error e => simp [hl] at h
      | ok r =>
        obtain ⟨t1, s1⟩ := r
        simp only [hl] at h
        have h1 := loop_it _ hl
        rw [hz] at h1
        rcases h1 with ⟨rfl, h2⟩ | ⟨rfl | rfl, h2⟩ <;> simp only [terminate, Except.ok.injEq, Prod.mk.injEq] at h <;>
          obtain ⟨rfl, rfl⟩ := h <;> simp <;> omega
    · simp only [ne_eq, ht, not_false_eq_true, if_true] at h
      have hn := h0.2.resolve_left ht
      subst hn
      simp only [terminate, Except.ok.injEq, Prod.mk.injEq] at h
      obtain ⟨rfl, rfl⟩ := h
      simp [hz]

/-! ## Memory safety over histories -/

/-- Buffers are as large as the current dimensions require: the solver's invariant between calls. -/
structure Inv (s : State K) : Prop where
  wf : s.A.WF
  szX : s.nbVar ≤ s.szX
  szZ : s.nbVar ≤ s.szZ
  szD : s.nbVar ≤ s.szD
  szU : s.A.nbCstr + s.A.nbBnd ≤ s.szU
  szR : s.A.nbCstr + s.A.nbBnd ≤ s.szR
  szJ : s.nbVar * s.nbVar ≤ s.szJ
  szRm : s.nbVar * s.nbVar ≤ s.szRm

theorem le_wsResize (a b : Nat) : b ≤ wsResize a b := by unfold wsResize; split_ifs <;> omega

theorem Dim.inv {pb : Pb K B} {s : State K} (h : Dim pb s) : Inv s :=
  ⟨h.wf, h.szX, h.szZ, h.szD, h.szU, h.szR, h.szJ, h.szRm⟩

theorem resize_dim {s : State K} (h : Inv s) (n m : Nat) (b : Bool) :
    Inv (resize s n m b) ∧ (resize s n m b).nbVar = n ∧ (resize s n m b).A.nbCstr = m ∧
      (resize s n m b).A.nbBnd = (if b then n else 0) := by
  obtain ⟨h1, h2, h3, h4, h5, h6, h7, h8⟩ := h
  generalize hnb : (if b then n else 0) = nb
  have key : ∀ (A : ActiveSet), A.WF → Inv s →
      (if m ≠ A.nbCstr ∨ nb ≠ A.nbBnd then A.resize m nb else A).WF ∧
      (if m ≠ A.nbCstr ∨ nb ≠ A.nbBnd then A.resize m nb else A).nbCstr = m ∧
      (if m ≠ A.nbCstr ∨ nb ≠ A.nbBnd then A.resize m nb else A).nbBnd = nb := by
    intro A hA _
    split_ifs with hc
    · exact ⟨ActiveSet.wf_resize _ _ _, rfl, rfl⟩
    · simp only [not_or, not_not] at hc
      exact ⟨hA, hc.1.symm, hc.2.symm⟩
  have hk := key s.A h1 ⟨h1, h2, h3, h4, h5, h6, h7, h8⟩
  have hsz : ∀ sz, s.A.nbCstr + s.A.nbBnd ≤ sz →
      m + nb ≤ (if m + nb ≠ s.A.nbAll then wsResize sz (m + nb) else sz) := by
    intro sz hs
    split_ifs with hc
    · exact le_wsResize _ _
    · simp only [not_not, ActiveSet.nbAll] at hc; omega
  by_cases hn : n = s.nbVar
  · subst hn
    by_cases hall : m + nb = s.A.nbAll <;> by_cases hA : m ≠ s.A.nbCstr ∨ nb ≠ s.A.nbBnd <;>
      simp only [hA, if_true, if_false, not_true_eq_false, ne_eq, not_false_eq_true, hall] at hk hsz <;>
      simp only [resize, resize_, resizeP, hnb, hall, hA, ne_eq, not_true_eq_false, if_false,
        not_false_eq_true, if_true] <;>
      refine ⟨⟨hk.1, h2, h3, h4, ?_, ?_, h7, h8⟩, ?_, hk.2⟩ <;>
      (try simp only [hk.2.1, hk.2.2, hall]) <;> first | exact hsz _ h5 | exact hsz _ h6 | rfl
  · have hn' : n ≠ s.nbVar := hn
    by_cases hall : m + nb = s.A.nbAll <;> by_cases hA : m ≠ s.A.nbCstr ∨ nb ≠ s.A.nbBnd <;>
      simp only [hA, if_true, if_false, not_true_eq_false, ne_eq, not_false_eq_true, hall] at hk hsz <;>
      simp only [resize, resize_, resizeP, hnb, hall, hA, ne_eq, not_true_eq_false, if_false,
        not_false_eq_true, if_true, hn] <;>
      refine ⟨⟨hk.1, le_wsResize _ _, le_wsResize _ _, le_wsResize _ _, ?_, ?_, le_wsResize _ _,
        le_wsResize _ _⟩, ?_, hk.2⟩ <;>
      (try simp only [hk.2.1, hk.2.2, hall]) <;> first | exact hsz _ h5 | exact hsz _ h6 | rfl

/-- Specification: number of equality constraints plus number of fixed variables of a problem. -/
def numEq (pb : Pb K B) : Nat :=
  (List.range pb.m).countP (fun i => bEq K (pb.bl i) (pb.bu i))
    + (List.range pb.nb).countP (fun i => bEq K (pb.xl i) (pb.xu i))

theorem eqList_length {pb : Pb K B} {A : ActiveSet} (h1 : A.nbCstr = pb.m) (h2 : A.nbBnd = pb.nb) :
    (eqList pb A).length = numEq pb := by
  simp [eqList, numEq, h1, h2, List.countP_eq_length_filter]

theorem resize_dim_pb {s : State K} (h : Inv s) (pb : Pb K B) : Dim pb (resize s pb.n pb.m pb.useBnd) := by
  obtain ⟨⟨h1, h2, h3, h4, h5, h6, h7, h8⟩, a, b, c⟩ := resize_dim h pb.n pb.m pb.useBnd
  exact ⟨a, h1, b, by rw [c]; rfl, h2, h3, h4, h5, h6, h7, h8⟩

theorem reset_statusAt (A : ActiveSet) (i : Nat) : A.reset.statusAt i = .inactive := by
  simp only [ActiveSet.reset, ActiveSet.statusAt, List.getD_eq_getElem?_getD, List.getElem?_replicate]
  split_ifs <;> rfl

theorem preInit_dim {o : Opts K} {pb : Pb K B} {s : State K} (h : Dim pb s) : Dim pb (preInit o s) := by
  obtain ⟨h0, h1, b, c, h2, h3, h4, h5, h6, h7, h8⟩ := h
  have hw : (if o.warmStart = true then s.A else s.A.reset).WF := by
    split_ifs
    · exact h1
    · exact ActiveSet.wf_reset _ h1.size
  have e1 : (if o.warmStart = true then s.A else s.A.reset).nbCstr = s.A.nbCstr := by split_ifs <;> rfl
  have e2 : (if o.warmStart = true then s.A else s.A.reset).nbBnd = s.A.nbBnd := by split_ifs <;> rfl
  refine ⟨h0, hw, ?_, ?_, h2, h3, h4, ?_, ?_, h7, h8⟩ <;> simp only [preInit, e1, e2] <;> assumption

theorem initPoint_good {o : Opts K} {pb : Pb K B} {s : State K} (h : Dim pb s) : Good pb (initPoint o pb s) := by
  obtain ⟨h0, h1, b, c, h2, h3, h4, h5, h6, h7, h8⟩ := h
  refine ⟨⟨h0, ActiveSet.wf_reset _ h1.size, b, c, h2, h3, h4, h5, h6, h7, h8⟩, ?_⟩
  simp [initPoint, ActiveSet.reset_q]

/-- Successful factorisation of the Hessian, as computed by the model of Eigen's LLT. -/
def cholOk (pb : Pb K B) : Prop := (chol pb.n pb.G pb.n).2 = none

theorem init_safe {o : Opts K} {pb : Pb K B} {s : State K} (h : Dim pb s)
    (hq : cholOk pb → numEq pb ≤ pb.n) :
    ∃ t s', init_ o pb s = .ok (t, s') ∧ Dim pb s' ∧ (t = .success → Good pb s') := by
  unfold init_
  rw [if_pos (by simp [h.nbVar])]
  simp only []
  have hG : ∀ G', Dim pb { s with G := G' } := by
    intro G'
    obtain ⟨h0, h1, b, c, h2, h3, h4, h5, h6, h7, h8⟩ := h
    exact ⟨h0, h1, b, c, h2, h3, h4, h5, h6, h7, h8⟩
  by_cases hc : (chol s.nbVar pb.G s.nbVar).2.isSome = true
  · rw [if_pos hc]
    exact ⟨_, _, rfl, hG _, by simp⟩
  · rw [if_neg hc, if_pos (by simp [h.szJ, h.szX])]
    have hck : cholOk pb := by
      unfold cholOk; rw [← h.nbVar]; simpa using hc
    have hg := initPoint_good (o := o) (hG (chol s.nbVar pb.G s.nbVar).1)
    have hst : ∀ i, (initPoint o pb { s with G := (chol s.nbVar pb.G s.nbVar).1 }).A.statusAt i = .inactive :=
      fun i => reset_statusAt _ i
    have hq0 : (initPoint o pb { s with G := (chol s.nbVar pb.G s.nbVar).1 }).A.q = 0 := ActiveSet.reset_q _
    generalize initPoint o pb { s with G := (chol s.nbVar pb.G s.nbVar).1 } = s1 at *
    unfold initActiveSet
    rw [if_pos hg.selectOk]
    obtain ⟨s2, h1, h2, h3, h4⟩ := addInitials_ok (o := o) (eqList pb s1.A) hg
      (actAll_eqList pb s1.A hg.dim.wf hst)
      (by rw [hq0, eqList_length hg.dim.nbCstr hg.dim.nbBnd, hg.dim.nbVar]; have := hq hck; omega)
    rw [h1]
    exact ⟨_, _, rfl, h2.dim, fun _ => h2⟩

theorem solve_safe {o : Opts K} (law : FpLaws K o) {pb : Pb K B} {s : State K} (h : Inv s)
    (hq : cholOk pb → numEq pb ≤ pb.n) : ∃ t s', solve o pb s = .ok (t, s') ∧ Inv s' := by
  unfold solve dualSolve
  obtain ⟨t0, s0, h1, h2, h3⟩ := init_safe (o := o) (preInit_dim (o := o) (resize_dim_pb h pb)) hq
  rw [h1]
  simp only []
  have hin := init_it h1
  by_cases ht : t0 = .success
  · rw [if_neg (by simpa using ht)]
    obtain ⟨t, s', h4, h5⟩ := loop_safe law (o.maxIter - s0.it) (sc := ⟨0, .inactive⟩) (skip := false)
      (h3 ht) (by simp)
    rw [h4]
    have := loop_it _ h4
    refine ⟨t, s', ?_, h5.dim.inv⟩
    rcases this with ⟨rfl, _⟩ | ⟨rfl | rfl, _⟩ <;> rfl
  · rw [if_pos ht]
    have hn := hin.2.resolve_left ht
    subst hn
    exact ⟨_, _, rfl, h2.inv⟩

/-- Public calls on a solver object. Each solve comes with the options in force. -/
inductive Call (K B : Type)
  | resize (nbVar nbCstr : Nat) (useBounds : Bool)
  | solve (o : Opts K) (pb : Pb K B)
  | multipliers
  | resetActiveSet

/-- Effect of a call; reading `multipliers()` views `work_u_` with size `nbAll` and `work_r_` with size `q`. -/
def call (s : State K) : Call K B → Except Fault (State K)
  | .resize n m b => .ok (resize s n m b)
  | .solve o pb => (solve o pb s).map Prod.snd
  | .multipliers =>
    if decide (s.A.nbAll ≤ s.szU) && decide (s.A.q ≤ s.szR) then .ok (multipliers s) else .error .outOfBounds
  | .resetActiveSet => .ok (resetActiveSet s)

/-- A sequence of calls. -/
def calls : List (Call K B) → State K → Except Fault (State K)
  | [], s => .ok s
  | c :: cs, s =>
    match call s c with
    | .error e => .error e
    | .ok s => calls cs s

/-- Calls covered by the safety theorem: solved problems with a factorisable Hessian have at most as many equality
constraints and fixed variables as variables. -/
def Call.Admissible : Call K B → Prop
  | .solve o pb => FpLaws K o ∧ (cholOk pb → numEq pb ≤ pb.n)
  | _ => True

theorem inv_empty : Inv (State.empty : State K) := by
  refine ⟨ActiveSet.wf_mk' 0 0, ?_, ?_, ?_, ?_, ?_, ?_, ?_⟩ <;> simp [State.empty, ActiveSet.mk', ActiveSet.resize, ActiveSet.reset]

theorem ActiveSet.WF.q_le {A : ActiveSet} (h : A.WF) : A.q ≤ A.nbCstr + A.nbBnd := by
  rw [h.q_eq]
  have h2 : A.active.toFinset ⊆ Finset.range (A.nbCstr + A.nbBnd) := by
    intro j hj
    rw [List.mem_toFinset] at hj
    rw [Finset.mem_range]
    have := ((h.mem j).1 hj).1; rw [h.size] at this; exact this
  have h3 := Finset.card_le_card h2
  rw [List.toFinset_card_of_nodup h.nodup] at h3
  simpa using h3

theorem call_safe {s : State K} (h : Inv s) (c : Call K B) (hc : c.Admissible) : ∃ s', call s c = .ok s' ∧ Inv s' := by
  cases c with
  | resize n m b => exact ⟨_, rfl, (resize_dim h n m b).1⟩
  | solve o pb =>
    obtain ⟨t, s', h1, h2⟩ := solve_safe hc.1 h hc.2
    exact ⟨s', by simp [call, h1, Except.map], h2⟩
  | multipliers =>
    have hq := h.wf.q_le
    have h1 := h.szU
    have h2 := h.szR
    refine ⟨multipliers s, ?_, ?_⟩
    · simp only [call]; rw [if_pos (by simp [ActiveSet.nbAll]; exact ⟨decide_eq_true h1, le_trans hq h2⟩)]
    · unfold multipliers
      split_ifs
      · exact ⟨h.wf, h.szX, h.szZ, h.szD, h.szU, h.szR, h.szJ, h.szRm⟩
      · exact h
  | resetActiveSet =>
    exact ⟨_, rfl, ActiveSet.wf_reset _ h.wf.size, h.szX, h.szZ, h.szD, h.szU, h.szR, h.szJ, h.szRm⟩

/-- **C12 (partial).** Over any sequence of admissible calls on a fresh solver, no access is out of bounds and no
`unreachable` branch is taken, whatever the numerical data. Missing with respect to C12: problems with more equality
constraints plus fixed variables than variables, for which the claim is false (`C12_overconstrained_faults`). -/
theorem C12_no_fault_partial (cs : List (Call K B)) (h : ∀ c ∈ cs, c.Admissible) :
    ∃ s, calls cs (State.empty : State K) = .ok s := by
  have key : ∀ (cs : List (Call K B)) (s : State K), Inv s → (∀ c ∈ cs, c.Admissible) → ∃ s', calls cs s = .ok s' := by
    intro cs
    induction cs with
    | nil => intro s _ _; exact ⟨s, rfl⟩
    | cons c cs ih =>
      intro s hs hc
      obtain ⟨s1, h1, h2⟩ := call_safe hs c (hc c List.mem_cons_self)
      simp only [calls, h1]
      exact ih s1 h2 (fun d hd => hc d (List.mem_cons_of_mem _ hd))
  exact key cs _ inv_empty h

/-- **C12 (negation).** After any admissible history, solving any problem that has a factorisable Hessian and more
equality constraints plus fixed variables than variables goes out of the workspaces. -/
theorem C12_overconstrained_faults (cs : List (Call K B)) (h : ∀ c ∈ cs, c.Admissible) (o : Opts K) (pb : Pb K B)
    (hc : cholOk pb) (hq : pb.n < numEq pb) :
    calls (cs ++ [.solve o pb]) (State.empty : State K) = .error .outOfBounds := by
  have hsolve : ∀ s : State K, Inv s → solve o pb s = .error .outOfBounds := by
    intro s hs
    unfold solve dualSolve
    have hd := preInit_dim (o := o) (resize_dim_pb hs pb)
    generalize preInit o (resize s pb.n pb.m pb.useBnd) = s0 at *
    have : init_ o pb s0 = .error .outOfBounds := by
      unfold init_
      rw [if_pos (by simp [hd.nbVar])]
      simp only []
      have hG : ∀ G', Dim pb { s0 with G := G' } := by
        intro G'
        obtain ⟨h0, h1, b, c, h2, h3, h4, h5, h6, h7, h8⟩ := hd
        exact ⟨h0, h1, b, c, h2, h3, h4, h5, h6, h7, h8⟩
      have hcn : ¬ (chol s0.nbVar pb.G s0.nbVar).2.isSome = true := by
        rw [hd.nbVar]; unfold cholOk at hc; simp [hc]
      rw [if_neg hcn, if_pos (by simp [hd.szJ, hd.szX])]
      have hg := initPoint_good (o := o) (hG (chol s0.nbVar pb.G s0.nbVar).1)
      have hst : ∀ i, (initPoint o pb { s0 with G := (chol s0.nbVar pb.G s0.nbVar).1 }).A.statusAt i = .inactive :=
        fun i => reset_statusAt _ i
      have hq0 : (initPoint o pb { s0 with G := (chol s0.nbVar pb.G s0.nbVar).1 }).A.q = 0 := ActiveSet.reset_q _
      generalize initPoint o pb { s0 with G := (chol s0.nbVar pb.G s0.nbVar).1 } = s1 at *
      unfold initActiveSet
      rw [if_pos hg.selectOk, addInitials_fault (eqList pb s1.A) hg (actAll_eqList pb s1.A hg.dim.wf hst)
        (by rw [hq0, eqList_length hg.dim.nbCstr hg.dim.nbBnd, hg.dim.nbVar]; omega)]
    rw [this]
  have key : ∀ (cs : List (Call K B)) (s : State K), Inv s → (∀ c ∈ cs, c.Admissible) →
      calls (cs ++ [.solve o pb]) s = .error .outOfBounds := by
    intro cs
    induction cs with
    | nil =>
      intro s hs _
      simp [calls, call, hsolve s hs, Except.map]
    | cons c cs ih =>
      intro s hs hc
      obtain ⟨s1, h1, h2⟩ := call_safe hs c (hc c List.mem_cons_self)
      simp only [List.cons_append, calls, h1]
      exact ih s1 h2 (fun d hd => hc d (List.mem_cons_of_mem _ hd))
  exact key cs _ inv_empty h

/-! ### Non-vacuity -/

/-- The laws hold in exact arithmetic for the default options. -/
theorem fpLaws_real (o : Opts ℝ) (h : 0 ≤ o.tiny) : FpLaws ℝ o where
  bigRefl := by simp [leb]
  ltEq := by intro a b _; simp [eqb]
  zeroMul := by simp
  zeroAdd := by simp
  sqrtZero := by simp only [ltb, NumOps.sqrt]; simp [h]

/-- `min ½x²  s.t.  x = 1` (one variable, one equality). -/
noncomputable def exPb1 : Pb ℝ EReal :=
  ⟨1, 1, false, fun _ _ => 1, fun _ => 0, fun _ _ => 1, fun _ => 1, fun _ => 1, fun _ => 0, fun _ => 0⟩

/-- `min ½x²  s.t.  x = 1, x = 1` (twice the same equality: feasible, but over-determined). -/
noncomputable def exPb2 : Pb ℝ EReal := { exPb1 with m := 2 }

/-- Default options, release build. -/
noncomputable def exOpts : Opts ℝ := ⟨500, 1e100, false, 1e-14, false⟩

theorem exPb_chol (pb : Pb ℝ EReal) (hn : pb.n = 1) (hG : pb.G = fun _ _ => 1) : cholOk pb := by
  have h10 : ¬ (1 : ℝ) ≤ 0 := by norm_num
  simp [cholOk, hn, hG, chol, cholCol, sumTo, esub_real, leb, h10]

example : ∃ s, calls [Call.solve exOpts exPb1, .multipliers, .resize 3 2 true, .solve exOpts exPb1]
    (State.empty : State ℝ) = .ok s := by
  have h : (Call.solve exOpts exPb1).Admissible := by
    refine ⟨fpLaws_real _ (by norm_num [exOpts]), fun _ => ?_⟩
    simp [numEq, exPb1, Pb.nb, List.range_succ, bEq]
  exact C12_no_fault_partial _ (by
    intro c hc
    simp only [List.mem_cons, List.not_mem_nil, or_false] at hc
    rcases hc with rfl | rfl | rfl | rfl
    · exact h
    · trivial
    · trivial
    · exact h)

example : calls [Call.solve exOpts exPb2] (State.empty : State ℝ) = .error .outOfBounds :=
  C12_overconstrained_faults [] (by simp) _ _ (exPb_chol _ rfl rfl)
    (by simp [numEq, exPb2, exPb1, Pb.nb, List.range_succ, bEq])

end JrlQp
