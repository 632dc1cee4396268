import Verif.ExactDual
import Verif.PropsSim

/-!
# `solve` in exact arithmetic: what each termination status means (C07, C08, C09, C17, C34)
-/

namespace JrlQp

open NumOps Finset Spec

/-- The state on which `init_` is called by `solve`. -/
noncomputable def solveStart (o : Opts ℝ) (pb : Pb ℝ EReal) (s : State ℝ) : State ℝ :=
  preInit o (resize s pb.n pb.m pb.useBnd)

/-- Specification: during the whole run of `solve`, the numerical thresholds of the code (`1e-14` on the norm of the
primal step direction, `bigBnd` on the step lengths) separate what is zero from what is not, and what is finite from
what is not: a non-zero direction is larger than `tiny`, a finite step length is smaller than `bigBnd`, and the
directions met while adding the equality constraints are larger than `tiny` (the equality constraints are linearly
independent). See `exists_thresholds` for the proof that suitable thresholds exist for each problem. -/
structure RegSolve (o : Opts ℝ) (pb : Pb ℝ EReal) (s : State ℝ) : Prop where
  tiny : 0 ≤ o.tiny
  init : RegInitAll o pb (solveStart o pb s)
  loop : ∀ s1, init_ o pb (solveStart o pb s) = .ok (.success, s1) → RegLoop o pb (o.maxIter - s1.it) s1 ⟨0, .inactive⟩ false

theorem terminate_eq {o : Opts ℝ} {t t1 : Term} {s s1 : State ℝ} (h : terminate o t1 s1 = .ok (t, s)) :
    t1 = t ∧ s1 = s := by
  unfold terminate at h
  cases t1 <;> simp only at h <;> (try split_ifs at h) <;> cases h <;> exact ⟨rfl, rfl⟩

/-- What the termination statuses mean for the final state, without hypothesis on the order of the constraints. -/
def FinalAlg (pb : Pb ℝ EReal) (t : Term) (s : State ℝ) : Prop :=
  (t = .success ∧ LoopInv pb s ⟨0, .inactive⟩ false ∧ (select pb pb.n s.A s.x).status = .inactive) ∨
  (t = .infeasible ∧ ∃ sc, LoopInv pb s sc true) ∨
  (t = .maxIterReached ∧ ∃ sc skip, LoopInv pb s sc skip)

/-- The multipliers' part of the invariant when no constraint is being processed does not depend on `sc`. -/
theorem LoopInv.anySc {pb : Pb ℝ EReal} {s : State ℝ} {sc sc' : SC} (h : LoopInv pb s sc false) :
    LoopInv pb s sc' false := ⟨h.alg.congr (by simp), by simp, h.fin, by simp⟩

theorem loop_final {o : Opts ℝ} {pb : Pb ℝ EReal} (hp : Proper pb) (hx : NotCrossed pb) (ht0 : 0 ≤ o.tiny) {fuel : Nat}
    {s : State ℝ} {sc : SC} {skip : Bool} (h : LoopInv pb s sc skip) (hr : RegLoop o pb fuel s sc skip) {t s'}
    (hl : loop o pb fuel s sc skip = .ok (t, s')) : FinalAlg pb t s' := by
  refine loop_induction (P := fun s sc skip => LoopInv pb s sc skip) (Q := fun t s => FinalAlg pb t s) ?_ ?_ ?_ fuel h hr hl
  · intro s sc skip t s' h hreg hi
    have := iterate_loopInv hp hx ht0 h hreg hi
    rcases this with ⟨rfl, rfl, rfl, h4⟩ | ⟨h1, h2⟩
    · exact Or.inl ⟨rfl, h.anySc, h4⟩
    · exact Or.inr (Or.inl ⟨h1, h2⟩)
  · intro s sc skip s' sc' skip' h hreg hi
    exact (iterate_loopInv hp hx ht0 h hreg hi : LoopInv pb s' sc' skip').setIt _
  · intro s sc skip h
    exact Or.inr (Or.inr ⟨rfl, sc, skip, h⟩)

/-- Decomposition of `solve`. -/
theorem solve_cases {o : Opts ℝ} {pb : Pb ℝ EReal} {s : State ℝ} {t s'} (h : solve o pb s = .ok (t, s')) :
    (∃ t1, t1 ≠ .success ∧ init_ o pb (solveStart o pb s) = .ok (t1, s') ∧ t = t1) ∨
    ∃ s1, init_ o pb (solveStart o pb s) = .ok (.success, s1) ∧
      loop o pb (o.maxIter - s1.it) s1 ⟨0, .inactive⟩ false = .ok (t, s') := by
  unfold solve dualSolve at h
  rw [show preInit o (resize s pb.n pb.m pb.useBnd) = solveStart o pb s from rfl] at h
  cases h1 : init_ o pb (solveStart o pb s) with
  | error e => rw [h1] at h; cases h
  | ok r =>
    obtain ⟨t1, s1⟩ := r
    rw [h1] at h
    simp only at h
    by_cases ht : t1 = .success
    · subst ht
      rw [if_neg (by simp)] at h
      cases h2 : loop o pb (o.maxIter - s1.it) s1 ⟨0, .inactive⟩ false with
      | error e => rw [h2] at h; cases h
      | ok r =>
        obtain ⟨t2, s2⟩ := r
        rw [h2] at h
        obtain ⟨rfl, rfl⟩ := terminate_eq h
        exact Or.inr ⟨s1, rfl, h2⟩
    · rw [if_pos ht] at h
      obtain ⟨rfl, rfl⟩ := terminate_eq h
      exact Or.inl ⟨t1, ht, rfl, rfl⟩

theorem init_nonpos {o : Opts ℝ} {pb : Pb ℝ EReal} {s : State ℝ} (hd : Dim pb s) {t s'}
    (h : init_ o pb s = .ok (t, s')) : (t = .success ∧ cholOk pb) ∨ (t = .nonPosHessian ∧ ¬ cholOk pb) := by
  unfold init_ at h
  rw [if_pos (by simp [hd.nbVar])] at h
  simp only [] at h
  unfold cholOk
  rw [hd.nbVar] at h
  by_cases hc : (chol pb.n pb.G pb.n).2.isSome = true
  · rw [if_pos hc] at h
    cases h
    right
    refine ⟨rfl, ?_⟩
    intro h1; rw [h1] at hc; cases hc
  · rw [if_neg hc] at h
    split_ifs at h
    left
    split at h
    · cases h
    · cases h; exact ⟨rfl, by simpa using hc⟩

theorem start_dim {o : Opts ℝ} {pb : Pb ℝ EReal} {s : State ℝ} (hi : Inv s) : Dim pb (solveStart o pb s) :=
  preInit_dim (resize_dim_pb hi pb)

/-- The final state of a regular run. -/
theorem solve_final {o : Opts ℝ} {pb : Pb ℝ EReal} (hp : Proper pb) (hx : NotCrossed pb) {s : State ℝ} (hi : Inv s)
    (hr : RegSolve o pb s) {t s'} (h : solve o pb s = .ok (t, s')) (ht : t ≠ .nonPosHessian) :
    cholOk pb ∧ FinalAlg pb t s' ∧ s'.needToExpand = true := by
  have hd : Dim pb (solveStart o pb s) := start_dim hi
  rcases solve_cases h with ⟨t1, h1, h2, h3⟩ | ⟨s1, h1, h2⟩
  · rcases init_nonpos hd h2 with ⟨a, _⟩ | ⟨a, _⟩
    · exact absurd a h1
    · exact absurd (h3.trans a) ht
  · have hc : cholOk pb := by
      rcases init_nonpos hd h1 with ⟨_, a⟩ | ⟨a, _⟩
      · exact a
      · cases a
    obtain ⟨s2, g1, g2, _⟩ := init_loopInv hp hr.tiny hd hc hr.init
    rw [h1] at g1
    cases g1
    refine ⟨hc, loop_final hp hx hr.tiny g2 (hr.loop s1 h1) h2, ?_⟩
    rw [loop_need _ h2, init_need h1]
    rfl

theorem posDef_of_chol {pb : Pb ℝ EReal} (h : cholOk pb) : PosDefN pb.n (hess pb) := by
  unfold cholOk at h
  exact chol_posDef (L := (chol pb.n pb.G pb.n).1) (by rw [← h])

/-! ### With the dual part -/

/-- Meaning of the statuses for problems whose equality constraints come first. -/
def FinalDual (pb : Pb ℝ EReal) (e : Nat) (t : Term) (s : State ℝ) : Prop :=
  (t = .success ∧ LoopInv pb s ⟨0, .inactive⟩ false ∧ (select pb pb.n s.A s.x).status = .inactive ∧
    DInv pb e s ⟨0, .inactive⟩ false) ∨
  (t = .infeasible ∧ (¬ ∃ y, Feasible pb y) ∧ ∃ sc, LoopInv pb s sc true ∧ DInv pb e s sc true) ∨
  (t = .maxIterReached ∧ ∃ sc skip, LoopInv pb s sc skip ∧ DInv pb e s sc skip)

/-- Invariants and progress along one iteration. -/
theorem iterate_dual {o : Opts ℝ} {pb : Pb ℝ EReal} (hp : Proper pb) (hx : NotCrossed pb) (ht0 : 0 ≤ o.tiny) {e : Nat}
    {s : State ℝ} {sc : SC} {skip : Bool} (h : LoopInv pb s sc skip) (hD : DInv pb e s sc skip)
    (hreg : RegIter o pb s sc skip) {r} (hr : iterate o pb s sc skip = .ok r) :
    (r = .done .success s ∧ skip = false ∧ (select pb pb.n s.A s.x).status = .inactive) ∨
    ∃ sc1, DOut pb e s.A.q s.f sc1 r ∧ AlgOut pb sc1 r := by
  rcases iterate_exact hp hx ht0 h hreg hr with h1 | ⟨s1, sc1, he, hst⟩
  · exact Or.inl h1
  · right
    obtain ⟨hi, _⟩ := enter_inv hp hx h he
    obtain ⟨hd, hf, hA⟩ := enter_dual hp hx h hD he
    refine ⟨sc1, ?_, stepR_alg hi hst⟩
    rw [← hf, ← hA]
    exact stepR_dual hi hd hst

theorem DInv.setIt {pb : Pb ℝ EReal} {e : Nat} {s : State ℝ} {sc : SC} {skip : Bool} (h : DInv pb e s sc skip) (k : Nat) :
    DInv pb e { s with it := k } sc skip := ⟨h.pre, h.pos, h.cpos, h.viol⟩

theorem DInv.anySc {pb : Pb ℝ EReal} {e : Nat} {s : State ℝ} {sc sc' : SC} (h : DInv pb e s sc false) :
    DInv pb e s sc' false := ⟨h.pre, h.pos, by simp, by simp⟩

theorem loop_finalDual {o : Opts ℝ} {pb : Pb ℝ EReal} (hp : Proper pb) (hx : NotCrossed pb) (ht0 : 0 ≤ o.tiny) {e fuel : Nat}
    {s : State ℝ} {sc : SC} {skip : Bool} (h : LoopInv pb s sc skip) (hD : DInv pb e s sc skip)
    (hr : RegLoop o pb fuel s sc skip) {t s'}
    (hl : loop o pb fuel s sc skip = .ok (t, s')) : FinalDual pb e t s' ∧ s.f ≤ s'.f := by
  refine loop_induction (P := fun s1 sc skip => (LoopInv pb s1 sc skip ∧ DInv pb e s1 sc skip) ∧ s.f ≤ s1.f)
    (Q := fun t s1 => FinalDual pb e t s1 ∧ s.f ≤ s1.f) ?_ ?_ ?_ fuel ⟨⟨h, hD⟩, le_rfl⟩ hr hl
  · rintro s1 sc skip t s' ⟨⟨h, hD⟩, hf⟩ hreg hi
    rcases iterate_dual hp hx ht0 h hD hreg hi with ⟨h1, h2, h3⟩ | ⟨sc1, h1, h2⟩
    · cases h1
      subst h2
      exact ⟨Or.inl ⟨rfl, h.anySc, h3, hD.anySc⟩, hf⟩
    · obtain ⟨a1, a2, a3, a4⟩ := h1
      exact ⟨Or.inr (Or.inl ⟨a1, a2, sc1, h2.2, a3⟩), by rw [a4]; exact hf⟩
  · rintro s1 sc skip s' sc' skip' ⟨⟨h, hD⟩, hf⟩ hreg hi
    rcases iterate_dual hp hx ht0 h hD hreg hi with ⟨h1, _⟩ | ⟨sc1, h1, h2⟩
    · cases h1
    · obtain ⟨a1, a2, _⟩ := h1
      obtain ⟨b1, b2⟩ := h2
      refine ⟨⟨?_, a1.setIt _⟩, hf.trans a2⟩
      rw [b1]; exact b2.setIt _
  · rintro s1 sc skip ⟨⟨h, hD⟩, hf⟩
    exact ⟨Or.inr (Or.inr ⟨rfl, sc, skip, h, hD⟩), hf⟩

theorem init_dInv {o : Opts ℝ} {pb : Pb ℝ EReal} {s : State ℝ} (hd : Dim pb s) {e : Nat} (he : EqFirst pb e)
    {s'} (h : init_ o pb s = .ok (.success, s')) (hq : s'.A.q ≤ e) : DInv pb e s' ⟨0, .inactive⟩ false :=
  ⟨initActive_eqPre hd he h, fun k hk hek => by omega, by simp, by simp⟩

theorem init_both {o : Opts ℝ} {pb : Pb ℝ EReal} (hp : Proper pb) (ht0 : 0 ≤ o.tiny) {s : State ℝ} (hd : Dim pb s)
    (hc : cholOk pb) (hr : RegInitAll o pb s) {e : Nat} (he : EqFirst pb e) {s'} (h : init_ o pb s = .ok (.success, s')) :
    LoopInv pb s' ⟨0, .inactive⟩ false ∧ DInv pb e s' ⟨0, .inactive⟩ false := by
  obtain ⟨s2, g1, g2, l, l1, _, _, A0, l4, l5, l6⟩ := init_loopInv hp ht0 hd hc hr
  rw [h] at g1
  cases g1
  refine ⟨g2, init_dInv hd he h ?_⟩
  rw [l1, l6, eqList_prefix l4 l5 he]
  simp

theorem solve_finalDual {o : Opts ℝ} {pb : Pb ℝ EReal} (hp : Proper pb) (hx : NotCrossed pb) {s : State ℝ} (hi : Inv s)
    {e : Nat} (he : EqFirst pb e) (hr : RegSolve o pb s) {t s'} (h : solve o pb s = .ok (t, s')) (ht : t ≠ .nonPosHessian) :
    cholOk pb ∧ FinalDual pb e t s' ∧ s'.needToExpand = true := by
  have hd : Dim pb (solveStart o pb s) := start_dim hi
  rcases solve_cases h with ⟨t1, h1, h2, h3⟩ | ⟨s1, h1, h2⟩
  · rcases init_nonpos hd h2 with ⟨a, _⟩ | ⟨a, _⟩
    · exact absurd a h1
    · exact absurd (h3.trans a) ht
  · have hc : cholOk pb := by
      rcases init_nonpos hd h1 with ⟨_, a⟩ | ⟨a, _⟩
      · exact a
      · cases a
    obtain ⟨g2, g3⟩ := init_both hp hr.tiny hd hc hr.init he h1
    refine ⟨hc, (loop_finalDual hp hx hr.tiny g2 g3 (hr.loop s1 h1) h2).1, ?_⟩
    rw [loop_need _ h2, init_need h1]
    rfl

/-- The KKT conditions with the multipliers returned by `multipliers()`. -/
theorem success_KKT {pb : Pb ℝ EReal} (hx : NotCrossed pb) {e : Nat} {s : State ℝ} {sc : SC} (h : LoopInv pb s sc false)
    (hD : DInv pb e s sc false) (hs : (select pb pb.n s.A s.x).status = .inactive) (hne : s.needToExpand = true) :
    KKT pb s.x (multipliers s).u := by
  have hw := h.alg.good.dim.wf
  have hm := h.alg.good.dim.nbCstr
  have hnb := h.alg.good.dim.nbBnd
  obtain ⟨c1, c2, c3, _⟩ := C06_multipliers s hw hne
  have halg : Alg pb s (fun _ => 0) := h.alg.congr (by simp)
  have hact : ∀ i < pb.m + pb.nb, s.A.statusAt i ≠ .inactive →
      ∃ k < s.A.q, s.A.get k = i ∧ (e ≤ k → 0 ≤ s.u k) ∧ ((s.A.statusAt i).isEq = true ↔ k < e) ∧
        ndot pb ⟨i, s.A.statusAt i⟩ s.x = rhs pb ⟨i, s.A.statusAt i⟩ ∧ BndFin pb ⟨i, s.A.statusAt i⟩ ∧
        scOk pb ⟨i, s.A.statusAt i⟩ = true := by
    intro i hi hst
    have hmem := (hw.mem i).2 ⟨by rw [hw.size, hm, hnb]; exact hi, hst⟩
    obtain ⟨k, hk, he⟩ := List.getElem_of_mem hmem
    have hg : s.A.get k = i := by rw [ActiveSet.get, List.getD_eq_getElem _ _ hk, he]
    have hk' : k < s.A.q := by rw [hw.q_eq]; exact hk
    have hA : s.A.act k = ⟨i, s.A.statusAt i⟩ := by rw [ActiveSet.act, hg]
    have := hD.pre.act hw hk'
    rw [hA] at this
    refine ⟨k, hk', hg, hD.pos k hk', this, ?_, ?_, ?_⟩
    · rw [← hA]; exact halg.tight k hk'
    · rw [← hA]; exact h.fin k hk'
    · rw [← hA]; exact halg.scOk hk'
  have hgen : ∀ i < pb.m, (0 < (multipliers s).u i → ((row pb s.x i : ℝ) : EReal) = pb.bu i) ∧
      ((multipliers s).u i < 0 → ((row pb s.x i : ℝ) : EReal) = pb.bl i) := by
    intro i hi
    by_cases hst : s.A.statusAt i = .inactive
    · rw [c1 i hst]; simp
    obtain ⟨k, hk, hg, hu, heq, htight, hfin, hok⟩ := hact i (by omega) hst
    have hkind := hw.kindG i (by rw [hm]; exact hi) hst
    rw [ndot_cases pb _ hok] at htight
    unfold BndFin at hfin
    unfold rhs at htight
    have h2 := c2 k hk
    have h3 := c3 k hk
    rw [hg] at h2 h3
    simp only at htight hfin
    cases hs : s.A.statusAt i <;> simp only [hs] at htight hfin h2 h3 heq <;> simp [hs, Status.isGeneral] at hkind
    · have h3 := h3 (by simp)
      have hu := hu (by simpa [Status.isEq] using heq)
      obtain ⟨r, hr⟩ := hfin
      rw [hr, EReal.toReal_coe] at htight
      rw [h3]
      exact ⟨fun h => by linarith, fun _ => by rw [htight, hr]⟩
    · have h2 := h2 (by simp)
      have hu := hu (by simpa [Status.isEq] using heq)
      obtain ⟨r, hr⟩ := hfin
      rw [hr, EReal.toReal_coe] at htight
      rw [h2]
      exact ⟨fun _ => by rw [neg_inj.1 htight, hr], fun h => by linarith⟩
    · obtain ⟨r, hr, hr'⟩ := hfin
      rw [hr, EReal.toReal_coe] at htight
      exact ⟨fun _ => by rw [htight, hr'], fun _ => by rw [htight, hr]⟩
  have hbnd : pb.useBnd = true → ∀ i < pb.n, (0 < (multipliers s).u (pb.m + i) → ((s.x i : ℝ) : EReal) = pb.xu i) ∧
      ((multipliers s).u (pb.m + i) < 0 → ((s.x i : ℝ) : EReal) = pb.xl i) := by
    intro hub i hi
    have hnbn : pb.nb = pb.n := by simp [Pb.nb, hub]
    by_cases hst : s.A.statusAt (pb.m + i) = .inactive
    · rw [c1 _ hst]; simp
    obtain ⟨k, hk, hg, hu, heq, htight, hfin, hok⟩ := hact (pb.m + i) (by omega) hst
    have hkind := hw.kindB (pb.m + i) (by rw [hm]; omega) hst
    rw [ndot_cases pb _ hok] at htight
    unfold BndFin at hfin
    unfold rhs at htight
    have h2 := c2 k hk
    have h3 := c3 k hk
    rw [hg] at h2 h3
    simp only [Nat.add_sub_cancel_left] at htight hfin
    cases hs : s.A.statusAt (pb.m + i) <;> simp only [hs] at htight hfin h2 h3 heq <;> simp [hs, Status.isBound] at hkind
    · have h3 := h3 (by simp)
      have hu := hu (by simpa [Status.isEq] using heq)
      obtain ⟨r, hr⟩ := hfin
      rw [hr, EReal.toReal_coe] at htight
      rw [h3]
      exact ⟨fun h => by linarith, fun _ => by rw [htight, hr]⟩
    · have h2 := h2 (by simp)
      have hu := hu (by simpa [Status.isEq] using heq)
      obtain ⟨r, hr⟩ := hfin
      rw [hr, EReal.toReal_coe] at htight
      rw [h2]
      exact ⟨fun _ => by rw [neg_inj.1 htight, hr], fun h => by linarith⟩
    · obtain ⟨r, hr, hr'⟩ := hfin
      rw [hr, EReal.toReal_coe] at htight
      exact ⟨fun _ => by rw [htight, hr'], fun _ => by rw [htight, hr]⟩
  exact ⟨select_none_feasible hx halg h.fin hs, multipliers_stationary halg hne, fun i hi => (hgen i hi).2,
    fun i hi => (hgen i hi).1, fun hb i hi => (hbnd hb i hi).2, fun hb i hi => (hbnd hb i hi).1⟩

/-! ## Property theorems -/

/-- **C07 (partial).** In exact arithmetic, for every problem whose lower bounds do not exceed its upper bounds
(`NotCrossed`; sides may be infinite, `Proper`) and whose equality constraints come first (`EqFirst`), started from any
solver reached by legal calls (`Inv`), if the thresholds do not interfere (`RegSolve`) then `SUCCESS` means: the solution
is the unique global minimiser, and with `multipliers()` it satisfies the KKT conditions.

Missing: crossed bounds (false, `C07_crossed_false`), equalities after inequalities (false, `C07_order_false`),
interfering thresholds. -/
theorem C07_success_optimal_partial {o : Opts ℝ} {pb : Pb ℝ EReal} (hp : Proper pb) (hx : NotCrossed pb) {s : State ℝ}
    (hi : Inv s) {e : Nat} (he : EqFirst pb e) (hr : RegSolve o pb s) {s'} (h : solve o pb s = .ok (.success, s')) :
    IsUniqueOptimal pb s'.x ∧ KKT pb s'.x (multipliers s').u := by
  obtain ⟨hc, hf, hne⟩ := solve_finalDual hp hx hi he hr h (by simp)
  rcases hf with ⟨_, h1, h2, h3⟩ | ⟨h1, _⟩ | ⟨h1, _⟩
  · exact ⟨success_optimal hx (posDef_of_chol hc) h1 h3 h2, success_KKT hx h1 h3 h2 hne⟩
  · cases h1
  · cases h1

/-- On `SUCCESS` the solution is feasible, whatever the order of the constraints (part of C07). -/
theorem C07_success_feasible_partial {o : Opts ℝ} {pb : Pb ℝ EReal} (hp : Proper pb) (hx : NotCrossed pb) {s : State ℝ}
    (hi : Inv s) (hr : RegSolve o pb s) {s'} (h : solve o pb s = .ok (.success, s')) : Feasible pb s'.x := by
  obtain ⟨_, hf, _⟩ := solve_final hp hx hi hr h (by simp)
  rcases hf with ⟨_, h1, h2⟩ | ⟨h1, _⟩ | ⟨h1, _⟩
  · exact select_none_feasible hx h1.alg h1.fin h2
  · cases h1
  · cases h1

/-- **C08 (partial).** In exact arithmetic and with non interfering thresholds, whenever `solve` returns anything but
`NON_POS_HESSIAN`, `objectiveValue()` is the objective at `solution()`, for any order of the constraints. -/
theorem C08_objective_partial {o : Opts ℝ} {pb : Pb ℝ EReal} (hp : Proper pb) (hx : NotCrossed pb) {s : State ℝ}
    (hi : Inv s) (hr : RegSolve o pb s) {t s'} (h : solve o pb s = .ok (t, s')) (ht : t ≠ .nonPosHessian) :
    s'.f = obj pb s'.x := by
  obtain ⟨_, hf, _⟩ := solve_final hp hx hi hr h ht
  rcases hf with ⟨_, h1, _⟩ | ⟨_, sc, h1⟩ | ⟨_, sc, skip, h1⟩ <;> exact h1.alg.f

/-- **C09 (partial).** Under the hypotheses of C07, `INFEASIBLE` means that no point satisfies the constraints. Missing:
equalities after inequalities (false, `C09_order_false`), interfering thresholds (false, `C09_threshold_false`). -/
theorem C09_infeasible_partial {o : Opts ℝ} {pb : Pb ℝ EReal} (hp : Proper pb) (hx : NotCrossed pb) {s : State ℝ}
    (hi : Inv s) {e : Nat} (he : EqFirst pb e) (hr : RegSolve o pb s) {s'} (h : solve o pb s = .ok (.infeasible, s')) :
    ¬ ∃ y, Feasible pb y := by
  obtain ⟨_, hf, _⟩ := solve_finalDual hp hx hi he hr h (by simp)
  rcases hf with ⟨h1, _⟩ | ⟨_, h1, _⟩ | ⟨h1, _⟩
  · cases h1
  · exact h1
  · cases h1

/-- **C17 (partial), lower bound.** Under the hypotheses of C07, whenever `solve` returns anything but
`NON_POS_HESSIAN`, `objectiveValue()` is a lower bound of the objective over the feasible set; in particular when it
stops with `MAX_ITER_REACHED`. -/
theorem C17_lower_bound_partial {o : Opts ℝ} {pb : Pb ℝ EReal} (hp : Proper pb) (hx : NotCrossed pb) {s : State ℝ}
    (hi : Inv s) {e : Nat} (he : EqFirst pb e) (hr : RegSolve o pb s) {t s'} (h : solve o pb s = .ok (t, s'))
    (ht : t ≠ .nonPosHessian) {y : Nat → ℝ} (hy : Feasible pb y) : s'.f ≤ obj pb y := by
  obtain ⟨hc, hf, _⟩ := solve_finalDual hp hx hi he hr h ht
  have hpd := posDef_of_chol hc
  have hge : ∀ v : Nat → ℝ, 0 ≤ ∑ a ∈ range pb.n, ∑ b ∈ range pb.n, v a * hess pb a b * v b := by
    intro v
    by_cases hv : ∃ i < pb.n, v i ≠ 0
    · exact (hpd v hv).le
    · push Not at hv
      apply le_of_eq
      symm
      apply sum_eq_zero; intro a ha
      apply sum_eq_zero; intro b _
      rw [hv a (mem_range.1 ha)]; ring
  have key : ∀ sc skip, LoopInv pb s' sc skip → DInv pb e s' sc skip → s'.f ≤ obj pb y := by
    intro sc skip h1 h2
    have := weak_duality h1 h2 hy
    have := hge (fun a => y a - s'.x a)
    linarith
  rcases hf with ⟨_, h1, _, h3⟩ | ⟨_, _, sc, h1, h2⟩ | ⟨_, sc, skip, h1, h2⟩
  · exact key _ _ h1 h3
  · exact key _ _ h1 h2
  · exact key _ _ h1 h2

end JrlQp
