import Verif.ExactSolve

/-!
# `solve` in exact arithmetic with arbitrary thresholds: backward error

Nothing is assumed on the thresholds (`1e-14` on the norm of the direction, `bigBnd` on the step lengths). A step of the
solver that is wrongly taken for a purely dual one leaves the stationarity condition with a residual; the solver goes on as
if it were solving a problem with another linear term.
-/

namespace JrlQp

open NumOps Finset Spec

/-- The problem with another linear term. -/
def shiftA (pb : Pb ℝ EReal) (δ : Nat → ℝ) : Pb ℝ EReal := { pb with a := fun i => pb.a i + δ i }

theorem Good.shiftA {pb : Pb ℝ EReal} {s : State ℝ} (h : Good pb s) (δ : Nat → ℝ) : Good (JrlQp.shiftA pb δ) s :=
  ⟨⟨h.dim.nbVar, h.dim.wf, h.dim.nbCstr, h.dim.nbBnd, h.dim.szX, h.dim.szZ, h.dim.szD, h.dim.szU, h.dim.szR, h.dim.szJ,
    h.dim.szRm⟩, h.q_le⟩

/-- The state with another objective value. -/
def plusF (s : State ℝ) (c : ℝ) : State ℝ := { s with f := s.f + c }

def Iter.plusF (c : ℝ) : Iter ℝ → Iter ℝ
  | .done t s => .done t (JrlQp.plusF s c)
  | .cont s sc skip => .cont (JrlQp.plusF s c) sc skip

theorem iterBody_plusF {o : Opts ℝ} {pb : Pb ℝ EReal} {s : State ℝ} {sc : SC} {r} (c : ℝ) (h : iterBody o pb s sc = .ok r) :
    iterBody o pb (plusF s c) sc = .ok (r.plusF c) := by
  unfold iterBody at h ⊢
  have e0 : (computeStepOk pb (plusF s c) sc && decide ((plusF s c).A.q < (plusF s c).szU)
      && decide ((plusF s c).nbVar ≤ (plusF s c).szX)) = (computeStepOk pb s sc && decide (s.A.q < s.szU) && decide (s.nbVar ≤ s.szX)) := rfl
  have e1 : computeStep pb (plusF s c) sc = plusF (computeStep pb s sc) c := rfl
  rw [e0, e1]
  split_ifs at h with h0
  rw [if_pos h0]
  clear h0 e0 e1
  generalize computeStep pb s sc = s1 at *
  simp only [] at h ⊢
  have e2 : stepLenOk o (plusF s1 c) sc = stepLenOk o s1 sc := rfl
  have e3 : computeStepLength o pb (plusF s1 c) sc = computeStepLength o pb s1 sc := rfl
  have e4 : ∀ t, dualUpdate (plusF s1 c) t = plusF (dualUpdate s1 t) c := fun _ => rfl
  have e5 : ∀ t, fullUpdate pb (plusF s1 c) sc t = plusF (fullUpdate pb s1 sc t) c := by
    intro t
    simp only [fullUpdate, primalStep, dualUpdate, plusF]
    congr 1
    ring
  have e6 : ∀ s : State ℝ, addOk (plusF s c) sc = addOk s sc := fun _ => rfl
  have e7 : ∀ (s : State ℝ) l, removeOk (plusF s c) l = removeOk s l := fun _ _ => rfl
  have e8 : ∀ (s : State ℝ), addConstraint o (plusF s c) sc = plusF (addConstraint o s sc) c := fun _ => rfl
  have e9 : ∀ (s : State ℝ) l, removeConstraint o (plusF s c) l = plusF (removeConstraint o s l) c := fun _ _ => rfl
  rw [e2, e3]
  simp only [e4, e5, e6, e7, e8, e9]
  generalize computeStepLength o pb s1 sc = sl at *
  split_ifs at h ⊢ <;> cases h <;> rfl

theorem iterate_plusF {o : Opts ℝ} {pb : Pb ℝ EReal} {s : State ℝ} {sc : SC} {skip : Bool} {r} (c : ℝ)
    (h : iterate o pb s sc skip = .ok r) : iterate o pb (plusF s c) sc skip = .ok (r.plusF c) := by
  unfold iterate at h ⊢
  have e0 : selectOk pb (plusF s c) = selectOk pb s := rfl
  have e1 : select pb (plusF s c).nbVar (plusF s c).A (plusF s c).x = select pb s.nbVar s.A s.x := rfl
  have e2 : (plusF s c).A.q = s.A.q := rfl
  have e3 : (plusF s c).szU = s.szU := rfl
  have e4 : (plusF s c).szR = s.szR := rfl
  rw [e0, e1, e2, e3, e4]
  cases skip with
  | true => simp only [if_true] at h ⊢; exact iterBody_plusF c h
  | false =>
    simp only [Bool.false_eq_true, if_false] at h ⊢
    split_ifs at h ⊢
    · cases h; rfl
    · exact iterBody_plusF c h

theorem iterate_shiftA (o : Opts ℝ) (pb : Pb ℝ EReal) (δ : Nat → ℝ) (s : State ℝ) (sc : SC) (skip : Bool) :
    iterate o (shiftA pb δ) s sc skip = iterate o pb s sc skip := rfl

/-- The quadratic form of the Hessian. -/
noncomputable def quad (pb : Pb ℝ EReal) (z : Nat → ℝ) : ℝ :=
  ∑ a ∈ range pb.n, ∑ b ∈ range pb.n, z a * hess pb a b * z b

/-- Specification: why a step may be taken for a purely dual one. Either the direction is below the threshold on its norm,
or the step to the boundary of the selected constraint, `violation / zᵀGz`, reaches `bigBnd`. -/
def Neglected (o : Opts ℝ) (pb : Pb ℝ EReal) (z : Nat → ℝ) (viol : ℝ) : Prop :=
  normn pb.n z ≤ o.tiny ∨ (0 < quad pb z ∧ o.bigBnd * quad pb z ≤ viol)

/-- The outcomes of an iteration, for arbitrary thresholds: the regular ones, and those due to the thresholds. -/
inductive StepT (o : Opts ℝ) (pb : Pb ℝ EReal) (s : State ℝ) (sc : SC) : Iter ℝ → Prop
  | reg {r} (h : StepR o pb s sc r) : StepT o pb s sc r
  | infeasible (hz : Neglected o pb s.z (rhs pb sc - ndot pb sc s.x))
      (hr : ∀ k < s.A.q, elig s.A k → 0 < s.r k → o.bigBnd ≤ s.u k / s.r k) : StepT o pb s sc (.done .infeasible s)
  | dropDual (hz : Neglected o pb s.z (rhs pb sc - ndot pb sc s.x)) (l : Nat) (hl : l < s.A.q) (he : elig s.A l)
      (hr : 0 < s.r l) (hb : s.u l / s.r l < o.bigBnd)
      (hmin : ∀ k < s.A.q, elig s.A k → 0 < s.r k → s.u l / s.r l ≤ s.u k / s.r k) :
      StepT o pb s sc (.cont (removeConstraint o (dualUpdate s (s.u l / s.r l)) l) sc true)

theorem iterBody_any {o : Opts ℝ} {pb : Pb ℝ EReal} {s : State ℝ} {sc : SC} (ht0 : 0 ≤ o.tiny)
    (hg : Good pb s) (hc : Cand s.A sc)
    (hf : Fac pb.n s.A.q (hess pb) (fun k => normal pb (s.A.act k)) s.J s.R) {r} (h : iterBody o pb s sc = .ok r) :
    StepT o pb (computeStep pb s sc) sc r := by
  have hsc := Cand.scOk (pb := pb) hc.pre hg.dim.nbCstr hg.dim.nbBnd
  have hfacts := computeStep_facts (sc := sc) hg.dim.nbVar (by rw [← hg.dim.nbVar]; exact hg.q_le) hf hsc
  have hn : (computeStep pb s sc).nbVar = pb.n := hg.dim.nbVar
  unfold iterBody at h
  split_ifs at h with h0
  clear h0 hf hg
  generalize computeStep pb s sc = s1 at *
  simp only [] at h
  by_cases h1 : stepLenOk o s1 sc = true
  swap
  · rw [if_neg h1] at h; cases h
  rw [if_pos h1] at h
  clear h1
  have hratio := ratio_spec s1.A s1.u s1.r o.bigBnd s1.A.q
  simp only at hratio
  have ht1 : (computeStepLength o pb s1 sc).t1
      = ((List.range s1.A.q).foldl (ratioStep s1.A s1.u s1.r) (o.bigBnd, 0)).1 := rfl
  have hl1 : (computeStepLength o pb s1 sc).l
      = ((List.range s1.A.q).foldl (ratioStep s1.A s1.u s1.r) (o.bigBnd, 0)).2 := rfl
  have ht2 : (computeStepLength o pb s1 sc).t2
      = if ltb o.tiny (normn s1.nbVar s1.z) then fullStep pb s1.nbVar s1.x s1.z sc else o.bigBnd := rfl
  generalize hacc : (List.range s1.A.q).foldl (ratioStep s1.A s1.u s1.r) (o.bigBnd, 0) = acc at *
  generalize computeStepLength o pb s1 sc = sl at *
  rw [hn, fullStep_eq pb s1 sc hsc hc.ineq] at ht2
  obtain ⟨g1, g2, g3⟩ := hratio
  simp only [leb_real, eqb_real, stdMin, ltb_real] at h
  by_cases hb2 : sl.t2 < o.bigBnd
  · -- a primal step
    have hz0 : o.tiny < normn pb.n s1.z := by
      by_contra hcon
      rw [if_neg (by simpa using hcon)] at ht2
      rw [ht2] at hb2
      exact lt_irrefl _ hb2
    have hz : ∃ i < pb.n, s1.z i ≠ 0 := normn_pos.1 (lt_of_le_of_lt ht0 hz0)
    rw [if_pos (by simpa using hz0)] at ht2
    refine StepT.reg ?_
    have hqlt : s1.A.q < pb.n := by
      obtain ⟨j, hj1, hj2, _⟩ := hfacts.d_ne hz
      omega
    by_cases hlt : sl.t2 < sl.t1
    · simp only [if_pos hlt] at h
      rw [if_neg (not_le.2 hb2), if_neg (not_le.2 hb2)] at h
      simp only [if_true] at h
      split_ifs at h with h2
      cases h
      rw [ht2]
      refine StepR.full hz hqlt ?_
      intro k hk he hr
      have := g2 k hk he hr
      rw [← ht1] at this
      rw [← ht2]
      linarith
    · simp only [if_neg hlt] at h
      rw [not_lt] at hlt
      have hacc1 : acc.1 < o.bigBnd := by rw [← ht1]; linarith
      rcases g3 with ⟨g3, _⟩ | ⟨g3, g4, g5, g6, g7⟩
      · rw [g3] at hacc1; exact absurd hacc1 (lt_irrefl _)
      rw [if_neg (by rw [ht1]; exact not_le.2 hacc1), if_neg (not_le.2 hb2)] at h
      by_cases he : sl.t1 = sl.t2
      · rw [if_pos he] at h
        split_ifs at h with h2
        cases h
        rw [he, ht2]
        refine StepR.full hz hqlt ?_
        intro k hk he' hr
        have := g2 k hk he' hr
        rw [← ht1, he, ht2] at this
        exact this
      · rw [if_neg he] at h
        split_ifs at h with h2
        cases h
        rw [hl1, ht1, g6]
        refine StepR.dropFull hz acc.2 g3 g4 g5 ?_ ?_
        · intro k hk he' hr
          have := g2 k hk he' hr
          rw [g6] at this
          exact this
        · rw [← g6, ← ht1, ← ht2]
          exact lt_of_le_of_ne hlt he
  · -- a dual step
    have hneg : Neglected o pb s1.z (rhs pb sc - ndot pb sc s1.x) := by
      by_cases hz0 : o.tiny < normn pb.n s1.z
      · right
        rw [if_pos (by simpa using hz0)] at ht2
        have hsl := hfacts.slope_pos (normn_pos.1 (lt_of_le_of_lt ht0 hz0))
        rw [quad, hfacts.curv]
        refine ⟨hsl, ?_⟩
        rw [not_lt, ht2, tFull, le_div_iff₀ hsl] at hb2
        exact hb2
      · exact Or.inl (not_lt.1 hz0)
    rw [not_lt] at hb2
    have hle : ¬ sl.t2 < sl.t1 := by rw [ht1]; exact not_lt.2 (g1.trans hb2)
    simp only [if_neg hle] at h
    rcases g3 with ⟨g3, g4⟩ | ⟨g3, g4, g5, g6, g7⟩
    · rw [if_pos (by rw [ht1, g3])] at h
      cases h
      exact StepT.infeasible hneg g4
    · rw [if_neg (by rw [ht1]; exact not_le.2 g7), if_pos hb2] at h
      split_ifs at h with h2
      cases h
      rw [hl1, ht1, g6]
      refine StepT.dropDual hneg acc.2 g3 g4 g5 (by rw [← g6]; exact g7) ?_
      intro k hk he' hr
      have := g2 k hk he' hr
      rw [g6] at this
      exact this

/-- One iteration, seen from its entry. -/
theorem iterate_any {o : Opts ℝ} {pb : Pb ℝ EReal} (hp : Proper pb) (hx : NotCrossed pb) (ht0 : 0 ≤ o.tiny)
    {s : State ℝ} {sc : SC} {skip : Bool} (h : LoopInv pb s sc skip) {r} (hr : iterate o pb s sc skip = .ok r) :
    (r = .done .success s ∧ skip = false ∧ (select pb pb.n s.A s.x).status = .inactive) ∨
    ∃ s1 sc1, Enter pb s sc skip s1 sc1 ∧ StepT o pb (computeStep pb s1 sc1) sc1 r := by
  have hg := h.alg.good
  have hbody : ∀ s1 sc1, Enter pb s sc skip s1 sc1 → iterBody o pb s1 sc1 = .ok r →
      ∃ s1 sc1, Enter pb s sc skip s1 sc1 ∧ StepT o pb (computeStep pb s1 sc1) sc1 r := by
    intro s1 sc1 he hb
    obtain ⟨hi, _⟩ := enter_inv hp hx h he
    exact ⟨s1, sc1, he, iterBody_any ht0 hi.alg.good (hi.cand rfl) hi.alg.fac hb⟩
  unfold iterate at hr
  cases skip with
  | true =>
    simp only [if_true] at hr
    right
    exact hbody s sc (by simp [Enter]) hr
  | false =>
    simp only [Bool.false_eq_true, if_false] at hr
    have hsel : select pb s.nbVar s.A s.x = select pb pb.n s.A s.x := by rw [hg.dim.nbVar]
    rw [if_pos hg.selectOk, hsel] at hr
    by_cases hi : (select pb pb.n s.A s.x).status = .inactive
    · rw [if_pos hi] at hr
      cases hr
      exact Or.inl ⟨rfl, rfl, hi⟩
    · rw [if_neg hi] at hr
      split_ifs at hr
      right
      exact hbody _ _ (by simp [Enter, hi]) hr

/-! ### The perturbation -/

/-- Specification: the perturbations of the linear term that `k` iterations may cause, each of them at most one term
`t G z` with `0 ≤ t < bigBnd` and a neglected direction `z`. -/
inductive Pert (o : Opts ℝ) (pb : Pb ℝ EReal) : Nat → (Nat → ℝ) → Prop
  | zero : Pert o pb 0 (fun _ => 0)
  | skip {k δ} (h : Pert o pb k δ) : Pert o pb (k + 1) δ
  | dual {k δ} (h : Pert o pb k δ) (t : ℝ) (z : Nat → ℝ) (sc : SC) (x : Nat → ℝ) (ht : 0 ≤ t) (hb : t < o.bigBnd)
      (hsc : scOk pb sc = true) (hz : Neglected o pb z (rhs pb sc - ndot pb sc x)) :
      Pert o pb (k + 1) (fun a => δ a + t * ∑ b ∈ range pb.n, hess pb a b * z b)

/-- The dual part after a dual step that drops a constraint. -/
theorem dual_drop {o : Opts ℝ} {pb : Pb ℝ EReal} {e : Nat} {s : State ℝ} {sc : SC} (hw : s.A.WF)
    (hD : DInv pb e s sc true) {l : Nat} (hl : l < s.A.q) (he : elig s.A l) (hrl : 0 < s.r l)
    (hmin : ∀ k < s.A.q, elig s.A k → 0 < s.r k → s.u l / s.r l ≤ s.u k / s.r k) :
    DInv pb e (removeConstraint o (dualUpdate s (s.u l / s.r l)) l) sc true := by
  have hel := hD.pre.elig
  have ht : 0 ≤ s.u l / s.r l := div_nonneg (hD.pos l hl ((hel l).1 he)) hrl.le
  have hu : ∀ k < s.A.q, e ≤ k → 0 ≤ (dualUpdate s (s.u l / s.r l)).u k := by
    intro k hk hek
    simp only [dualUpdate, dualStep, hk, if_true]
    rcases lt_or_ge 0 (s.r k) with hrk | hrk
    · have := hmin k hk ((hel k).2 hek) hrk
      have := (le_div_iff₀ hrk).1 this
      linarith
    · have := hD.pos k hk hek
      nlinarith
  have huq : (dualUpdate s (s.u l / s.r l)).u s.A.q = s.u s.A.q + s.u l / s.r l := by simp [dualUpdate, dualStep]
  have hp' : s.A.deactivatePre l = true := by
    have := hl; rw [hw.q_eq] at this; simpa [ActiveSet.deactivatePre] using this
  have hqd := hw.q_deactivate hp'
  have hA' : (removeConstraint o (dualUpdate s (s.u l / s.r l)) l).A = s.A.deactivate l := rfl
  refine ⟨?_, ?_, ?_, fun _ => hD.viol rfl⟩
  · rw [hA']; exact hD.pre.deactivate hw hl ((hel l).1 he)
  · intro k hk hek
    rw [hA', hqd] at hk
    rw [remove_u k (show k < (dualUpdate s (s.u l / s.r l)).A.q from (by omega : k < s.A.q))]
    by_cases hkl : k < l
    · rw [if_pos hkl]; exact hu k (by omega) hek
    · rw [if_neg hkl]
      exact hu (k + 1) (by omega) (by omega)
  · intro _
    rw [hA', hqd, remove_u _ (show s.A.q - 1 < (dualUpdate s (s.u l / s.r l)).A.q from (by omega : s.A.q - 1 < s.A.q)), if_neg (by omega), show s.A.q - 1 + 1 = s.A.q by omega, huq]
    have := hD.cpos rfl
    linarith

/-- A dual step that drops a constraint keeps the invariant of the problem with a shifted linear term. -/
theorem loopInv_drop {o : Opts ℝ} {pb : Pb ℝ EReal} {s0 : State ℝ} {sc : SC} (h : LoopInv pb s0 sc true) {l : Nat}
    {s : State ℝ} (hs : s = computeStep pb s0 sc) (hl : l < s.A.q) (hrl : 0 < s.r l) :
    ∃ c, LoopInv (shiftA pb (fun a => s.u l / s.r l * ∑ b ∈ range pb.n, hess pb a b * s.z b))
      (plusF (removeConstraint o (dualUpdate s (s.u l / s.r l)) l) c) sc true := by
  have hcand := h.cand rfl
  have hg := h.alg.good
  have hsc := Cand.scOk (pb := pb) hcand.pre hg.dim.nbCstr hg.dim.nbBnd
  have hfacts := computeStep_facts (sc := sc) hg.dim.nbVar (by rw [← hg.dim.nbVar]; exact hg.q_le) h.alg.fac hsc
  have halg : Alg pb (computeStep pb s0 sc) (fun a => (computeStep pb s0 sc).u (computeStep pb s0 sc).A.q * normal pb sc a) :=
    (h.alg.step (sc := sc)).congr (by intro a _; simp [computeStep])
  have hcand1 : Cand (computeStep pb s0 sc).A sc := hcand
  have hfin1 : ∀ k < (computeStep pb s0 sc).A.q, BndFin pb ((computeStep pb s0 sc).A.act k) := h.fin
  have hfc := h.finc rfl
  rw [← hs] at hfacts halg hcand1 hfin1
  clear hs
  obtain ⟨t, ht⟩ : ∃ t, t = s.u l / s.r l := ⟨_, rfl⟩
  rw [← ht]
  obtain ⟨pb', hpb'⟩ : ∃ pb', pb' = shiftA pb (fun a => t * ∑ b ∈ range pb.n, hess pb a b * s.z b) := ⟨_, rfl⟩
  refine ⟨obj pb' s.x - s.f, ?_⟩
  rw [← hpb']
  have ha : Alg pb' (plusF (dualUpdate s t) (obj pb' s.x - s.f))
      (fun a => (plusF (dualUpdate s t) (obj pb' s.x - s.f)).u (plusF (dualUpdate s t) (obj pb' s.x - s.f)).A.q * normal pb' sc a) := by
    subst hpb'
    refine ⟨(halg.good.of_eq rfl rfl rfl rfl rfl rfl rfl rfl rfl : Good pb (plusF (dualUpdate s t) _)).shiftA _, halg.fac, ?_, halg.tight, ?_⟩
    · intro a ha
      have e1 := halg.stat a ha
      have e2 := hfacts.split a ha
      have e3 := stat_dual (pb := pb) (s := s) (sc := sc) t a
      show ∑ b ∈ range pb.n, hess pb a b * s.x b + (pb.a a + t * ∑ b ∈ range pb.n, hess pb a b * s.z b)
        = ∑ k ∈ range s.A.q, dualStep s.A.q t s.u s.r k * normal pb (s.A.act k) a
          + dualStep s.A.q t s.u s.r s.A.q * normal pb sc a
      rw [e3, ← add_assoc, e1, e2]
      ring
    · show s.f + (obj _ s.x - s.f) = obj _ s.x
      ring
  obtain ⟨a1, a2, a3, a4, a5⟩ := ha.remove (o := o) (l := l) hl (by
    show dualStep s.A.q t s.u s.r l = 0
    rw [dualStep, if_pos hl, ht, div_mul_cancel₀ _ hrl.ne', sub_self])
  have hw := halg.good.dim.wf
  refine ⟨(a1.congr (w' := fun a => if true = true then _ else 0) (by intro a _; rfl) :), ?_, ?_, fun _ => ?_⟩
  · intro _; exact cand_remove (o := o) hw hl hcand1
  · intro k hk
    have hk : k < (removeConstraint o (plusF (dualUpdate s t) (obj pb' s.x - s.f)) l).A.q := hk
    have e : ∀ q, BndFin pb' q = BndFin pb q := by subst hpb'; intro q; rfl
    rw [a3] at hk
    show BndFin pb' ((s.A.deactivate l).act k)
    rw [e, act_deactivate hw hl k hk]
    have hk : k < s.A.q - 1 := hk
    apply hfin1
    split_ifs <;> omega
  · subst hpb'; exact hfc

/-- Invariant of the main loop for arbitrary thresholds, after `k` iterations. -/
structure BInvT (o : Opts ℝ) (pb : Pb ℝ EReal) (e k : Nat) (s : State ℝ) (sc : SC) (skip : Bool) (δ : Nat → ℝ) (c : ℝ) : Prop where
  pert : Pert o pb k δ
  inv : LoopInv (shiftA pb δ) (plusF s c) sc skip
  dual : DInv pb e s sc skip

theorem shiftA_shiftA (pb : Pb ℝ EReal) (δ δ' : Nat → ℝ) : shiftA (shiftA pb δ) δ' = shiftA pb (fun a => δ a + δ' a) := by
  simp only [shiftA, add_assoc]

theorem plusF_plusF (s : State ℝ) (c c' : ℝ) : plusF (plusF s c) c' = plusF s (c + c') := by
  simp only [plusF, add_assoc]

theorem iterate_back {o : Opts ℝ} {pb : Pb ℝ EReal} (hp : Proper pb) (hx : NotCrossed pb) (ht0 : 0 ≤ o.tiny) {e k : Nat}
    {s : State ℝ} {sc : SC} {skip : Bool} {δ : Nat → ℝ} {c : ℝ} (h : BInvT o pb e k s sc skip δ c)
    {r} (hr : iterate o pb s sc skip = .ok r) :
    (r = .done .success s ∧ skip = false ∧ (select pb pb.n s.A s.x).status = .inactive) ∨
    (∃ s', r = .done .infeasible s') ∨
    ∃ s' sc' skip', r = .cont s' sc' skip' ∧ (∃ δ' c', BInvT o pb e (k + 1) s' sc' skip' δ' c') ∧
      s.f ≤ s'.f ∧ (skip' = false → s.f < s'.f) ∧ (skip' = true → s'.A.q + 1 = s.A.q) := by
  have hp' : Proper (shiftA pb δ) := ⟨hp.bl, hp.bu, hp.xl, hp.xu⟩
  have hx' : NotCrossed (shiftA pb δ) := ⟨hx.gen, hx.bnd⟩
  have hD' : DInv (shiftA pb δ) e (plusF s c) sc skip := ⟨h.dual.pre, h.dual.pos, h.dual.cpos, h.dual.viol⟩
  have hr' : iterate o (shiftA pb δ) (plusF s c) sc skip = .ok (r.plusF c) := by
    rw [iterate_shiftA]; exact iterate_plusF c hr
  have hcont : ∀ s' sc' skip', r.plusF c = .cont s' sc' skip' → ∃ s'', r = .cont s'' sc' skip' ∧ s' = plusF s'' c := by
    intro s' sc' skip' he
    cases r with
    | done t s2 => cases he
    | cont s2 sc2 k2 =>
      simp only [Iter.plusF, Iter.cont.injEq] at he
      obtain ⟨rfl, rfl, rfl⟩ := he
      exact ⟨s2, rfl, rfl⟩
  rcases iterate_any hp' hx' ht0 h.inv hr' with ⟨h1, h2, h3⟩ | ⟨s1, sc1, he, hst⟩
  · left
    refine ⟨?_, h2, h3⟩
    cases r with
    | done t s2 =>
      have hit := hr
      subst h2
      unfold iterate at hit
      have hg := h.inv.alg.good
      have hnb : s.nbVar = pb.n := hg.dim.nbVar
      have hso : selectOk pb s = true := hg.selectOk
      have h3 : (select pb pb.n s.A s.x).status = .inactive := h3
      simp only [Bool.false_eq_true, if_false] at hit
      rw [if_pos hso, hnb, if_pos h3] at hit
      cases hit; rfl
    | cont s2 sc2 k2 => cases h1
  · right
    obtain ⟨hi, _⟩ := enter_inv hp' hx' h.inv he
    obtain ⟨hd, hf, hA⟩ := enter_dual hp' hx' h.inv hD' he
    generalize hr1 : r.plusF c = r1 at *
    cases hst with
    | reg hst =>
      have ha := stepR_alg hi hst
      have hb := stepR_dual hi hd hst
      cases r1 with
      | done t s2 =>
        left
        cases r with
        | done t' s3 =>
          simp only [Iter.plusF, Iter.done.injEq] at hr1
          exact ⟨s3, by rw [hr1.1, ha.1]⟩
        | cont _ _ _ => cases hr1
      | cont s2 sc2 k2 =>
        right
        obtain ⟨s3, e1, e2⟩ := hcont _ _ _ rfl
        obtain ⟨a1, a2⟩ := ha
        obtain ⟨b1, b2, b3, b4⟩ := hb
        subst e2
        have f0 : s1.f = s.f + c := hf
        have f1 : (plusF s3 c).f = s3.f + c := rfl
        rw [f0, f1] at b2 b3
        refine ⟨s3, sc2, k2, e1, ⟨δ, c, h.pert.skip, ?_, ⟨b1.pre, b1.pos, b1.cpos, b1.viol⟩⟩, by linarith,
          fun hk => by have := b3 hk; linarith, fun hk => by have := b4 hk; rw [hA] at this; exact this⟩
        rw [a1]; exact a2
    | infeasible hz hr =>
      left
      cases r with
      | done t' s3 =>
        simp only [Iter.plusF, Iter.done.injEq] at hr1
        exact ⟨s3, by rw [hr1.1]⟩
      | cont _ _ _ => cases hr1
    | dropDual hz l hl he' hrl hb hmin =>
      right
      obtain ⟨s3, e1, e2⟩ := hcont _ _ _ rfl
      obtain ⟨c', hc'⟩ := loopInv_drop (o := o) hi (l := l) rfl hl hrl
      have hw : (computeStep (shiftA pb δ) s1 sc1).A.WF := hi.alg.good.dim.wf
      have hd1 : DInv (shiftA pb δ) e (computeStep (shiftA pb δ) s1 sc1) sc1 true := ⟨hd.pre, hd.pos, hd.cpos, hd.viol⟩
      have hdd := dual_drop (o := o) hw hd1 hl he' hrl hmin
      rw [shiftA_shiftA] at hc'
      rw [e2] at hc' hdd
      rw [plusF_plusF] at hc'
      have hsc : scOk (shiftA pb δ) sc1 = true := Cand.scOk (hi.cand rfl).pre hi.alg.good.dim.nbCstr hi.alg.good.dim.nbBnd
      have hq3 : s3.A.q + 1 = s.A.q := by
        have : (plusF s3 c).A.q = s3.A.q := rfl
        rw [← this, ← e2]
        show ((computeStep (shiftA pb δ) s1 sc1).A.deactivate l).q + 1 = _
        rw [hw.q_deactivate (by have := hl; rw [hw.q_eq] at this; simpa [ActiveSet.deactivatePre] using this)]
        have h1 : (computeStep (shiftA pb δ) s1 sc1).A.q = s.A.q := by
          show s1.A.q = _
          rw [hA]; rfl
        omega
      have hf3 : s3.f = s.f := by
        have h1 : (plusF s3 c).f = s3.f + c := rfl
        have h2 : s1.f = s.f + c := hf
        rw [← e2] at h1
        have h3 : s1.f = s3.f + c := h1
        linarith
      refine ⟨s3, sc1, true, e1, ⟨_, _, ?_, hc', ⟨hdd.pre, hdd.pos, hdd.cpos, hdd.viol⟩⟩, hf3.ge, by simp, fun _ => hq3⟩
      exact h.pert.dual _ _ sc1 _ (div_nonneg (hd1.pos l hl ((hd1.pre.elig l).1 he')) hrl.le) hb hsc hz

/-- The part that does not need the equalities to come first. -/
theorem iterate_tight {o : Opts ℝ} {pb : Pb ℝ EReal} (hp : Proper pb) (hx : NotCrossed pb) (ht0 : 0 ≤ o.tiny)
    {s : State ℝ} {sc : SC} {skip : Bool} {δ : Nat → ℝ} {c : ℝ} (h : LoopInv (shiftA pb δ) (plusF s c) sc skip)
    {s' sc' skip'} (hr : iterate o pb s sc skip = .ok (.cont s' sc' skip')) :
    ∃ δ' c', LoopInv (shiftA pb δ') (plusF s' c') sc' skip' := by
  have hp' : Proper (shiftA pb δ) := ⟨hp.bl, hp.bu, hp.xl, hp.xu⟩
  have hx' : NotCrossed (shiftA pb δ) := ⟨hx.gen, hx.bnd⟩
  have hr' : iterate o (shiftA pb δ) (plusF s c) sc skip = .ok (.cont (plusF s' c) sc' skip') := by
    rw [iterate_shiftA]; exact iterate_plusF c hr
  rcases iterate_any hp' hx' ht0 h hr' with ⟨h1, _⟩ | ⟨s1, sc1, he, hst⟩
  · cases h1
  · obtain ⟨hi, _⟩ := enter_inv hp' hx' h he
    generalize hr1 : Iter.cont (plusF s' c) sc' skip' = r1 at *
    cases hst with
    | reg hst =>
      have ha := stepR_alg hi hst
      subst hr1
      obtain ⟨a1, a2⟩ := ha
      subst a1
      exact ⟨δ, c, a2⟩
    | infeasible hz hr => cases hr1
    | dropDual hz l hl he' hrl hb hmin =>
      obtain ⟨c', hc'⟩ := loopInv_drop (o := o) hi (l := l) rfl hl hrl
      rw [shiftA_shiftA] at hc'
      injection hr1 with e1 e2 e3
      subst e2; subst e3
      rw [← e1, plusF_plusF] at hc'
      exact ⟨_, _, hc'⟩

theorem loop_back {o : Opts ℝ} {pb : Pb ℝ EReal} (hp : Proper pb) (hx : NotCrossed pb) (ht0 : 0 ≤ o.tiny) {e : Nat}
    (fuel : Nat) : ∀ {k s sc skip δ c s'}, BInvT o pb e k s sc skip δ c →
      loop o pb fuel s sc skip = .ok (.success, s') →
      ∃ k', k' + s.it = k + s'.it ∧ ∃ δ' c' sc', BInvT o pb e k' s' sc' false δ' c' ∧ (select pb pb.n s'.A s'.x).status = .inactive := by
  induction fuel with
  | zero => intro k s sc skip δ c s' _ hl; simp [loop] at hl
  | succ fuel ih =>
    intro k s sc skip δ c s' h hl
    simp only [loop] at hl
    cases hr : iterate o pb s sc skip with
    | error e => simp [hr] at hl
    | ok r =>
      rw [hr] at hl
      rcases iterate_back hp hx ht0 h hr with ⟨h1, h2, h3⟩ | ⟨s2, h1⟩ | ⟨s2, sc2, k2, h1, ⟨δ', c', h2⟩, _⟩
      · subst h1
        simp only [Except.ok.injEq, Prod.mk.injEq, true_and] at hl
        subst hl
        subst h2
        exact ⟨k, by omega, δ, c, sc, h, h3⟩
      · subst h1
        simp at hl
      · subst h1
        simp only [] at hl
        have hit : s2.it = s.it := iterate_it hr
        have hb : BInvT o pb e (k + 1) { s2 with it := s2.it + 1 } sc2 k2 δ' c' :=
          ⟨h2.pert, h2.inv.setIt _, h2.dual.setIt _⟩
        obtain ⟨k', g1, g2⟩ := ih hb hl
        refine ⟨k', ?_, g2⟩
        have g1 : k' + (s2.it + 1) = k + 1 + s'.it := g1
        omega

/-- The final state of any run that ends with `SUCCESS`. -/
theorem solve_back {o : Opts ℝ} {pb : Pb ℝ EReal} (hp : Proper pb) (hx : NotCrossed pb) (ht0 : 0 ≤ o.tiny) {s : State ℝ}
    (hi : Inv s) {e : Nat} (he : EqFirst pb e) (hr : RegInitAll o pb (solveStart o pb s)) {s'}
    (h : solve o pb s = .ok (.success, s')) :
    cholOk pb ∧ s'.needToExpand = true ∧ (select pb pb.n s'.A s'.x).status = .inactive ∧
      ∃ k ≤ s'.it, ∃ δ c sc, BInvT o pb e k s' sc false δ c := by
  have hd : Dim pb (solveStart o pb s) := start_dim hi
  rcases solve_cases h with ⟨t1, h1, h2, h3⟩ | ⟨s1, h1, h2⟩
  · exact absurd h3.symm h1
  · have hc : cholOk pb := by
      rcases init_nonpos hd h1 with ⟨_, a⟩ | ⟨a, _⟩
      · exact a
      · cases a
    obtain ⟨g2, g3⟩ := init_both hp ht0 hd hc hr he h1
    have hb : BInvT o pb e 0 s1 ⟨0, .inactive⟩ false (fun _ => 0) 0 := by
      refine ⟨Pert.zero, ?_, g3⟩
      have e1 : shiftA pb (fun _ => 0) = pb := by simp [shiftA]
      have e2 : plusF s1 0 = s1 := by simp [plusF]
      rw [e1, e2]; exact g2
    obtain ⟨k, g4, δ, c, sc, g5, g6⟩ := loop_back hp hx ht0 _ hb h2
    refine ⟨hc, ?_, g6, k, by omega, δ, c, sc, g5⟩
    rw [loop_need _ h2, init_need h1]
    rfl

/-! ## Property theorems -/

/-- **C45.** In exact arithmetic, whatever the thresholds: for bounds that are not crossed, equality constraints first and
larger than the threshold on the direction (no condition without equality constraint), `SUCCESS` means that the solution
and the multipliers are the exact ones of the problem with the linear term `a + δ`, where `δ` is a sum of at most
`iterations()` terms `t G z` with `0 ≤ t < bigBnd` and `z` a direction that the thresholds neglect. In particular the
solution satisfies all the constraints of the given problem. -/
theorem C45_backward {o : Opts ℝ} {pb : Pb ℝ EReal} (hp : Proper pb) (hx : NotCrossed pb) (ht0 : 0 ≤ o.tiny) {s : State ℝ}
    (hi : Inv s) {e : Nat} (he : EqFirst pb e) (hr : RegInitAll o pb (solveStart o pb s)) {s'}
    (h : solve o pb s = .ok (.success, s')) :
    ∃ k ≤ s'.it, ∃ δ, Pert o pb k δ ∧ IsUniqueOptimal (shiftA pb δ) s'.x ∧ KKT (shiftA pb δ) s'.x (multipliers s').u ∧
      Feasible pb s'.x := by
  obtain ⟨hc, hne, hsel, k, hk, δ, c, sc, hb⟩ := solve_back hp hx ht0 hi he hr h
  have hx' : NotCrossed (shiftA pb δ) := ⟨hx.gen, hx.bnd⟩
  have hD' : DInv (shiftA pb δ) e (plusF s' c) sc false := ⟨hb.dual.pre, hb.dual.pos, hb.dual.cpos, hb.dual.viol⟩
  have h1 := success_optimal hx' (posDef_of_chol hc) hb.inv hD' hsel
  have h2 := success_KKT hx' hb.inv hD' hsel hne
  have e : (multipliers (plusF s' c)).u = (multipliers s').u := by
    unfold multipliers
    show (if s'.needToExpand = true then _ else _ : State ℝ).u = _
    split_ifs <;> rfl
  rw [e] at h2
  exact ⟨k, hk, δ, hb.pert, h1, h2, ⟨h1.1.1.gen, h1.1.1.bnd⟩⟩

/-- How far from the optimum: at any feasible point `y` the objective is at least the one of the solution, up to `δᵀ(y - x)`. -/
theorem C45_suboptimality {pb : Pb ℝ EReal} {δ x : Nat → ℝ} (h : IsOptimal (shiftA pb δ) x) {y : Nat → ℝ} (hy : Feasible pb y) :
    obj pb x ≤ obj pb y + ∑ a ∈ range pb.n, δ a * (y a - x a) := by
  have h1 := h.2 y ⟨hy.gen, hy.bnd⟩
  have e : ∀ v, obj (shiftA pb δ) v = obj pb v + ∑ a ∈ range pb.n, δ a * v a := by
    intro v
    simp only [obj, shiftA]
    show _ + ∑ i ∈ range pb.n, (pb.a i + δ i) * v i = _
    simp only [add_mul, sum_add_distrib]
    rw [← add_assoc]
    rfl
  rw [e, e] at h1
  simp only [mul_sub, sum_sub_distrib]
  linarith

end JrlQp
