import Verif.PropsExpEx
import Verif.PropsTrace

/-!
# Symbolic execution of the base solver on concrete problems

The state is only known through the invariant `Alg` and its active set; the point, the multipliers and the step of each
iteration are determined by linear systems with a unique solution, so they need not be computed through the factorisation.
-/

namespace JrlQp

open NumOps Finset Spec

/-- Uniqueness of the solution of the saddle point system. -/
theorem saddle_zero {n q : Nat} {G N J R : Nat → Nat → ℝ} (h : Fac n q G N J R) (hq : q ≤ n) (hpd : PosDefN n G)
    {v c : Nat → ℝ} (h1 : ∀ a < n, ∑ b ∈ range n, G a b * v b = ∑ k ∈ range q, c k * N k a)
    (h2 : ∀ k < q, ∑ a ∈ range n, N k a * v a = 0) : (∀ i < n, v i = 0) ∧ ∀ k < q, c k = 0 := by
  have hv : ∀ i < n, v i = 0 := by
    by_contra hcon
    push Not at hcon
    have hpos := hpd v hcon
    have e : ∑ i ∈ range n, ∑ j ∈ range n, v i * G i j * v j = 0 := by
      have e1 : ∀ i ∈ range n, ∑ j ∈ range n, v i * G i j * v j = ∑ k ∈ range q, c k * (N k i * v i) := by
        intro i hi
        have : ∑ j ∈ range n, v i * G i j * v j = v i * ∑ b ∈ range n, G i b * v b := by
          rw [Finset.mul_sum]; apply sum_congr rfl; intro j _; ring
        rw [this, h1 i (mem_range.1 hi), Finset.mul_sum]
        apply sum_congr rfl; intro k _; ring
      rw [sum_congr rfl e1, sum_comm]
      apply sum_eq_zero
      intro k hk
      rw [← Finset.mul_sum, h2 k (mem_range.1 hk), mul_zero]
    rw [e] at hpos
    exact lt_irrefl _ hpos
  refine ⟨hv, h.indep hq c ?_⟩
  intro a ha
  rw [← h1 a ha]
  apply sum_eq_zero
  intro b hb
  rw [hv b (mem_range.1 hb), mul_zero]

/-- The point and the multipliers of a state are determined by its active set. -/
theorem Alg.point {pb : Pb ℝ EReal} (hpd : PosDefN pb.n (hess pb)) {s : State ℝ} (h : Alg pb s (fun _ => 0))
    {x u : Nat → ℝ}
    (h1 : ∀ a < pb.n, ∑ b ∈ range pb.n, hess pb a b * x b + pb.a a = ∑ k ∈ range s.A.q, u k * normal pb (s.A.act k) a)
    (h2 : ∀ k < s.A.q, ndot pb (s.A.act k) x = rhs pb (s.A.act k)) :
    (∀ i < pb.n, s.x i = x i) ∧ ∀ k < s.A.q, s.u k = u k := by
  have hq : s.A.q ≤ pb.n := by rw [← h.good.dim.nbVar]; exact h.good.q_le
  have key := saddle_zero (v := fun i => s.x i - x i) (c := fun k => s.u k - u k) h.fac hq hpd ?_ ?_
  · exact ⟨fun i hi => sub_eq_zero.1 (key.1 i hi), fun k hk => sub_eq_zero.1 (key.2 k hk)⟩
  · intro a ha
    have e1 := h.stat a ha
    have e2 := h1 a ha
    simp only [mul_sub, sub_mul, sum_sub_distrib]
    linarith
  · intro k hk
    have e1 := h.tight k hk
    have e2 := h2 k hk
    unfold ndot at e1 e2
    simp only [mul_sub, sum_sub_distrib]
    linarith

/-- The step is determined by the active set and the selected constraint. -/
theorem stepUnique {pb : Pb ℝ EReal} (hpd : PosDefN pb.n (hess pb)) {s : State ℝ} {w : Nat → ℝ} (h : Alg pb s w) {sc : SC}
    (hsc : scOk pb sc = true) {z r : Nat → ℝ}
    (h1 : ∀ a < pb.n, normal pb sc a = ∑ k ∈ range s.A.q, r k * normal pb (s.A.act k) a + ∑ b ∈ range pb.n, hess pb a b * z b)
    (h2 : ∀ k < s.A.q, ndot pb (s.A.act k) z = 0) :
    (∀ i < pb.n, (computeStep pb s sc).z i = z i) ∧ ∀ k < s.A.q, (computeStep pb s sc).r k = r k := by
  have hq : s.A.q ≤ pb.n := by rw [← h.good.dim.nbVar]; exact h.good.q_le
  have hf := computeStep_facts (s := s) (sc := sc) h.good.dim.nbVar hq h.fac hsc
  have hA : (computeStep pb s sc).A = s.A := rfl
  have key := saddle_zero (v := fun i => (computeStep pb s sc).z i - z i)
    (c := fun k => r k - (computeStep pb s sc).r k) h.fac hq hpd ?_ ?_
  · refine ⟨fun i hi => sub_eq_zero.1 (key.1 i hi), fun k hk => (sub_eq_zero.1 (key.2 k hk)).symm⟩
  · intro a ha
    have e1 := hf.split a ha
    have e2 := h1 a ha
    rw [hA] at e1
    simp only [mul_sub, sub_mul, sum_sub_distrib]
    linarith
  · intro k hk
    have e1 := hf.orth k hk
    have e2 := h2 k hk
    rw [hA] at e1
    unfold ndot at e1 e2
    simp only [mul_sub, sum_sub_distrib]
    linarith

/-- Data of an iteration on a known active set: the selected constraint, the direction and the dual direction. -/
structure StepData (pb : Pb ℝ EReal) (s : State ℝ) (sc : SC) (z r : Nat → ℝ) : Prop where
  split : ∀ a < pb.n, normal pb sc a = ∑ k ∈ range s.A.q, r k * normal pb (s.A.act k) a + ∑ b ∈ range pb.n, hess pb a b * z b
  orth : ∀ k < s.A.q, ndot pb (s.A.act k) z = 0

/-- Entering step 2 with a newly selected constraint. -/
theorem iterate_enter {o : Opts ℝ} {pb : Pb ℝ EReal} {s : State ℝ} {sc0 sc : SC}
    (h : Alg pb s (fun _ => 0)) (hsel : select pb pb.n s.A s.x = sc) (hne : sc.status ≠ .inactive) :
    Cand s.A sc ∧
    Alg pb { s with u := upd s.u s.A.q 0 } (fun a => (upd s.u s.A.q 0) s.A.q * normal pb sc a) ∧
    (∀ {r}, iterBody o pb { s with u := upd s.u s.A.q 0 } sc = .ok r → iterate o pb s sc0 false = .ok r) := by
  have hg := h.good
  have hc : Cand s.A sc := by
    have := (select_cand pb pb.n s.A s.x).resolve_left (by rw [hsel]; exact hne)
    rwa [hsel] at this
  have hp := (ActiveSet.activatePre_iff _ _ _).1 hc.pre
  have hqlt := hg.dim.wf.q_lt hp.1 hp.2.1
  refine ⟨hc, (h.setU 0).congr (by intro a _; simp [upd]), ?_⟩
  intro r hr
  unfold iterate
  rw [if_neg (by simp), if_pos hg.selectOk]
  simp only []
  rw [show select pb s.nbVar s.A s.x = sc by rw [hg.dim.nbVar]; exact hsel, if_neg hne, if_pos, hr]
  simp only [Bool.and_eq_true, decide_eq_true_eq]
  exact ⟨lt_of_lt_of_le hqlt hg.dim.szU, (le_of_lt hqlt).trans hg.dim.szR⟩

/-- Step 2 with a full step: the selected constraint is added. -/
theorem body_full {o : Opts ℝ} (law : FpLaws ℝ o) (ht0 : 0 ≤ o.tiny) {pb : Pb ℝ EReal} (hpd : PosDefN pb.n (hess pb))
    {s : State ℝ} {sc : SC} (h1 : Alg pb s (fun a => s.u s.A.q * normal pb sc a)) (hc : Cand s.A sc)
    {z r : Nat → ℝ} (hd : StepData pb s sc z r) {t : ℝ}
    (ht : rhs pb sc - ndot pb sc s.x = t * ndot pb sc z)
    (hz : o.tiny < normn pb.n z) (htb : t < o.bigBnd)
    (hr : ∀ k < s.A.q, elig s.A k → 0 < r k → t ≤ s.u k / r k ∧ s.u k / r k < o.bigBnd) :
    ∃ s', iterBody o pb s sc = .ok (.cont s' sc false) ∧ Alg pb s' (fun _ => 0) ∧
      s'.A.q = s.A.q + 1 ∧ (∀ k < s.A.q, s'.A.act k = s.A.act k) ∧ s'.A.act s.A.q = sc ∧
      (∀ i, s'.A.statusAt i = if i = sc.p then sc.status else s.A.statusAt i) ∧ s'.it = s.it := by
  have hg1 := h1.good
  have hsc := Cand.scOk (pb := pb) hc.pre h1.good.dim.nbCstr h1.good.dim.nbBnd
  have hq : s.A.q ≤ pb.n := by rw [← hg1.dim.nbVar]; exact hg1.q_le
  obtain ⟨ez, er⟩ := stepUnique hpd h1 hsc (z := z) (r := r) hd.split hd.orth
  have hf := computeStep_facts (s := s) (sc := sc) hg1.dim.nbVar hq h1.fac hsc
  have enz : ndot pb sc (computeStep pb s sc).z = ndot pb sc z := ndot_congr pb sc ez
  have hnz : ∃ i < pb.n, (computeStep pb s sc).z i ≠ 0 := by
    obtain ⟨i, hi, hzi⟩ := normn_pos.1 (lt_of_le_of_lt ht0 hz)
    exact ⟨i, hi, by rw [ez i hi]; exact hzi⟩
  have hslope : 0 < ndot pb sc z := by rw [← enz]; exact hf.slope_pos hnz
  have etF : tFull pb (computeStep pb s sc) sc = t := by
    unfold tFull
    rw [enz]
    have : (computeStep pb s sc).x = s.x := rfl
    rw [this, ht, mul_div_assoc, div_self hslope.ne', mul_one]
  have hreg : Regular o pb s sc := by
    refine ⟨fun _ => by rw [normn_congr ez]; exact hz, fun _ => by rw [etF]; exact htb, ?_⟩
    intro k hk he hrk
    rw [er k hk] at hrk ⊢
    exact (hr k hk he hrk).2
  obtain ⟨r', hr', _⟩ := iterBody_safe law hg1 hc
  have hstep := iterBody_exact ht0 hg1 hc h1.fac hreg hr'
  have halg : Alg pb (computeStep pb s sc) (fun a => (computeStep pb s sc).u (computeStep pb s sc).A.q * normal pb sc a) :=
    (h1.step (sc := sc)).congr (by intro a _; rfl)
  have hA : (computeStep pb s sc).A = s.A := rfl
  cases hstep with
  | infeasible hz' _ => obtain ⟨i, hi, hzi⟩ := hnz; exact absurd (hz' i hi) hzi
  | dropDual hz' _ _ _ _ _ => obtain ⟨i, hi, hzi⟩ := hnz; exact absurd (hz' i hi) hzi
  | dropFull _ l hl he hrl _ htl =>
    exfalso
    rw [hA] at hl he
    rw [etF, er l hl] at htl
    rw [er l hl] at hrl
    have := (hr l hl he hrl).1
    have e1 : (computeStep pb s sc).u l = s.u l := rfl
    rw [e1] at htl
    linarith
  | full _ hqlt _ =>
    rw [etF] at hr'
    obtain ⟨hfull, hx, _⟩ := halg.full hf hsc t
    obtain ⟨g1, g2⟩ := hfull.add (o := o) hc.pre hqlt hf.d (hf.d_ne hnz) (by
      rw [ndot_congr pb sc hx, ndot_add, enz]
      have : (computeStep pb s sc).x = s.x := rfl
      rw [this]; linarith)
    have hw := h1.good.dim.wf
    obtain ⟨a1, a2⟩ := act_activate hw hc.pre
    have hp := (ActiveSet.activatePre_iff _ _ _).1 hc.pre
    have g2' : (addConstraint o (fullUpdate pb (computeStep pb s sc) sc t) sc).A = s.A.activate sc.p sc.status := g2
    refine ⟨_, hr', g1, ?_, ?_, ?_, ?_, rfl⟩
    · rw [g2', hw.q_activate hc.pre]
    · rw [g2']; exact a1
    · rw [g2']; exact a2
    · intro i
      rw [g2', ActiveSet.activate_statusAt _ _ _ _ (by rw [hw.size]; exact hp.1)]

/-- A full step after a new selection. -/
theorem exec_full {o : Opts ℝ} (law : FpLaws ℝ o) (ht0 : 0 ≤ o.tiny) {pb : Pb ℝ EReal} (hpd : PosDefN pb.n (hess pb))
    {s : State ℝ} {sc0 sc : SC} (h : Alg pb s (fun _ => 0)) (hsel : select pb pb.n s.A s.x = sc)
    (hne : sc.status ≠ .inactive) {z r : Nat → ℝ} (hd : StepData pb s sc z r) {t : ℝ}
    (ht : rhs pb sc - ndot pb sc s.x = t * ndot pb sc z)
    (hz : o.tiny < normn pb.n z) (htb : t < o.bigBnd)
    (hr : ∀ k < s.A.q, elig s.A k → 0 < r k → t ≤ s.u k / r k ∧ s.u k / r k < o.bigBnd) :
    ∃ s', iterate o pb s sc0 false = .ok (.cont s' sc false) ∧ Alg pb s' (fun _ => 0) ∧
      s'.A.q = s.A.q + 1 ∧ (∀ k < s.A.q, s'.A.act k = s.A.act k) ∧ s'.A.act s.A.q = sc ∧
      (∀ i, s'.A.statusAt i = if i = sc.p then sc.status else s.A.statusAt i) ∧ s'.it = s.it := by
  obtain ⟨hc, h1, hit⟩ := iterate_enter (o := o) (sc0 := sc0) h hsel hne
  obtain ⟨s', g1, g2⟩ := body_full law ht0 hpd (s := { s with u := upd s.u s.A.q 0 }) h1 hc (z := z) (r := r)
    ⟨hd.split, hd.orth⟩ ht hz htb (by
      intro k hk he hrk
      have hk : k < s.A.q := hk
      have e : upd s.u s.A.q 0 k = s.u k := by simp [upd, show k ≠ s.A.q by omega]
      simp only [e]
      exact hr k hk he hrk)
  exact ⟨s', hit g1, g2⟩

/-- Step 2 with a partial step: constraint `l` is dropped. -/
theorem body_dropFull {o : Opts ℝ} (law : FpLaws ℝ o) (ht0 : 0 ≤ o.tiny) {pb : Pb ℝ EReal} (hpd : PosDefN pb.n (hess pb))
    {s : State ℝ} {sc : SC} (h1 : Alg pb s (fun a => s.u s.A.q * normal pb sc a)) (hc : Cand s.A sc)
    {z r : Nat → ℝ} (hd : StepData pb s sc z r) {t2 : ℝ}
    (ht : rhs pb sc - ndot pb sc s.x = t2 * ndot pb sc z)
    (hz : o.tiny < normn pb.n z) (htb : t2 < o.bigBnd) {l : Nat} (hl : l < s.A.q) (he : elig s.A l) (hrl : 0 < r l)
    (hlt : s.u l / r l < t2)
    (hr : ∀ k < s.A.q, elig s.A k → 0 < r k → s.u k / r k < o.bigBnd ∧ (k = l ∨ s.u l / r l < s.u k / r k)) :
    ∃ s', iterBody o pb s sc = .ok (.cont s' sc true) ∧ Alg pb s' (fun a => s'.u s'.A.q * normal pb sc a) ∧
      s'.A = s.A.deactivate l ∧ s'.A.q = s.A.q - 1 ∧ (∀ i < pb.n, s'.x i = s.x i + s.u l / r l * z i) ∧ s'.it = s.it := by
  have hg1 := h1.good
  have hsc := Cand.scOk (pb := pb) hc.pre h1.good.dim.nbCstr h1.good.dim.nbBnd
  have hq : s.A.q ≤ pb.n := by rw [← hg1.dim.nbVar]; exact hg1.q_le
  obtain ⟨ez, er⟩ := stepUnique hpd h1 hsc (z := z) (r := r) hd.split hd.orth
  have hf := computeStep_facts (s := s) (sc := sc) hg1.dim.nbVar hq h1.fac hsc
  have enz : ndot pb sc (computeStep pb s sc).z = ndot pb sc z := ndot_congr pb sc ez
  have hnz : ∃ i < pb.n, (computeStep pb s sc).z i ≠ 0 := by
    obtain ⟨i, hi, hzi⟩ := normn_pos.1 (lt_of_le_of_lt ht0 hz)
    exact ⟨i, hi, by rw [ez i hi]; exact hzi⟩
  have hslope : 0 < ndot pb sc z := by rw [← enz]; exact hf.slope_pos hnz
  have etF : tFull pb (computeStep pb s sc) sc = t2 := by
    unfold tFull
    rw [enz]
    have : (computeStep pb s sc).x = s.x := rfl
    rw [this, ht, mul_div_assoc, div_self hslope.ne', mul_one]
  have hreg : Regular o pb s sc := by
    refine ⟨fun _ => by rw [normn_congr ez]; exact hz, fun _ => by rw [etF]; exact htb, ?_⟩
    intro k hk he hrk
    rw [er k hk] at hrk ⊢
    exact (hr k hk he hrk).1
  obtain ⟨r', hr', _⟩ := iterBody_safe law hg1 hc
  have hstep := iterBody_exact ht0 hg1 hc h1.fac hreg hr'
  have halg : Alg pb (computeStep pb s sc) (fun a => (computeStep pb s sc).u (computeStep pb s sc).A.q * normal pb sc a) :=
    (h1.step (sc := sc)).congr (by intro a _; rfl)
  have hA : (computeStep pb s sc).A = s.A := rfl
  have hu : (computeStep pb s sc).u = s.u := rfl
  cases hstep with
  | infeasible hz' _ => obtain ⟨i, hi, hzi⟩ := hnz; exact absurd (hz' i hi) hzi
  | dropDual hz' _ _ _ _ _ => obtain ⟨i, hi, hzi⟩ := hnz; exact absurd (hz' i hi) hzi
  | full _ _ hmin =>
    exfalso
    have := hmin l hl he (by rw [er l hl]; exact hrl)
    rw [etF, er l hl, hu] at this
    linarith
  | dropFull _ l' hl' he' hrl' hmin _ =>
    have hl' : l' < s.A.q := hl'
    have hm := hmin l hl he (by rw [er l hl]; exact hrl)
    rw [er l hl, er l' hl', hu] at hm
    rw [er l' hl'] at hrl'
    have : l' = l := by
      rcases (hr l' hl' he' hrl').2 with h | h
      · exact h
      · linarith
    subst this
    rw [er l' hl', hu] at hr'
    obtain ⟨hfull, hx, _⟩ := halg.full hf hsc (s.u l' / r l')
    have hul : (fullUpdate pb (computeStep pb s sc) sc (s.u l' / r l')).u l' = 0 := by
      show dualStep s.A.q (s.u l' / r l') s.u (computeStep pb s sc).r l' = 0
      rw [dualStep, if_pos hl', er l' hl', div_mul_cancel₀ _ hrl'.ne']
      ring
    obtain ⟨g1, g2, g3, g4, _⟩ := hfull.remove (o := o) (l := l') hl' hul
    refine ⟨_, hr', g1, g2, g3, ?_, rfl⟩
    intro i hi
    rw [g4, hx i hi, ez i hi]
    rfl

/-- No direction and nothing to drop. -/
theorem exec_infeasible {o : Opts ℝ} (law : FpLaws ℝ o) (ht0 : 0 ≤ o.tiny) {pb : Pb ℝ EReal} (hpd : PosDefN pb.n (hess pb))
    {s : State ℝ} {sc0 sc : SC} (h : Alg pb s (fun _ => 0)) (hsel : select pb pb.n s.A s.x = sc)
    (hne : sc.status ≠ .inactive) {r : Nat → ℝ} (hd : StepData pb s sc (fun _ => 0) r)
    (hr : ∀ k < s.A.q, elig s.A k → r k ≤ 0) :
    ∃ s', iterate o pb s sc0 false = .ok (.done .infeasible s') ∧ s'.A = s.A ∧ s'.x = s.x := by
  obtain ⟨hc, h1, hit⟩ := iterate_enter (o := o) (sc0 := sc0) h hsel hne
  set s1 : State ℝ := { s with u := upd s.u s.A.q 0 } with hs1
  have hg1 := h1.good
  have hc1 : Cand s1.A sc := hc
  have hsc := Cand.scOk (pb := pb) hc.pre h.good.dim.nbCstr h.good.dim.nbBnd
  obtain ⟨ez, er⟩ := stepUnique hpd h1 hsc (z := fun _ => 0) (r := r) hd.split hd.orth
  have hnz : ¬ ∃ i < pb.n, (computeStep pb s1 sc).z i ≠ 0 := by
    rintro ⟨i, hi, hz⟩; exact hz (ez i hi)
  have hreg : Regular o pb s1 sc := by
    refine ⟨fun h => absurd h hnz, fun h => absurd h hnz, ?_⟩
    intro k hk he hrk
    rw [er k hk] at hrk
    exact absurd (hr k hk he) (not_le.2 hrk)
  obtain ⟨r', hr', _⟩ := iterBody_safe law hg1 hc1
  have hstep := iterBody_exact ht0 hg1 hc1 h1.fac hreg hr'
  have hno : ∀ l < s.A.q, elig s.A l → ¬ 0 < (computeStep pb s1 sc).r l := by
    intro l hl he hrl
    have e := er l hl
    rw [e] at hrl
    exact absurd (hr l hl he) (not_le.2 hrl)
  cases hstep with
  | infeasible _ _ => exact ⟨_, hit hr', rfl, rfl⟩
  | dropDual _ l hl he hrl _ => exact absurd hrl (hno l hl he)
  | dropFull _ l hl he hrl _ _ => exact absurd hrl (hno l hl he)
  | full hz' _ _ => exact absurd hz' hnz

/-- No direction: constraint `l`, with the smallest ratio, is dropped. -/
theorem exec_dropDual {o : Opts ℝ} (law : FpLaws ℝ o) (ht0 : 0 ≤ o.tiny) {pb : Pb ℝ EReal} (hpd : PosDefN pb.n (hess pb))
    {s : State ℝ} {sc0 sc : SC} (h : Alg pb s (fun _ => 0)) (hsel : select pb pb.n s.A s.x = sc)
    (hne : sc.status ≠ .inactive) {r : Nat → ℝ} (hd : StepData pb s sc (fun _ => 0) r) {l : Nat}
    (hl : l < s.A.q) (he : elig s.A l) (hrl : 0 < r l)
    (hr : ∀ k < s.A.q, elig s.A k → 0 < r k → s.u k / r k < o.bigBnd ∧ (k = l ∨ s.u l / r l < s.u k / r k)) :
    ∃ s', iterate o pb s sc0 false = .ok (.cont s' sc true) ∧ s'.A = s.A.deactivate l ∧ s'.it = s.it ∧ s'.x = s.x := by
  obtain ⟨hc, h1, hit⟩ := iterate_enter (o := o) (sc0 := sc0) h hsel hne
  set s1 : State ℝ := { s with u := upd s.u s.A.q 0 } with hs1
  have hg1 := h1.good
  have hc1 : Cand s1.A sc := hc
  have hsc := Cand.scOk (pb := pb) hc.pre h.good.dim.nbCstr h.good.dim.nbBnd
  obtain ⟨ez, er⟩ := stepUnique hpd h1 hsc (z := fun _ => 0) (r := r) hd.split hd.orth
  have hnz : ¬ ∃ i < pb.n, (computeStep pb s1 sc).z i ≠ 0 := by
    rintro ⟨i, hi, hz⟩; exact hz (ez i hi)
  have eu : ∀ k < s.A.q, (computeStep pb s1 sc).u k = s.u k := by
    intro k hk
    have : k ≠ s.A.q := by omega
    simp [computeStep, hs1, upd, this]
  have hreg : Regular o pb s1 sc := by
    refine ⟨fun h => absurd h hnz, fun h => absurd h hnz, ?_⟩
    intro k hk he hrk
    have hk : k < s.A.q := hk
    rw [er k hk] at hrk ⊢
    have e := eu k hk
    simp only [computeStep] at e
    rw [e]
    exact (hr k hk he hrk).1
  obtain ⟨r', hr', _⟩ := iterBody_safe law hg1 hc1
  have hstep := iterBody_exact ht0 hg1 hc1 h1.fac hreg hr'
  cases hstep with
  | infeasible _ hle =>
    have := hle l hl he
    rw [er l hl] at this
    linarith
  | dropDual _ l' hl' he' hrl' hmin =>
    have hl' : l' < s.A.q := hl'
    have hm := hmin l hl he (by rw [er l hl]; exact hrl)
    rw [er l hl, er l' hl', eu l hl, eu l' hl'] at hm
    rw [er l' hl'] at hrl'
    have : l' = l := by
      rcases (hr l' hl' he' hrl').2 with h | h
      · exact h
      · linarith
    subst this
    exact ⟨_, hit hr', rfl, rfl, rfl⟩
  | dropFull hz' _ _ _ _ _ _ => exact absurd hz' hnz
  | full hz' _ _ => exact absurd hz' hnz

/-- No active constraint, and a direction below `tiny` or a step beyond `bigBnd`: `INFEASIBLE`. -/
theorem exec_threshold {o : Opts ℝ} (law : FpLaws ℝ o) {pb : Pb ℝ EReal} (hpd : PosDefN pb.n (hess pb))
    {s : State ℝ} {sc0 sc : SC} (h : Alg pb s (fun _ => 0)) (hq : s.A.q = 0) (hsel : select pb pb.n s.A s.x = sc)
    (hne : sc.status ≠ .inactive) {z : Nat → ℝ} (hz : ∀ a < pb.n, normal pb sc a = ∑ b ∈ range pb.n, hess pb a b * z b)
    (ht : normn pb.n z ≤ o.tiny ∨ o.bigBnd ≤ (rhs pb sc - ndot pb sc s.x) / ndot pb sc z) :
    ∃ s', iterate o pb s sc0 false = .ok (.done .infeasible s') := by
  obtain ⟨hc, h1, hit⟩ := iterate_enter (o := o) (sc0 := sc0) h hsel hne
  set s1 : State ℝ := { s with u := upd s.u s.A.q 0 } with hs1
  have hg1 := h1.good
  have hc1 : Cand s1.A sc := hc
  have hsc := Cand.scOk (pb := pb) hc.pre h.good.dim.nbCstr h.good.dim.nbBnd
  have hq1 : s1.A.q = 0 := hq
  obtain ⟨ez, _⟩ := stepUnique hpd h1 hsc (z := z) (r := fun _ => 0) (by intro a ha; rw [hq1]; simp; exact hz a ha)
    (by intro k hk; omega)
  obtain ⟨r', hr', _⟩ := iterBody_safe law hg1 hc1
  have hbody := hr'
  unfold iterBody at hbody
  split_ifs at hbody with h0
  have hn : (computeStep pb s1 sc).nbVar = pb.n := hg1.dim.nbVar
  have hq2 : (computeStep pb s1 sc).A.q = 0 := hq
  have hx2 : (computeStep pb s1 sc).x = s.x := rfl
  generalize computeStep pb s1 sc = s2 at *
  simp only [] at hbody
  by_cases h2 : stepLenOk o s2 sc = true
  swap
  · rw [if_neg h2] at hbody; cases hbody
  rw [if_pos h2] at hbody
  have ht2 : o.bigBnd ≤ (computeStepLength o pb s2 sc).t2 := by
    show o.bigBnd ≤ if ltb o.tiny (normn s2.nbVar s2.z) = true then fullStep pb s2.nbVar s2.x s2.z sc else o.bigBnd
    rw [hn, normn_congr ez]
    rcases ht with ht | ht
    · rw [if_neg (by rw [ltb_real]; exact not_lt.2 ht)]
    · split_ifs
      · rw [fullStep_eq pb s2 sc hsc hc.ineq, tFull, ndot_congr pb sc ez, hx2]
        exact ht
      · exact le_rfl
  have ht1 : (computeStepLength o pb s2 sc).t1 = o.bigBnd := by
    simp [computeStepLength, hq2]
  have hmin : o.bigBnd ≤ stdMin (computeStepLength o pb s2 sc).t1 (computeStepLength o pb s2 sc).t2 := by
    unfold stdMin
    split_ifs
    · exact ht2
    · exact ht1.ge
  rw [if_pos (by rw [leb_real]; exact hmin)] at hbody
  cases hbody
  exact ⟨_, hit hr'⟩

/-- Nothing is selected: the loop ends with `SUCCESS`. -/
theorem exec_success {o : Opts ℝ} {pb : Pb ℝ EReal} {s : State ℝ} {sc0 : SC} (hg : Good pb s)
    (hsel : (select pb pb.n s.A s.x).status = .inactive) : iterate o pb s sc0 false = .ok (.done .success s) := by
  unfold iterate
  rw [if_neg (by simp), if_pos hg.selectOk]
  simp only []
  rw [if_pos (by rw [hg.dim.nbVar]; exact hsel)]

theorem loop_cont {o : Opts ℝ} {pb : Pb ℝ EReal} {fuel : Nat} {s s' : State ℝ} {sc sc' : SC} {skip skip' : Bool}
    (h : iterate o pb s sc skip = .ok (.cont s' sc' skip')) :
    loop o pb (fuel + 1) s sc skip = loop o pb fuel { s' with it := s'.it + 1 } sc' skip' := by
  simp only [loop, h]

theorem loop_done {o : Opts ℝ} {pb : Pb ℝ EReal} {fuel : Nat} {s s' : State ℝ} {sc : SC} {skip : Bool} {t : Term}
    (h : iterate o pb s sc skip = .ok (.done t s')) : loop o pb (fuel + 1) s sc skip = .ok (t, s') := by
  simp only [loop, h]

/-- The start of the loop, for any state reached by legal calls, when the equality constraints have independent gradients and
`tiny` does not interfere with them. -/
theorem solve_start {o : Opts ℝ} (ht0 : 0 ≤ o.tiny) {pb : Pb ℝ EReal} (hc : cholOk pb) {s : State ℝ} (hi : Inv s)
    (hreg : RegInitAll o pb (preInit o (resize s pb.n pb.m pb.useBnd))) :
    ∃ s0 A0, Alg pb s0 (fun _ => 0) ∧ A0.WF ∧ A0.q = 0 ∧ A0.nbCstr = pb.m ∧ A0.nbBnd = pb.nb ∧
      (∀ i, A0.statusAt i = .inactive) ∧ ActAll A0 (eqList pb A0) ∧ s0.A = A0.activateSCs (eqList pb A0) ∧ s0.it = 0 ∧
      ∀ t s', loop o pb o.maxIter s0 ⟨0, .inactive⟩ false = .ok (t, s') → solve o pb s = terminate o t s' := by
  have hd : Dim pb (preInit o (resize s pb.n pb.m pb.useBnd)) := start_dim hi
  obtain ⟨s0, A0, h1, h2, h3, h4, h5, h6, h7, h8, h9⟩ := init_alg ht0 hd hc hreg
  have hit : s0.it = 0 := by
    rw [(init_it h1).1]; rfl
  refine ⟨s0, A0, h2, h3, h4, h5, h6, h7, h8, h9, hit, ?_⟩
  intro t s' hl
  unfold solve dualSolve
  rw [h1]
  simp only [ne_eq, not_true_eq_false, if_false, hit, Nat.sub_zero, hl]

/-- `solve_start` for a problem without equality constraint. -/
theorem solve_start_nil {o : Opts ℝ} (ht0 : 0 ≤ o.tiny) {pb : Pb ℝ EReal} (hc : cholOk pb) {s : State ℝ} (hi : Inv s)
    (heq : ∀ A : ActiveSet, A.nbCstr = pb.m → A.nbBnd = pb.nb → eqList pb A = []) :
    ∃ s0, Alg pb s0 (fun _ => 0) ∧ s0.A.q = 0 ∧ (∀ i, s0.A.statusAt i = .inactive) ∧ s0.it = 0 ∧
      ∀ t s', loop o pb o.maxIter s0 ⟨0, .inactive⟩ false = .ok (t, s') → solve o pb s = terminate o t s' := by
  have hd : Dim pb (preInit o (resize s pb.n pb.m pb.useBnd)) := start_dim hi
  have hreg : RegInitAll o pb (preInit o (resize s pb.n pb.m pb.useBnd)) := by
    unfold RegInitAll
    have h1 : (initPoint o pb { preInit o (resize s pb.n pb.m pb.useBnd) with
      G := (chol (preInit o (resize s pb.n pb.m pb.useBnd)).nbVar pb.G (preInit o (resize s pb.n pb.m pb.useBnd)).nbVar).1 }).A
        = (preInit o (resize s pb.n pb.m pb.useBnd)).A.reset := rfl
    rw [h1, heq (preInit o (resize s pb.n pb.m pb.useBnd)).A.reset hd.nbCstr hd.nbBnd]
    trivial
  obtain ⟨s0, A0, h1, h2, h3, h4, h5, h6, h7, h8, h9, h10⟩ := solve_start ht0 hc hi hreg
  rw [heq A0 h4 h5] at h8
  have h8 : s0.A = A0 := h8
  exact ⟨s0, h1, by rw [h8, h3], by rw [h8]; exact h6, h9, h10⟩

/-- `solve_start` for a problem with one equality constraint. -/
theorem solve_start_one {o : Opts ℝ} (ht0 : 0 ≤ o.tiny) {pb : Pb ℝ EReal} (hc : cholOk pb) {s : State ℝ} (hi : Inv s) {sc : SC}
    (heq : ∀ A : ActiveSet, A.nbCstr = pb.m → A.nbBnd = pb.nb → eqList pb A = [sc]) {z : Nat → ℝ}
    (hz : ∀ a < pb.n, normal pb sc a = ∑ b ∈ range pb.n, hess pb a b * z b) (ht : o.tiny < normn pb.n z) :
    ∃ s0, Alg pb s0 (fun _ => 0) ∧ s0.A.q = 1 ∧ s0.A.act 0 = sc ∧
      (∀ i, i ≠ sc.p → s0.A.statusAt i = .inactive) ∧ s0.it = 0 ∧
      ∀ t s', loop o pb o.maxIter s0 ⟨0, .inactive⟩ false = .ok (t, s') → solve o pb s = terminate o t s' := by
  have hpd := posDef_of_chol hc
  have hd : Dim pb (preInit o (resize s pb.n pb.m pb.useBnd)) := start_dim hi
  have hreg : RegInitAll o pb (preInit o (resize s pb.n pb.m pb.useBnd)) := by
    unfold RegInitAll
    have hdG : Dim pb { preInit o (resize s pb.n pb.m pb.useBnd) with
        G := (chol (preInit o (resize s pb.n pb.m pb.useBnd)).nbVar pb.G (preInit o (resize s pb.n pb.m pb.useBnd)).nbVar).1 } := by
      obtain ⟨h0, h1, b, c, h2, h3, h4, h5, h6, h7, h8⟩ := hd
      exact ⟨h0, h1, b, c, h2, h3, h4, h5, h6, h7, h8⟩
    have halg := initPoint_alg (o := o) hdG (by
      unfold cholOk at hc; simp only [hd.nbVar]; rw [← hc])
    have hst : ∀ i, (initPoint o pb { preInit o (resize s pb.n pb.m pb.useBnd) with
        G := (chol (preInit o (resize s pb.n pb.m pb.useBnd)).nbVar pb.G (preInit o (resize s pb.n pb.m pb.useBnd)).nbVar).1 }).A.statusAt i
          = .inactive := fun i => reset_statusAt _ i
    have hq0 : (initPoint o pb { preInit o (resize s pb.n pb.m pb.useBnd) with
        G := (chol (preInit o (resize s pb.n pb.m pb.useBnd)).nbVar pb.G (preInit o (resize s pb.n pb.m pb.useBnd)).nbVar).1 }).A.q = 0 :=
      ActiveSet.reset_q _
    generalize initPoint o pb { preInit o (resize s pb.n pb.m pb.useBnd) with
        G := (chol (preInit o (resize s pb.n pb.m pb.useBnd)).nbVar pb.G (preInit o (resize s pb.n pb.m pb.useBnd)).nbVar).1 } = s1 at *
    have hl := heq s1.A halg.good.dim.nbCstr halg.good.dim.nbBnd
    have hact := actAll_eqList pb s1.A halg.good.dim.wf hst
    rw [hl] at hact ⊢
    have hsc := Cand.scOk (pb := pb) hact.1 halg.good.dim.nbCstr halg.good.dim.nbBnd
    have ez := (stepUnique hpd halg hsc (z := z) (r := fun _ => 0)
      (by intro a ha; rw [hq0]; simp; exact hz a ha) (by intro k hk; omega)).1
    refine ⟨by rw [normn_congr ez]; exact ht, ?_⟩
    split <;> trivial
  obtain ⟨s0, A0, h1, h2, h3, h4, h5, h6, h7, h8, h9, h10⟩ := solve_start ht0 hc hi hreg
  rw [heq A0 h4 h5] at h8 h7
  obtain ⟨k1, k2, k3⟩ := init_act h2 h3 h6 h7
  rw [← h8] at k1 k2 k3
  refine ⟨s0, h1, k1, k2 0 (by simp), ?_, h9, h10⟩
  intro i hi
  by_contra hcon
  obtain ⟨sc', hm, he⟩ := k3 i hcon
  have : sc' = sc := by simpa using hm
  subst this
  apply hi
  rw [he]

end JrlQp
