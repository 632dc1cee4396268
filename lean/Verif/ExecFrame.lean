import Verif.PropsThreshold

/-!
# Executing one iteration on a known factorization

The lemmas of `ExecKit` follow states that are exact for the problem. After a direction was neglected because of the threshold
on its norm the gradient condition no longer holds; what an iteration does is still determined by the active set, the point and
the multipliers.
-/

namespace JrlQp

open NumOps Finset Spec

/-- What `computeStep` needs: sizes, and a factorization of the active normals. -/
structure Frame (pb : Pb ℝ EReal) (s : State ℝ) : Prop where
  good : Good pb s
  fac : Fac pb.n s.A.q (hess pb) (fun k => normal pb (s.A.act k)) s.J s.R

theorem Frame.q_le {pb : Pb ℝ EReal} {s : State ℝ} (h : Frame pb s) : s.A.q ≤ pb.n := by
  rw [← h.good.dim.nbVar]; exact h.good.q_le

theorem Frame.facts {pb : Pb ℝ EReal} {s : State ℝ} (h : Frame pb s) {sc : SC} (hc : Cand s.A sc) :
    StepFacts pb (computeStep pb s sc) sc :=
  computeStep_facts h.good.dim.nbVar h.q_le h.fac (Cand.scOk (pb := pb) hc.pre h.good.dim.nbCstr h.good.dim.nbBnd)

/-- The step is determined by the active set and the selected constraint. -/
theorem Frame.stepUnique {pb : Pb ℝ EReal} (hpd : PosDefN pb.n (hess pb)) {s : State ℝ} (h : Frame pb s) {sc : SC}
    (hc : Cand s.A sc) {z r : Nat → ℝ} (hd : StepData pb s sc z r) :
    (∀ i < pb.n, (computeStep pb s sc).z i = z i) ∧ ∀ k < s.A.q, (computeStep pb s sc).r k = r k := by
  have hf := h.facts hc
  have hA : (computeStep pb s sc).A = s.A := rfl
  have key := saddle_zero (v := fun i => (computeStep pb s sc).z i - z i)
    (c := fun k => r k - (computeStep pb s sc).r k) h.fac h.q_le hpd ?_ ?_
  · refine ⟨fun i hi => sub_eq_zero.1 (key.1 i hi), fun k hk => (sub_eq_zero.1 (key.2 k hk)).symm⟩
  · intro a ha
    have e1 := hf.split a ha
    have e2 := hd.split a ha
    rw [hA] at e1
    simp only [mul_sub, sub_mul, sum_sub_distrib]
    linarith
  · intro k hk
    have e1 := hf.orth k hk
    have e2 := hd.orth k hk
    rw [hA] at e1
    unfold ndot at e1 e2
    simp only [mul_sub, sum_sub_distrib]
    linarith

/-- A full step: the selected constraint is added. -/
theorem frame_full {o : Opts ℝ} (law : FpLaws ℝ o) (ht0 : 0 ≤ o.tiny) {pb : Pb ℝ EReal} (hpd : PosDefN pb.n (hess pb))
    {s : State ℝ} {sc : SC} (h : Frame pb s) (hc : Cand s.A sc)
    {z r : Nat → ℝ} (hd : StepData pb s sc z r) {t : ℝ}
    (ht : rhs pb sc - ndot pb sc s.x = t * ndot pb sc z)
    (hz : o.tiny < normn pb.n z) (htb : t < o.bigBnd)
    (hr : ∀ k < s.A.q, elig s.A k → 0 < r k → t ≤ s.u k / r k) :
    ∃ s', iterBody o pb s sc = .ok (.cont s' sc false) ∧ Frame pb s' ∧ s'.A = s.A.activate sc.p sc.status ∧
      (∀ i < pb.n, s'.x i = s.x i + t * z i) ∧ (∀ k < s.A.q, s'.u k = s.u k - t * r k) ∧ s'.u s.A.q = s.u s.A.q + t := by
  have hsc := Cand.scOk (pb := pb) hc.pre h.good.dim.nbCstr h.good.dim.nbBnd
  obtain ⟨ez, er⟩ := h.stepUnique hpd hc hd
  have hf := h.facts hc
  have enz : ndot pb sc (computeStep pb s sc).z = ndot pb sc z := ndot_congr pb sc ez
  have hnz : ∃ i < pb.n, (computeStep pb s sc).z i ≠ 0 := by
    obtain ⟨i, hi, hzi⟩ := normn_pos.1 (lt_of_le_of_lt ht0 hz)
    exact ⟨i, hi, by rw [ez i hi]; exact hzi⟩
  have hslope : 0 < ndot pb sc z := by rw [← enz]; exact hf.slope_pos hnz
  have ex : (computeStep pb s sc).x = s.x := rfl
  have eA : (computeStep pb s sc).A = s.A := rfl
  have eu : (computeStep pb s sc).u = s.u := rfl
  have etF : tFull pb (computeStep pb s sc) sc = t := by
    unfold tFull
    rw [enz, ex, ht, mul_div_assoc, div_self hslope.ne', mul_one]
  have hneg : ¬ Neglected o pb (computeStep pb s sc).z (rhs pb sc - ndot pb sc (computeStep pb s sc).x) := by
    rintro (h1 | ⟨h1, h2⟩)
    · rw [normn_congr ez] at h1; exact absurd hz (not_lt.2 h1)
    · have e : quad pb (computeStep pb s sc).z = ndot pb sc z := by rw [← enz]; exact hf.curv
      rw [e, ex, ht] at h2
      exact absurd (le_of_mul_le_mul_right h2 hslope) (not_le.2 htb)
  obtain ⟨r', hr', _⟩ := iterBody_safe law h.good hc
  have hstep := iterBody_any ht0 h.good hc h.fac hr'
  cases hstep with
  | infeasible hz' _ => exact absurd hz' hneg
  | dropDual hz' _ _ _ _ _ => exact absurd hz' hneg
  | reg hstep =>
    cases hstep with
    | infeasible hz' _ => obtain ⟨i, hi, hzi⟩ := hnz; exact absurd (hz' i hi) hzi
    | dropDual hz' _ _ _ _ _ => obtain ⟨i, hi, hzi⟩ := hnz; exact absurd (hz' i hi) hzi
    | dropFull _ l hl he hrl _ htl =>
      exfalso
      rw [eA] at hl he
      rw [etF, er l hl, eu] at htl
      rw [er l hl] at hrl
      exact absurd (hr l hl he hrl) (not_le.2 htl)
    | full _ hqlt _ =>
      rw [etF] at hr'
      have hn : (fullUpdate pb (computeStep pb s sc) sc t).nbVar = pb.n := h.good.dim.nbVar
      have hw := h.good.dim.wf
      have hqa := hw.q_activate hc.pre
      obtain ⟨ha1, ha2⟩ := act_activate hw hc.pre
      have hg' : Good pb (fullUpdate pb (computeStep pb s sc) sc t) := h.good.of_eq rfl rfl rfl rfl rfl rfl rfl rfl rfl
      refine ⟨_, hr', ⟨good_add hg' hc.pre (by rw [hn]; exact hqlt), ?_⟩, rfl, ?_, ?_, ?_⟩
      · have := h.fac.add hqlt o.dbg (computeStep pb s sc).d (normal pb sc) hf.d (hf.d_ne hnz)
          (N' := fun k => normal pb ((s.A.activate sc.p sc.status).act k))
          (fun k hk a _ => by rw [ha1 k hk]) (fun a _ => by rw [ha2])
        have e2 : (fullUpdate pb (computeStep pb s sc) sc t).A = s.A := rfl
        simp only [addConstraint, e2, hqa, hn, Nat.add_sub_cancel]
        exact this
      · intro i hi
        have : (addConstraint o (fullUpdate pb (computeStep pb s sc) sc t) sc).x i = s.x i + t * (computeStep pb s sc).z i := by
          have hn2 : (computeStep pb s sc).nbVar = pb.n := h.good.dim.nbVar
          simp [addConstraint, fullUpdate, dualUpdate, primalStep, wr, hn2, hi, ex]
        rw [this, ez i hi]
      · intro k hk
        show dualStep s.A.q t s.u (computeStep pb s sc).r k = _
        rw [dualStep, if_pos hk, er k hk]
      · show dualStep s.A.q t s.u (computeStep pb s sc).r s.A.q = _
        rw [dualStep, if_neg (lt_irrefl _), if_pos rfl]

/-- A direction below the threshold: constraint `l`, with the smallest ratio, is dropped. -/
theorem frame_drop {o : Opts ℝ} (law : FpLaws ℝ o) {pb : Pb ℝ EReal} (hpd : PosDefN pb.n (hess pb))
    {s : State ℝ} {sc : SC} (h : Frame pb s) (hc : Cand s.A sc) {z r : Nat → ℝ} (hd : StepData pb s sc z r)
    (hz : normn pb.n z ≤ o.tiny) {l : Nat} (hl : l < s.A.q) (he : elig s.A l) (hrl : 0 < r l)
    (hlb : s.u l / r l < o.bigBnd)
    (hr : ∀ k < s.A.q, elig s.A k → 0 < r k → k = l ∨ s.u l / r l < s.u k / r k) :
    ∃ s', iterBody o pb s sc = .ok (.cont s' sc true) ∧ Frame pb s' ∧ s'.A = s.A.deactivate l ∧ Cand s'.A sc ∧ s'.x = s.x ∧
      (∀ k < s.A.q - 1, s'.u k = s.u (if k < l then k else k + 1) - s.u l / r l * r (if k < l then k else k + 1)) ∧
      s'.u (s.A.q - 1) = s.u s.A.q + s.u l / r l := by
  obtain ⟨ez, er⟩ := h.stepUnique hpd hc hd
  obtain ⟨r', hr', _⟩ := iterBody_safe law h.good hc
  have hbody := hr'
  unfold iterBody at hbody
  split_ifs at hbody with hok
  have hn : (computeStep pb s sc).nbVar = pb.n := h.good.dim.nbVar
  have eu : (computeStep pb s sc).u = s.u := rfl
  have eA : (computeStep pb s sc).A = s.A := rfl
  have ex : (computeStep pb s sc).x = s.x := rfl
  have hg2 : Good pb (computeStep pb s sc) := h.good.of_eq rfl rfl rfl rfl rfl rfl rfl rfl rfl
  have hf2 : Fac pb.n (computeStep pb s sc).A.q (hess pb) (fun k => normal pb ((computeStep pb s sc).A.act k))
    (computeStep pb s sc).J (computeStep pb s sc).R := h.fac
  obtain ⟨s2, hs2⟩ : ∃ s2, s2 = computeStep pb s sc := ⟨_, rfl⟩
  rw [← hs2] at hbody ez er eu eA ex hn hg2 hf2
  simp only [] at hbody
  by_cases h2 : stepLenOk o s2 sc = true
  swap
  · rw [if_neg h2] at hbody; cases hbody
  rw [if_pos h2] at hbody
  have ht2 : (computeStepLength o pb s2 sc).t2 = o.bigBnd := by
    show (if ltb o.tiny (normn s2.nbVar s2.z) = true then fullStep pb s2.nbVar s2.x s2.z sc else o.bigBnd) = _
    rw [hn, normn_congr ez, if_neg (by rw [ltb_real]; exact not_lt.2 hz)]
  have hratio := ratio_spec s2.A s2.u s2.r o.bigBnd s2.A.q
  simp only at hratio
  have ht1 : (computeStepLength o pb s2 sc).t1
      = ((List.range s2.A.q).foldl (ratioStep s2.A s2.u s2.r) (o.bigBnd, 0)).1 := rfl
  have hl' : (computeStepLength o pb s2 sc).l
      = ((List.range s2.A.q).foldl (ratioStep s2.A s2.u s2.r) (o.bigBnd, 0)).2 := rfl
  generalize (List.range s2.A.q).foldl (ratioStep s2.A s2.u s2.r) (o.bigBnd, 0) = acc at *
  generalize computeStepLength o pb s2 sc = sl at *
  obtain ⟨g1, g2, g3⟩ := hratio
  rw [eA] at g2 g3
  have hml := g2 l hl he (by rw [er l hl]; exact hrl)
  rw [eu, er l hl] at hml
  rcases g3 with ⟨g3, g4⟩ | ⟨g3, g4, g5, g6, g7⟩
  · exfalso
    rw [g3] at hml
    exact absurd hlb (not_lt.2 hml)
  rw [er _ g3] at g5 g6
  rw [eu] at g6
  have hll : acc.2 = l := by
    rcases hr _ g3 g4 g5 with h | h
    · exact h
    · exfalso; rw [g6] at hml; linarith
  rw [hll] at g6
  simp only [leb_real, eqb_real, stdMin, ltb_real, ht1, hl', ht2, hll] at hbody
  rw [if_neg (not_lt.2 g1)] at hbody
  rw [if_neg (not_le.2 g7), if_pos le_rfl] at hbody
  split_ifs at hbody with h3
  cases hbody
  have hl2 : l < s2.A.q := by rw [eA]; exact hl
  have hw := h.good.dim.wf
  have hg' : Good pb (dualUpdate s2 acc.1) := hg2.of_eq rfl rfl rfl rfl rfl rfl rfl rfl rfl
  have hAd : (dualUpdate s2 acc.1).A = s.A := eA
  have hud : (dualUpdate s2 acc.1).u = dualStep s2.A.q acc.1 s2.u s2.r := rfl
  have hact := act_deactivate hw hl
  have hqd := hw.q_deactivate (k := l) (by rw [hw.q_eq] at hl; simpa [ActiveSet.deactivatePre] using hl)
  refine ⟨_, hr', ⟨good_remove hg' hl2, ?_⟩, ?_, ?_, ?_, ?_, ?_⟩
  · have hq := h.q_le
    rw [eA, show s.A.q = (s.A.q - 1) + 1 by omega] at hf2
    have := hf2.remove (by omega) l (by omega) o.dbg
      (N' := fun k => normal pb ((s.A.deactivate l).act k)) (fun k hk a _ => by rw [hact k hk])
    have hnd : (dualUpdate s2 acc.1).nbVar = pb.n := hn
    simp only [removeConstraint, hAd, hqd, hnd]
    exact this
  · show s2.A.deactivate l = _; rw [eA]
  · exact cand_remove (o := o) (by rw [hAd]; exact hw) (by rw [hAd]; exact hl) (by rw [hAd]; exact hc)
  · show s2.x = _; rw [ex]
  · intro k hk
    rw [remove_u k (by rw [hAd]; omega), hud, eA, dualStep, if_pos (by split_ifs <;> omega), eu, er _ (by split_ifs <;> omega), g6]
  · rw [remove_u _ (by rw [hAd]; omega), if_neg (by omega), hud, eA, show s.A.q - 1 + 1 = s.A.q by omega, dualStep,
      if_neg (lt_irrefl _), if_pos rfl, eu, g6]

end JrlQp
