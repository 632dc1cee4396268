import Verif.Exact
import Mathlib.Topology.Order.Basic

/-!
# One iteration of the main loop in exact arithmetic
-/

namespace JrlQp

open NumOps Finset Spec

/-- The constraint at position `k` takes part in the ratio test, src/GoldfarbIdnaniSolver.cpp:162-163. -/
def elig (A : ActiveSet) (k : Nat) : Prop := A.statusAt k ≠ .equality ∧ A.statusAt k ≠ .fixed

theorem ratio_spec (A : ActiveSet) (u r : Nat → ℝ) (big : ℝ) (q : Nat) :
    let res := (List.range q).foldl (ratioStep A u r) (big, 0)
    res.1 ≤ big ∧ (∀ k < q, elig A k → 0 < r k → res.1 ≤ u k / r k) ∧
    ((res = (big, 0) ∧ ∀ k < q, elig A k → 0 < r k → big ≤ u k / r k) ∨
      (res.2 < q ∧ elig A res.2 ∧ 0 < r res.2 ∧ res.1 = u res.2 / r res.2 ∧ res.1 < big)) := by
  induction q with
  | zero => exact ⟨le_rfl, fun k hk => by omega, Or.inl ⟨rfl, fun k hk => by omega⟩⟩
  | succ q ih =>
    rw [List.range_succ, List.foldl_append, List.foldl_cons, List.foldl_nil]
    generalize (List.range q).foldl (ratioStep A u r) (big, 0) = acc at ih
    simp only at ih ⊢
    obtain ⟨h1, h2, h3⟩ := ih
    simp only [ratioStep]
    by_cases he : A.statusAt q ≠ .equality ∧ A.statusAt q ≠ .fixed ∧ ltb (0 : ℝ) (r q) = true
    · rw [if_pos he]
      have hr : 0 < r q := by simpa using he.2.2
      by_cases hl : ltb (u q / r q) acc.1 = true
      · rw [if_pos hl]
        rw [ltb_real] at hl
        refine ⟨(hl.trans_le h1).le, ?_, Or.inr ⟨by simp, ⟨he.1, he.2.1⟩, hr, rfl, hl.trans_le h1⟩⟩
        intro k hk hek hrk
        by_cases hkq : k = q
        · subst hkq; exact le_rfl
        · exact hl.le.trans (h2 k (by omega) hek hrk)
      · rw [if_neg hl]
        rw [ltb_real, not_lt] at hl
        refine ⟨h1, ?_, ?_⟩
        · intro k hk hek hrk
          by_cases hkq : k = q
          · subst hkq; exact hl
          · exact h2 k (by omega) hek hrk
        · rcases h3 with ⟨h3, h4⟩ | h3
          · left
            refine ⟨h3, ?_⟩
            intro k hk hek hrk
            by_cases hkq : k = q
            · subst hkq; rw [h3] at hl; exact hl
            · exact h4 k (by omega) hek hrk
          · right; exact ⟨by omega, h3.2⟩
    · rw [if_neg he]
      refine ⟨h1, ?_, ?_⟩
      · intro k hk hek hrk
        by_cases hkq : k = q
        · subst hkq; exact absurd ⟨hek.1, hek.2, by simpa using hrk⟩ he
        · exact h2 k (by omega) hek hrk
      · rcases h3 with ⟨h3, h4⟩ | h3
        · left
          refine ⟨h3, ?_⟩
          intro k hk hek hrk
          by_cases hkq : k = q
          · subst hkq; exact absurd ⟨hek.1, hek.2, by simpa using hrk⟩ he
          · exact h4 k (by omega) hek hrk
        · right; exact ⟨by omega, h3.2⟩

/-- The step to the constraint's boundary. -/
noncomputable def tFull (pb : Pb ℝ EReal) (s : State ℝ) (sc : SC) : ℝ := (rhs pb sc - ndot pb sc s.x) / ndot pb sc s.z

theorem colDot_eq (pb : Pb ℝ EReal) (i : Nat) (x : Nat → ℝ) : colDot pb pb.n i x = row pb x i := by
  unfold colDot row
  rw [esum_eq]

/-- `ndot` by kind of constraint. -/
theorem ndot_cases (pb : Pb ℝ EReal) (sc : SC) (h : scOk pb sc = true) (v : Nat → ℝ) :
    ndot pb sc v = match sc.status with
      | .equality | .lower => row pb v sc.p
      | .upper => -row pb v sc.p
      | .fixed | .lowerBound => v (sc.p - pb.m)
      | .upperBound => -v (sc.p - pb.m)
      | .inactive => 0 := by
  have hb := scOk_bnd h
  unfold ndot row
  cases hs : sc.status <;> simp only [normal, hs]
  · simp
  · rw [← sum_neg_distrib]; apply sum_congr rfl; intro a _; ring
  · simp [(hb (by simp [hs])).2.2]
  · simp [(hb (by simp [hs])).2.2]
  · simp [(hb (by simp [hs])).2.2]

theorem fullStep_eq (pb : Pb ℝ EReal) (s : State ℝ) (sc : SC) (h : scOk pb sc = true) (hs : sc.status.isEq = false) :
    fullStep pb pb.n s.x s.z sc = tFull pb s sc := by
  unfold tFull
  rw [ndot_cases pb sc h, ndot_cases pb sc h]
  cases hs' : sc.status <;> simp only [fullStep, rhs, hs', colDot_eq, NumOps.toK]
  · simp
  · rw [show -(pb.bu sc.p).toReal - -row pb s.x sc.p = -((pb.bu sc.p).toReal - row pb s.x sc.p) by ring, neg_div_neg_eq]
  · simp [hs', Status.isEq] at hs
  · rw [show -(pb.xu (sc.p - pb.m)).toReal - -s.x (sc.p - pb.m)
      = -((pb.xu (sc.p - pb.m)).toReal - s.x (sc.p - pb.m)) by ring, neg_div_neg_eq]
  · simp [hs', Status.isEq] at hs

theorem normn_pos {n : Nat} {z : Nat → ℝ} : 0 < normn n z ↔ ∃ i < n, z i ≠ 0 := by
  unfold normn
  rw [dotn_eq]
  show 0 < Real.sqrt _ ↔ _
  rw [Real.sqrt_pos]
  constructor
  · intro h
    by_contra hc
    push Not at hc
    rw [sum_eq_zero (fun i hi => by rw [hc i (mem_range.1 hi), mul_zero])] at h
    exact lt_irrefl _ h
  · rintro ⟨i, hi, hz⟩
    refine lt_of_lt_of_le (mul_self_pos.2 hz) ?_
    exact single_le_sum (f := fun i => z i * z i) (fun i _ => mul_self_nonneg _) (mem_range.2 hi)

/-- No threshold of the code (`1e-14` on `‖z‖`, `bigBnd` on the step lengths) is hit for a wrong reason at this
iteration: a non-zero direction is larger than `tiny`, and the candidate step lengths are smaller than `bigBnd`. -/
structure Regular (o : Opts ℝ) (pb : Pb ℝ EReal) (s : State ℝ) (sc : SC) : Prop where
  z : (∃ i < pb.n, (computeStep pb s sc).z i ≠ 0) → o.tiny < normn pb.n (computeStep pb s sc).z
  t2 : (∃ i < pb.n, (computeStep pb s sc).z i ≠ 0) → tFull pb (computeStep pb s sc) sc < o.bigBnd
  t1 : ∀ k < s.A.q, elig s.A k → 0 < (computeStep pb s sc).r k → s.u k / (computeStep pb s sc).r k < o.bigBnd

/-- The possible outcomes of a regular iteration, `s` being the state after `computeStep`. -/
inductive StepR (o : Opts ℝ) (pb : Pb ℝ EReal) (s : State ℝ) (sc : SC) : Iter ℝ → Prop
  /-- no primal direction and no constraint to drop -/
  | infeasible (hz : ∀ i < pb.n, s.z i = 0) (hr : ∀ k < s.A.q, elig s.A k → s.r k ≤ 0) :
      StepR o pb s sc (.done .infeasible s)
  /-- no primal direction, a constraint is dropped -/
  | dropDual (hz : ∀ i < pb.n, s.z i = 0) (l : Nat) (hl : l < s.A.q) (he : elig s.A l) (hr : 0 < s.r l)
      (hmin : ∀ k < s.A.q, elig s.A k → 0 < s.r k → s.u l / s.r l ≤ s.u k / s.r k) :
      StepR o pb s sc (.cont (removeConstraint o (dualUpdate s (s.u l / s.r l)) l) sc true)
  /-- partial step, a constraint is dropped -/
  | dropFull (hz : ∃ i < pb.n, s.z i ≠ 0) (l : Nat) (hl : l < s.A.q) (he : elig s.A l) (hr : 0 < s.r l)
      (hmin : ∀ k < s.A.q, elig s.A k → 0 < s.r k → s.u l / s.r l ≤ s.u k / s.r k)
      (ht : s.u l / s.r l < tFull pb s sc) :
      StepR o pb s sc (.cont (removeConstraint o (fullUpdate pb s sc (s.u l / s.r l)) l) sc true)
  /-- full step, the constraint is added -/
  | full (hz : ∃ i < pb.n, s.z i ≠ 0) (hq : s.A.q < pb.n)
      (hmin : ∀ k < s.A.q, elig s.A k → 0 < s.r k → tFull pb s sc ≤ s.u k / s.r k) :
      StepR o pb s sc (.cont (addConstraint o (fullUpdate pb s sc (tFull pb s sc)) sc) sc false)

theorem iterBody_exact {o : Opts ℝ} {pb : Pb ℝ EReal} {s : State ℝ} {sc : SC} (ht0 : 0 ≤ o.tiny)
    (hg : Good pb s) (hc : Cand s.A sc)
    (hf : Fac pb.n s.A.q (hess pb) (fun k => normal pb (s.A.act k)) s.J s.R)
    (hreg : Regular o pb s sc) {r} (h : iterBody o pb s sc = .ok r) :
    StepR o pb (computeStep pb s sc) sc r := by
  have hsc := Cand.scOk (pb := pb) hc.pre hg.dim.nbCstr hg.dim.nbBnd
  have hfacts := computeStep_facts (sc := sc) hg.dim.nbVar (by rw [← hg.dim.nbVar]; exact hg.q_le) hf hsc
  have hn : (computeStep pb s sc).nbVar = pb.n := hg.dim.nbVar
  have hrz := hreg.z
  have hrt2 := hreg.t2
  have hrt1 : ∀ k < (computeStep pb s sc).A.q, elig (computeStep pb s sc).A k → 0 < (computeStep pb s sc).r k →
    (computeStep pb s sc).u k / (computeStep pb s sc).r k < o.bigBnd := hreg.t1
  unfold iterBody at h
  split_ifs at h with h0
  clear h0 hf hreg hg
  generalize computeStep pb s sc = s1 at *
  simp only [] at h
  by_cases h1 : stepLenOk o s1 sc = true
  swap
  · rw [if_neg h1] at h; cases h
  rw [if_pos h1] at h
  -- the step lengths
  clear h1
  have hratio := ratio_spec s1.A s1.u s1.r o.bigBnd s1.A.q
  simp only at hratio
  have ht1 : (computeStepLength o pb s1 sc).t1
      = ((List.range s1.A.q).foldl (ratioStep s1.A s1.u s1.r) (o.bigBnd, 0)).1 := rfl
  have hl1 : (computeStepLength o pb s1 sc).l
      = ((List.range s1.A.q).foldl (ratioStep s1.A s1.u s1.r) (o.bigBnd, 0)).2 := rfl
  have ht2 : (computeStepLength o pb s1 sc).t2
      = if ltb o.tiny (normn s1.nbVar s1.z) then fullStep pb s1.nbVar s1.x s1.z sc else o.bigBnd := rfl
  generalize hacc : (List.range s1.A.q).foldl (ratioStep s1.A s1.u s1.r) (o.bigBnd, 0) = acc at *
  generalize computeStepLength o pb s1 sc = sl at *
  rw [hn, fullStep_eq pb s1 sc hsc hc.ineq] at ht2
  obtain ⟨g1, g2, g3⟩ := hratio
  simp only [leb_real, eqb_real, stdMin, ltb_real] at h
  by_cases hz : ∃ i < pb.n, s1.z i ≠ 0
  · -- non-zero direction
    have hb2 := hrt2 hz
    rw [if_pos (by simpa using hrz hz)] at ht2
    have hqlt : s1.A.q < pb.n := by
      obtain ⟨j, hj1, hj2, _⟩ := hfacts.d_ne hz
      omega
    by_cases hlt : sl.t2 < sl.t1
    · simp only [if_pos hlt] at h
      rw [if_neg (by rw [ht2]; exact not_le.2 hb2), if_neg (by rw [ht2]; exact not_le.2 hb2)] at h
      simp only [if_true] at h
      split_ifs at h with h2
      cases h
      rw [ht2]
      refine StepR.full hz hqlt ?_
      intro k hk he hr
      have := g2 k hk he hr
      rw [← ht1] at this
      rw [← ht2]
      linarith
    · simp only [if_neg hlt] at h
      rw [not_lt] at hlt
      have hacc1 : acc.1 < o.bigBnd := by rw [← ht1]; rw [ht2] at hlt; linarith
      rcases g3 with ⟨g3, _⟩ | ⟨g3, g4, g5, g6, g7⟩
      · rw [g3] at hacc1; exact absurd hacc1 (lt_irrefl _)
      rw [if_neg (by rw [ht1]; exact not_le.2 hacc1), if_neg (by rw [ht2]; exact not_le.2 hb2)] at h
      by_cases he : sl.t1 = sl.t2
      · rw [if_pos he] at h
        split_ifs at h with h2
        cases h
        rw [he, ht2]
        refine StepR.full hz hqlt ?_
        intro k hk he' hr
        have := g2 k hk he' hr
        rw [← ht1, he, ht2] at this
        exact this
      · rw [if_neg he] at h
        split_ifs at h with h2
        cases h
        rw [hl1, ht1, g6]
        refine StepR.dropFull hz acc.2 g3 g4 g5 ?_ ?_
        · intro k hk he' hr
          have := g2 k hk he' hr
          rw [g6] at this
          exact this
        · rw [← g6, ← ht1, ← ht2]
          exact lt_of_le_of_ne hlt he
  · -- null direction
    have hnorm : ¬ o.tiny < normn pb.n s1.z := by
      intro hlt
      exact hz (normn_pos.1 (lt_of_le_of_lt ht0 hlt))
    rw [if_neg (by simpa using hnorm)] at ht2
    have hz' : ∀ i < pb.n, s1.z i = 0 := by
      intro i hi
      by_contra hne
      exact hz ⟨i, hi, hne⟩
    have hle : ¬ sl.t2 < sl.t1 := by rw [ht1, ht2]; exact not_lt.2 g1
    simp only [if_neg hle] at h
    rcases g3 with ⟨g3, g4⟩ | ⟨g3, g4, g5, g6, g7⟩
    · rw [if_pos (by rw [ht1, g3])] at h
      cases h
      refine StepR.infeasible hz' ?_
      intro k hk he
      by_contra hcon
      rw [not_le] at hcon
      exact absurd (hrt1 k hk he hcon) (not_lt.2 (g4 k hk he hcon))
    · rw [if_neg (by rw [ht1]; exact not_le.2 g7), if_pos (by rw [ht2])] at h
      split_ifs at h with h2
      cases h
      rw [hl1, ht1, g6]
      refine StepR.dropDual hz' acc.2 g3 g4 g5 ?_
      intro k hk he' hr
      have := g2 k hk he' hr
      rw [g6] at this
      exact this

end JrlQp
