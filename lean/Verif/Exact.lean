import Verif.RealFac
import Verif.Spec
import Verif.SolverSafety

/-!
# Algebraic invariants of the solver in exact arithmetic

For the exact instance (`K = ℝ`, `B = EReal`): the factorisation, stationarity, tightness of the active constraints and
the objective value are kept by each operation of the solver.
-/

namespace JrlQp

open NumOps Finset Spec

/-! ### Signed normals -/

/-- Dense signed normal of a constraint: the constraint reads `normal · x ≥ rhs` (`=` for equalities). -/
def normal (pb : Pb ℝ EReal) (sc : SC) (a : Nat) : ℝ :=
  match sc.status with
  | .equality | .lower => pb.C a sc.p
  | .upper => -pb.C a sc.p
  | .fixed | .lowerBound => if a = sc.p - pb.m then 1 else 0
  | .upperBound => if a = sc.p - pb.m then -1 else 0
  | .inactive => 0

/-- Signed right-hand side. -/
noncomputable def rhs (pb : Pb ℝ EReal) (sc : SC) : ℝ :=
  match sc.status with
  | .equality | .lower => (pb.bl sc.p).toReal
  | .upper => -(pb.bu sc.p).toReal
  | .fixed | .lowerBound => (pb.xl (sc.p - pb.m)).toReal
  | .upperBound => -(pb.xu (sc.p - pb.m)).toReal
  | .inactive => 0

/-- `normal · v`. -/
def ndot (pb : Pb ℝ EReal) (sc : SC) (v : Nat → ℝ) : ℝ := ∑ a ∈ range pb.n, normal pb sc a * v a

/-- The index part of `scOk` for bounds. -/
theorem scOk_bnd {pb : Pb ℝ EReal} {sc : SC} (h : scOk pb sc = true)
    (hs : sc.status = .fixed ∨ sc.status = .lowerBound ∨ sc.status = .upperBound) :
    pb.useBnd = true ∧ pb.m ≤ sc.p ∧ sc.p - pb.m < pb.n := by
  have hb : ∀ k, k < pb.nb → pb.useBnd = true ∧ k < pb.n := by
    intro k hk
    unfold Pb.nb at hk
    split_ifs at hk with h
    · exact ⟨h, hk⟩
    · omega
  rcases hs with hs | hs | hs <;>
  · simp only [scOk, hs, Bool.and_eq_true, decide_eq_true_eq] at h
    exact ⟨(hb _ h.2).1, h.1, (hb _ h.2).2⟩

theorem scOk_gen {pb : Pb ℝ EReal} {sc : SC} (h : scOk pb sc = true)
    (hs : sc.status = .equality ∨ sc.status = .lower ∨ sc.status = .upper) : sc.p < pb.m := by
  rcases hs with hs | hs | hs <;> simpa [scOk, hs] using h

theorem scOk_ne {pb : Pb ℝ EReal} {sc : SC} (h : scOk pb sc = true) : sc.status ≠ .inactive := by
  intro hs; simp [scOk, hs] at h

/-- `ConstraintNormal::preMultiplyByMt` is the product by the dense normal. -/
theorem preMult_eq (pb : Pb ℝ EReal) (sc : SC) (h : scOk pb sc = true) (M : Nat → Nat → ℝ) (j : Nat) :
    preMult pb.n pb.m pb.C sc M j = tmul pb.n M (normal pb sc) j := by
  have hb := scOk_bnd h
  unfold tmul
  cases hs : sc.status <;> simp only [preMult, normal, hs, esum_eq]
  · simp
  · apply sum_congr rfl; intro a _; ring
  · simp [(hb (by simp [hs])).2.2]
  · simp [(hb (by simp [hs])).2.2]
  · simp [(hb (by simp [hs])).2.2]

/-- `ConstraintNormal::dot` is the product by the dense normal. -/
theorem normalDot_eq (pb : Pb ℝ EReal) (sc : SC) (h : scOk pb sc = true) (v : Nat → ℝ) :
    normalDot pb.n pb.m pb.C sc v = ndot pb sc v := by
  have hb := scOk_bnd h
  unfold ndot
  cases hs : sc.status <;> simp only [normalDot, normal, hs, esum_eq]
  · simp
  · apply sum_congr rfl; intro a _; ring
  · rw [← sum_neg_distrib]; apply sum_congr rfl; intro a _; ring
  · apply sum_congr rfl; intro a _; ring
  · simp [(hb (by simp [hs])).2.2]
  · simp [(hb (by simp [hs])).2.2]
  · simp [(hb (by simp [hs])).2.2]

/-! ### The invariant -/

/-- The `k`-th active constraint. -/
def ActiveSet.act (A : ActiveSet) (k : Nat) : SC := ⟨A.get k, A.statusAt (A.get k)⟩

/-- Algebraic part of the invariant; `w` is the contribution of the constraint being added. -/
structure Alg (pb : Pb ℝ EReal) (s : State ℝ) (w : Nat → ℝ) : Prop where
  good : Good pb s
  fac : Fac pb.n s.A.q (hess pb) (fun k => normal pb (s.A.act k)) s.J s.R
  /-- `G x + a = N u + w` -/
  stat : ∀ a < pb.n, ∑ b ∈ range pb.n, hess pb a b * s.x b + pb.a a
      = ∑ k ∈ range s.A.q, s.u k * normal pb (s.A.act k) a + w a
  /-- active constraints are satisfied with equality -/
  tight : ∀ k < s.A.q, ndot pb (s.A.act k) s.x = rhs pb (s.A.act k)
  f : s.f = obj pb s.x

theorem hess_symm (pb : Pb ℝ EReal) (i j : Nat) : hess pb i j = hess pb j i := symLow_comm pb.G i j

/-- What `computeStep` computes. -/
structure StepFacts (pb : Pb ℝ EReal) (s : State ℝ) (sc : SC) : Prop where
  d : ∀ j < pb.n, s.d j = tmul pb.n s.J (normal pb sc) j
  z : ∀ i < pb.n, s.z i = ∑ k ∈ range pb.n, if s.A.q ≤ k then s.J i k * s.d k else 0
  /-- `n⁺ = N r + G z` -/
  split : ∀ a < pb.n, normal pb sc a = ∑ k ∈ range s.A.q, s.r k * normal pb (s.A.act k) a
      + ∑ b ∈ range pb.n, hess pb a b * s.z b
  /-- `Nᵀ z = 0` -/
  orth : ∀ k < s.A.q, ndot pb (s.A.act k) s.z = 0
  /-- `n⁺ᵀ z = ‖d₂‖²` -/
  slope : ndot pb sc s.z = ∑ k ∈ range pb.n, if s.A.q ≤ k then s.d k * s.d k else 0
  /-- `zᵀ G z = n⁺ᵀ z` -/
  curv : ∑ a ∈ range pb.n, ∑ b ∈ range pb.n, s.z a * hess pb a b * s.z b = ndot pb sc s.z

theorem tail_sum (n q : Nat) (hq : q ≤ n) (f : Nat → ℝ) :
    ∑ k ∈ range (n - q), f (q + k) = ∑ k ∈ range n, if q ≤ k then f k else 0 := by
  conv_rhs => rw [show n = q + (n - q) by omega, sum_range_add]
  rw [sum_eq_zero (s := range q) (fun k hk => by rw [if_neg (by have := mem_range.1 hk; omega)]), zero_add]
  apply sum_congr rfl
  intro k _
  rw [if_pos (by omega)]

theorem ndot_tmul (pb : Pb ℝ EReal) (sc : SC) (J : Nat → Nat → ℝ) (q : Nat) (d z : Nat → ℝ)
    (hz : ∀ i < pb.n, z i = ∑ k ∈ range pb.n, if q ≤ k then J i k * d k else 0) :
    ndot pb sc z = ∑ k ∈ range pb.n, if q ≤ k then tmul pb.n J (normal pb sc) k * d k else 0 := by
  unfold ndot
  have e : ∀ a ∈ range pb.n, normal pb sc a * z a
      = ∑ k ∈ range pb.n, if q ≤ k then (J a k * normal pb sc a) * d k else 0 := by
    intro a ha
    rw [hz a (mem_range.1 ha), Finset.mul_sum]
    apply sum_congr rfl; intro k _
    split_ifs <;> ring
  rw [sum_congr rfl e, sum_comm]
  apply sum_congr rfl; intro k _
  split_ifs
  · rw [tmul, Finset.sum_mul]
  · simp

theorem computeStep_facts {pb : Pb ℝ EReal} {s : State ℝ} {sc : SC} (hn : s.nbVar = pb.n) (hq : s.A.q ≤ pb.n)
    (hf : Fac pb.n s.A.q (hess pb) (fun k => normal pb (s.A.act k)) s.J s.R) (hsc : scOk pb sc = true) :
    StepFacts pb (computeStep pb s sc) sc := by
  have hA : (computeStep pb s sc).A = s.A := rfl
  have hJ : (computeStep pb s sc).J = s.J := rfl
  have hd : ∀ j < pb.n, (computeStep pb s sc).d j = tmul pb.n s.J (normal pb sc) j := by
    intro j hj
    simp only [computeStep, hn, wr, hj, if_true]
    exact preMult_eq pb sc hsc s.J j
  have hz : ∀ i < pb.n, (computeStep pb s sc).z i
      = ∑ k ∈ range pb.n, if s.A.q ≤ k then s.J i k * (computeStep pb s sc).d k else 0 := by
    intro i hi
    rw [← tail_sum pb.n s.A.q hq (fun k => s.J i k * (computeStep pb s sc).d k), ← esum_eq (Site.primalStep pb.n i)]
    simp only [computeStep, hn, wr, hi, if_true]
  have hr : ∀ i < s.A.q, ∑ j ∈ range s.A.q, (if i ≤ j then s.R i j else 0) * (computeStep pb s sc).r j
      = (computeStep pb s sc).d i := by
    intro i hi
    have := backSub_spec s.R s.A.q (computeStep pb s sc).d hf.diag i hi
    rw [← this]
    apply sum_congr rfl
    intro j hj
    congr 1
    simp only [computeStep, wr, mem_range.1 hj, if_true]
  generalize hs' : computeStep pb s sc = s' at *
  have hexp := Fac.expand hf.inv
  have hsplit : ∀ a < pb.n, normal pb sc a = ∑ k ∈ range s.A.q, s'.r k * normal pb (s.A.act k) a
      + ∑ b ∈ range pb.n, hess pb a b * s'.z b := by
    intro a ha
    have h1 : ∑ k ∈ range s.A.q, s'.r k * normal pb (s.A.act k) a
        = ∑ c ∈ range pb.n, hess pb a c * ∑ i ∈ range pb.n, if i < s.A.q then s.J c i * s'.d i else 0 := by
      have e1 : ∀ k ∈ range s.A.q, s'.r k * normal pb (s.A.act k) a
          = ∑ c ∈ range pb.n, hess pb a c * ∑ i ∈ range pb.n,
              if i < s.A.q then s.J c i * ((if i ≤ k then s.R i k else 0) * s'.r k) else 0 := by
        intro k hk
        have hk := mem_range.1 hk
        rw [← hexp (normal pb (s.A.act k)) a ha, Finset.mul_sum]
        apply sum_congr rfl; intro c _
        rw [← mul_assoc, mul_comm (s'.r k), mul_assoc, Finset.mul_sum]
        congr 1
        apply sum_congr rfl; intro i hi
        rw [hf.tri k hk i (mem_range.1 hi)]
        by_cases h1 : i ≤ k
        · rw [if_pos h1, if_pos (show i < s.A.q by omega)]; ring
        · rw [if_neg h1]; split_ifs <;> ring
      rw [sum_congr rfl e1, sum_comm]
      apply sum_congr rfl; intro c _
      rw [← Finset.mul_sum, sum_comm]
      congr 1
      apply sum_congr rfl; intro i _
      by_cases hi : i < s.A.q
      · simp only [hi, if_true]
        rw [← Finset.mul_sum, hr i hi]
      · simp [hi]
    rw [h1, ← hexp (normal pb sc) a ha, ← sum_add_distrib]
    apply sum_congr rfl; intro c hc
    rw [← mul_add, hz c (mem_range.1 hc), ← sum_add_distrib]
    congr 1
    apply sum_congr rfl; intro i hi
    rw [← hd i (mem_range.1 hi)]
    split_ifs <;> first | omega | simp
  have horth : ∀ k < s.A.q, ndot pb (s.A.act k) s'.z = 0 := by
    intro k hk
    rw [ndot_tmul pb _ s.J s.A.q s'.d s'.z hz]
    apply sum_eq_zero
    intro i hi
    split_ifs with h
    · rw [hf.tri k hk i (mem_range.1 hi), if_neg (by omega), zero_mul]
    · rfl
  have hcurv : ∑ a ∈ range pb.n, ∑ b ∈ range pb.n, s'.z a * hess pb a b * s'.z b = ndot pb sc s'.z := by
    have e : ∀ a ∈ range pb.n, ∑ b ∈ range pb.n, s'.z a * hess pb a b * s'.z b
        = normal pb sc a * s'.z a - ∑ k ∈ range s.A.q, s'.r k * (normal pb (s.A.act k) a * s'.z a) := by
      intro a ha
      rw [hsplit a (mem_range.1 ha), add_mul, Finset.sum_mul, Finset.sum_mul]
      rw [sum_congr rfl (fun k _ => (mul_assoc (s'.r k) _ _).symm), add_sub_cancel_left]
      apply sum_congr rfl; intro b _; ring
    rw [sum_congr rfl e, sum_sub_distrib, sum_comm]
    rw [sum_eq_zero (s := range s.A.q) (fun k hk => by
      rw [← Finset.mul_sum]
      have := horth k (mem_range.1 hk)
      unfold ndot at this
      rw [this, mul_zero])]
    rw [sub_zero]; rfl
  refine ⟨by rw [hJ]; exact hd, by rw [hA, hJ]; exact hz, by rw [hA]; exact hsplit, by rw [hA]; exact horth, ?_, hcurv⟩
  rw [hA, ndot_tmul pb sc s.J s.A.q s'.d s'.z hz]
  apply sum_congr rfl; intro k hk
  rw [hd k (mem_range.1 hk)]

/-- `z = 0` iff the tail of `d` vanishes iff the slope vanishes. -/
theorem StepFacts.z_zero {pb : Pb ℝ EReal} {s : State ℝ} {sc : SC} (h : StepFacts pb s sc)
    (hs : ndot pb sc s.z = 0) : ∀ i < pb.n, s.z i = 0 := by
  have hd : ∀ k < pb.n, s.A.q ≤ k → s.d k = 0 := by
    intro k hk hqk
    rw [h.slope] at hs
    have := (sum_eq_zero_iff_of_nonneg (fun k _ => by
      split_ifs
      · exact mul_self_nonneg _
      · exact le_rfl)).1 hs k (mem_range.2 hk)
    rw [if_pos hqk] at this
    exact mul_self_eq_zero.1 this
  intro i hi
  rw [h.z i hi]
  apply sum_eq_zero
  intro k hk
  split_ifs with hqk
  · rw [hd k (mem_range.1 hk) hqk, mul_zero]
  · rfl

theorem StepFacts.slope_nonneg {pb : Pb ℝ EReal} {s : State ℝ} {sc : SC} (h : StepFacts pb s sc) :
    0 ≤ ndot pb sc s.z := by
  rw [h.slope]
  apply sum_nonneg
  intro k _
  split_ifs
  · exact mul_self_nonneg _
  · exact le_rfl

theorem StepFacts.slope_pos {pb : Pb ℝ EReal} {s : State ℝ} {sc : SC} (h : StepFacts pb s sc)
    (hz : ∃ i < pb.n, s.z i ≠ 0) : 0 < ndot pb sc s.z := by
  rcases h.slope_nonneg.lt_or_eq with h1 | h1
  · exact h1
  · obtain ⟨i, hi, hne⟩ := hz
    exact absurd (h.z_zero h1.symm i hi) hne

theorem StepFacts.d_ne {pb : Pb ℝ EReal} {s : State ℝ} {sc : SC} (h : StepFacts pb s sc)
    (hz : ∃ i < pb.n, s.z i ≠ 0) : ∃ j, s.A.q ≤ j ∧ j < pb.n ∧ s.d j ≠ 0 := by
  by_contra hcon
  push Not at hcon
  obtain ⟨i, hi, hne⟩ := hz
  apply hne
  rw [h.z i hi]
  apply sum_eq_zero
  intro k hk
  split_ifs with hqk
  · rw [hcon k hqk (mem_range.1 hk), mul_zero]
  · rfl

theorem ndot_add (pb : Pb ℝ EReal) (sc : SC) (x z : Nat → ℝ) (t : ℝ) :
    ndot pb sc (fun i => x i + t * z i) = ndot pb sc x + t * ndot pb sc z := by
  simp only [ndot, Finset.mul_sum, ← sum_add_distrib]
  apply sum_congr rfl; intro a _; ring

theorem ndot_congr (pb : Pb ℝ EReal) (sc : SC) {x y : Nat → ℝ} (h : ∀ i < pb.n, x i = y i) :
    ndot pb sc x = ndot pb sc y := by
  apply sum_congr rfl; intro a ha; rw [h a (mem_range.1 ha)]

theorem obj_congr (pb : Pb ℝ EReal) {x y : Nat → ℝ} (h : ∀ i < pb.n, x i = y i) : obj pb x = obj pb y := by
  unfold obj
  congr 1
  · congr 1
    apply sum_congr rfl; intro i hi; apply sum_congr rfl; intro j hj
    rw [h i (mem_range.1 hi), h j (mem_range.1 hj)]
  · apply sum_congr rfl; intro i hi; rw [h i (mem_range.1 hi)]

/-- Second order expansion of the objective. -/
theorem obj_add (pb : Pb ℝ EReal) (x z : Nat → ℝ) (t : ℝ) :
    obj pb (fun i => x i + t * z i) = obj pb x
      + t * ∑ a ∈ range pb.n, (∑ b ∈ range pb.n, hess pb a b * x b + pb.a a) * z a
      + 1 / 2 * t * t * ∑ a ∈ range pb.n, ∑ b ∈ range pb.n, z a * hess pb a b * z b := by
  have e1 : ∑ i ∈ range pb.n, ∑ j ∈ range pb.n, (x i + t * z i) * hess pb i j * (x j + t * z j)
      = ∑ i ∈ range pb.n, ∑ j ∈ range pb.n, x i * hess pb i j * x j
        + t * ∑ i ∈ range pb.n, ∑ j ∈ range pb.n, z i * hess pb i j * x j
        + t * ∑ i ∈ range pb.n, ∑ j ∈ range pb.n, x i * hess pb i j * z j
        + t * t * ∑ i ∈ range pb.n, ∑ j ∈ range pb.n, z i * hess pb i j * z j := by
    simp only [Finset.mul_sum, ← sum_add_distrib]
    apply sum_congr rfl; intro i _; apply sum_congr rfl; intro j _; ring
  have e2 : ∑ i ∈ range pb.n, ∑ j ∈ range pb.n, x i * hess pb i j * z j
      = ∑ i ∈ range pb.n, ∑ j ∈ range pb.n, z i * hess pb i j * x j := by
    rw [sum_comm]
    apply sum_congr rfl; intro i _; apply sum_congr rfl; intro j _
    rw [hess_symm pb j i]; ring
  have e3 : ∑ a ∈ range pb.n, (∑ b ∈ range pb.n, hess pb a b * x b + pb.a a) * z a
      = ∑ i ∈ range pb.n, ∑ j ∈ range pb.n, z i * hess pb i j * x j + ∑ i ∈ range pb.n, pb.a i * z i := by
    rw [← sum_add_distrib]
    apply sum_congr rfl; intro i _
    rw [add_mul, Finset.sum_mul]
    congr 1
    apply sum_congr rfl; intro j _; ring
  have e4 : ∑ i ∈ range pb.n, pb.a i * (x i + t * z i)
      = ∑ i ∈ range pb.n, pb.a i * x i + t * ∑ i ∈ range pb.n, pb.a i * z i := by
    rw [Finset.mul_sum, ← sum_add_distrib]
    apply sum_congr rfl; intro i _; ring
  unfold obj
  rw [e1, e2, e3, e4]
  ring

/-! ### Steps -/

theorem Alg.step {pb : Pb ℝ EReal} {s : State ℝ} {w : Nat → ℝ} {sc : SC} (h : Alg pb s w) :
    Alg pb (computeStep pb s sc) w :=
  ⟨h.good.of_eq rfl rfl rfl rfl rfl rfl rfl rfl rfl, h.fac, h.stat, h.tight, h.f⟩

/-- Stationarity after `u -= t r`, `u_q += t` and a primal move whose gradient change is `t (n⁺ - N r)`. -/
theorem stat_dual {pb : Pb ℝ EReal} {s : State ℝ} {sc : SC} (t : ℝ) (a : Nat) :
    ∑ k ∈ range s.A.q, dualStep s.A.q t s.u s.r k * normal pb (s.A.act k) a
      + dualStep s.A.q t s.u s.r s.A.q * normal pb sc a
    = ∑ k ∈ range s.A.q, s.u k * normal pb (s.A.act k) a + s.u s.A.q * normal pb sc a
      + t * (normal pb sc a - ∑ k ∈ range s.A.q, s.r k * normal pb (s.A.act k) a) := by
  have e1 : ∑ k ∈ range s.A.q, dualStep s.A.q t s.u s.r k * normal pb (s.A.act k) a
      = ∑ k ∈ range s.A.q, s.u k * normal pb (s.A.act k) a - t * ∑ k ∈ range s.A.q, s.r k * normal pb (s.A.act k) a := by
    rw [Finset.mul_sum, ← sum_sub_distrib]
    apply sum_congr rfl; intro k hk
    rw [dualStep, if_pos (mem_range.1 hk)]; ring
  have e2 : dualStep s.A.q t s.u s.r s.A.q = s.u s.A.q + t := by simp [dualStep]
  rw [e1, e2]; ring

/-- A dual step with a null primal direction. -/
theorem Alg.dual {pb : Pb ℝ EReal} {s : State ℝ} {sc : SC} (h : Alg pb s (fun a => s.u s.A.q * normal pb sc a))
    (hf : StepFacts pb s sc) (hz : ∀ i < pb.n, s.z i = 0) (t : ℝ) :
    Alg pb (dualUpdate s t) (fun a => (dualUpdate s t).u s.A.q * normal pb sc a) := by
  refine ⟨h.good.of_eq rfl rfl rfl rfl rfl rfl rfl rfl rfl, h.fac, ?_, h.tight, h.f⟩
  intro a ha
  simp only [dualUpdate]
  rw [stat_dual, h.stat a ha]
  have := hf.split a ha
  rw [sum_eq_zero (s := range pb.n) (fun b hb => by rw [hz b (mem_range.1 hb), mul_zero]), add_zero] at this
  rw [this]; ring

/-- A primal and dual step. -/
theorem Alg.full {pb : Pb ℝ EReal} {s : State ℝ} {sc : SC} (h : Alg pb s (fun a => s.u s.A.q * normal pb sc a))
    (hf : StepFacts pb s sc) (hsc : scOk pb sc = true) (t : ℝ) :
    Alg pb (fullUpdate pb s sc t) (fun a => (fullUpdate pb s sc t).u s.A.q * normal pb sc a) ∧
    (∀ i < pb.n, (fullUpdate pb s sc t).x i = s.x i + t * s.z i) ∧
    (fullUpdate pb s sc t).f = s.f + t * ndot pb sc s.z * (1 / 2 * t + s.u s.A.q) := by
  have hn : s.nbVar = pb.n := h.good.dim.nbVar
  have hx : ∀ i < pb.n, (fullUpdate pb s sc t).x i = s.x i + t * s.z i := by
    intro i hi
    simp [fullUpdate, dualUpdate, primalStep, wr, hn, hi]
  have hff : (fullUpdate pb s sc t).f = s.f + t * ndot pb sc s.z * (1 / 2 * t + s.u s.A.q) := by
    simp only [fullUpdate, dualUpdate, primalStep, hn, normalDot_eq pb sc hsc]
    rfl
  refine ⟨⟨h.good.of_eq rfl rfl rfl rfl rfl rfl rfl rfl rfl, h.fac, ?_, ?_, ?_⟩, hx, hff⟩
  · intro a ha
    have e : (fullUpdate pb s sc t).u = dualStep s.A.q t s.u s.r := rfl
    have eA : (fullUpdate pb s sc t).A = s.A := rfl
    rw [eA, e, stat_dual, ← h.stat a ha]
    have := hf.split a ha
    rw [show normal pb sc a - ∑ k ∈ range s.A.q, s.r k * normal pb (s.A.act k) a
      = ∑ b ∈ range pb.n, hess pb a b * s.z b by rw [this]; ring]
    rw [Finset.mul_sum, sum_congr rfl (fun b hb => by rw [hx b (mem_range.1 hb)])]
    have : ∑ x ∈ range pb.n, hess pb a x * (s.x x + t * s.z x)
        = ∑ x ∈ range pb.n, hess pb a x * s.x x + ∑ x ∈ range pb.n, t * (hess pb a x * s.z x) := by
      rw [← sum_add_distrib]; apply sum_congr rfl; intro b _; ring
    rw [this]; ring
  · intro k hk
    have eA : (fullUpdate pb s sc t).A = s.A := rfl
    rw [eA] at hk ⊢
    rw [ndot_congr pb _ hx, ndot_add, hf.orth k hk, h.tight k hk]; ring
  · rw [hff, obj_congr pb hx, obj_add, hf.curv, ← h.f]
    have e : ∑ a ∈ range pb.n, (∑ b ∈ range pb.n, hess pb a b * s.x b + pb.a a) * s.z a
        = s.u s.A.q * ndot pb sc s.z := by
      have e1 : ∀ a ∈ range pb.n, (∑ b ∈ range pb.n, hess pb a b * s.x b + pb.a a) * s.z a
          = ∑ k ∈ range s.A.q, s.u k * (normal pb (s.A.act k) a * s.z a) + s.u s.A.q * (normal pb sc a * s.z a) := by
        intro a ha
        rw [h.stat a (mem_range.1 ha), add_mul, Finset.sum_mul]
        congr 1
        · apply sum_congr rfl; intro k _; ring
        · ring
      rw [sum_congr rfl e1, sum_add_distrib, sum_comm, ← Finset.mul_sum]
      rw [sum_eq_zero (s := range s.A.q) (fun k hk => by
        rw [← Finset.mul_sum]
        have := hf.orth k (mem_range.1 hk)
        unfold ndot at this
        rw [this, mul_zero]), zero_add]
      rfl
    rw [e]; ring

/-! ### Changes of the active set -/

theorem act_activate {A : ActiveSet} (hw : A.WF) {sc : SC} (hp : A.activatePre sc.p sc.status = true) :
    (∀ k < A.q, (A.activate sc.p sc.status).act k = A.act k) ∧ (A.activate sc.p sc.status).act A.q = sc := by
  have h := (ActiveSet.activatePre_iff _ _ _).1 hp
  have hi : sc.p < A.status.length := by rw [hw.size]; exact h.1
  have hni : sc.p ∉ A.active := by rw [hw.mem]; simp [h.2.1]
  constructor
  · intro k hk
    rw [hw.q_eq] at hk
    have hg : (A.activate sc.p sc.status).get k = A.get k := by
      simp only [ActiveSet.get, ActiveSet.activate_active]
      rw [List.getD_append _ _ _ _ hk]
    simp only [ActiveSet.act, hg, ActiveSet.activate_statusAt _ _ _ _ hi]
    rw [if_neg]
    intro he
    apply hni
    rw [← he, ActiveSet.get, List.getD_eq_getElem _ _ hk]
    exact List.getElem_mem hk
  · have hg : (A.activate sc.p sc.status).get A.q = sc.p := by
      simp only [ActiveSet.get, ActiveSet.activate_active, hw.q_eq]
      rw [List.getD_append_right _ _ _ _ le_rfl]; simp
    simp only [ActiveSet.act, hg, ActiveSet.activate_statusAt _ _ _ _ hi, if_true]

theorem act_deactivate {A : ActiveSet} (hw : A.WF) {l : Nat} (hl : l < A.q) :
    ∀ k < A.q - 1, (A.deactivate l).act k = A.act (if k < l then k else k + 1) := by
  have hl' : l < A.active.length := by rw [← hw.q_eq]; exact hl
  intro k hk
  have hlen : A.q = A.active.length := hw.q_eq
  have hg : (A.deactivate l).get k = A.get (if k < l then k else k + 1) := by
    simp only [ActiveSet.get, ActiveSet.deactivate_active, List.getD_eq_getElem?_getD, List.getElem?_eraseIdx]
    split_ifs <;> rfl
  simp only [ActiveSet.act, hg, ActiveSet.deactivate_statusAt _ hw _ _ hl']
  have hlt : (if k < l then k else k + 1) < A.active.length := by split_ifs <;> omega
  have hne : (if k < l then k else k + 1) ≠ l := by split_ifs <;> omega
  generalize (if k < l then k else k + 1) = k' at *
  rw [if_neg]
  intro he
  rw [ActiveSet.get, ActiveSet.get, List.getD_eq_getElem _ _ hlt, List.getD_eq_getElem _ _ hl'] at he
  exact hne ((List.Nodup.getElem_inj_iff hw.nodup).1 he)

/-- Adding the selected constraint when it is satisfied with equality. -/
theorem Alg.add {pb : Pb ℝ EReal} {s : State ℝ} {sc : SC} {o : Opts ℝ}
    (h : Alg pb s (fun a => s.u s.A.q * normal pb sc a))
    (hp : s.A.activatePre sc.p sc.status = true) (hq : s.A.q < pb.n)
    (hd : ∀ j < pb.n, s.d j = tmul pb.n s.J (normal pb sc) j)
    (hdz : ∃ j, s.A.q ≤ j ∧ j < pb.n ∧ s.d j ≠ 0)
    (htight : ndot pb sc s.x = rhs pb sc) :
    Alg pb (addConstraint o s sc) (fun _ => 0) ∧ (addConstraint o s sc).A = s.A.activate sc.p sc.status := by
  have hn : s.nbVar = pb.n := h.good.dim.nbVar
  have hqa := h.good.dim.wf.q_activate hp
  obtain ⟨ha1, ha2⟩ := act_activate h.good.dim.wf hp
  refine ⟨⟨good_add h.good hp (by rw [hn]; exact hq), ?_, ?_, ?_, h.f⟩, rfl⟩
  · have := h.fac.add hq o.dbg s.d (normal pb sc) hd hdz
      (N' := fun k => normal pb ((s.A.activate sc.p sc.status).act k))
      (fun k hk a _ => by rw [ha1 k hk]) (fun a _ => by rw [ha2])
    simp only [addConstraint, hqa, hn, Nat.add_sub_cancel]
    exact this
  · intro a ha
    simp only [addConstraint, hqa, add_zero]
    rw [sum_range_succ, ha2, h.stat a ha]
    congr 1
    apply sum_congr rfl; intro k hk; rw [ha1 k (mem_range.1 hk)]
  · intro k hk
    simp only [addConstraint, hqa] at hk ⊢
    by_cases he : k = s.A.q
    · rw [he, ha2]; exact htight
    · rw [ha1 k (by omega)]; exact h.tight k (by omega)

/-- Multipliers after a removal. -/
theorem remove_u {o : Opts ℝ} {s : State ℝ} {l : Nat} (k : Nat) (hk : k < s.A.q) :
    (removeConstraint o s l).u k = s.u (if k < l then k else k + 1) := by
  simp only [removeConstraint]
  have hb : (if o.dbg = true then upd (fun j => if l ≤ j ∧ j < s.A.q then s.u (j + 1) else s.u j) s.A.q 0
      else fun j => if l ≤ j ∧ j < s.A.q then s.u (j + 1) else s.u j) k
      = if l ≤ k ∧ k < s.A.q then s.u (k + 1) else s.u k := by
    by_cases h1 : o.dbg = true
    · rw [if_pos h1, upd, if_neg (by omega)]
    · rw [if_neg h1]
  rw [hb]
  by_cases h : k < l
  · rw [if_neg (by omega), if_pos h]
  · rw [if_pos ⟨by omega, hk⟩, if_neg h]

/-- Removing an active constraint whose multiplier is zero. -/
theorem Alg.remove {pb : Pb ℝ EReal} {s : State ℝ} {sc : SC} {o : Opts ℝ} {l : Nat}
    (h : Alg pb s (fun a => s.u s.A.q * normal pb sc a)) (hl : l < s.A.q) (hu : s.u l = 0) :
    Alg pb (removeConstraint o s l)
      (fun a => (removeConstraint o s l).u (removeConstraint o s l).A.q * normal pb sc a) ∧
    (removeConstraint o s l).A = s.A.deactivate l ∧ (removeConstraint o s l).A.q = s.A.q - 1 ∧
    (removeConstraint o s l).x = s.x ∧ (removeConstraint o s l).f = s.f := by
  have hn : s.nbVar = pb.n := h.good.dim.nbVar
  have hw := h.good.dim.wf
  have hp : s.A.deactivatePre l = true := by
    rw [hw.q_eq] at hl; simpa [ActiveSet.deactivatePre] using hl
  have hqd := hw.q_deactivate hp
  have hact := act_deactivate hw hl
  have hA : (removeConstraint o s l).A = s.A.deactivate l := rfl
  have hq' : (removeConstraint o s l).A.q = s.A.q - 1 := by rw [hA, hqd]
  have hqle := h.good.q_le
  refine ⟨⟨good_remove h.good hl, ?_, ?_, ?_, h.f⟩, hA, hq', rfl, rfl⟩
  · have hf := h.fac
    rw [show s.A.q = (s.A.q - 1) + 1 by omega] at hf
    have := hf.remove (by omega) l (by omega) o.dbg
      (N' := fun k => normal pb ((s.A.deactivate l).act k)) (fun k hk a _ => by rw [hact k hk])
    rw [hq', hA]
    simp only [removeConstraint, hqd, hn]
    exact this
  · intro a ha
    have hx : (removeConstraint o s l).x = s.x := rfl
    rw [hx, h.stat a ha, hq', remove_u (s.A.q - 1) (by omega), if_neg (by omega),
      show s.A.q - 1 + 1 = s.A.q by omega, hA]
    congr 1
    -- remove the l-th term, which is zero
    have e1 : ∑ k ∈ range (s.A.q - 1), (removeConstraint o s l).u k * normal pb ((s.A.deactivate l).act k) a
        = ∑ k ∈ range (s.A.q - 1), (fun k => s.u k * normal pb (s.A.act k) a) (if k < l then k else k + 1) := by
      apply sum_congr rfl; intro k hk
      have hk := mem_range.1 hk
      rw [remove_u k (by omega), hact k hk]
    rw [e1]
    have e2 : ∀ (f : Nat → ℝ) (q l : Nat), l < q → f l = 0 →
        ∑ k ∈ range q, f k = ∑ k ∈ range (q - 1), f (if k < l then k else k + 1) := by
      intro f q l hl hf
      have h1 : ∑ k ∈ range q, f k = ∑ k ∈ range l, f k + ∑ k ∈ range (q - 1 - l), f (l + 1 + k) := by
        rw [show q = (l + 1) + (q - 1 - l) by omega, sum_range_add, sum_range_succ, hf, add_zero]
        congr 2
        congr 1
        omega
      have h2 : ∑ k ∈ range (q - 1), f (if k < l then k else k + 1)
          = ∑ k ∈ range l, f k + ∑ k ∈ range (q - 1 - l), f (l + 1 + k) := by
        rw [show q - 1 = l + (q - 1 - l) by omega, sum_range_add]
        congr 1
        · apply sum_congr rfl; intro k hk; rw [if_pos (mem_range.1 hk)]
        · rw [show l + (q - 1 - l) - l = q - 1 - l by omega]
          apply sum_congr rfl; intro k _; rw [if_neg (by omega)]; congr 1; omega
      rw [h1, h2]
    exact e2 _ _ l hl (by rw [hu, zero_mul])
  · intro k hk
    rw [hq'] at hk
    rw [hA, hact k hk]
    exact h.tight _ (by split_ifs <;> omega)

end JrlQp
