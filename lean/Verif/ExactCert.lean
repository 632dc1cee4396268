import Verif.ExactBackward
import Verif.PropsThreshold
import Mathlib.Algebra.QuadraticDiscriminant

/-!
# What `INFEASIBLE` means for arbitrary thresholds (exact arithmetic)
-/

namespace JrlQp

open NumOps Finset Spec

/-- Specification: a certificate of infeasibility up to the thresholds, for the point `x`, the active constraints `act k` (`k < q`) and
their multipliers `u`. The constraint `sc` is violated by `viol > 0` at `x`; `z` is a direction that the thresholds neglect; the weights
`ρ k` are those of inequality constraints and at most `u k / bigBnd`. A feasible point `y` has to make up for the violation with
the neglected terms only: `viol ≤ (Gz)ᵀ(y - x) + ∑ ρ k · (slack of y in constraint k)`. With `z = 0` and `ρ = 0` there is no feasible point. -/
structure NearCert (o : Opts ℝ) (pb : Pb ℝ EReal) (x : Nat → ℝ) (q : Nat) (act : Nat → SC) (u : Nat → ℝ) (sc : SC) (z ρ : Nat → ℝ) : Prop where
  ok : scOk pb sc = true
  viol : ndot pb sc x < rhs pb sc
  neglected : Neglected o pb z (rhs pb sc - ndot pb sc x)
  nonneg : ∀ k < q, 0 ≤ ρ k
  small : ∀ k < q, o.bigBnd * ρ k ≤ u k ∨ ρ k = 0
  ineq : ∀ k < q, ρ k ≠ 0 → (act k).status.isEq = false
  dual : ∀ k < q, (act k).status.isEq = false → 0 ≤ u k
  slack : ∀ y, Feasible pb y → ∀ k < q, rhs pb (act k) ≤ ndot pb (act k) y
  cert : ∀ y, Feasible pb y → rhs pb sc - ndot pb sc x ≤
    ∑ a ∈ range pb.n, (∑ b ∈ range pb.n, hess pb a b * z b) * (y a - x a) + ∑ k ∈ range q, ρ k * (ndot pb (act k) y - rhs pb (act k))

theorem stepT_cert {o : Opts ℝ} {pb : Pb ℝ EReal} (ht0 : 0 ≤ o.tiny) {e : Nat} {s0 : State ℝ} {sc : SC} (h : LoopInv pb s0 sc true)
    (hD : DInv pb e s0 sc true) {t s'} (hr : StepT o pb (computeStep pb s0 sc) sc (.done t s')) :
    ∃ z ρ, NearCert o pb s0.x s0.A.q s0.A.act s0.u sc z ρ := by
  have hcand := h.cand rfl
  have hg := h.alg.good
  have hsc := Cand.scOk (pb := pb) hcand.pre hg.dim.nbCstr hg.dim.nbBnd
  have hfacts := computeStep_facts (sc := sc) hg.dim.nbVar (by rw [← hg.dim.nbVar]; exact hg.q_le) h.alg.fac hsc
  have halg : Alg pb (computeStep pb s0 sc) (fun a => (computeStep pb s0 sc).u (computeStep pb s0 sc).A.q * normal pb sc a) :=
    (h.alg.step (sc := sc)).congr (by intro a _; simp [computeStep])
  have hfin1 : ∀ k < (computeStep pb s0 sc).A.q, BndFin pb ((computeStep pb s0 sc).A.act k) := h.fin
  have hfc := h.finc rfl
  have hD1 : DInv pb e (computeStep pb s0 sc) sc true := ⟨hD.pre, hD.pos, hD.cpos, hD.viol⟩
  show ∃ z ρ, NearCert o pb (computeStep pb s0 sc).x (computeStep pb s0 sc).A.q (computeStep pb s0 sc).A.act (computeStep pb s0 sc).u sc z ρ
  generalize computeStep pb s0 sc = s at *
  clear hD h hg hcand
  have hw := halg.good.dim.wf
  have hel := hD1.pre.elig
  have key : Neglected o pb s.z (rhs pb sc - ndot pb sc s.x) →
      (∀ k < s.A.q, elig s.A k → 0 < s.r k → o.bigBnd * s.r k ≤ s.u k) →
      ∃ z ρ, NearCert o pb s.x s.A.q s.A.act s.u sc z ρ := by
    intro hz hb
    refine ⟨s.z, fun k => if e ≤ k then max (s.r k) 0 else 0, hsc, hD1.viol rfl, hz, ?_, ?_, ?_, ?_, ?_, ?_⟩
    · intro k _; split_ifs
      · exact le_max_right _ _
      · exact le_rfl
    · intro k hk
      split_ifs with hek
      · rcases lt_or_ge 0 (s.r k) with hrk | hrk
        · left; rw [max_eq_left hrk.le]; exact hb k hk ((hel k).2 hek) hrk
        · right; exact max_eq_right hrk
      · right; rfl
    · intro k hk hne
      split_ifs at hne with hek
      · have := (hD1.pre.act hw hk).not.2 (by omega)
        simpa using this
      · exact absurd rfl hne
    · intro k hk hs
      refine hD1.pos k hk ?_
      by_contra hke
      have := (hD1.pre.act hw hk).2 (by omega)
      rw [hs] at this; cases this
    · intro y hy k hk
      exact (feas_rhs (halg.scOk hk) (hfin1 k hk) hy).1
    · intro y hy
      have h1 := (feas_rhs hsc hfc hy).1
      have e1 : ndot pb sc y - ndot pb sc s.x
          = ∑ a ∈ range pb.n, (∑ b ∈ range pb.n, hess pb a b * s.z b) * (y a - s.x a)
            + ∑ k ∈ range s.A.q, s.r k * (ndot pb (s.A.act k) y - ndot pb (s.A.act k) s.x) := by
        unfold ndot
        simp only [← Finset.sum_sub_distrib, ← mul_sub, Finset.mul_sum]
        rw [Finset.sum_comm, ← Finset.sum_add_distrib]
        refine Finset.sum_congr rfl fun a ha => ?_
        rw [hfacts.split a (mem_range.1 ha), add_mul, add_comm, Finset.sum_mul (range s.A.q)]
        congr 1
        exact Finset.sum_congr rfl fun k _ => by ring
      have e2 : ∑ k ∈ range s.A.q, s.r k * (ndot pb (s.A.act k) y - ndot pb (s.A.act k) s.x)
          ≤ ∑ k ∈ range s.A.q, (if e ≤ k then max (s.r k) 0 else 0) * (ndot pb (s.A.act k) y - rhs pb (s.A.act k)) := by
        apply sum_le_sum
        intro k hk
        have hk := mem_range.1 hk
        obtain ⟨h3, h4⟩ := feas_rhs (halg.scOk hk) (hfin1 k hk) hy
        rw [halg.tight k hk]
        split_ifs with hek
        · exact mul_le_mul_of_nonneg_right (le_max_left _ _) (by linarith)
        · rw [h4 ((hD1.pre.act hw hk).2 (by omega))]; simp
      linarith
  cases hr with
  | reg hr =>
    cases hr with
    | infeasible hz hr =>
      refine key (Or.inl ?_) (fun k hk he hrk => absurd (hr k hk he) (not_le.2 hrk))
      have : normn pb.n s'.z = 0 := by
        unfold normn dotn
        rw [esum_eq, Finset.sum_eq_zero (fun i hi => by rw [hz i (mem_range.1 hi), mul_zero])]
        exact Real.sqrt_zero
      rw [this]; exact ht0
  | infeasible hz hr =>
    refine key hz (fun k hk he hrk => ?_)
    have := hr k hk he hrk
    rwa [le_div_iff₀ hrk] at this

theorem iterate_cert {o : Opts ℝ} {pb : Pb ℝ EReal} (hp : Proper pb) (hx : NotCrossed pb) (ht0 : 0 ≤ o.tiny) {e k : Nat}
    {s : State ℝ} {sc : SC} {skip : Bool} {δ : Nat → ℝ} {c : ℝ} (h : BInvT o pb e k s sc skip δ c)
    {s'} (hr : iterate o pb s sc skip = .ok (.done .infeasible s')) :
    ∃ sc z ρ, NearCert o pb s'.x s'.A.q s'.A.act s'.u sc z ρ := by
  have hp' : Proper (shiftA pb δ) := ⟨hp.bl, hp.bu, hp.xl, hp.xu⟩
  have hx' : NotCrossed (shiftA pb δ) := ⟨hx.gen, hx.bnd⟩
  have hD' : DInv (shiftA pb δ) e (plusF s c) sc skip := ⟨h.dual.pre, h.dual.pos, h.dual.cpos, h.dual.viol⟩
  have hr' : iterate o (shiftA pb δ) (plusF s c) sc skip = .ok (.done .infeasible (plusF s' c)) := by
    rw [iterate_shiftA]; exact iterate_plusF c hr
  rcases iterate_any hp' hx' ht0 h.inv hr' with ⟨h1, _, _⟩ | ⟨s1, sc1, he, hst⟩
  · cases h1
  · obtain ⟨hi, _⟩ := enter_inv hp' hx' h.inv he
    obtain ⟨hd, hf, hA⟩ := enter_dual hp' hx' h.inv hD' he
    obtain ⟨z, ρ, hc⟩ := stepT_cert ht0 hi hd hst
    have hs : plusF s' c = computeStep (shiftA pb δ) s1 sc1 := by
      generalize hg : Iter.done Term.infeasible (plusF s' c) = r at hst
      generalize computeStep (shiftA pb δ) s1 sc1 = s3 at hst ⊢
      generalize plusF s' c = s4 at hg ⊢
      cases hst with
      | reg hst =>
        cases hst with
        | infeasible _ _ => cases hg; rfl
        | _ => cases hg
      | infeasible _ _ => cases hg; rfl
      | dropDual _ _ _ _ _ _ _ => cases hg
    have e1 : s'.x = s1.x := by rw [show s'.x = (plusF s' c).x from rfl, hs]; rfl
    have e2 : s'.A = s1.A := by rw [show s'.A = (plusF s' c).A from rfl, hs]; rfl
    have e3 : s'.u = s1.u := by rw [show s'.u = (plusF s' c).u from rfl, hs]; rfl
    rw [e1, e2, e3]
    exact ⟨sc1, z, ρ, hc.ok, hc.viol, hc.neglected, hc.nonneg, hc.small, hc.ineq, hc.dual,
      fun y hy => hc.slack y ⟨hy.gen, hy.bnd⟩, fun y hy => hc.cert y ⟨hy.gen, hy.bnd⟩⟩

theorem loop_cert {o : Opts ℝ} {pb : Pb ℝ EReal} (hp : Proper pb) (hx : NotCrossed pb) (ht0 : 0 ≤ o.tiny) {e : Nat}
    (fuel : Nat) : ∀ {k s sc skip δ c s'}, BInvT o pb e k s sc skip δ c →
      loop o pb fuel s sc skip = .ok (.infeasible, s') → ∃ sc z ρ, NearCert o pb s'.x s'.A.q s'.A.act s'.u sc z ρ := by
  induction fuel with
  | zero => intro k s sc skip δ c s' _ hl; simp [loop] at hl
  | succ fuel ih =>
    intro k s sc skip δ c s' h hl
    simp only [loop] at hl
    cases hr : iterate o pb s sc skip with
    | error e => simp [hr] at hl
    | ok r =>
      rw [hr] at hl
      rcases iterate_back hp hx ht0 h hr with ⟨h1, h2, h3⟩ | ⟨s2, h1⟩ | ⟨s2, sc2, k2, h1, ⟨δ', c', h2⟩, _⟩
      · subst h1
        simp at hl
      · subst h1
        simp only [Except.ok.injEq, Prod.mk.injEq, true_and] at hl
        subst hl
        exact iterate_cert hp hx ht0 h hr
      · subst h1
        simp only [] at hl
        have hb : BInvT o pb e (k + 1) { s2 with it := s2.it + 1 } sc2 k2 δ' c' :=
          ⟨h2.pert, h2.inv.setIt _, h2.dual.setIt _⟩
        exact ih hb hl

/-- **C46.** In exact arithmetic, whatever the thresholds: for bounds that do not cross, equality constraints first and larger than the threshold
on the direction, `INFEASIBLE` comes with a certificate that excludes every feasible point for which the neglected terms are smaller than
the violation of some constraint at the final point. -/
theorem C46_certificate {o : Opts ℝ} {pb : Pb ℝ EReal} (hp : Proper pb) (hx : NotCrossed pb) (ht0 : 0 ≤ o.tiny) {s : State ℝ}
    (hi : Inv s) {e : Nat} (he : EqFirst pb e) (hr : RegInitAll o pb (solveStart o pb s)) {s'}
    (h : solve o pb s = .ok (.infeasible, s')) :
    ∃ sc z ρ, NearCert o pb s'.x s'.A.q s'.A.act s'.u sc z ρ := by
  have hd : Dim pb (solveStart o pb s) := start_dim hi
  rcases solve_cases h with ⟨t1, h1, h2, h3⟩ | ⟨s1, h1, h2⟩
  · exfalso
    rcases init_nonpos hd h2 with ⟨a, _⟩ | ⟨a, _⟩
    · exact h1 a
    · rw [a] at h3; cases h3
  · have hc : cholOk pb := by
      rcases init_nonpos hd h1 with ⟨_, a⟩ | ⟨a, _⟩
      · exact a
      · cases a
    obtain ⟨g2, g3⟩ := init_both hp ht0 hd hc hr he h1
    have hb : BInvT o pb e 0 s1 ⟨0, .inactive⟩ false (fun _ => 0) 0 := by
      refine ⟨Pert.zero, ?_, g3⟩
      have e1 : shiftA pb (fun _ => 0) = pb := by simp [shiftA]
      have e2 : plusF s1 0 = s1 := by simp [plusF]
      rw [e1, e2]; exact g2
    exact loop_cert hp hx ht0 _ hb h2

/-- Cauchy-Schwarz for the Hessian. -/
theorem quad_cs {pb : Pb ℝ EReal} (hpd : PosDefN pb.n (hess pb)) (z w : Nat → ℝ) :
    (∑ a ∈ range pb.n, (∑ b ∈ range pb.n, hess pb a b * z b) * w a) ^ 2 ≤ quad pb z * quad pb w := by
  obtain ⟨B, hB⟩ : ∃ B, B = ∑ a ∈ range pb.n, (∑ b ∈ range pb.n, hess pb a b * z b) * w a := ⟨_, rfl⟩
  have hsym : ∀ a b, hess pb a b = hess pb b a := hess_symm pb
  have e1 : ∑ a ∈ range pb.n, ∑ b ∈ range pb.n, w a * hess pb a b * z b = B := by
    rw [hB]
    refine Finset.sum_congr rfl fun a _ => ?_
    rw [Finset.sum_mul]
    exact Finset.sum_congr rfl fun b _ => by ring
  have e2 : ∑ a ∈ range pb.n, ∑ b ∈ range pb.n, z a * hess pb a b * w b = B := by
    rw [← e1, Finset.sum_comm]
    refine Finset.sum_congr rfl fun a _ => Finset.sum_congr rfl fun b _ => ?_
    rw [hsym a b]; ring
  have hq : ∀ t : ℝ, 0 ≤ quad pb z * (t * t) + (2 * B) * t + quad pb w := by
    intro t
    have h0 : 0 ≤ quad pb (fun a => t * z a + w a) := by
      by_cases hne : ∃ i < pb.n, t * z i + w i ≠ 0
      · exact (hpd _ hne).le
      · push Not at hne
        unfold quad
        rw [Finset.sum_eq_zero]
        intro a ha
        rw [Finset.sum_eq_zero]
        intro b _
        show (t * z a + w a) * hess pb a b * (t * z b + w b) = 0
        rw [hne a (mem_range.1 ha)]; ring
    have e : quad pb (fun a => t * z a + w a) = quad pb z * (t * t) + (2 * B) * t + quad pb w := by
      have : (2 * B) * t = t * B + t * B := by ring
      rw [this]
      conv_rhs => rw [show t * B + t * B = t * (∑ a ∈ range pb.n, ∑ b ∈ range pb.n, w a * hess pb a b * z b)
        + t * (∑ a ∈ range pb.n, ∑ b ∈ range pb.n, z a * hess pb a b * w b) by rw [e1, e2]]
      unfold quad
      simp only [Finset.mul_sum, Finset.sum_mul, ← Finset.sum_add_distrib]
      exact Finset.sum_congr rfl fun a _ => Finset.sum_congr rfl fun b _ => by ring
    rw [← e]; exact h0
  have := discrim_le_zero hq
  unfold discrim at this
  rw [← hB]
  nlinarith

/-- A certificate up to the thresholds bounds the violation from above, for any feasible point. -/
theorem NearCert.far {o : Opts ℝ} {pb : Pb ℝ EReal} (hb0 : 0 < o.bigBnd) (hpd : PosDefN pb.n (hess pb)) {s' : State ℝ} {sc : SC} {z ρ : Nat → ℝ}
    (hc : NearCert o pb s'.x s'.A.q s'.A.act s'.u sc z ρ) :
    scOk pb sc = true ∧ ndot pb sc s'.x < rhs pb sc ∧ ∀ y, Feasible pb y →
      rhs pb sc - ndot pb sc s'.x ≤
        max (o.tiny * normn pb.n (fun a => ∑ b ∈ range pb.n, hess pb a b * (y b - s'.x b)))
          (Real.sqrt ((rhs pb sc - ndot pb sc s'.x) * quad pb (fun a => y a - s'.x a) / o.bigBnd))
        + (∑ k ∈ range s'.A.q, if (s'.A.act k).status.isEq then 0 else s'.u k * (ndot pb (s'.A.act k) y - rhs pb (s'.A.act k))) / o.bigBnd := by
  refine ⟨hc.ok, hc.viol, fun y hy => (hc.cert y hy).trans (add_le_add ?_ ?_)⟩
  · rcases hc.neglected with hz | ⟨_, hz⟩
    · refine le_trans ?_ (le_max_left _ _)
      have e1 : ∑ a ∈ range pb.n, (∑ b ∈ range pb.n, hess pb a b * z b) * (y a - s'.x a)
          = ∑ a ∈ range pb.n, z a * ∑ b ∈ range pb.n, hess pb a b * (y b - s'.x b) := by
        simp only [Finset.sum_mul, Finset.mul_sum]
        rw [Finset.sum_comm]
        refine Finset.sum_congr rfl fun a _ => Finset.sum_congr rfl fun b _ => ?_
        rw [hess_symm pb b a]; ring
      rw [e1]
      have hn : ∀ v : Nat → ℝ, normn pb.n v = Real.sqrt (∑ a ∈ range pb.n, v a ^ 2) := by
        intro v
        unfold normn dotn
        rw [esum_eq]
        simp only [pow_two]
        rfl
      refine (Real.sum_mul_le_sqrt_mul_sqrt _ _ _).trans ?_
      rw [hn] at hz ⊢
      exact mul_le_mul_of_nonneg_right hz (Real.sqrt_nonneg _)
    · refine le_trans ?_ (le_max_right _ _)
      apply Real.le_sqrt_of_sq_le
      have h1 := quad_cs hpd z (fun a => y a - s'.x a)
      refine h1.trans ?_
      rw [le_div_iff₀ hb0]
      have h2 : 0 ≤ quad pb (fun a => y a - s'.x a) := by
        by_cases hne : ∃ i < pb.n, y i - s'.x i ≠ 0
        · exact (hpd _ hne).le
        · push Not at hne
          unfold quad
          rw [Finset.sum_eq_zero]
          intro a ha
          rw [Finset.sum_eq_zero]
          intro b _
          show (y a - s'.x a) * hess pb a b * (y b - s'.x b) = 0
          rw [hne a (mem_range.1 ha)]; ring
      nlinarith
  · rw [Finset.sum_div]
    apply sum_le_sum
    intro k hk
    have hk := mem_range.1 hk
    have hs := hc.slack y hy k hk
    split_ifs with heq
    · have : ρ k = 0 := by
        by_contra hne
        rw [hc.ineq k hk hne] at heq; cases heq
      rw [this]; simp
    · have hu := hc.dual k hk (by simpa using heq)
      rcases hc.small k hk with h1 | h1
      · rw [le_div_iff₀ hb0]
        nlinarith
      · rw [h1, zero_mul]
        apply div_nonneg _ hb0.le
        exact mul_nonneg hu (by linarith)

/-- **C46, distance form.** `INFEASIBLE` is never returned when a feasible point is near: if `INFEASIBLE` is returned at `x`, some constraint is
violated at `x` by `viol > 0`, and every feasible `y` satisfies
`viol ≤ max(tiny ‖G(y - x)‖, √(viol (y-x)ᵀG(y-x) / bigBnd)) + (∑ u k · slack k) / bigBnd`, the sum over the active inequality constraints
at `x`, with their multipliers and the slacks of `y`. -/
theorem C46_far {o : Opts ℝ} {pb : Pb ℝ EReal} (hp : Proper pb) (hx : NotCrossed pb) (ht0 : 0 ≤ o.tiny) (hb0 : 0 < o.bigBnd) {s : State ℝ}
    (hi : Inv s) {e : Nat} (he : EqFirst pb e) (hr : RegInitAll o pb (solveStart o pb s)) {s'}
    (h : solve o pb s = .ok (.infeasible, s')) :
    ∃ sc, scOk pb sc = true ∧ ndot pb sc s'.x < rhs pb sc ∧ ∀ y, Feasible pb y →
      rhs pb sc - ndot pb sc s'.x ≤
        max (o.tiny * normn pb.n (fun a => ∑ b ∈ range pb.n, hess pb a b * (y b - s'.x b)))
          (Real.sqrt ((rhs pb sc - ndot pb sc s'.x) * quad pb (fun a => y a - s'.x a) / o.bigBnd))
        + (∑ k ∈ range s'.A.q, if (s'.A.act k).status.isEq then 0 else s'.u k * (ndot pb (s'.A.act k) y - rhs pb (s'.A.act k))) / o.bigBnd := by
  obtain ⟨sc, z, ρ, hc⟩ := C46_certificate hp hx ht0 hi he hr h
  have hpd : PosDefN pb.n (hess pb) := by
    have hd : Dim pb (solveStart o pb s) := start_dim hi
    rcases solve_cases h with ⟨t1, h1, h2, h3⟩ | ⟨s1, h1, _⟩
    · exfalso
      rcases init_nonpos hd h2 with ⟨a, _⟩ | ⟨a, _⟩
      · exact h1 a
      · rw [a] at h3; cases h3
    · rcases init_nonpos hd h1 with ⟨_, a⟩ | ⟨a, _⟩
      · exact posDef_of_chol a
      · cases a
  exact ⟨sc, hc.far hb0 hpd⟩

/-- The hypotheses of C46 are met by a problem that is feasible: `c x ≥ b` with `0 < c ≤ tiny`, for which `INFEASIBLE` is returned. -/
theorem C46_hypotheses_met {o : Opts ℝ} (ht0 : 0 ≤ o.tiny) (hm : 1 ≤ o.maxIter) {c b : ℝ} (hc0 : 0 < c) (hb0 : 0 < b) (h : c ≤ o.tiny)
    {s : State ℝ} (hi : Inv s) : Proper (cexOne c b) ∧ NotCrossed (cexOne c b) ∧ EqFirst (cexOne c b) 0 ∧
      RegInitAll o (cexOne c b) (solveStart o (cexOne c b) s) ∧ (∃ s', solve o (cexOne c b) s = .ok (.infeasible, s')) ∧
      ∃ y, Feasible (cexOne c b) y := by
  obtain ⟨h1, h2⟩ := C09_threshold_false ht0 hm hc0 hb0 (Or.inl h) hi
  have hne : ∀ i, (cexOne c b).bl i ≠ ⊤ := fun i => EReal.coe_ne_top _
  have hf : (cexOne c b).useBnd ≠ true := by show false ≠ true; simp
  refine ⟨⟨fun i _ => hne i, fun i _ => ?_, fun h => absurd h hf, fun h => absurd h hf⟩, ⟨fun i _ => le_top, fun h => absurd h hf⟩,
    ⟨Nat.zero_le _, ?_⟩, ?_, h1, h2⟩
  · show (⊤ : EReal) ≠ ⊥; simp
  · intro i hi
    have hi : i < 1 := hi
    simp only [isEqB, show (cexOne c b).m = 1 from rfl, hi, if_true]
    simp [show (cexOne c b).bu i = ⊤ from rfl, hne i]
  · apply regInit_of_noEq (start_dim hi)
    intro i hi h
    have hi : i < 1 := hi
    rcases h with ⟨_, h⟩ | ⟨h, _⟩
    · exact hne i h
    · have h : 1 ≤ i := h
      omega

end JrlQp
