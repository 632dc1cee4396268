import Verif.EqPrefix

/-!
# Dual feasibility, optimality, infeasibility certificate, monotonicity of the objective (exact arithmetic)
-/

namespace JrlQp

open NumOps Finset Spec

/-- Dual part of the loop invariant: multipliers of the inequality constraints are non-negative and the constraint
being processed is violated. -/
structure DInv (pb : Pb ℝ EReal) (e : Nat) (s : State ℝ) (sc : SC) (skip : Bool) : Prop where
  pre : EqPre e s.A
  pos : ∀ k < s.A.q, e ≤ k → 0 ≤ s.u k
  cpos : skip = true → 0 ≤ s.u s.A.q
  viol : skip = true → ndot pb sc s.x < rhs pb sc

/-- What an iteration does: `q0`, `f0` are the number of active constraints and the objective before it. -/
def DOut (pb : Pb ℝ EReal) (e q0 : Nat) (f0 : ℝ) (sc : SC) : Iter ℝ → Prop
  | .done t s => t = .infeasible ∧ (¬ ∃ y, Feasible pb y) ∧ DInv pb e s sc true ∧ s.f = f0
  | .cont s sc' skip => DInv pb e s sc' skip ∧ f0 ≤ s.f ∧ (skip = false → f0 < s.f) ∧ (skip = true → s.A.q + 1 = q0)

/-- All indices of active constraints are legal. -/
theorem Alg.scOk {pb : Pb ℝ EReal} {s : State ℝ} {w : Nat → ℝ} (h : Alg pb s w) {k : Nat} (hk : k < s.A.q) :
    scOk pb (s.A.act k) = true := by
  have hw := h.good.dim.wf
  have hk' : k < s.A.active.length := by rw [← hw.q_eq]; exact hk
  obtain ⟨hlt, hne⟩ := ActiveSet.get_lt s.A hw k hk'
  have hlen := hw.size
  rw [h.good.dim.nbCstr, h.good.dim.nbBnd] at hlen
  by_cases hgen : s.A.get k < pb.m
  · have := hw.kindG _ (by rw [h.good.dim.nbCstr]; exact hgen) hne
    simp only [JrlQp.scOk, ActiveSet.act]
    cases hs : s.A.statusAt (s.A.get k) <;> simp_all [Status.isGeneral]
  · have := hw.kindB _ (by rw [h.good.dim.nbCstr]; omega) hne
    have hlt' : s.A.get k < pb.m + pb.nb := by rw [← hlen]; exact hlt
    simp only [JrlQp.scOk, ActiveSet.act]
    have h1 : pb.m ≤ s.A.get k := by omega
    have h2 : s.A.get k - pb.m < pb.nb := by omega
    cases hs : s.A.statusAt (s.A.get k) <;> simp [hs, Status.isBound] at this <;> simp [h1, h2]

theorem stepR_dual {o : Opts ℝ} {pb : Pb ℝ EReal} {e : Nat} {s0 : State ℝ} {sc : SC} (h : LoopInv pb s0 sc true)
    (hD : DInv pb e s0 sc true) {r} (hr : StepR o pb (computeStep pb s0 sc) sc r) : DOut pb e s0.A.q s0.f sc r := by
  have hcand := h.cand rfl
  have hg := h.alg.good
  have hsc := Cand.scOk (pb := pb) hcand.pre hg.dim.nbCstr hg.dim.nbBnd
  have hfacts := computeStep_facts (sc := sc) hg.dim.nbVar (by rw [← hg.dim.nbVar]; exact hg.q_le) h.alg.fac hsc
  have halg : Alg pb (computeStep pb s0 sc) (fun a => (computeStep pb s0 sc).u (computeStep pb s0 sc).A.q * normal pb sc a) :=
    (h.alg.step (sc := sc)).congr (by intro a _; simp [computeStep])
  have hcand1 : Cand (computeStep pb s0 sc).A sc := hcand
  have hfin1 : ∀ k < (computeStep pb s0 sc).A.q, BndFin pb ((computeStep pb s0 sc).A.act k) := h.fin
  have hfc := h.finc rfl
  have hD1 : DInv pb e (computeStep pb s0 sc) sc true := ⟨hD.pre, hD.pos, hD.cpos, hD.viol⟩
  have hq0 : s0.A.q = (computeStep pb s0 sc).A.q := rfl
  have hf0 : s0.f = (computeStep pb s0 sc).f := rfl
  rw [hq0, hf0]
  generalize computeStep pb s0 sc = s at *
  clear hD h hq0 hf0 hg hcand
  have hw := halg.good.dim.wf
  have hel := hD1.pre.elig
  -- multipliers after a step of length at most the ratios
  have hu : ∀ t, 0 ≤ t → (∀ k < s.A.q, elig s.A k → 0 < s.r k → t ≤ s.u k / s.r k) →
      ∀ k < s.A.q, e ≤ k → 0 ≤ dualStep s.A.q t s.u s.r k := by
    intro t ht hmin k hk hek
    simp only [dualStep, hk, if_true]
    rcases lt_or_ge 0 (s.r k) with hrk | hrk
    · have := hmin k hk ((hel k).2 hek) hrk
      rw [le_div_iff₀ hrk] at this
      linarith
    · have := hD1.pos k hk hek
      nlinarith
  have huq : ∀ t, dualStep s.A.q t s.u s.r s.A.q = s.u s.A.q + t := by intro t; simp [dualStep]
  have hrem : ∀ (s' : State ℝ) (l : Nat), s'.A = s.A → l < s.A.q → elig s.A l →
      (∀ k < s.A.q, e ≤ k → 0 ≤ s'.u k) → 0 ≤ s'.u s.A.q → ndot pb sc s'.x < rhs pb sc →
      DInv pb e (removeConstraint o s' l) sc true ∧ (removeConstraint o s' l).A.q + 1 = s.A.q := by
    intro s' l hA hl he hp hc hv
    have hp' : s.A.deactivatePre l = true := by
      have := hl; rw [hw.q_eq] at this; simpa [ActiveSet.deactivatePre] using this
    have hqd := hw.q_deactivate hp'
    have hA' : (removeConstraint o s' l).A = s.A.deactivate l := by rw [← hA]; rfl
    have hel' := (hel l).1 he
    refine ⟨⟨?_, ?_, ?_, fun _ => hv⟩, ?_⟩
    · rw [hA']; exact hD1.pre.deactivate hw hl hel'
    · intro k hk hek
      rw [hA', hqd] at hk
      rw [remove_u k (by rw [hA]; omega)]
      by_cases hkl : k < l
      · rw [if_pos hkl]; exact hp k (by omega) hek
      · rw [if_neg hkl]
        exact hp (k + 1) (by omega) (by omega)
    · intro _
      rw [hA', hqd, remove_u _ (by rw [hA]; omega), if_neg (by omega), show s.A.q - 1 + 1 = s.A.q by omega]
      exact hc
    · rw [hA', hqd]; omega
  cases hr with
  | infeasible hz hr =>
    refine ⟨rfl, ?_, hD1, rfl⟩
    rintro ⟨y, hy⟩
    have hsplit : ∀ v : Nat → ℝ, ndot pb sc v = ∑ k ∈ range s.A.q, s.r k * ndot pb (s.A.act k) v := by
      intro v
      unfold ndot
      have e1 : ∀ a ∈ range pb.n, normal pb sc a * v a
          = ∑ k ∈ range s.A.q, s.r k * (normal pb (s.A.act k) a * v a) := by
        intro a ha
        have := hfacts.split a (mem_range.1 ha)
        rw [sum_eq_zero (s := range pb.n) (fun b hb => by rw [hz b (mem_range.1 hb), mul_zero]), add_zero] at this
        rw [this, Finset.sum_mul]
        apply sum_congr rfl; intro k _; ring
      rw [sum_congr rfl e1, sum_comm]
      apply sum_congr rfl; intro k _
      rw [Finset.mul_sum]
    have h1 := (feas_rhs hsc hfc hy).1
    have h2 : ndot pb sc y ≤ ndot pb sc s.x := by
      rw [hsplit y, hsplit s.x]
      apply sum_le_sum
      intro k hk
      have hk := mem_range.1 hk
      have hok := halg.scOk hk
      obtain ⟨h3, h4⟩ := feas_rhs hok (hfin1 k hk) hy
      rw [halg.tight k hk]
      by_cases hke : k < e
      · rw [h4 ((hD1.pre.act hw hk).2 hke)]
      · have := hr k hk ((hel k).2 (by omega))
        nlinarith
    have h3 := hD1.viol rfl
    linarith
  | dropDual hz l hl he hrl hmin =>
    have ht : 0 ≤ s.u l / s.r l := div_nonneg (hD1.pos l hl ((hel l).1 he)) hrl.le
    obtain ⟨a1, a2⟩ := hrem (dualUpdate s (s.u l / s.r l)) l rfl hl he (hu _ ht hmin)
      (by show 0 ≤ dualStep _ _ _ _ _; rw [huq]; have := hD1.cpos rfl; linarith) (hD1.viol rfl)
    exact ⟨a1, le_refl s.f, by simp, fun _ => a2⟩
  | dropFull hz l hl he hrl hmin htl =>
    have ht : 0 ≤ s.u l / s.r l := div_nonneg (hD1.pos l hl ((hel l).1 he)) hrl.le
    have hsl := hfacts.slope_pos hz
    obtain ⟨_, b2, b3⟩ := halg.full hfacts hsc (s.u l / s.r l)
    have hv : ndot pb sc (fullUpdate pb s sc (s.u l / s.r l)).x < rhs pb sc := by
      rw [ndot_congr pb sc b2, ndot_add]
      rw [tFull, lt_div_iff₀ hsl] at htl
      linarith
    obtain ⟨a1, a2⟩ := hrem (fullUpdate pb s sc (s.u l / s.r l)) l rfl hl he (hu _ ht hmin)
      (by show 0 ≤ dualStep s.A.q _ s.u s.r s.A.q; rw [huq]; have := hD1.cpos rfl; linarith) hv
    refine ⟨a1, ?_, by simp, fun _ => a2⟩
    show s.f ≤ (fullUpdate pb s sc (s.u l / s.r l)).f
    rw [b3]
    have := hD1.cpos rfl
    have : 0 ≤ s.u l / s.r l * ndot pb sc s.z * (1 / 2 * (s.u l / s.r l) + s.u s.A.q) := by positivity
    linarith
  | full hz hq hmin =>
    have hsl := hfacts.slope_pos hz
    have ht : 0 < tFull pb s sc := by
      rw [tFull]
      have := hD1.viol rfl
      exact div_pos (by linarith) hsl
    obtain ⟨_, b2, b3⟩ := halg.full hfacts hsc (tFull pb s sc)
    have hf : s.f < (fullUpdate pb s sc (tFull pb s sc)).f := by
      rw [b3]
      have := hD1.cpos rfl
      have : 0 < tFull pb s sc * ndot pb sc s.z * (1 / 2 * tFull pb s sc + s.u s.A.q) := by positivity
      linarith
    have hA : (addConstraint o (fullUpdate pb s sc (tFull pb s sc)) sc).A = s.A.activate sc.p sc.status := rfl
    refine ⟨⟨?_, ?_, by simp, by simp⟩, hf.le, fun _ => hf, by simp⟩
    · rw [hA]; exact hD1.pre.activate hw hcand1
    · intro k hk hek
      rw [hA, hw.q_activate hcand1.pre] at hk
      show 0 ≤ dualStep s.A.q (tFull pb s sc) s.u s.r k
      by_cases hkq : k = s.A.q
      · rw [hkq, huq]; have := hD1.cpos rfl; linarith
      · exact hu _ ht.le hmin k (by omega) hek

theorem enter_dual {pb : Pb ℝ EReal} (hp : Proper pb) (hx : NotCrossed pb) {e : Nat} {s : State ℝ} {sc : SC} {skip : Bool}
    (h : LoopInv pb s sc skip) (hD : DInv pb e s sc skip) {s1 : State ℝ} {sc1 : SC} (he : Enter pb s sc skip s1 sc1) :
    DInv pb e s1 sc1 true ∧ s1.f = s.f ∧ s1.A = s.A := by
  have h1 := (enter_inv hp hx h he).2
  cases skip with
  | true =>
    simp only [Enter, if_true] at he
    obtain ⟨rfl, rfl⟩ := he
    exact ⟨hD, rfl, rfl⟩
  | false =>
    obtain ⟨h2, h3⟩ := h1 rfl
    simp only [Enter, Bool.false_eq_true, if_false] at he
    obtain ⟨_, _, rfl⟩ := he
    refine ⟨⟨hD.pre, ?_, fun _ => h3.ge, fun _ => h2⟩, rfl, rfl⟩
    intro k hk hek
    have hk : k < s.A.q := hk
    simp only [upd]
    rw [if_neg (by omega)]
    exact hD.pos k hk hek

/-! ### Optimality -/

/-- The objective at `y` in terms of the gradient at `x`. -/
theorem obj_expand (pb : Pb ℝ EReal) (x y : Nat → ℝ) :
    obj pb y = obj pb x + ∑ a ∈ range pb.n, (∑ b ∈ range pb.n, hess pb a b * x b + pb.a a) * (y a - x a)
      + 1 / 2 * ∑ a ∈ range pb.n, ∑ b ∈ range pb.n, (y a - x a) * hess pb a b * (y b - x b) := by
  have := obj_add pb x (fun i => y i - x i) 1
  rw [obj_congr pb (y := y) (fun i _ => by ring)] at this
  rw [this]; ring

/-- Gradient times displacement, from stationarity. -/
theorem Alg.grad {pb : Pb ℝ EReal} {s : State ℝ} {sc : SC} {c : ℝ} (h : Alg pb s (fun a => c * normal pb sc a)) (y : Nat → ℝ) :
    ∑ a ∈ range pb.n, (∑ b ∈ range pb.n, hess pb a b * s.x b + pb.a a) * (y a - s.x a)
      = ∑ k ∈ range s.A.q, s.u k * (ndot pb (s.A.act k) y - rhs pb (s.A.act k))
        + c * (ndot pb sc y - ndot pb sc s.x) := by
  have hsub : ∀ sc', ndot pb sc' y - ndot pb sc' s.x = ∑ a ∈ range pb.n, normal pb sc' a * (y a - s.x a) := by
    intro sc'
    unfold ndot
    rw [← sum_sub_distrib]; apply sum_congr rfl; intro a _; ring
  have e1 : ∀ a ∈ range pb.n, (∑ b ∈ range pb.n, hess pb a b * s.x b + pb.a a) * (y a - s.x a)
      = ∑ k ∈ range s.A.q, s.u k * (normal pb (s.A.act k) a * (y a - s.x a)) + c * (normal pb sc a * (y a - s.x a)) := by
    intro a ha
    rw [h.stat a (mem_range.1 ha), add_mul, Finset.sum_mul]
    congr 1
    · apply sum_congr rfl; intro k _; ring
    · ring
  rw [sum_congr rfl e1, sum_add_distrib, sum_comm, ← Finset.mul_sum, hsub sc]
  congr 1
  apply sum_congr rfl
  intro k hk
  rw [← Finset.mul_sum, ← h.tight k (mem_range.1 hk), hsub]

/-- Weak duality: at any point of the loop the objective is below the objective of each feasible point, by at least
half the squared distance in the metric of the Hessian. -/
theorem weak_duality {pb : Pb ℝ EReal} {e : Nat} {s : State ℝ} {sc : SC} {skip : Bool} (h : LoopInv pb s sc skip)
    (hD : DInv pb e s sc skip) {y : Nat → ℝ} (hy : Feasible pb y) :
    s.f + 1 / 2 * ∑ a ∈ range pb.n, ∑ b ∈ range pb.n, (y a - s.x a) * hess pb a b * (y b - s.x b) ≤ obj pb y := by
  have hw := h.alg.good.dim.wf
  have halg : Alg pb s (fun a => (if skip then s.u s.A.q else 0) * normal pb sc a) := h.alg.congr (by
    intro a _; split_ifs <;> simp)
  rw [obj_expand pb s.x y, h.alg.f, halg.grad y]
  have h1 : 0 ≤ ∑ k ∈ range s.A.q, s.u k * (ndot pb (s.A.act k) y - rhs pb (s.A.act k)) := by
    apply sum_nonneg
    intro k hk
    have hk := mem_range.1 hk
    obtain ⟨h3, h4⟩ := feas_rhs (h.alg.scOk hk) (h.fin k hk) hy
    by_cases hke : k < e
    · rw [h4 ((hD.pre.act hw hk).2 hke)]; simp
    · exact mul_nonneg (hD.pos k hk (by omega)) (by linarith)
  have h2 : 0 ≤ (if skip then s.u s.A.q else 0) * (ndot pb sc y - ndot pb sc s.x) := by
    cases skip with
    | false => simp
    | true =>
      simp only [if_true]
      have hc := h.cand rfl
      have hsc := Cand.scOk (pb := pb) hc.pre h.alg.good.dim.nbCstr h.alg.good.dim.nbBnd
      have := (feas_rhs hsc (h.finc rfl) hy).1
      have := hD.viol rfl
      exact mul_nonneg (hD.cpos rfl) (by linarith)
  linarith

/-- When no constraint is selected, the current point is feasible. -/
theorem select_none_feasible {pb : Pb ℝ EReal} (hx : NotCrossed pb) {s : State ℝ} {w : Nat → ℝ} (h : Alg pb s w)
    (hfin : ∀ k < s.A.q, BndFin pb (s.A.act k)) (hs : (select pb pb.n s.A s.x).status = .inactive) : Feasible pb s.x := by
  have hw := h.good.dim.wf
  obtain ⟨acc, hacc, hinv⟩ := select_inv hx h.good.dim.nbCstr h.good.dim.nbBnd s.x
  rw [← hacc] at hs
  have h0 := hinv.none hs
  have hin : ∀ i < pb.m + pb.nb, s.A.statusAt i = .inactive → 0 ≤ slackLo pb s.x i ∧ 0 ≤ slackHi pb s.x i := by
    intro i hi hst
    have := hinv.min i hi hst
    rwa [h0] at this
  have hact : ∀ i < pb.m + pb.nb, s.A.statusAt i ≠ .inactive →
      ∃ k < s.A.q, s.A.act k = ⟨i, s.A.statusAt i⟩ := by
    intro i hi hst
    have hm := (hw.mem i).2 ⟨by rw [hw.size, h.good.dim.nbCstr, h.good.dim.nbBnd]; exact hi, hst⟩
    obtain ⟨k, hk, he⟩ := List.getElem_of_mem hm
    have hg : s.A.get k = i := by rw [ActiveSet.get, List.getD_eq_getElem _ _ hk, he]
    exact ⟨k, by rw [hw.q_eq]; exact hk, by rw [ActiveSet.act, hg]⟩
  have hlo : ∀ (c : ℝ) (b : EReal), 0 ≤ (c : EReal) - b → b ≤ c := by
    intro c b hh; rw [← not_lt] at hh ⊢; rwa [coe_sub_neg] at hh
  have hhi : ∀ (c : ℝ) (b : EReal), 0 ≤ b - (c : EReal) → (c : EReal) ≤ b := by
    intro c b hh; rw [← not_lt] at hh ⊢; rwa [sub_coe_neg] at hh
  constructor
  · intro i hi
    by_cases hst : s.A.statusAt i = .inactive
    · have := hin i (by omega) hst
      simp only [slackLo, slackHi, hi, if_true] at this
      exact ⟨hlo _ _ this.1, hhi _ _ this.2⟩
    · obtain ⟨k, hk, he⟩ := hact i (by omega) hst
      have ht := h.tight k hk
      have hb := hfin k hk
      have hok := h.scOk hk
      rw [ndot_cases pb _ hok] at ht
      have hkind := hw.kindG i (by rw [h.good.dim.nbCstr]; exact hi) hst
      have hnc := hx.gen i hi
      unfold BndFin at hb
      unfold rhs at ht
      rw [he] at ht hb
      simp only at ht hb
      cases hs : s.A.statusAt i <;> simp only [hs] at ht hb <;> simp [hs, Status.isGeneral] at hkind
      · obtain ⟨r, hr⟩ := hb
        rw [hr, EReal.toReal_coe] at ht
        rw [ht, ← hr]; exact ⟨le_rfl, hnc⟩
      · obtain ⟨r, hr⟩ := hb
        rw [hr, EReal.toReal_coe] at ht
        rw [neg_inj.1 ht, ← hr]; exact ⟨hnc, le_rfl⟩
      · obtain ⟨r, hr, hr'⟩ := hb
        rw [hr, EReal.toReal_coe] at ht
        rw [ht, hr, hr']; exact ⟨le_rfl, le_rfl⟩
  · intro hub i hi
    have hnb : pb.nb = pb.n := by simp [Pb.nb, hub]
    by_cases hst : s.A.statusAt (pb.m + i) = .inactive
    · have := hin (pb.m + i) (by omega) hst
      simp only [slackLo, slackHi, show ¬ pb.m + i < pb.m by omega, if_false, Nat.add_sub_cancel_left] at this
      exact ⟨hlo _ _ this.1, hhi _ _ this.2⟩
    · obtain ⟨k, hk, he⟩ := hact (pb.m + i) (by omega) hst
      have ht := h.tight k hk
      have hb := hfin k hk
      have hok := h.scOk hk
      rw [ndot_cases pb _ hok] at ht
      have hkind := hw.kindB (pb.m + i) (by rw [h.good.dim.nbCstr]; omega) hst
      have hnc := hx.bnd hub i hi
      unfold BndFin at hb
      unfold rhs at ht
      rw [he] at ht hb
      simp only [Nat.add_sub_cancel_left] at ht hb
      cases hs : s.A.statusAt (pb.m + i) <;> simp only [hs] at ht hb <;> simp [hs, Status.isBound] at hkind
      · obtain ⟨r, hr⟩ := hb
        rw [hr, EReal.toReal_coe] at ht
        rw [ht, ← hr]; exact ⟨le_rfl, hnc⟩
      · obtain ⟨r, hr⟩ := hb
        rw [hr, EReal.toReal_coe] at ht
        rw [neg_inj.1 ht, ← hr]; exact ⟨hnc, le_rfl⟩
      · obtain ⟨r, hr, hr'⟩ := hb
        rw [hr, EReal.toReal_coe] at ht
        rw [ht, hr, hr']; exact ⟨le_rfl, le_rfl⟩

/-- Optimality at a successful exit. -/
theorem success_optimal {pb : Pb ℝ EReal} (hx : NotCrossed pb) (hpd : PosDefN pb.n (hess pb)) {e : Nat} {s : State ℝ}
    {sc : SC} (h : LoopInv pb s sc false) (hD : DInv pb e s sc false)
    (hs : (select pb pb.n s.A s.x).status = .inactive) : IsUniqueOptimal pb s.x := by
  have hfeas := select_none_feasible hx h.alg h.fin hs
  have hge : ∀ v : Nat → ℝ, 0 ≤ ∑ a ∈ range pb.n, ∑ b ∈ range pb.n, v a * hess pb a b * v b := by
    intro v
    by_cases hv : ∃ i < pb.n, v i ≠ 0
    · exact (hpd v hv).le
    · push Not at hv
      apply le_of_eq
      symm
      apply sum_eq_zero; intro a ha
      apply sum_eq_zero; intro b _
      rw [hv a (mem_range.1 ha)]; ring
  have hopt : IsOptimal pb s.x := by
    refine ⟨hfeas, ?_⟩
    intro y hy
    have := weak_duality h hD hy
    have h2 := hge (fun a => y a - s.x a)
    rw [← h.alg.f]
    linarith
  refine ⟨hopt, ?_⟩
  intro y hy
  by_contra hc
  push Not at hc
  obtain ⟨i, hi, hne⟩ := hc
  have h1 := weak_duality h hD hy.1
  have h2 := hpd (fun a => y a - s.x a) ⟨i, hi, sub_ne_zero.2 hne⟩
  have h3 := hy.2 s.x hfeas
  rw [h.alg.f] at h1
  linarith

/-! ### Multipliers -/

theorem expandK_spec {A : ActiveSet} (hw : A.WF) (r : Nat → ℝ) (q : Nat) (hq : q ≤ A.q) (g : Nat → ℝ) (N : Nat)
    (hN : ∀ k < A.q, A.get k < N) :
    ∑ i ∈ range N, expandK A r (fun _ => 0) q i * g i
      = ∑ k ∈ range q, (if A.statusAt (A.get k) = .upper ∨ A.statusAt (A.get k) = .upperBound then r k else -r k) * g (A.get k) := by
  have hz : ∀ q ≤ A.q, ∀ i, (∀ k < q, A.get k ≠ i) → expandK A r (fun _ => 0) q i = 0 := by
    intro q
    induction q with
    | zero => intro _ i _; rfl
    | succ q ih =>
      intro hq i hi
      simp only [expandK, upd]
      rw [if_neg (by have := hi q (by omega); omega)]
      exact ih (by omega) i (fun k hk => hi k (by omega))
  induction q with
  | zero => simp [expandK]
  | succ q ih =>
    rw [sum_range_succ, ← ih (by omega)]
    simp only [expandK]
    have h0 : expandK A r (fun _ => 0) q (A.get q) = 0 := by
      apply hz q (by omega)
      intro k hk he
      have := hw.get_inj (by omega) (by omega) he
      omega
    generalize (if A.statusAt (A.get q) = .upper ∨ A.statusAt (A.get q) = .upperBound then r q else -r q) = v
    have e : ∀ i ∈ range N, upd (expandK A r (fun _ => 0) q) (A.get q) v i * g i
        = expandK A r (fun _ => 0) q i * g i + (if i = A.get q then v * g i else 0) := by
      intro i _
      simp only [upd]
      split_ifs with h
      · subst h; rw [h0]; ring
      · ring
    rw [sum_congr rfl e, sum_add_distrib, sum_ite_eq']
    simp [hN q (by omega)]

/-- The vector returned by `multipliers()` and stationarity. -/
theorem multipliers_stationary {pb : Pb ℝ EReal} {s : State ℝ} (h : Alg pb s (fun _ => 0)) (hne : s.needToExpand = true)
    (a : Nat) (ha : a < pb.n) :
    ∑ b ∈ range pb.n, hess pb a b * s.x b + pb.a a + ∑ i ∈ range pb.m, (multipliers s).u i * pb.C a i
      + (if pb.useBnd then (multipliers s).u (pb.m + a) else 0) = 0 := by
  have hw := h.good.dim.wf
  -- column of all the constraints
  have hfull : ∑ i ∈ range pb.m, (multipliers s).u i * pb.C a i + (if pb.useBnd then (multipliers s).u (pb.m + a) else 0)
      = ∑ i ∈ range (pb.m + pb.nb), (multipliers s).u i * (if i < pb.m then pb.C a i else if i - pb.m = a then 1 else 0) := by
    rw [sum_range_add]
    congr 1
    · apply sum_congr rfl; intro i hi; rw [if_pos (mem_range.1 hi)]
    · by_cases hb : pb.useBnd = true
      · have : pb.nb = pb.n := by simp [Pb.nb, hb]
        rw [if_pos hb, this]
        have e : ∀ x ∈ range pb.n, (multipliers s).u (pb.m + x) * (if pb.m + x < pb.m then pb.C a (pb.m + x)
            else if pb.m + x - pb.m = a then 1 else 0) = if x = a then (multipliers s).u (pb.m + x) else 0 := by
          intro x _
          rw [if_neg (by omega), Nat.add_sub_cancel_left]
          split_ifs <;> simp
        rw [sum_congr rfl e, sum_ite_eq']
        simp [ha]
      · rw [if_neg hb]
        have : pb.nb = 0 := by simp [Pb.nb, hb]
        rw [this]; simp
  have hget : ∀ k < s.A.q, s.A.get k < pb.m + pb.nb := by
    intro k hk
    have := (ActiveSet.get_lt s.A hw k (by rw [← hw.q_eq]; exact hk)).1
    rwa [hw.size, h.good.dim.nbCstr, h.good.dim.nbBnd] at this
  have hu : (multipliers s).u = expandK s.A (wr s.A.q s.u s.r) (fun _ => 0) s.A.q := by
    simp [multipliers, hne]
  rw [add_assoc, hfull, hu, expandK_spec hw _ _ le_rfl _ _ hget, h.stat a ha, add_zero, ← sum_add_distrib]
  apply sum_eq_zero
  intro k hk
  have hk := mem_range.1 hk
  have hok := h.scOk hk
  have hr : wr s.A.q s.u s.r k = s.u k := by simp [wr, hk]
  rw [hr]
  have hgen := scOk_gen hok
  have hbnd := scOk_bnd hok
  simp only [ActiveSet.act] at hgen hbnd
  unfold normal
  simp only [ActiveSet.act]
  cases hs : s.A.statusAt (s.A.get k) <;> simp only [hs] at hgen hbnd ⊢
  · simp [scOk, ActiveSet.act, hs] at hok
  · rw [if_pos (hgen (by simp))]; simp
  · rw [if_pos (hgen (by simp))]; simp
  · rw [if_pos (hgen (by simp))]; simp
  · have := hbnd (by simp)
    rw [if_neg (show ¬ s.A.get k < pb.m by omega)]
    by_cases he : a = s.A.get k - pb.m <;> simp [he, eq_comm]
  · have := hbnd (by simp)
    rw [if_neg (show ¬ s.A.get k < pb.m by omega)]
    by_cases he : a = s.A.get k - pb.m <;> simp [he, eq_comm]
  · have := hbnd (by simp)
    rw [if_neg (show ¬ s.A.get k < pb.m by omega)]
    by_cases he : a = s.A.get k - pb.m <;> simp [he, eq_comm]

end JrlQp
