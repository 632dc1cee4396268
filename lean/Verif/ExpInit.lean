import Verif.ExpFac
import Verif.ExactTerm

/-!
# Initial primal-dual pair and removal loop of the experimental solver, in exact arithmetic (C22, C23)
-/

namespace JrlQp

open NumOps Finset Spec

/-! ## Factorisation -/

theorem initNormal_eq {pb : Pb ℝ EReal} {m : Nat} (hm : m = pb.m) (sc : SC) : initNormal pb m sc = normal pb sc := by
  subst hm
  funext a
  unfold initNormal normal
  cases sc.status <;> rfl

theorem initRhs_eq {pb : Pb ℝ EReal} {m : Nat} (hm : m = pb.m) (sc : SC) : initRhs pb m sc = rhs pb sc := by
  subst hm
  unfold initRhs rhs
  cases sc.status <;> rfl

theorem initData_facT {o : Opts ℝ} {pb : Pb ℝ EReal} {xs : XState ℝ} (hg : Good pb xs.s)
    (hc : chol pb.n pb.G pb.n = (xs.s.G, none)) :
    FacT pb.n xs.s.A.q (hess pb) (fun k => normal pb (xs.s.A.act k)) (initData o pb xs).s.J (initData o pb xs).s.R := by
  obtain ⟨hpos, hL⟩ := chol_success hc
  have hne : ∀ i < pb.n, xs.s.G i i ≠ 0 := fun i hi => (hpos i hi).ne'
  have hn := hg.dim.nbVar
  have hq := hg.q_le
  rw [hn] at hq
  have h0 := invLt_outer (G := hess pb) hne (fun i hi j hj => (hL i hi j hj).symm)
  obtain ⟨M, hM⟩ : ∃ M : Nat → Nat → ℝ, M = fun i k => fwdSub xs.s.G (initNormal pb xs.s.A.nbCstr (actSC xs.s.A k)) pb.n i :=
    ⟨_, rfl⟩
  have hMN : ∀ j < xs.s.A.q, ∀ i < pb.n, tmul pb.n (invLt pb.n xs.s.G) (normal pb (xs.s.A.act j)) i = M i j := by
    intro j _ i hi
    rw [hM, tmul_invLt hne _ i hi]
    beta_reduce
    rw [initNormal_eq hg.dim.nbCstr]
    rfl
  obtain ⟨h1, h2⟩ := qr_inv hq (N := fun k => normal pb (xs.s.A.act k)) h0 hMN xs.s.A.q le_rfl
  have hJ : ∀ i < pb.n, ∀ j < pb.n, (initData o pb xs).s.J i j
      = applyQ pb.n (qr pb.n xs.s.A.q M xs.s.A.q).1 (qr pb.n xs.s.A.q M xs.s.A.q).2 (invLt pb.n xs.s.G) xs.s.A.q i j := by
    intro i hi j hj
    simp only [initData, hn, hi, hj, hM, and_self, if_true]
  have hR : ∀ i < pb.n, ∀ j < xs.s.A.q, i ≤ j → (initData o pb xs).s.R i j = (qr pb.n xs.s.A.q M xs.s.A.q).1 i j := by
    intro i hi j hj hij
    simp only [initData, hn, hi, hj, hM, and_self, if_true]
    have : decide (j < i) = false := by simp [hij]
    simp [this]
  refine ⟨?_, ?_⟩
  · refine Fac.congr_outer h1 ?_
    intro a ha b hb
    unfold outer
    apply sum_congr rfl; intro c hc
    rw [hJ a ha c (mem_range.1 hc), hJ b hb c (mem_range.1 hc)]
  · intro k hk i hi
    have e : tmul pb.n (initData o pb xs).s.J (normal pb (xs.s.A.act k)) i
        = tmul pb.n (applyQ pb.n (qr pb.n xs.s.A.q M xs.s.A.q).1 (qr pb.n xs.s.A.q M xs.s.A.q).2 (invLt pb.n xs.s.G) xs.s.A.q)
          (normal pb (xs.s.A.act k)) i := by
      unfold tmul
      apply sum_congr rfl; intro c hc
      rw [hJ c (mem_range.1 hc) i hi]
    rw [e, h2 k hk i hi]
    by_cases hik : i ≤ k
    · rw [if_neg (by omega), if_pos hik, hR i hi k hk hik]
    · rw [if_pos (by omega), if_neg hik]

theorem initData_same (o : Opts ℝ) (pb : Pb ℝ EReal) (xs : XState ℝ) : (initData o pb xs).s.A = xs.s.A := rfl

theorem initData_bact {o : Opts ℝ} {pb : Pb ℝ EReal} {xs : XState ℝ} (hd : Dim pb xs.s) :
    ∀ k < xs.s.A.q, (initData o pb xs).bact k = rhs pb (xs.s.A.act k) := by
  intro k hk
  simp only [initData, wr, hk, if_true]
  rw [initRhs_eq hd.nbCstr]; rfl

/-- The gradients of the active constraints are linearly independent. -/
def ActIndep (pb : Pb ℝ EReal) (A : ActiveSet) : Prop := LinIndep pb.n A.q (fun k => normal pb (A.act k))

theorem initData_fac {o : Opts ℝ} {pb : Pb ℝ EReal} {xs : XState ℝ} (hg : Good pb xs.s)
    (hc : chol pb.n pb.G pb.n = (xs.s.G, none)) (hi : ActIndep pb xs.s.A) :
    Fac pb.n xs.s.A.q (hess pb) (fun k => normal pb (xs.s.A.act k)) (initData o pb xs).s.J (initData o pb xs).s.R := by
  have h := initData_facT (o := o) hg hc
  have hq := hg.q_le
  rw [hg.dim.nbVar] at hq
  exact ⟨h.inv, h.tri, h.diag hq hi⟩

/-! ## Points -/

theorem initPoints_good {pb : Pb ℝ EReal} {xs : XState ℝ} (hg : Good pb xs.s) : Good pb (initPoints pb xs).s :=
  ⟨⟨hg.dim.nbVar, hg.dim.wf, hg.dim.nbCstr, hg.dim.nbBnd, hg.dim.szX, hg.dim.szZ, hg.dim.szD, hg.dim.szU, hg.dim.szR,
    hg.dim.szJ, hg.dim.szRm⟩, hg.q_le⟩

theorem sum_split_at {n q : Nat} (hq : q ≤ n) (f : Nat → ℝ) :
    ∑ i ∈ range n, f i = ∑ i ∈ range q, f i + ∑ i ∈ range (n - q), f (q + i) := by
  rw [← sum_range_add, Nat.add_sub_cancel' hq]

/-- The computed point, its multipliers and its objective value. -/
theorem initPoints_alg {pb : Pb ℝ EReal} {xs : XState ℝ} (hg : Good pb xs.s)
    (hf : Fac pb.n xs.s.A.q (hess pb) (fun k => normal pb (xs.s.A.act k)) xs.s.J xs.s.R)
    (hb : ∀ k < xs.s.A.q, xs.bact k = rhs pb (xs.s.A.act k)) : Alg pb (initPoints pb xs).s (fun _ => 0) := by
  have hn := hg.dim.nbVar
  have hq := hg.q_le
  rw [hn] at hq
  obtain ⟨q, hqe⟩ : ∃ q, q = xs.s.A.q := ⟨_, rfl⟩
  obtain ⟨J, hJ⟩ : ∃ J, J = xs.s.J := ⟨_, rfl⟩
  obtain ⟨R, hR⟩ : ∃ R, R = xs.s.R := ⟨_, rfl⟩
  obtain ⟨al, hal⟩ : ∃ al : Nat → ℝ, al = tmul pb.n J pb.a := ⟨_, rfl⟩
  obtain ⟨be, hbe⟩ : ∃ be : Nat → ℝ, be = fwdSub (fun i j => R j i) xs.bact q := ⟨_, rfl⟩
  obtain ⟨u, hu⟩ : ∃ u : Nat → ℝ, u = backSub R q (fun k => al k + be k) := ⟨_, rfl⟩
  obtain ⟨w, hw⟩ : ∃ w : Nat → ℝ, w = fun j => if j < q then be j else -al j := ⟨_, rfl⟩
  rw [← hqe, ← hJ, ← hR] at hf
  rw [← hqe] at hb hq
  have halpha : (fun j => esum (.init 0 j) (fun a => xs.s.J a j * pb.a a) pb.n) = al := by
    funext j
    rw [esum_eq, hal, hJ]; rfl
  -- the components
  have hx : ∀ i < pb.n, (initPoints pb xs).s.x i = ∑ k ∈ range pb.n, J i k * w k := by
    intro i hi
    rw [sum_split_at hq]
    have e1 : ∑ k ∈ range q, J i k * w k = ∑ k ∈ range q, J i k * be k := by
      apply sum_congr rfl; intro k hk
      rw [hw]; beta_reduce; rw [if_pos (mem_range.1 hk)]
    have e2 : ∑ k ∈ range (pb.n - q), J i (q + k) * w (q + k) = -∑ k ∈ range (pb.n - q), J i (q + k) * al (q + k) := by
      rw [← sum_neg_distrib]
      apply sum_congr rfl; intro k _
      rw [hw]; beta_reduce; rw [if_neg (by omega)]; ring
    rw [e1, e2, ← sub_eq_add_neg, hbe, hqe, hR, hJ, ← halpha]
    simp only [initPoints, wr, hn, hi, if_true, esum_eq]
  have hue : ∀ k < q, (initPoints pb xs).s.u k = u k := by
    intro k hk
    rw [hqe] at hk
    rw [hu, hbe, hqe, hR, ← halpha]
    simp only [initPoints, wr, hn, hk, if_true]
  have hfe : (initPoints pb xs).s.f = ∑ k ∈ range q, be k * (1 / 2 * be k + al k)
      - 1 / 2 * ∑ k ∈ range (pb.n - q), al (q + k) * al (q + k) := by
    rw [hbe, hqe, hR, ← halpha]
    simp only [initPoints, hn, esum_eq]
    rfl
  -- what they satisfy
  have hRb : ∀ k < q, ∑ i ∈ range q, (if i ≤ k then R i k else 0) * be i = rhs pb (xs.s.A.act k) := by
    intro k hk
    rw [← hb k hk, hbe]
    exact fwdSub_spec' (fun i j => R j i) xs.bact q hf.diag k hk
  have hRu : ∀ i < q, ∑ k ∈ range q, (if i ≤ k then R i k else 0) * u k = al i + be i := by
    intro i hi
    rw [hu]
    exact backSub_spec R q _ hf.diag i hi
  obtain ⟨x, hxd⟩ : ∃ x, x = (initPoints pb xs).s.x := ⟨_, rfl⟩
  rw [← hxd] at hx
  have htm : ∀ v : Nat → ℝ, ∑ a ∈ range pb.n, v a * x a = ∑ i ∈ range pb.n, tmul pb.n J v i * w i := by
    intro v
    have : ∀ a ∈ range pb.n, v a * x a = ∑ i ∈ range pb.n, (J a i * v a) * w i := by
      intro a ha
      rw [hx a (mem_range.1 ha), Finset.mul_sum]
      apply sum_congr rfl; intro i _; ring
    rw [sum_congr rfl this, sum_comm]
    apply sum_congr rfl; intro i _
    rw [tmul, Finset.sum_mul]
  refine ⟨initPoints_good hg, ?_, ?_, ?_, ?_⟩
  · rw [hqe, hJ, hR] at hf; exact hf
  · intro a ha
    show ∑ b ∈ range pb.n, hess pb a b * (initPoints pb xs).s.x b + pb.a a
      = ∑ k ∈ range xs.s.A.q, (initPoints pb xs).s.u k * normal pb (xs.s.A.act k) a + 0
    rw [add_zero, ← hqe, ← hxd]
    have e1 : ∑ k ∈ range q, (initPoints pb xs).s.u k * normal pb (xs.s.A.act k) a = ∑ k ∈ range q, u k * normal pb (xs.s.A.act k) a := by
      apply sum_congr rfl; intro k hk; rw [hue k (mem_range.1 hk)]
    rw [e1]
    obtain ⟨v, hv⟩ : ∃ v : Nat → ℝ, v = fun a => ∑ k ∈ range q, u k * normal pb (xs.s.A.act k) a := ⟨_, rfl⟩
    have hva : ∑ k ∈ range q, u k * normal pb (xs.s.A.act k) a = v a := by rw [hv]
    have htv : ∀ i < pb.n, tmul pb.n J v i = al i + w i := by
      intro i hi
      have : tmul pb.n J v i = ∑ k ∈ range q, (if i ≤ k then R i k else 0) * u k := by
        rw [hv]; unfold tmul
        simp only [Finset.mul_sum]
        rw [sum_comm]
        apply sum_congr rfl; intro k hk
        rw [← hf.tri k (mem_range.1 hk) i hi, tmul, Finset.sum_mul]
        apply sum_congr rfl; intro c _; ring
      rw [this, hw]
      beta_reduce
      by_cases hiq : i < q
      · rw [if_pos hiq, hRu i hiq]
      · rw [if_neg hiq, add_neg_cancel]
        apply sum_eq_zero; intro k hk
        have := mem_range.1 hk
        rw [if_neg (by omega), zero_mul]
    rw [hva, ← Fac.expand hf.inv v a ha]
    conv_lhs => rw [← Fac.expand hf.inv pb.a a ha]
    rw [← sum_add_distrib]
    apply sum_congr rfl; intro c hc
    rw [hx c (mem_range.1 hc), ← mul_add, ← sum_add_distrib]
    congr 1
    apply sum_congr rfl; intro i hi
    rw [htv i (mem_range.1 hi), hal]; ring
  · intro k hk
    show ndot pb (xs.s.A.act k) (initPoints pb xs).s.x = rhs pb (xs.s.A.act k)
    have hk : k < q := by rw [hqe]; exact hk
    rw [← hxd, ndot, htm, ← hRb k hk, sum_split_at hq]
    have e2 : ∑ i ∈ range (pb.n - q), tmul pb.n J (normal pb (xs.s.A.act k)) (q + i) * w (q + i) = 0 := by
      apply sum_eq_zero; intro i hi
      have := mem_range.1 hi
      rw [hf.tri k hk _ (by omega), if_neg (by omega), zero_mul]
    rw [e2, add_zero]
    apply sum_congr rfl; intro i hi
    have := mem_range.1 hi
    rw [hf.tri k hk _ (by omega), hw]
    beta_reduce
    rw [if_pos this]
  · rw [hfe, ← hxd, obj, htm, ← hal]
    have hquad : ∑ i ∈ range pb.n, ∑ j ∈ range pb.n, x i * hess pb i j * x j = ∑ k ∈ range pb.n, w k * w k := by
      have hg2 : ∀ i ∈ range pb.n, ∑ j ∈ range pb.n, x i * hess pb i j * x j = (∑ j ∈ range pb.n, hess pb i j * x j) * x i := by
        intro i _
        rw [Finset.sum_mul]; apply sum_congr rfl; intro j _; ring
      rw [sum_congr rfl hg2, htm (fun i => ∑ j ∈ range pb.n, hess pb i j * x j)]
      apply sum_congr rfl; intro k hk
      have hk := mem_range.1 hk
      congr 1
      have e : tmul pb.n J (fun i => ∑ j ∈ range pb.n, hess pb i j * x j) k
          = ∑ i ∈ range pb.n, (∑ a ∈ range pb.n, ∑ b ∈ range pb.n, J a k * hess pb a b * J b i) * w i := by
        unfold tmul
        have e1 : ∀ a ∈ range pb.n, J a k * ∑ b ∈ range pb.n, hess pb a b * x b
            = ∑ i ∈ range pb.n, (∑ b ∈ range pb.n, J a k * hess pb a b * J b i) * w i := by
          intro a _
          have : ∀ b ∈ range pb.n, hess pb a b * x b = ∑ i ∈ range pb.n, hess pb a b * J b i * w i := by
            intro b hb
            rw [hx b (mem_range.1 hb), Finset.mul_sum]
            apply sum_congr rfl; intro i _; ring
          rw [sum_congr rfl this, sum_comm, Finset.mul_sum]
          apply sum_congr rfl; intro i _
          rw [Finset.mul_sum, Finset.sum_mul]
          apply sum_congr rfl; intro b _; ring
        rw [sum_congr rfl e1, sum_comm]
        apply sum_congr rfl; intro i _
        rw [Finset.sum_mul]
      rw [e]
      have e3 : ∀ i ∈ range pb.n, (∑ a ∈ range pb.n, ∑ b ∈ range pb.n, J a k * hess pb a b * J b i) * w i = kd k i * w i := by
        intro i hi
        rw [hf.jgj k hk i (mem_range.1 hi)]
      rw [sum_congr rfl e3, sum_kd hk]
    rw [hquad, sum_split_at hq, sum_split_at hq (fun i => al i * w i)]
    have a1 : ∑ i ∈ range q, w i * w i = ∑ i ∈ range q, be i * be i := by
      apply sum_congr rfl; intro i hi; rw [hw]; beta_reduce; rw [if_pos (mem_range.1 hi)]
    have a2 : ∑ i ∈ range (pb.n - q), w (q + i) * w (q + i) = ∑ i ∈ range (pb.n - q), al (q + i) * al (q + i) := by
      apply sum_congr rfl; intro i hi; rw [hw]; beta_reduce; rw [if_neg (by omega)]; ring
    have a3 : ∑ i ∈ range q, al i * w i = ∑ i ∈ range q, al i * be i := by
      apply sum_congr rfl; intro i hi; rw [hw]; beta_reduce; rw [if_pos (mem_range.1 hi)]
    have a4 : ∑ i ∈ range (pb.n - q), al (q + i) * w (q + i) = -∑ i ∈ range (pb.n - q), al (q + i) * al (q + i) := by
      rw [← sum_neg_distrib]
      apply sum_congr rfl; intro i hi; rw [hw]; beta_reduce; rw [if_neg (by omega)]; ring
    rw [a1, a2, a3, a4]
    have a5 : ∑ k ∈ range q, be k * (1 / 2 * be k + al k) = 1 / 2 * ∑ i ∈ range q, be i * be i + ∑ i ∈ range q, al i * be i := by
      rw [Finset.mul_sum, ← sum_add_distrib]
      apply sum_congr rfl; intro i _; ring
    rw [a5]; ring

end JrlQp
