import Verif.ExactBackward
import Verif.PropsBox
import Verif.PropsExp
import Verif.PropsCounter

/-!
# Arbitrary thresholds: backward error for the box solver (C25) and the warm-started solver (C24)
-/

namespace JrlQp

open NumOps Finset Spec

/-- The start of the main loop, without perturbation. -/
theorem BInvT.start {o : Opts ℝ} {pb : Pb ℝ EReal} {e : Nat} {s : State ℝ} {sc skip} (h : LoopInv pb s sc skip)
    (hd : DInv pb e s sc skip) : BInvT o pb e 0 s sc skip (fun _ => 0) 0 := by
  refine ⟨Pert.zero, ?_, hd⟩
  have e1 : shiftA pb (fun _ => 0) = pb := by simp [shiftA]
  have e2 : plusF s 0 = s := by simp [plusF]
  rw [e1, e2]; exact h

/-- What `SUCCESS` at the end of the main loop means, for arbitrary thresholds. -/
theorem BInvT.success {o : Opts ℝ} {pb : Pb ℝ EReal} (hx : NotCrossed pb) (hpd : PosDefN pb.n (hess pb)) {e k : Nat} {s : State ℝ} {sc δ c}
    (hb : BInvT o pb e k s sc false δ c) (hsel : (select pb pb.n s.A s.x).status = .inactive) (hne : s.needToExpand = true) :
    IsUniqueOptimal (shiftA pb δ) s.x ∧ KKT (shiftA pb δ) s.x (multipliers s).u ∧ Feasible pb s.x := by
  have hx' : NotCrossed (shiftA pb δ) := ⟨hx.gen, hx.bnd⟩
  have hD' : DInv (shiftA pb δ) e (plusF s c) sc false := ⟨hb.dual.pre, hb.dual.pos, hb.dual.cpos, hb.dual.viol⟩
  have h1 := success_optimal hx' hpd hb.inv hD' hsel
  have h2 := success_KKT hx' hb.inv hD' hsel hne
  have e : (multipliers (plusF s c)).u = (multipliers s).u := by
    unfold multipliers
    show (if s.needToExpand = true then _ else _ : State ℝ).u = _
    split_ifs <;> rfl
  rw [e] at h2
  exact ⟨h1, h2, ⟨h1.1.1.gen, h1.1.1.bnd⟩⟩

/-- **C24, arbitrary thresholds in the main loop.** In exact arithmetic, for every legal warm start without wrong `EQUALITY`, with equalities
first, an independent initial active set and no multiplier of the initialisation in `[-tiny, 0)`: `SUCCESS` means that the solution is
feasible and is the exact solution for the linear term `a + δ`, `δ` as in C45. -/
theorem C24_backward_partial {o : Opts ℝ} {pb : Pb ℝ EReal} (hp : Proper pb) (hx : NotCrossed pb) {as : List Status}
    {xs : XState ℝ} (h : XInv xs) (ha : ArgOk o pb as) (hf : NoFalseEq o pb (usedAs o pb as xs)) {e : Nat}
    (he : EqFirst pb e) (ho : EqActFirst o pb (usedAs o pb as xs) e) (ht0 : 0 ≤ o.tiny)
    (hind : ∀ A, processInitial o pb pb.n (usedAs o pb as xs) (xsolveStart o pb as xs).s.A = .ok (.success, A) → ActIndep pb A)
    (hdrop : ∀ xs1, xinit o pb (xsolveStart o pb as xs) = .ok (.success, xs1) →
      ∀ k < xs1.s.A.q, (xs1.s.A.statusAt (xs1.s.A.get k)).isEq = false → xs1.s.u k < 0 → xs1.s.u k < -o.tiny) {xs'}
    (hs : xsolve o pb as xs = .ok (.success, xs')) :
    ∃ k ≤ xs'.s.it, ∃ δ, Pert o pb k δ ∧ IsUniqueOptimal (shiftA pb δ) xs'.s.x ∧ Feasible pb xs'.s.x := by
  obtain ⟨xs1, e1, e2, e3⟩ := xsolve_run h ha hs (by simp) (by simp)
  obtain ⟨g1, g2, _, g3⟩ := xinit_exact hp (xsolveStart_dim h) (usedAs_warmOk h ha.kind) (usedAs_len h ha.len) hf hind e1
  have hpre := g3 e he ho
  have hD : DInv pb e xs1.s ⟨0, .inactive⟩ false := by
    refine ⟨hpre, fun k hk hek => ?_, by simp, by simp⟩
    have hs : (xs1.s.A.statusAt (xs1.s.A.get k)).isEq = false := by
      have := (hpre.act g1.good.good.dim.wf hk).not.2 (by omega)
      simpa [ActiveSet.act] using this
    by_contra hneg
    have h3 := hdrop xs1 e1 k hk hs (by linarith)
    have h4 := g1.done k hk hs
    linarith
  obtain ⟨k, g4, δ, c, sc, g5, g6⟩ := loop_back hp hx ht0 _ (BInvT.start g1.inv hD) e2
  refine ⟨k, by omega, δ, g5.pert, ?_⟩
  have hx' : NotCrossed (shiftA pb δ) := ⟨hx.gen, hx.bnd⟩
  have hD' : DInv (shiftA pb δ) e (plusF xs'.s c) sc false := ⟨g5.dual.pre, g5.dual.pos, g5.dual.cpos, g5.dual.viol⟩
  have h1 := success_optimal hx' (posDef_of_chol g2) g5.inv hD' g6
  exact ⟨h1, ⟨h1.1.1.gen, h1.1.1.bnd⟩⟩

variable {n : Nat} {x0 c : Nat → ℝ} {bl : EReal} {xl xu : Nat → EReal}

/-- Specification: a sum of at most `k` neglected directions, each times a step `0 ≤ t < bigBnd`. A direction `z` is neglected if its norm
is at most `tiny`, or if the step to the half-space or bound that it is meant to reach is at least `bigBnd`. -/
inductive BoxPert (o : Opts ℝ) (n : Nat) : Nat → (Nat → ℝ) → Prop
  | zero : BoxPert o n 0 (fun _ => 0)
  | skip {k δ} (h : BoxPert o n k δ) : BoxPert o n (k + 1) δ
  | dual {k δ} (h : BoxPert o n k δ) (t : ℝ) (z : Nat → ℝ) (viol : ℝ) (ht : 0 ≤ t) (hb : t < o.bigBnd)
      (hz : Real.sqrt (∑ a ∈ range n, z a ^ 2) ≤ o.tiny ∨ (0 < ∑ a ∈ range n, z a ^ 2 ∧ o.bigBnd * ∑ a ∈ range n, z a ^ 2 ≤ viol)) :
      BoxPert o n (k + 1) (fun a => δ a + t * z a)

theorem boxPert_of_pert {o : Opts ℝ} {k : Nat} {δ : Nat → ℝ} (h : Pert o (boxSpec n x0 c bl xl xu) k δ) :
    ∃ δ', BoxPert o n k δ' ∧ ∀ a < n, δ' a = δ a := by
  have hkd : ∀ (z : Nat → ℝ), ∀ a < n, ∑ b ∈ range n, hess (boxSpec n x0 c bl xl xu) a b * z b = z a := by
    intro z a ha
    simp only [boxSpec_hess]
    exact sum_kd ha z
  induction h with
  | zero => exact ⟨_, .zero, fun _ _ => rfl⟩
  | skip _ ih => obtain ⟨δ', h1, h2⟩ := ih; exact ⟨δ', .skip h1, h2⟩
  | @dual k δ _ t z sc x ht hb hsc hz ih =>
    obtain ⟨δ', h1, h2⟩ := ih
    have hq : quad (boxSpec n x0 c bl xl xu) z = ∑ a ∈ range n, z a ^ 2 := by
      unfold quad
      refine Finset.sum_congr rfl fun a ha => ?_
      have := hkd z a (mem_range.1 ha)
      simp only [mul_assoc, ← Finset.mul_sum]
      show z a * ∑ b ∈ range n, hess (boxSpec n x0 c bl xl xu) a b * z b = _
      rw [this]; ring
    have hn : normn (boxSpec n x0 c bl xl xu).n z = Real.sqrt (∑ a ∈ range n, z a ^ 2) := by
      show normn n z = _
      unfold normn dotn
      rw [esum_eq]
      simp only [pow_two]
      rfl
    refine ⟨_, .dual h1 t z (rhs (boxSpec n x0 c bl xl xu) sc - ndot (boxSpec n x0 c bl xl xu) sc x) ht hb ?_, ?_⟩
    · unfold Neglected at hz
      rw [hq, hn] at hz
      exact hz
    · intro a ha
      show δ' a + t * z a = δ a + t * ∑ b ∈ range n, hess (boxSpec n x0 c bl xl xu) a b * z b
      rw [hkd z a ha, h2 a ha]

/-- The box problem with another linear term is the box problem with another point to project. -/
theorem shiftA_boxSpec (δ δ' : Nat → ℝ) (h : ∀ a < n, δ' a = δ a) (y : Nat → ℝ) :
    obj (shiftA (boxSpec n x0 c bl xl xu) δ) y = obj (boxSpec n (fun i => x0 i - δ' i) c bl xl xu) y := by
  unfold obj
  congr 1
  refine Finset.sum_congr rfl fun i hi => ?_
  show (-x0 i + δ i) * y i = -(x0 i - δ' i) * y i
  rw [h i (mem_range.1 hi)]; ring

/-- **C25, arbitrary thresholds.** In exact arithmetic, whatever the thresholds, `SUCCESS` of the box solver means that `solution()` is in the
box and the half-space, and is the projection of `x0 - δ`, where `δ` is a sum of at most `iterations()` neglected directions times
their steps. -/
theorem C25_backward {o : Opts ℝ} (hd : BoxData n bl xl xu) (ht0 : 0 ≤ o.tiny) {s : State ℝ} (h : Inv s) {s'}
    (hs : boxSolve o n x0 c bl ⊤ xl xu s = .ok (.success, s')) :
    ∃ k ≤ s'.it, ∃ δ, BoxPert o n k δ ∧ IsProjection n (BoxFeasible n c bl xl xu) (fun i => x0 i - δ i) s'.x := by
  obtain ⟨i1, i2⟩ := boxEntry_inv (x0 := x0) (c := c) o hd h
  have hl := boxEntry_loop h hs
  obtain ⟨k, g4, δ, c', sc, g5, g6⟩ := loop_back hd.proper hd.notCrossed ht0 _ (BInvT.start i1 i2) hl
  have hne : (addF (boxShift n x0) s').needToExpand = true := by
    rw [loop_need _ hl]; exact boxReady_need o n x0 c bl ⊤ xl xu s
  obtain ⟨h1, _, _⟩ := g5.success hd.notCrossed (posDefN_kd (boxSpec_hess n x0 c bl xl xu)) g6 hne
  obtain ⟨δ', p1, p2⟩ := boxPert_of_pert g5.pert
  refine ⟨k, ?_, δ', p1, ?_⟩
  · have : (addF (boxShift n x0) s').it = s'.it := rfl
    omega
  apply projection_of_optimal
  have hfe : ∀ y, Feasible (boxSpec n (fun i => x0 i - δ' i) c bl xl xu) y ↔ Feasible (shiftA (boxSpec n x0 c bl xl xu) δ) y := by
    intro y
    exact ⟨fun h => ⟨h.gen, h.bnd⟩, fun h => ⟨h.gen, h.bnd⟩⟩
  have hio : ∀ y, IsOptimal (boxSpec n (fun i => x0 i - δ' i) c bl xl xu) y ↔ IsOptimal (shiftA (boxSpec n x0 c bl xl xu) δ) y := by
    intro y
    simp only [IsOptimal, hfe, shiftA_boxSpec δ δ' p2]
  exact ⟨(hio _).2 h1.1, fun y hy => h1.2 y ((hio y).1 hy)⟩

/-- Projections on a convex set are non-expansive. -/
theorem IsProjection.nonexpansive {S : (Nat → ℝ) → Prop} (hS : ∀ x y, S x → S y → ∀ t : ℝ, 0 ≤ t → t ≤ 1 → S (fun i => x i + t * (y i - x i)))
    {a b p q : Nat → ℝ} (hp : IsProjection n S a p) (hq : IsProjection n S b q) : dist2 n p q ≤ dist2 n a b := by
  have var : ∀ {a p : Nat → ℝ}, IsProjection n S a p → ∀ y, S y → ∑ i ∈ range n, (a i - p i) * (y i - p i) ≤ 0 := by
    intro a p hp y hy
    by_contra hpos
    push Not at hpos
    obtain ⟨α, hα⟩ : ∃ α, α = ∑ i ∈ range n, (a i - p i) * (y i - p i) := ⟨_, rfl⟩
    obtain ⟨D, hD⟩ : ∃ D, D = ∑ i ∈ range n, (y i - p i) ^ 2 := ⟨_, rfl⟩
    have hD0 : 0 ≤ D := by rw [hD]; exact Finset.sum_nonneg fun i _ => sq_nonneg _
    rw [← hα] at hpos
    have key : ∀ t : ℝ, 0 ≤ t → t ≤ 1 → 2 * t * α ≤ t ^ 2 * D := by
      intro t h0 h1
      have h2 := (hp.2 _ (hS p y hp.1 hy t h0 h1)).1
      have h3 : dist2 n (fun i => p i + t * (y i - p i)) a = dist2 n p a - 2 * t * α + t ^ 2 * D := by
        rw [hα, hD]
        unfold dist2
        rw [Finset.mul_sum, Finset.mul_sum, ← Finset.sum_sub_distrib, ← Finset.sum_add_distrib]
        exact Finset.sum_congr rfl fun i _ => by ring
      linarith
    by_cases hDα : D ≤ α
    · have := key 1 (by norm_num) le_rfl
      linarith
    · have hD1 : 0 < D := by linarith
      have := key (α / D) (by positivity) (by rw [div_le_one hD1]; linarith)
      have e1 : (α / D) ^ 2 * D = α ^ 2 / D := by field_simp
      have e2 : 2 * (α / D) * α = 2 * (α ^ 2 / D) := by ring
      rw [e1, e2] at this
      have : 0 < α ^ 2 / D := by positivity
      linarith
  have h1 := var hp q hq.1
  have h2 := var hq p hp.1
  have h3 : 0 ≤ ∑ i ∈ range n, ((a i - b i) - (p i - q i)) ^ 2 := Finset.sum_nonneg fun i _ => sq_nonneg _
  have h4 : ∑ i ∈ range n, ((a i - b i) - (p i - q i)) ^ 2
      = dist2 n a b - dist2 n p q + 2 * (∑ i ∈ range n, (a i - p i) * (q i - p i) + ∑ i ∈ range n, (b i - q i) * (p i - q i)) := by
    unfold dist2
    rw [← Finset.sum_sub_distrib, ← Finset.sum_add_distrib, Finset.mul_sum, ← Finset.sum_add_distrib]
    exact Finset.sum_congr rfl fun i _ => by ring
  linarith

theorem boxFeasible_convex (x y : Nat → ℝ) (hx : BoxFeasible n c bl xl xu x) (hy : BoxFeasible n c bl xl xu y) (t : ℝ) (h0 : 0 ≤ t)
    (h1 : t ≤ 1) : BoxFeasible n c bl xl xu (fun i => x i + t * (y i - x i)) := by
  have low : ∀ {l : EReal} {a b : ℝ}, l ≤ (a : EReal) → l ≤ (b : EReal) → l ≤ ((a + t * (b - a) : ℝ) : EReal) := by
    intro l a b ha hb
    rcases le_total a b with hab | hab
    · refine ha.trans (EReal.coe_le_coe_iff.2 ?_); nlinarith
    · refine hb.trans (EReal.coe_le_coe_iff.2 ?_); nlinarith
  have up : ∀ {l : EReal} {a b : ℝ}, (a : EReal) ≤ l → (b : EReal) ≤ l → ((a + t * (b - a) : ℝ) : EReal) ≤ l := by
    intro l a b ha hb
    rcases le_total a b with hab | hab
    · refine le_trans (EReal.coe_le_coe_iff.2 ?_) hb; nlinarith
    · refine le_trans (EReal.coe_le_coe_iff.2 ?_) ha; nlinarith
  refine ⟨?_, fun i hi => ⟨low (hx.2 i hi).1 (hy.2 i hi).1, up (hx.2 i hi).2 (hy.2 i hi).2⟩⟩
  have e : ∑ i ∈ range n, c i * (x i + t * (y i - x i))
      = ∑ i ∈ range n, c i * x i + t * (∑ i ∈ range n, c i * y i - ∑ i ∈ range n, c i * x i) := by
    rw [← Finset.sum_sub_distrib, Finset.mul_sum, ← Finset.sum_add_distrib]
    exact Finset.sum_congr rfl fun i _ => by ring
  rw [e]
  exact low hx.1 hy.1

/-- **C25, distance to the exact projection.** The point returned is at most `‖δ‖` away from the projection of `x0`. -/
theorem C25_distance {o : Opts ℝ} (hd : BoxData n bl xl xu) (ht0 : 0 ≤ o.tiny) {s : State ℝ} (h : Inv s) {s'}
    (hs : boxSolve o n x0 c bl ⊤ xl xu s = .ok (.success, s')) {p : Nat → ℝ} (hp : IsProjection n (BoxFeasible n c bl xl xu) x0 p) :
    ∃ k ≤ s'.it, ∃ δ, BoxPert o n k δ ∧ dist2 n p s'.x ≤ ∑ i ∈ range n, δ i ^ 2 := by
  obtain ⟨k, hk, δ, h1, h2⟩ := C25_backward hd ht0 h hs
  refine ⟨k, hk, δ, h1, (hp.nonexpansive boxFeasible_convex h2).trans (le_of_eq ?_)⟩
  unfold dist2
  exact Finset.sum_congr rfl fun i _ => by ring

/-- **C25 is false below the threshold.** One variable without bounds, `x0 = 0` and the constraint `d x ≥ d` with `0 < d ≤ tiny`: the solver
returns `INFEASIBLE` after any history, although `x = 1` is feasible. -/
theorem C25_threshold_false {o : Opts ℝ} (hm : 1 ≤ o.maxIter) {d : ℝ} (hd : 0 < d) (hdt : d ≤ o.tiny) {s : State ℝ} (hi : Inv s) :
    BoxData 1 (d : EReal) (fun _ => ⊥) (fun _ => ⊤) ∧
    (∃ s', boxSolve o 1 (fun _ => 0) (fun _ => d) (d : EReal) ⊤ (fun _ => ⊥) (fun _ => ⊤) s = .ok (.infeasible, s')) ∧
    BoxFeasible 1 (fun _ => d) (d : EReal) (fun _ => ⊥) (fun _ => ⊤) (fun _ => 1) := by
  have hdat : BoxData 1 (d : EReal) (fun _ => (⊥ : EReal)) (fun _ => ⊤) :=
    ⟨EReal.coe_ne_top _, fun _ _ => by simp, fun _ _ => by simp, fun _ _ => bot_le⟩
  have ht0 : 0 ≤ o.tiny := hd.le.trans hdt
  have law := fpLaws_real o ht0
  refine ⟨hdat, ?_, ⟨by simp, fun i _ => ⟨bot_le, le_top⟩⟩⟩
  obtain ⟨t, s', h1, _⟩ := boxSolve_safe law 1 (fun _ => 0) (fun _ => d) (d : EReal) ⊤ (fun _ => ⊥) (fun _ => ⊤) hi
  have hl := boxEntry_loop hi h1
  obtain ⟨i1, _⟩ := boxEntry_inv (x0 := fun _ => 0) (c := fun _ => d) o hdat hi
  have hX := boxReady_x (x0 := fun _ => 0) (c := fun _ => d) o hdat hi
  have hP := boxReady_pre o 1 (fun _ => 0) (fun _ => d) (d : EReal) ⊤ (fun _ => ⊥) (fun _ => ⊤) hi
  obtain ⟨e, he⟩ : ∃ e, e = boxEntry o 1 (fun _ => 0) (fun _ => d) (d : EReal) (fun _ => ⊥) (fun _ => ⊤) s := ⟨_, rfl⟩
  rw [← he] at hl i1
  have eA : e.A = (boxReady o 1 (fun _ => 0) (fun _ => d) (d : EReal) ⊤ (fun _ => ⊥) (fun _ => ⊤) s).A := by rw [he]; rfl
  have ex : e.x = (boxReady o 1 (fun _ => 0) (fun _ => d) (d : EReal) ⊤ (fun _ => ⊥) (fun _ => ⊤) s).x := by rw [he]; rfl
  have hq : e.A.q = 0 := by
    by_contra hne
    have h0 : 0 < (boxReady o 1 (fun _ => 0) (fun _ => d) (d : EReal) ⊤ (fun _ => (⊥ : EReal)) (fun _ => ⊤) s).A.q := by rw [← eA]; omega
    obtain ⟨j, hj, st, g1, g2⟩ := hX.idx 0 h0
    have := hX.fin 0 h0
    rw [g1] at this
    rcases g2 with rfl | rfl
    · obtain ⟨b, hb⟩ := this
      exact EReal.bot_ne_coe b hb
    · obtain ⟨b, hb⟩ := this
      exact EReal.top_ne_coe b hb
  have hx0 : e.x 0 = 0 := by rw [ex, hX.x 0 (by omega)]; simp [clamp, boxPb]
  have hs0 : e.A.statusAt 0 = .inactive := by rw [eA]; exact hP.zero
  have hsel : select (boxSpec 1 (fun _ => 0) (fun _ => d) (d : EReal) (fun _ => ⊥) (fun _ => ⊤))
      (boxSpec 1 (fun _ => 0) (fun _ => d) (d : EReal) (fun _ => ⊥) (fun _ => ⊤)).n e.A e.x = ⟨0, .lower⟩ := by
    have b1 : e.A.nbCstr = 1 := i1.alg.good.dim.nbCstr
    have b2 : e.A.nbBnd = 1 := i1.alg.good.dim.nbBnd
    simp only [select, b1, b2, List.range_one, List.foldl_cons, List.foldl_nil]
    rw [selGen_lower (i := 0) hs0 (c := 0) (b := d) (a := 0) _ _ ?_ rfl rfl (by linarith)]
    · unfold selBnd
      split_ifs with h1 h2 h3
      · rfl
      · exfalso
        revert h2
        show ¬ _
        simp [bLt, slackLow, boxSpec, boxPb]
      · exfalso
        revert h3
        show ¬ _
        simp [bLt, slackUp, boxSpec, boxPb]
      · rfl
    · simp [row, boxSpec, boxPb, hx0]
  obtain ⟨m, hm'⟩ : ∃ m, o.maxIter = m + 1 := ⟨o.maxIter - 1, by omega⟩
  obtain ⟨s2, h2⟩ := exec_threshold (sc0 := ⟨0, .inactive⟩) law (posDefN_kd (boxSpec_hess 1 (fun _ => 0) (fun _ => d) (d : EReal) (fun _ => ⊥) (fun _ => ⊤)))
    (i1.alg.congr (by simp)) hq hsel (by simp) (z := fun _ => d) (by
      intro a ha
      have ha : a < 1 := ha
      have ha0 : a = 0 := by omega
      subst ha0
      simp [normal, hess, kd, boxSpec, boxPb]) (Or.inl (by
      show normn 1 _ ≤ _
      simp only [normn, dotn, esum_real, sumTo, sqrt_real, zero_add]
      rw [Real.sqrt_mul_self hd.le]; exact hdt))
  rw [hm', loop_done h2] at hl
  cases hl
  exact ⟨_, h1⟩

/-- `C25_backward` and `C25_distance` are not vacuous: projection of `(2, -1)` on `[0, 1]² ∩ {x₀ + x₁ ≥ 3/2}`. -/
example : ∃ (o : Opts ℝ) (s' : State ℝ), 0 < o.tiny ∧
    boxSolve o 2 (fun i => if i = 0 then 2 else -1) (fun _ => 1) ((3 / 2 : ℝ) : EReal) ⊤ (fun _ => ((0 : ℝ) : EReal))
      (fun _ => ((1 : ℝ) : EReal)) State.empty = .ok (.success, s') ∧
    ∃ k ≤ s'.it, ∃ δ, BoxPert o 2 k δ ∧ IsProjection 2 (BoxFeasible 2 (fun _ => 1) ((3 / 2 : ℝ) : EReal) (fun _ => ((0 : ℝ) : EReal))
      (fun _ => ((1 : ℝ) : EReal))) (fun i => (if i = 0 then 2 else -1) - δ i) s'.x := by
  have hd : BoxData 2 ((3 / 2 : ℝ) : EReal) (fun _ => ((0 : ℝ) : EReal)) (fun _ => ((1 : ℝ) : EReal)) :=
    ⟨EReal.coe_ne_top _, fun _ _ => EReal.coe_ne_top _, fun _ _ => EReal.coe_ne_bot _,
      fun _ _ => by exact_mod_cast zero_le_one⟩
  obtain ⟨ε, hε, β, h⟩ := C25_thresholds_partial (fun i => if i = 0 then 2 else -1) (fun _ => 1) hd
  obtain ⟨s, t, s', h1, h2, h3, h4, h5, h6⟩ := h ⟨3 * (7 ^ 3 + 1), β + 1, false, ε / 2, false⟩ (half_pos hε).le
    (by simpa using half_lt_self hε) (by simp) [] (by simp)
  cases h1
  have ht : t = .success := by
    rcases h3 with h | h | h
    · exact h
    · exfalso
      apply h5 h
      refine ⟨fun _ => 1, ?_, fun i _ => ⟨by exact_mod_cast zero_le_one, le_rfl⟩⟩
      rw [EReal.coe_le_coe_iff]
      norm_num
    · exact absurd (h6 h) (by norm_num)
  subst ht
  exact ⟨_, s', half_pos hε, h2, C25_backward hd (half_pos hε).le inv_empty h2⟩

end JrlQp
