import Verif.PropsTrace
import Verif.EvalKit

/-!
# C10 (NON_POS_HESSIAN), C11 (feasible unconstrained minimum), C30 (constraint normals)
-/

namespace JrlQp

open NumOps Finset Spec

theorem cholOk_iff (pb : Pb ℝ EReal) : cholOk pb ↔ (Matrix.of fun i j : Fin pb.n => hess pb i j).PosDef := by
  rw [show (Matrix.of fun i j : Fin pb.n => hess pb i j) = Matrix.of fun i j : Fin pb.n => symLow pb.G i j from rfl,
    ← posDefN_iff]
  unfold cholOk
  constructor
  · intro h
    exact chol_posDef (L := (chol pb.n pb.G pb.n).1) (by rw [← h])
  · intro h
    rcases hc : chol pb.n pb.G pb.n with ⟨P, c⟩
    cases c with
    | none => rfl
    | some c => exact absurd h (chol_not_posDef hc)

/-- **C10.** From any solver reached by legal calls and for any problem and options, `solve` returns `NON_POS_HESSIAN`
exactly when the symmetric matrix given by the lower triangle of `G` is not positive definite (exact arithmetic). -/
theorem C10_non_pos_hessian (o : Opts ℝ) (pb : Pb ℝ EReal) (s : State ℝ) (hi : Inv s) :
    (∃ s', solve o pb s = .ok (.nonPosHessian, s')) ↔ ¬ (Matrix.of fun i j : Fin pb.n => hess pb i j).PosDef := by
  have hd : Dim pb (solveStart o pb s) := start_dim hi
  rw [← cholOk_iff]
  constructor
  · rintro ⟨s', h⟩
    rcases solve_cases h with ⟨t1, h1, h2, h3⟩ | ⟨s1, h1, h2⟩
    · rcases init_nonpos hd h2 with ⟨a, _⟩ | ⟨_, a⟩
      · exact absurd a h1
      · exact a
    · rcases loop_it _ h2 with ⟨h, _⟩ | ⟨h | h, _⟩ <;> cases h
  · intro hc
    obtain ⟨t, s', h, _⟩ := init_safe (o := o) hd (fun h => absurd h hc)
    rcases init_nonpos hd h with ⟨_, a⟩ | ⟨a, _⟩
    · exact absurd a hc
    · subst a
      refine ⟨s', ?_⟩
      unfold solve dualSolve
      rw [show preInit o (resize s pb.n pb.m pb.useBnd) = solveStart o pb s from rfl, h]
      rfl

/-- Non-vacuity of C10: both sides occur. `G = 1` is positive definite, `G = 0` is not. -/
example : ¬ (Matrix.of fun i j : Fin 1 => hess (⟨1, 0, false, fun _ _ => 0, fun _ => 0, fun _ _ => 0, fun _ => 0,
    fun _ => 0, fun _ => 0, fun _ => 0⟩ : Pb ℝ EReal) i j).PosDef := by
  intro h
  have := h.2 (x := Finsupp.single 0 1) (by simp)
  simp [hess] at this

theorem select_of_feasible {pb : Pb ℝ EReal} (hnc : NotCrossed pb) {A : ActiveSet} (hm : A.nbCstr = pb.m)
    (hnb : A.nbBnd = pb.nb) {x : Nat → ℝ} (hf : Feasible pb x) : (select pb pb.n A x).status = .inactive := by
  obtain ⟨acc, hacc, hinv⟩ := select_inv hnc hm hnb x
  rw [← hacc]
  by_contra hcon
  obtain ⟨h1, h2, h3, _⟩ := hinv.some hcon
  rw [h2] at h1
  have key : 0 ≤ slackLo pb x acc.sc.p ∧ 0 ≤ slackHi pb x acc.sc.p := by
    unfold slackLo slackHi
    rcases h3 with ⟨h3, _⟩ | ⟨h3, h4, _⟩
    · rw [if_pos h3, if_pos h3]
      obtain ⟨a, b⟩ := hf.gen _ h3
      exact ⟨(EReal.sub_nonneg (Or.inl (EReal.coe_ne_top _)) (Or.inl (EReal.coe_ne_bot _))).2 a,
        (EReal.sub_nonneg (Or.inr (EReal.coe_ne_top _)) (Or.inr (EReal.coe_ne_bot _))).2 b⟩
    · rw [if_neg (by omega), if_neg (by omega)]
      have hub : pb.useBnd = true ∧ acc.sc.p - pb.m < pb.n := by
        have h5 : acc.sc.p - pb.m < pb.nb := by omega
        unfold Pb.nb at h5
        split_ifs at h5 with hb
        · exact ⟨hb, h5⟩
        · omega
      obtain ⟨a, b⟩ := hf.bnd hub.1 _ hub.2
      exact ⟨(EReal.sub_nonneg (Or.inl (EReal.coe_ne_top _)) (Or.inl (EReal.coe_ne_bot _))).2 a,
        (EReal.sub_nonneg (Or.inr (EReal.coe_ne_top _)) (Or.inr (EReal.coe_ne_bot _))).2 b⟩
  unfold viol at h1
  split_ifs at h1
  · exact absurd h1 (not_lt.2 key.2)
  · exact absurd h1 (not_lt.2 key.1)

/-- **C11.** If the unconstrained minimiser (`H x = -a`, `H` positive definite) satisfies all the constraints and there is
neither equality constraint nor fixed variable, then with `maxIter > 0` the solver returns `SUCCESS` after 0 iterations
with that point, an empty active set, zero multipliers and the objective value at that point, which is `½ aᵀx`. No
hypothesis on thresholds, on the past of the solver, nor on the finiteness of the bounds. -/
theorem C11_unconstrained {o : Opts ℝ} {pb : Pb ℝ EReal} {s : State ℝ} (hi : Inv s) (hit : 0 < o.maxIter)
    (hpd : (Matrix.of fun i j : Fin pb.n => hess pb i j).PosDef)
    (hne : ∀ i, i < pb.m + pb.nb → ¬ IsEqIdx pb i)
    {x : Nat → ℝ} (hx : ∀ i < pb.n, ∑ j ∈ range pb.n, hess pb i j * x j = -pb.a i) (hf : Feasible pb x) :
    ∃ s', solve o pb s = .ok (.success, s') ∧ s'.it = 0 ∧ (∀ i < pb.n, s'.x i = x i) ∧
      (∀ i, s'.A.statusAt i = .inactive) ∧ (∀ i, (multipliers s').u i = 0) ∧
      s'.f = obj pb x ∧ s'.f = 1 / 2 * ∑ i ∈ range pb.n, pb.a i * x i := by
  have hd : Dim pb (solveStart o pb s) := start_dim hi
  have hc := (cholOk_iff pb).2 hpd
  have hr := regInit_of_noEq (o := o) hd hne
  have hpd' : PosDefN pb.n (hess pb) := posDef_of_chol hc
  -- the state after init_
  have hdG : Dim pb { solveStart o pb s with G := (chol (solveStart o pb s).nbVar pb.G (solveStart o pb s).nbVar).1 } := by
    obtain ⟨h0, h1, b, c, h2, h3, h4, h5, h6, h7, h8⟩ := hd
    exact ⟨h0, h1, b, c, h2, h3, h4, h5, h6, h7, h8⟩
  have hc' := hc
  unfold cholOk at hc'
  have h1 := initPoint_alg (o := o) hdG (by simp only [hd.nbVar]; rw [← hc'])
  have hinit : init_ o pb (solveStart o pb s) = .ok (.success,
      initPoint o pb { solveStart o pb s with G := (chol (solveStart o pb s).nbVar pb.G (solveStart o pb s).nbVar).1 }) := by
    unfold init_
    rw [if_pos (by simp [hd.nbVar])]
    simp only []
    rw [if_neg (by rw [hd.nbVar, hc']; simp), if_pos (by simp [hd.szJ, hd.szX])]
    unfold initActiveSet
    rw [if_pos h1.good.selectOk]
    have : eqList pb (initPoint o pb { solveStart o pb s with
        G := (chol (solveStart o pb s).nbVar pb.G (solveStart o pb s).nbVar).1 }).A = [] := by
      rw [List.eq_nil_iff_forall_not_mem]
      intro sc hsc
      obtain ⟨h1, h2, _⟩ := (mem_eqList h1.good.dim.nbCstr h1.good.dim.nbBnd sc).1 hsc
      exact hne _ h1 h2
    rw [this]
    rfl
  have hst : ∀ i, (initPoint o pb { solveStart o pb s with
      G := (chol (solveStart o pb s).nbVar pb.G (solveStart o pb s).nbVar).1 }).A.statusAt i = .inactive :=
    fun i => reset_statusAt _ i
  have hq0 : (initPoint o pb { solveStart o pb s with
      G := (chol (solveStart o pb s).nbVar pb.G (solveStart o pb s).nbVar).1 }).A.q = 0 := ActiveSet.reset_q _
  have hit0 : (initPoint o pb { solveStart o pb s with
      G := (chol (solveStart o pb s).nbVar pb.G (solveStart o pb s).nbVar).1 }).it = 0 := rfl
  have hneed : (initPoint o pb { solveStart o pb s with
      G := (chol (solveStart o pb s).nbVar pb.G (solveStart o pb s).nbVar).1 }).needToExpand = true := rfl
  generalize initPoint o pb { solveStart o pb s with
      G := (chol (solveStart o pb s).nbVar pb.G (solveStart o pb s).nbVar).1 } = s1 at *
  -- its point is the unconstrained minimiser
  have hx1 : ∀ i < pb.n, s1.x i = x i := by
    have hv : ∀ i < pb.n, ∑ j ∈ range pb.n, hess pb i j * (s1.x j - x j) = 0 := by
      intro i hi
      have h2 := h1.stat i hi
      rw [hq0] at h2
      simp only [range_zero, sum_empty] at h2
      simp only [mul_sub, sum_sub_distrib]
      rw [hx i hi]
      linarith
    by_contra hcon
    push Not at hcon
    obtain ⟨i, hi, hne'⟩ := hcon
    have := hpd' (fun j => s1.x j - x j) ⟨i, hi, sub_ne_zero.2 hne'⟩
    have h0 : ∑ i ∈ range pb.n, ∑ j ∈ range pb.n, (s1.x i - x i) * hess pb i j * (s1.x j - x j) = 0 := by
      apply sum_eq_zero
      intro i hi
      simp only [mul_assoc]
      rw [← mul_sum, hv i (mem_range.1 hi), mul_zero]
    linarith
  have hrow : ∀ i, row pb s1.x i = row pb x i := fun i => sum_congr rfl fun a ha => by rw [hx1 a (mem_range.1 ha)]
  have hf1 : Feasible pb s1.x :=
    ⟨fun i hi => by rw [hrow]; exact hf.gen i hi, fun hb i hi => by rw [hx1 i hi]; exact hf.bnd hb i hi⟩
  have hnc : NotCrossed pb := ⟨fun i hi => (hf.gen i hi).1.trans (hf.gen i hi).2,
    fun hb i hi => (hf.bnd hb i hi).1.trans (hf.bnd hb i hi).2⟩
  have hsel := select_of_feasible hnc h1.good.dim.nbCstr h1.good.dim.nbBnd hf1
  have hobj : obj pb s1.x = obj pb x := by
    unfold obj
    congr 1
    · congr 1
      apply sum_congr rfl; intro i hi
      apply sum_congr rfl; intro j hj
      rw [hx1 i (mem_range.1 hi), hx1 j (mem_range.1 hj)]
    · apply sum_congr rfl; intro i hi
      rw [hx1 i (mem_range.1 hi)]
  have hhalf : obj pb x = 1 / 2 * ∑ i ∈ range pb.n, pb.a i * x i := by
    unfold obj
    have : ∑ i ∈ range pb.n, ∑ j ∈ range pb.n, x i * hess pb i j * x j = - ∑ i ∈ range pb.n, pb.a i * x i := by
      rw [← sum_neg_distrib]
      apply sum_congr rfl; intro i hi
      simp only [mul_assoc]
      rw [← mul_sum, hx i (mem_range.1 hi)]
      ring
    rw [this]; ring
  refine ⟨s1, ?_, hit0, hx1, hst, ?_, ?_, ?_⟩
  · unfold solve dualSolve
    rw [show preInit o (resize s pb.n pb.m pb.useBnd) = solveStart o pb s from rfl, hinit]
    simp only [ne_eq, not_true_eq_false, if_false]
    rw [hit0, Nat.sub_zero]
    obtain ⟨f, hf'⟩ := Nat.exists_eq_succ_of_ne_zero hit.ne'
    rw [hf']
    simp only [loop, iterate]
    rw [if_neg (by simp), if_pos h1.good.selectOk, h1.good.dim.nbVar]
    rw [if_pos hsel]
    rfl
  · intro i
    exact (C06_multipliers s1 h1.good.dim.wf hneed).1 i (hst i)
  · rw [h1.f, hobj]
  · rw [h1.f, hobj, hhalf]

/-- Non-vacuity of C11: `min ½x² - x` subject to `0 ≤ 2x ≤ 3` (one general constraint), solution `x = 1`. -/
example : ∃ s', solve (exOpts : Opts ℝ) (⟨1, 1, false, fun _ _ => 1, fun _ => -1, fun _ _ => 2, fun _ => 0,
    fun _ => 3, fun _ => 0, fun _ => 0⟩ : Pb ℝ EReal) State.empty = .ok (.success, s') ∧ s'.x 0 = 1 := by
  obtain ⟨s', h1, _, h2, _⟩ := C11_unconstrained (o := exOpts) (s := State.empty) (x := fun _ => 1)
    (pb := ⟨1, 1, false, fun _ _ => 1, fun _ => -1, fun _ _ => 2, fun _ => 0, fun _ => 3, fun _ => 0, fun _ => 0⟩)
    inv_empty (by simp [exOpts])
    (by
      rw [← cholOk_iff]
      exact chol_one (by norm_num))
    (by
      intro i hi h
      rcases h with ⟨_, h⟩ | ⟨h, _⟩
      · simp at h
      · simp [Pb.nb] at hi; simp at h; omega)
    (by intro i hi; simp [hess])
    ⟨by intro i hi; simp [row]; exact EReal.coe_le_coe_iff.2 (by norm_num : (2:ℝ) ≤ 3), by intro h; cases h⟩
  exact ⟨s', h1, h2 0 (by simp)⟩

/-! ### C30 -/

/-- Specification of the normal of a constraint in a given state, as a dense vector: the column of `C` for the lower side
or an equality, its opposite for the upper side, `± e_i` for the bounds. -/
def denseNormal (pb : Pb ℝ EReal) (sc : SC) (a : Nat) : ℝ :=
  match sc.status with
  | .inactive => 0
  | .lower | .equality => pb.C a sc.p
  | .upper => -pb.C a sc.p
  | .lowerBound | .fixed => if a = sc.p - pb.m then 1 else 0
  | .upperBound => if a = sc.p - pb.m then -1 else 0

theorem normal_eq_dense (pb : Pb ℝ EReal) (sc : SC) (a : Nat) : normal pb sc a = denseNormal pb sc a := by
  unfold normal denseNormal
  cases sc.status <;> simp

/-- **C30.** For every constraint of the problem (index in range, status of the right kind), `dot(v)` is the scalar product
with the dense signed normal and `preMultiplyByMt(M)` is `Mᵀ` times it, for every vector `v` and matrix `M`. -/
theorem C30_constraint_normal (pb : Pb ℝ EReal) (sc : SC) (h : scOk pb sc = true) (v : Nat → ℝ) (M : Nat → Nat → ℝ) :
    normalDot pb.n pb.m pb.C sc v = ∑ a ∈ range pb.n, denseNormal pb sc a * v a ∧
    ∀ j, preMult pb.n pb.m pb.C sc M j = ∑ a ∈ range pb.n, M a j * denseNormal pb sc a := by
  refine ⟨?_, fun j => ?_⟩
  · rw [normalDot_eq pb sc h]
    unfold ndot
    apply sum_congr rfl; intro a _
    rw [normal_eq_dense]
  · rw [preMult_eq pb sc h]
    unfold tmul
    apply sum_congr rfl; intro a _
    rw [normal_eq_dense]

/-- Non-vacuity of C30: an upper bound on the second of three variables, after two general constraints. -/
example : scOk (⟨3, 2, true, fun _ _ => 0, fun _ => 0, fun _ _ => 0, fun _ => 0, fun _ => 0, fun _ => 0, fun _ => 0⟩ :
    Pb ℝ EReal) ⟨3, .upperBound⟩ = true := by simp [scOk, Pb.nb]

end JrlQp
