import Verif.PropsWarmMeta
import Verif.PropsConvex

/-!
# C102: changes of the whole objective, Hessian included
-/

namespace JrlQp

open NumOps Finset Spec

/-! ### Specification -/

/-- `pb'` has the variables and the feasible set of `pb`; its objective may be another one. -/
structure SameFeasible (pb pb' : Pb ℝ EReal) : Prop where
  n : pb'.n = pb.n
  feasible : ∀ x, Feasible pb' x ↔ Feasible pb x

/-- Change of the objective at `x`. -/
noncomputable def objChange (pb pb' : Pb ℝ EReal) (x : Nat → ℝ) : ℝ :=
  1 / 2 * ∑ i ∈ range pb.n, ∑ j ∈ range pb.n, x i * (hess pb' i j - hess pb i j) * x j + ∑ i ∈ range pb.n, (pb'.a i - pb.a i) * x i

/-- Change of the `i`-th component of the gradient of the objective at `x`. -/
noncomputable def gradChange (pb pb' : Pb ℝ EReal) (x : Nat → ℝ) (i : Nat) : ℝ :=
  ∑ j ∈ range pb.n, (hess pb' i j - hess pb i j) * x j + (pb'.a i - pb.a i)

/-- What is said about the solutions `x`, `x'` and the values `f`, `f'` of two problems with the same feasible set. -/
structure ObjStable (pb pb' : Pb ℝ EReal) (x x' : Nat → ℝ) (f f' : ℝ) : Prop where
  /-- The change of the value is between the changes of the objective at both solutions. -/
  upper : f' - f ≤ objChange pb pb' x
  lower : objChange pb pb' x' ≤ f' - f
  /-- Change of the solution, in the norm of the Hessian. -/
  move : ∑ i ∈ range pb.n, ∑ j ∈ range pb.n, (x' i - x i) * hess pb i j * (x' j - x j) ≤ -∑ i ∈ range pb.n, gradChange pb pb' x' i * (x' i - x i)
  /-- Change of the solution, in the Euclidean norm, for any positive lower bound of the Hessian. -/
  dist : ∀ μ > 0, (∀ v : Nat → ℝ, μ * ∑ i ∈ range pb.n, v i ^ 2 ≤ ∑ i ∈ range pb.n, ∑ j ∈ range pb.n, v i * hess pb i j * v j) →
    μ ^ 2 * ∑ i ∈ range pb.n, (x' i - x i) ^ 2 ≤ ∑ i ∈ range pb.n, gradChange pb pb' x' i ^ 2

/-! ### Proofs -/

theorem obj_change {pb pb' : Pb ℝ EReal} (hn : pb'.n = pb.n) (x : Nat → ℝ) : obj pb' x = obj pb x + objChange pb pb' x := by
  unfold obj objChange
  rw [hn]
  have e1 : ∑ i ∈ range pb.n, ∑ j ∈ range pb.n, x i * (hess pb' i j - hess pb i j) * x j =
      ∑ i ∈ range pb.n, ∑ j ∈ range pb.n, x i * hess pb' i j * x j - ∑ i ∈ range pb.n, ∑ j ∈ range pb.n, x i * hess pb i j * x j := by
    rw [← sum_sub_distrib]
    refine sum_congr rfl fun i _ => ?_
    rw [← sum_sub_distrib]
    exact sum_congr rfl fun j _ => by ring
  have e2 : ∑ i ∈ range pb.n, (pb'.a i - pb.a i) * x i = ∑ i ∈ range pb.n, pb'.a i * x i - ∑ i ∈ range pb.n, pb.a i * x i := by
    rw [← sum_sub_distrib]
    exact sum_congr rfl fun j _ => by ring
  rw [e1, e2]; ring

theorem Answer.objStable {pb pb' : Pb ℝ EReal} (hr : StdPb pb) (hr' : StdPb pb') (h : SameFeasible pb pb') {s s' : State ℝ}
    (a1 : Answer pb .success s) (a2 : Answer pb' .success s') : ObjStable pb pb' s.x s'.x s.f s'.f := by
  have hx := (a1.optimal rfl).1
  have hx' := (a2.optimal rfl).1
  have h1 := grad_step hr hx ((h.feasible _).1 hx'.1)
  have h2 := grad_step hr' hx' ((h.feasible _).2 hx.1)
  rw [h.n] at h2
  have hm : quadForm pb (fun i => s'.x i - s.x i) ≤ -∑ i ∈ range pb.n, gradChange pb pb' s'.x i * (s'.x i - s.x i) := by
    have e : ∑ a ∈ range pb.n, (∑ b ∈ range pb.n, hess pb a b * s.x b + pb.a a) * (s'.x a - s.x a)
        + ∑ a ∈ range pb.n, (∑ b ∈ range pb.n, hess pb' a b * s'.x b + pb'.a a) * (s.x a - s'.x a)
        = - quadForm pb (fun i => s'.x i - s.x i) + -∑ i ∈ range pb.n, gradChange pb pb' s'.x i * (s'.x i - s.x i) := by
      unfold quadForm gradChange
      rw [← sum_add_distrib, ← sum_neg_distrib, ← sum_neg_distrib, ← sum_add_distrib]
      refine sum_congr rfl fun a _ => ?_
      have e2 : ∑ b ∈ range pb.n, (s'.x a - s.x a) * hess pb a b * (s'.x b - s.x b)
          = (s'.x a - s.x a) * (∑ b ∈ range pb.n, hess pb a b * s'.x b - ∑ b ∈ range pb.n, hess pb a b * s.x b) := by
        rw [← sum_sub_distrib, mul_sum]; exact sum_congr rfl fun b _ => by ring
      have e3 : ∑ j ∈ range pb.n, (hess pb' a j - hess pb a j) * s'.x j =
          ∑ j ∈ range pb.n, hess pb' a j * s'.x j - ∑ j ∈ range pb.n, hess pb a j * s'.x j := by
        rw [← sum_sub_distrib]; exact sum_congr rfl fun b _ => by ring
      rw [e2, e3]; ring
    linarith
  refine ⟨?_, ?_, hm, fun μ hμ hv => ?_⟩
  · rw [a2.value, a1.value]
    have := hx'.2 _ ((h.feasible _).2 hx.1)
    rw [obj_change h.n s.x] at this
    linarith
  · rw [a2.value, a1.value, obj_change h.n s'.x]
    have := hx.2 _ ((h.feasible _).1 hx'.1)
    linarith
  · have h3 := (hv (fun i => s'.x i - s.x i)).trans hm
    have h4 : ∑ i ∈ range pb.n, (μ ^ 2 * (s'.x i - s.x i) ^ 2 + 2 * μ * (gradChange pb pb' s'.x i * (s'.x i - s.x i)) + gradChange pb pb' s'.x i ^ 2) ≥ 0 :=
      sum_nonneg fun i _ => by nlinarith [sq_nonneg (μ * (s'.x i - s.x i) + gradChange pb pb' s'.x i)]
    rw [sum_add_distrib, sum_add_distrib, ← mul_sum, ← mul_sum] at h4
    have h5 := mul_le_mul_of_nonneg_left h3 hμ.le
    nlinarith

/-- **C102.** Two problems with the same variables and the same feasible set, and any objectives: two successful solves (any histories, any options
with fine enough thresholds) return values and solutions that differ as said in `ObjStable`; in particular `μ ‖x'-x‖` is at most the norm of the
change of the gradient at `x'`. -/
theorem C102_objective {pb pb' : Pb ℝ EReal} (hr : StdPb pb) (hr' : StdPb pb') (h : SameFeasible pb pb') :
    ∃ ε > 0, ∃ β : ℝ, ∀ o o', Fine ε β pb o → Fine ε β pb' o' → ∀ t s t' s', Solves o pb t s → Solves o' pb' t' s' →
      t = t' ∧ (t = .success → ObjStable pb pb' s.x s'.x s.f s'.f) := by
  obtain ⟨ε, hε, β, hh⟩ := two_answers hr hr'
  refine ⟨ε, hε, β, fun o o' ho ho' t s t' s' h1 h2 => ?_⟩
  obtain ⟨a1, a2⟩ := hh o o' ho ho' _ _ _ _ h1 h2
  have key : t = .success ↔ t' = .success := by
    rw [a1.feasible_iff, a2.feasible_iff]
    exact exists_congr fun y => (h.feasible y).symm
  have ht : t = t' := by
    rcases a1.status with g | g
    · rw [g, key.1 g]
    · rcases a2.status with g' | g'
      · exact absurd (key.2 g') (by rw [g]; decide)
      · rw [g, g']
  refine ⟨ht, fun hs => ?_⟩
  subst ht
  subst hs
  exact a1.objStable hr hr' h a2

/-- **C102, warm start.** The same for warm-started solves. -/
theorem C102_warm {pb pb' : Pb ℝ EReal} (hr : StdPb pb) (hr' : StdPb pb') (h : SameFeasible pb pb') {warm warm' : Bool} {as as' : List Status}
    (ha : GoodWarm warm pb as) (ha' : GoodWarm warm' pb' as') :
    ∃ ε > 0, ∃ β : ℝ, ∀ o o', WFine ε β warm pb o → WFine ε β warm' pb' o' → ∀ s s', WarmSolves o pb as .success s →
      WarmSolves o' pb' as' .success s' → ObjStable pb pb' s.x s'.x s.f s'.f := by
  obtain ⟨ε, hε, β, hh⟩ := two_warm_answers hr hr' ha ha'
  refine ⟨ε, hε, β, fun o o' ho ho' s s' h1 h2 => ?_⟩
  obtain ⟨a1, a2⟩ := hh o o' ho ho' _ _ h1 h2
  exact a1.objStable hr hr' h a2

/-- `pm` has the variables and the feasible set of `pb` and `pb'`, and an objective at `t` between theirs, Hessian and vector. -/
structure BetweenObjectives (t : ℝ) (pb pb' pm : Pb ℝ EReal) : Prop where
  left : SameFeasible pb pm
  right : SameFeasible pb pb'
  G : ∀ i < pb.n, ∀ j < pb.n, hess pm i j = t * hess pb i j + (1 - t) * hess pb' i j
  a : ∀ i < pb.n, pm.a i = t * pb.a i + (1 - t) * pb'.a i

/-- **C102, concavity.** The value returned is a concave function of the Hessian and of the vector together. -/
theorem C102_concave {t : ℝ} (h0 : 0 ≤ t) (h1 : t ≤ 1) {pb pb' pm : Pb ℝ EReal} (hr : StdPb pb) (hr' : StdPb pb') (hm : StdPb pm)
    (h : BetweenObjectives t pb pb' pm) :
    ∃ ε > 0, ∃ β : ℝ, ∀ o o' om, Fine ε β pb o → Fine ε β pb' o' → Fine ε β pm om → ∀ s s' tm sm, Solves o pb .success s → Solves o' pb' .success s' →
      Solves om pm tm sm → tm = .success ∧ t * s.f + (1 - t) * s'.f ≤ sm.f := by
  obtain ⟨ε, hε, β, hh⟩ := three_answers hr hr' hm
  refine ⟨ε, hε, β, fun o o' om ho ho' hom s s' tm sm g1 g2 g3 => ?_⟩
  obtain ⟨a1, a2, a3⟩ := hh o o' om ho ho' hom _ _ _ _ _ _ g1 g2 g3
  have ht : tm = .success := a3.feasible_iff.2 ⟨_, (h.left.feasible _).2 (a1.optimal rfl).1.1⟩
  have hy := (a3.optimal ht).1.1
  have hy1 : Feasible pb sm.x := (h.left.feasible _).1 hy
  have hy2 : Feasible pb' sm.x := (h.right.feasible _).2 hy1
  have k1 := (a1.optimal rfl).1.2 _ hy1
  have k2 := (a2.optimal rfl).1.2 _ hy2
  rw [← a1.value] at k1
  rw [← a2.value] at k2
  have em : obj pm sm.x = t * obj pb sm.x + (1 - t) * obj pb' sm.x := by
    unfold obj
    rw [h.left.n, h.right.n]
    have e : ∑ i ∈ range pb.n, pm.a i * sm.x i = t * ∑ i ∈ range pb.n, pb.a i * sm.x i + (1 - t) * ∑ i ∈ range pb.n, pb'.a i * sm.x i := by
      rw [mul_sum, mul_sum, ← sum_add_distrib]
      exact sum_congr rfl fun i hi => by rw [h.a i (mem_range.1 hi)]; ring
    have e' : ∑ i ∈ range pb.n, ∑ j ∈ range pb.n, sm.x i * hess pm i j * sm.x j =
        t * ∑ i ∈ range pb.n, ∑ j ∈ range pb.n, sm.x i * hess pb i j * sm.x j +
        (1 - t) * ∑ i ∈ range pb.n, ∑ j ∈ range pb.n, sm.x i * hess pb' i j * sm.x j := by
      rw [mul_sum, mul_sum, ← sum_add_distrib]
      refine sum_congr rfl fun i hi => ?_
      rw [mul_sum, mul_sum, ← sum_add_distrib]
      exact sum_congr rfl fun j hj => by rw [h.G i (mem_range.1 hi) j (mem_range.1 hj)]; ring
    rw [e, e']; ring
  rw [a3.value, em]
  have c1 := mul_le_mul_of_nonneg_left k1 h0
  have c2 := mul_le_mul_of_nonneg_left k2 (sub_nonneg.2 h1)
  exact ⟨ht, by linarith⟩

/-! ### Example -/

/-- `exPbW` with its Hessian multiplied by `k` and another vector. -/
noncomputable def exPbK (k : ℝ) (v : Nat → ℝ) : Pb ℝ EReal := { exPbW with G := fun i j => k * exPbW.G i j, a := v }

theorem exPbK_hess (k : ℝ) (v : Nat → ℝ) (i j : Nat) : hess (exPbK k v) i j = k * hess exPbW i j := by
  unfold hess exPbK
  dsimp only
  split <;> rfl

/-- The hypotheses of the C102 theorems are met: the example of C94 with any positive multiple of its Hessian and any vector. -/
theorem C102_hypotheses_met {k : ℝ} (hk : 0 < k) (v : Nat → ℝ) : StdPb (exPbK k v) ∧ GoodWarm true (exPbK k v) exAs ∧
    (∃ y, Feasible (exPbK k v) y) ∧ SameFeasible exPbW (exPbK k v) ∧
    ∀ t : ℝ, BetweenObjectives t exPbW (exPbK k v) (exPbK (t + (1 - t) * k) fun i => t * exPbW.a i + (1 - t) * v i) := by
  obtain ⟨h1, h2, hf, -⟩ := C98_hypotheses_met
  have hfe : ∀ k v y, Feasible (exPbK k v) y ↔ Feasible exPbW y := fun _ _ y => ⟨fun h => ⟨h.1, h.2⟩, fun h => ⟨h.1, h.2⟩⟩
  refine ⟨⟨⟨h1.proper.1, h1.proper.2, h1.proper.3, h1.proper.4⟩, ⟨h1.notCrossed.1, h1.notCrossed.2⟩, ?_, ?_, ?_⟩,
    ⟨h2.explicit, ⟨h2.arg.len, h2.arg.opt, h2.arg.kind.1, h2.arg.kind.2⟩, h2.noFalseEq, ?_, h2.indep⟩, ?_, ⟨rfl, fun x => hfe _ _ x⟩,
    fun t => ⟨⟨rfl, fun x => hfe _ _ x⟩, ⟨rfl, fun x => hfe _ _ x⟩, fun i _ j _ => ?_, fun i _ => rfl⟩⟩
  · have e : (Matrix.of fun i j : Fin (exPbK k v).n => hess (exPbK k v) i j) = k • (Matrix.of fun i j : Fin exPbW.n => hess exPbW i j) := by
      ext i j
      show hess (exPbK k v) i j = k * hess exPbW i j
      exact exPbK_hess k v i j
    rw [e]
    exact h1.posDef.smul hk
  · obtain ⟨e, he⟩ := h1.eqFirst
    exact ⟨e, he⟩
  · exact h1.indep
  · exact fun e he => h2.eqAct e he
  · obtain ⟨y, hy⟩ := hf
    exact ⟨y, (hfe _ _ y).2 hy⟩
  · rw [exPbK_hess, exPbK_hess]; ring

end JrlQp
