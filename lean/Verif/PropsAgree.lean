import Verif.PropsMeta
import Verif.PropsExpEx
import Verif.PropsBox
import Verif.PropsWarm

/-! C94: the solvers agree (exact arithmetic). On a problem in the scope of two of the solvers, a cold start, a warm start and the box solver return the
same status, the same point and the same value, whatever the histories of the solver objects, the options and the warm start. -/

namespace JrlQp

open NumOps Finset Spec

/-! ## Specification -/

/-- Some history of legal calls of the experimental solver followed by `solve o pb as` ends with status `t` in state `s'`. -/
def WarmSolves (o : Opts ℝ) (pb : Pb ℝ EReal) (as : List Status) (t : Term) (s' : State ℝ) : Prop :=
  ∃ (cs : List (XCall ℝ EReal)) (xs xs' : XState ℝ), (∀ c ∈ cs, c.Admissible) ∧ xcalls cs XState.empty = .ok xs ∧
    xsolve o pb as xs = .ok (t, xs') ∧ s' = xs'.s

/-- Some history of legal calls of the box solver followed by one more solve ends with status `t` in state `s'`. -/
def BoxSolves (o : Opts ℝ) (n : Nat) (x0 c : Nat → ℝ) (bl : EReal) (xl xu : Nat → EReal) (t : Term) (s' : State ℝ) : Prop :=
  ∃ (cs : List (BoxCall ℝ EReal)) (s : State ℝ), (∀ b ∈ cs, b.Admissible) ∧ boxCalls cs State.empty = .ok s ∧
    boxSolve o n x0 c bl ⊤ xl xu s = .ok (t, s')

/-- The warm start `as` is of the documented form for `pb`: explicit if `warm` is set, as many statuses as constraints and bounds, no inequality marked
`EQUALITY`, the equality constraints marked, and independent gradients. -/
structure GoodWarm (warm : Bool) (pb : Pb ℝ EReal) (as : List Status) : Prop where
  explicit : warm = true → as ≠ []
  arg : ArgOk ⟨0, 0, warm, 0, false⟩ pb as
  noFalseEq : NoFalseEq (K := ℝ) ⟨0, 0, warm, 0, false⟩ pb as
  eqAct : ∀ e, EqFirst pb e → EqActFirst (K := ℝ) ⟨0, 0, warm, 0, false⟩ pb as e
  indep : WarmIndep warm pb as

/-- Same status, same point and value on success. -/
structure Agree (pb : Pb ℝ EReal) (t t' : Term) (s s' : State ℝ) (k : ℝ) : Prop where
  status : t' = t
  point : t = .success → ∀ i < pb.n, s'.x i = s.x i
  value : t = .success → s'.f = s.f + k

/-! ## Theorems -/

/-- **C94, warm start.** The warm-started experimental solver and the cold-started one agree on every standard problem, whatever the warm starts. -/
theorem C94_warm_agrees {pb : Pb ℝ EReal} (hr : StdPb pb) {warm : Bool} {as : List Status} (ha : GoodWarm warm pb as) :
    ∃ ε > 0, ∃ β : ℝ, ∀ o o', Fine ε β pb o → Fine ε β pb o' → o'.warmStart = warm → pb.n + (pb.n + 1) * (7 ^ (pb.m + pb.nb) + 1) ≤ o'.maxIter →
      ∀ t s t' s', Solves o pb t s → WarmSolves o' pb as t' s' → Agree pb t t' s s' 0 := by
  obtain ⟨e, he⟩ := hr.eqFirst
  obtain ⟨ε1, hε1, β1, hh1⟩ := hr.answers
  obtain ⟨ε2, hε2, β2, hh2⟩ := C24_thresholds_partial (o0 := ⟨0, 0, warm, 0, false⟩) hr.proper hr.notCrossed hr.posDef he ha.explicit ha.arg ha.noFalseEq
    (ha.eqAct e he) ha.indep
  refine ⟨min ε1 ε2, lt_min hε1 hε2, max β1 β2, fun o o' ho ho' hw hm t s t' s' h1 h2 => ?_⟩
  have a := hh1 o ⟨ho.1, ho.2.1.trans_le (min_le_left _ _), (le_max_left _ _).trans_lt ho.2.2.1, ho.2.2.2⟩ t s h1
  obtain ⟨cs, xs, xs', c1, c2, c3, rfl⟩ := h2
  obtain ⟨ys, u, ys', d1, d2, d3, d4, d5, d6⟩ := hh2 o' hw ho'.1 (ho'.2.1.trans_le (min_le_right _ _)) ((le_max_right _ _).trans_lt ho'.2.2.1) cs c1
  rw [c2] at d1
  simp only [Except.ok.injEq] at d1
  subst d1
  rw [c3] at d2
  simp only [Except.ok.injEq, Prod.mk.injEq] at d2
  obtain ⟨rfl, rfl⟩ := d2
  have ht : t' = t := by
    rcases d3 with g | g | g
    · rw [g, eq_comm, a.feasible_iff]; exact ⟨_, (d4 g).1.1.1⟩
    · rcases a.status with g' | g'
      · exact absurd (a.feasible_iff.1 g') (d5 g)
      · rw [g, g']
    · exact absurd (d6 g) (by omega)
  refine ⟨ht, fun hs i hi => (a.optimal hs).2 _ (d4 (ht.trans hs)).1.1 i hi, fun hs => ?_⟩
  have b1 := (a.optimal hs).1
  obtain ⟨b2, _, b3⟩ := d4 (ht.trans hs)
  rw [b3, a.value]
  have := b1.2 _ b2.1.1
  have := b2.1.2 _ b1.1
  linarith

/-- **C94, box solver.** The box solver, which receives the point to project, agrees with the general solver on the quadratic program `boxSpec` with the
identity as Hessian and `-x0` as vector; the values differ by the constant `½ ‖x0‖²`. -/
theorem C94_box_agrees {n : Nat} {x0 c : Nat → ℝ} {bl : EReal} {xl xu : Nat → EReal} (hr : StdPb (boxSpec n x0 c bl xl xu)) :
    ∃ ε > 0, ∃ β : ℝ, ∀ o o', Fine ε β (boxSpec n x0 c bl xl xu) o → Fine ε β (boxSpec n x0 c bl xl xu) o' →
      ∀ t s t' s', Solves o (boxSpec n x0 c bl xl xu) t s → BoxSolves o' n x0 c bl xl xu t' s' →
        Agree (boxSpec n x0 c bl xl xu) t t' s s' (1 / 2 * ∑ i ∈ range n, x0 i ^ 2) := by
  have hub : 0 < n → (boxSpec n x0 c bl xl xu).useBnd = true := fun h => by simp [boxSpec, boxPb, h]
  have hd : BoxData n bl xl xu := by
    refine ⟨hr.proper.1 0 (by simp [boxSpec, boxPb]), fun i hi => ?_, fun i hi => ?_, fun i hi => ?_⟩
    · exact hr.proper.3 (hub (by omega)) i hi
    · exact hr.proper.4 (hub (by omega)) i hi
    · exact hr.notCrossed.2 (hub (by omega)) i hi
  obtain ⟨ε1, hε1, β1, hh1⟩ := hr.answers
  obtain ⟨ε2, hε2, β2, hh2⟩ := C25_thresholds_partial x0 c hd
  refine ⟨min ε1 ε2, lt_min hε1 hε2, max β1 β2, fun o o' ho ho' t s t' s' h1 h2 => ?_⟩
  have a := hh1 o ⟨ho.1, ho.2.1.trans_le (min_le_left _ _), (le_max_left _ _).trans_lt ho.2.2.1, ho.2.2.2⟩ t s h1
  obtain ⟨cs, s0, c1, c2, c3⟩ := h2
  obtain ⟨ys, u, ys', d1, d2, d3, d4, d5, d6⟩ := hh2 o' ho'.1 (ho'.2.1.trans_le (min_le_right _ _)) ((le_max_right _ _).trans_lt ho'.2.2.1) cs c1
  rw [c2] at d1
  simp only [Except.ok.injEq] at d1
  subst d1
  rw [c3] at d2
  simp only [Except.ok.injEq, Prod.mk.injEq] at d2
  obtain ⟨rfl, rfl⟩ := d2
  have hnb : (boxSpec n x0 c bl xl xu).m + (boxSpec n x0 c bl xl xu).nb = 1 + n := by
    show 1 + (boxPb n x0 c bl ⊤ xl xu).nb = 1 + n
    rw [boxPb_nb]
  have ht : t' = t := by
    rcases d3 with g | g | g
    · rw [g, eq_comm, a.feasible_iff]; exact ⟨_, (boxFeasible_iff _).2 (d4 g).1.1⟩
    · rcases a.status with g' | g'
      · obtain ⟨y, hy⟩ := a.feasible_iff.1 g'
        exact absurd ⟨y, (boxFeasible_iff y).1 hy⟩ (d5 g)
      · rw [g, g']
    · have h4 := ho'.2.2.2
      rw [hnb] at h4
      exact absurd (d6 g) (not_lt.2 h4)
  have hpr : t = .success → IsProjection n (BoxFeasible n c bl xl xu) x0 s.x := fun hs => projection_of_optimal (a.optimal hs)
  have hdist : t = .success → dist2 n s'.x x0 = dist2 n s.x x0 := fun hs => by
    obtain ⟨b2, _⟩ := d4 (ht.trans hs)
    exact le_antisymm (b2.2 _ (hpr hs).1).1 ((hpr hs).2 _ b2.1).1
  refine ⟨ht, fun hs => ?_, fun hs => ?_⟩
  · obtain ⟨b2, _⟩ := d4 (ht.trans hs)
    exact ((hpr hs).2 _ b2.1).2 (hdist hs)
  · rw [(d4 (ht.trans hs)).2, a.value, boxSpec_obj, hdist hs]
    unfold dist2
    ring

/-- The hypotheses of C94 are met: one problem in the scope of the three solvers, with two active constraints at the solution, an explicit warm start
naming them, and fine options; all the solvers return `SUCCESS`. -/
theorem C94_hypotheses_met :
    StdPb exPbW ∧ GoodWarm true exPbW exAs ∧ GoodWarm false exPbW [] ∧
    (∃ n x0 c bl xl xu, boxSpec n x0 c bl xl xu = exPbW) ∧
    (∃ ε > 0, ∃ β : ℝ, ∀ o, Fine ε β exPbW o → ∃ s, Solves o exPbW .success s) ∧
    (∃ o s, o.warmStart = true ∧ WarmSolves o exPbW exAs .success s) := by
  obtain ⟨h1, h2, h3, h4, h5, h6, h7, h8⟩ := exPbW_hyps
  have hn : ∀ e, EqFirst exPbW e → e = 0 := by
    intro e he
    by_contra hne
    have h := he.2 0 (by simp [exPbW, Pb.nb])
    rw [exPbW_isEq 0 (by norm_num)] at h
    simp at h
    omega
  have hs : StdPb exPbW := by
    refine ⟨h1, h2, (cholOk_iff exPbW).1 h3, ⟨0, h4⟩, ?_⟩
    intro c hc h i
    refine hc i fun hh => ?_
    have h9 := exPbW_isEq i (by simpa [exPbW, Pb.nb] using hh.1)
    have h10 : isEqB exPbW i = true := (isEqC_iff (pb := exPbW) (i := i)).2 hh.2
    rw [h9] at h10
    cases h10
  have hf : ∃ y, Feasible exPbW y := by
    obtain ⟨o, _, ho⟩ := exPbW_solved
    obtain ⟨_, xs', _, _, g⟩ := ho [] (by simp)
    exact ⟨_, g.1.1⟩
  refine ⟨hs, ⟨fun _ => by simp [exAs], ?_, ?_, ?_, h8⟩, ⟨by simp, ?_, ?_, ?_, ?_⟩, ⟨2, fun _ => 0, fun _ => 1, ((3 : ℝ) : EReal), exPbW.xl, exPbW.xu, ?_⟩, hs.solved hf, ?_⟩
  · exact ⟨h5.len, Or.inl rfl, h5.kind.1, h5.kind.2⟩
  · exact h6
  · intro e he; rw [hn e he]; exact h7
  · exact ⟨Or.inr rfl, Or.inr rfl, ⟨fun h => absurd h (by decide), fun h => absurd h (by decide)⟩⟩
  · intro h; cases h
  · intro e he; rw [hn e he]; exact Or.inl rfl
  · intro c hc _ i
    refine hc i fun hh => ?_
    rcases hh.2 with g | g
    · have h9 := exPbW_isEq i (by simpa [exPbW, Pb.nb] using hh.1)
      have h10 : isEqB exPbW i = true := (isEqC_iff (pb := exPbW) (i := i)).2 g
      rw [h9] at h10
      cases h10
    · cases g.1
  · have e1 : (kd : Nat → Nat → ℝ) = fun i j => if i = j then 1 else 0 := by funext i j; simp [kd]
    simp [boxSpec, boxPb, exPbW, e1]
  · obtain ⟨o, ho, hh⟩ := exPbW_solved
    obtain ⟨xs, xs', g1, g2, _⟩ := hh [] (by simp)
    exact ⟨o, xs'.s, ho, [], xs, xs', by simp, g1, g2, rfl⟩

end JrlQp
