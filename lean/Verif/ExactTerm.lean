import Verif.ExactSolve
import Mathlib.Data.Fintype.Pi
import Mathlib.Data.Fintype.BigOperators
import Mathlib.Data.Fintype.Card

/-!
# Termination in exact arithmetic (C18)

After each full step the objective is determined by the statuses of the constraints and is strictly larger than before:
no combination of statuses can occur twice.
-/

namespace JrlQp

open NumOps Finset Spec

instance : Fintype Status :=
  ⟨{.inactive, .lower, .upper, .equality, .lowerBound, .upperBound, .fixed}, by intro x; cases x <;> simp⟩

theorem card_status : Fintype.card Status = 7 := rfl

theorem quad_nonneg {n : Nat} {H : Nat → Nat → ℝ} (hpd : PosDefN n H) (v : Nat → ℝ) :
    0 ≤ ∑ a ∈ range n, ∑ b ∈ range n, v a * H a b * v b := by
  by_cases hv : ∃ i < n, v i ≠ 0
  · exact (hpd v hv).le
  · push Not at hv
    apply le_of_eq
    symm
    apply sum_eq_zero; intro a ha
    apply sum_eq_zero; intro b _
    rw [hv a (mem_range.1 ha)]; ring

theorem value_le {pb : Pb ℝ EReal} (hpd : PosDefN pb.n (hess pb)) {s s' : State ℝ} (h : Alg pb s (fun _ => 0))
    (h' : Alg pb s' (fun _ => 0)) (hst : ∀ i < pb.m + pb.nb, s.A.statusAt i = s'.A.statusAt i) : s.f ≤ s'.f := by
  have halg : Alg pb s (fun a => 0 * normal pb ⟨0, .inactive⟩ a) := h.congr (by simp)
  have hw := h.good.dim.wf
  have hw' := h'.good.dim.wf
  rw [h.f, h'.f, obj_expand pb s.x s'.x, halg.grad s'.x]
  have h1 : ∑ k ∈ range s.A.q, s.u k * (ndot pb (s.A.act k) s'.x - rhs pb (s.A.act k)) = 0 := by
    apply sum_eq_zero
    intro k hk
    have hk := mem_range.1 hk
    obtain ⟨hlt, hne⟩ := ActiveSet.get_lt s.A hw k (by rw [← hw.q_eq]; exact hk)
    rw [hw.size, h.good.dim.nbCstr, h.good.dim.nbBnd] at hlt
    rw [hst _ hlt] at hne
    have hmem := (hw'.mem (s.A.get k)).2 ⟨by rw [hw'.size, h'.good.dim.nbCstr, h'.good.dim.nbBnd]; exact hlt, hne⟩
    obtain ⟨k', hk', he⟩ := List.getElem_of_mem hmem
    have hg : s'.A.get k' = s.A.get k := by rw [ActiveSet.get, List.getD_eq_getElem _ _ hk', he]
    have hA : s'.A.act k' = s.A.act k := by
      rw [ActiveSet.act, ActiveSet.act, hg, hst _ hlt]
    have := h'.tight k' (by rw [hw'.q_eq]; exact hk')
    rw [hA] at this
    rw [this]; ring
  have h2 := quad_nonneg hpd (fun a => s'.x a - s.x a)
  rw [h1]
  linarith

/-- The objective value attached to a choice of statuses. -/
noncomputable def statusValue (pb : Pb ℝ EReal) (σ : Fin (pb.m + pb.nb) → Status) : ℝ :=
  open Classical in
  if h : ∃ s : State ℝ, Alg pb s (fun _ => 0) ∧ ∀ i : Fin (pb.m + pb.nb), s.A.statusAt i = σ i then h.choose.f else 0

/-- All the values the objective can take after a full step. -/
noncomputable def allValues (pb : Pb ℝ EReal) : Finset ℝ :=
  open Classical in Finset.univ.image (statusValue pb)

theorem card_allValues (pb : Pb ℝ EReal) : (allValues pb).card ≤ 7 ^ (pb.m + pb.nb) := by
  classical
  unfold allValues
  refine card_image_le.trans ?_
  simp [card_status]

theorem mem_allValues {pb : Pb ℝ EReal} (hpd : PosDefN pb.n (hess pb)) {s : State ℝ} (h : Alg pb s (fun _ => 0)) :
    s.f ∈ allValues pb := by
  classical
  unfold allValues
  rw [mem_image]
  refine ⟨fun i => s.A.statusAt i, mem_univ _, ?_⟩
  have hex : ∃ s1 : State ℝ, Alg pb s1 (fun _ => 0) ∧
      ∀ i : Fin (pb.m + pb.nb), s1.A.statusAt i = s.A.statusAt i := ⟨s, h, fun _ => rfl⟩
  unfold statusValue
  rw [dif_pos hex]
  obtain ⟨h1, h2⟩ := hex.choose_spec
  exact le_antisymm (value_le hpd h1 h (fun i hi => h2 ⟨i, hi⟩)) (value_le hpd h h1 (fun i hi => (h2 ⟨i, hi⟩).symm))

/-- Number of values above `f`. -/
noncomputable def above (pb : Pb ℝ EReal) (f : ℝ) : Nat := open Classical in ((allValues pb).filter (f < ·)).card

theorem above_le (pb : Pb ℝ EReal) (f : ℝ) : above pb f ≤ 7 ^ (pb.m + pb.nb) :=
  (card_filter_le _ _).trans (card_allValues pb)

theorem above_mono (pb : Pb ℝ EReal) {f g : ℝ} (h : f ≤ g) : above pb g ≤ above pb f := by
  classical
  apply card_le_card
  intro v hv
  rw [mem_filter] at hv ⊢
  exact ⟨hv.1, lt_of_le_of_lt h hv.2⟩

theorem above_lt (pb : Pb ℝ EReal) {f g : ℝ} (h : f < g) (hg : g ∈ allValues pb) : above pb g < above pb f := by
  classical
  apply card_lt_card
  rw [ssubset_iff_of_subset]
  · exact ⟨g, by rw [mem_filter]; exact ⟨hg, h⟩, by rw [mem_filter]; simp⟩
  · intro v hv
    rw [mem_filter] at hv ⊢
    exact ⟨hv.1, h.trans hv.2⟩

/-- Bound on the number of remaining iterations. -/
noncomputable def remaining (pb : Pb ℝ EReal) (s : State ℝ) (skip : Bool) : Nat :=
  (pb.n + 1) * above pb s.f + if skip then s.A.q else pb.n

theorem remaining_le (pb : Pb ℝ EReal) (s : State ℝ) (h : Good pb s) (skip : Bool) :
    remaining pb s skip < (pb.n + 1) * (7 ^ (pb.m + pb.nb) + 1) := by
  have h1 := above_le pb s.f
  have h2 : (if skip then s.A.q else pb.n) ≤ pb.n := by
    have := h.q_le
    rw [h.dim.nbVar] at this
    split_ifs <;> omega
  have h3 : (pb.n + 1) * above pb s.f ≤ (pb.n + 1) * 7 ^ (pb.m + pb.nb) := Nat.mul_le_mul_left _ h1
  unfold remaining
  rw [Nat.mul_add]
  omega

theorem iterate_remaining {o : Opts ℝ} {pb : Pb ℝ EReal} (hp : Proper pb) (hx : NotCrossed pb) (ht0 : 0 ≤ o.tiny)
    (hpd : PosDefN pb.n (hess pb)) {e : Nat} {s : State ℝ} {sc : SC} {skip : Bool} (h : LoopInv pb s sc skip)
    (hD : DInv pb e s sc skip) (hreg : RegIter o pb s sc skip) {s' sc' skip'}
    (hr : iterate o pb s sc skip = .ok (.cont s' sc' skip')) :
    LoopInv pb s' sc' skip' ∧ DInv pb e s' sc' skip' ∧ s.f ≤ s'.f ∧ (skip' = false → s.f < s'.f) ∧
      remaining pb s' skip' < remaining pb s skip := by
  rcases iterate_dual hp hx ht0 h hD hreg hr with ⟨h1, _⟩ | ⟨sc1, h1, h2⟩
  · cases h1
  · obtain ⟨a1, a2, a3, a4⟩ := h1
    obtain ⟨b1, b2⟩ := h2
    rw [← b1] at b2
    refine ⟨b2, a1, a2, a3, ?_⟩
    have hq : s.A.q ≤ pb.n := by rw [← h.alg.good.dim.nbVar]; exact h.alg.good.q_le
    unfold remaining
    cases skip' with
    | true =>
      have := a4 rfl
      have hm : (pb.n + 1) * above pb s'.f ≤ (pb.n + 1) * above pb s.f := Nat.mul_le_mul_left _ (above_mono pb a2)
      simp only [if_true]
      split_ifs <;> omega
    | false =>
      have hlt := above_lt pb (a3 rfl) (mem_allValues hpd (b2.alg.congr (by simp)))
      have hm : (pb.n + 1) * (above pb s'.f + 1) ≤ (pb.n + 1) * above pb s.f := Nat.mul_le_mul_left _ hlt
      rw [Nat.mul_add] at hm
      simp only [Bool.false_eq_true, if_false]
      omega

theorem loop_terminates {o : Opts ℝ} {pb : Pb ℝ EReal} (hp : Proper pb) (hx : NotCrossed pb) (ht0 : 0 ≤ o.tiny)
    (hpd : PosDefN pb.n (hess pb)) {e : Nat} (fuel : Nat) : ∀ {s : State ℝ} {sc : SC} {skip : Bool}, LoopInv pb s sc skip →
    DInv pb e s sc skip → RegLoop o pb fuel s sc skip → remaining pb s skip < fuel → ∀ {t s'},
    loop o pb fuel s sc skip = .ok (t, s') → t = .success ∨ t = .infeasible := by
  induction fuel with
  | zero => intro s sc skip _ _ _ hlt; omega
  | succ fuel ih =>
    intro s sc skip h hD hreg hlt t s' hl
    simp only [loop] at hl
    simp only [RegLoop] at hreg
    cases hr : iterate o pb s sc skip with
    | error e => simp [hr] at hl
    | ok r =>
      rw [hr] at hl hreg
      cases r with
      | done t1 s1 =>
        simp only [Except.ok.injEq, Prod.mk.injEq] at hl
        obtain ⟨rfl, rfl⟩ := hl
        rcases iterate_dual hp hx ht0 h hD hreg.1 hr with ⟨h1, _⟩ | ⟨sc1, h1, _⟩
        · cases h1; exact Or.inl rfl
        · exact Or.inr h1.1
      | cont s1 sc1 k1 =>
        obtain ⟨a1, a2, _, _, a5⟩ := iterate_remaining hp hx ht0 hpd h hD hreg.1 hr
        exact ih (a1.setIt _) (a2.setIt _) hreg.2 (show remaining pb s1 k1 < fuel by omega) hl

/-- **C18 (partial), iteration bound.** In exact arithmetic, under the hypotheses of C07, `solve` does not return
`MAX_ITER_REACHED` when `maxIter` is at least `(n+1) (7^(m+nb) + 1)`: it ends with `SUCCESS`, `INFEASIBLE` or
`NON_POS_HESSIAN`. -/
theorem C18_terminates_partial {o : Opts ℝ} {pb : Pb ℝ EReal} (hp : Proper pb) (hx : NotCrossed pb) {s : State ℝ}
    (hi : Inv s) {e : Nat} (he : EqFirst pb e) (hr : RegSolve o pb s)
    (hmax : (pb.n + 1) * (7 ^ (pb.m + pb.nb) + 1) ≤ o.maxIter) {t s'} (h : solve o pb s = .ok (t, s')) :
    t ≠ .maxIterReached := by
  have hd : Dim pb (solveStart o pb s) := start_dim hi
  rcases solve_cases h with ⟨t1, h1, h2, h3⟩ | ⟨s1, h1, h2⟩
  · rcases init_nonpos hd h2 with ⟨a, _⟩ | ⟨a, _⟩
    · exact absurd a h1
    · rw [h3, a]; simp
  · have hc : cholOk pb := by
      rcases init_nonpos hd h1 with ⟨_, a⟩ | ⟨a, _⟩
      · exact a
      · cases a
    obtain ⟨g2, g3⟩ := init_both hp hr.tiny hd hc hr.init he h1
    have hit : s1.it = 0 := by rw [(init_it h1).1]; rfl
    have := loop_terminates hp hx hr.tiny (posDef_of_chol hc) _ g2 g3 (hr.loop s1 h1)
      (by have := remaining_le pb s1 g2.alg.good false; omega) h2
    rcases this with rfl | rfl <;> simp

end JrlQp
