import Verif.PropsBox

/-!
# The box solver needs a linear number of iterations (C52)

In exact arithmetic the multiplier of the half-space never decreases. A bound that is left by the movement of the multiplier
is left once, a bound that is reached is reached once.
-/

namespace JrlQp

open NumOps Finset Spec

section

variable {n : Nat} {x0 c : Nat → ℝ} {bl : EReal} {xl xu : Nat → EReal}

/-- Sign of a bound. -/
def BoxSgn (st : Status) (d : ℝ) : Prop := (st = .lowerBound ∧ d = 1) ∨ (st = .upperBound ∧ d = -1)

/-- The constraints the box solver can activate. -/
def BoxKind (n : Nat) (sc : SC) : Prop := sc = ⟨0, .lower⟩ ∨ ∃ j < n, ∃ st d, sc = ⟨j + 1, st⟩ ∧ BoxSgn st d

theorem box_kind {sc : SC} (hok : scOk (boxSpec n x0 c bl xl xu) sc = true) (hf : BndFin (boxSpec n x0 c bl xl xu) sc)
    (he : sc.status.isEq = false) : BoxKind n sc := by
  obtain ⟨p, st⟩ := sc
  have hg := scOk_gen hok
  have hb := scOk_bnd hok
  have hm : (boxSpec n x0 c bl xl xu).m = 1 := rfl
  have hn : (boxSpec n x0 c bl xl xu).n = n := rfl
  rw [hm] at hg hb
  rw [hn] at hb
  cases st <;> simp only [Status.isEq] at he
  · exact absurd rfl (scOk_ne hok)
  · left
    have := hg (by simp)
    simp only at this
    have h0 : p = 0 := by omega
    rw [h0]
  · simp only [BndFin] at hf
    obtain ⟨r, hr⟩ := hf
    exact absurd hr (by simp [boxSpec, boxPb])
  · cases he
  · right
    have := hb (by simp)
    exact ⟨p - 1, this.2.2, .lowerBound, 1, by
      have h1 : 1 ≤ p := this.2.1
      have : p - 1 + 1 = p := by omega
      rw [this], Or.inl ⟨rfl, rfl⟩⟩
  · right
    have := hb (by simp)
    exact ⟨p - 1, this.2.2, .upperBound, -1, by
      have h1 : 1 ≤ p := this.2.1
      have : p - 1 + 1 = p := by omega
      rw [this], Or.inr ⟨rfl, rfl⟩⟩
  · cases he

theorem normal_half (a : Nat) : normal (boxSpec n x0 c bl xl xu) ⟨0, .lower⟩ a = c a := rfl

theorem normal_box {j : Nat} {st : Status} {d : ℝ} (h : BoxSgn st d) (a : Nat) :
    normal (boxSpec n x0 c bl xl xu) ⟨j + 1, st⟩ a = if a = j then d else 0 := normal_bnd rfl h a

theorem ndot_box {j : Nat} (hj : j < n) {st : Status} {d : ℝ} (h : BoxSgn st d) (v : Nat → ℝ) :
    ndot (boxSpec n x0 c bl xl xu) ⟨j + 1, st⟩ v = d * v j := ndot_bnd (pb := boxSpec n x0 c bl xl xu) rfl hj h v

theorem BoxSgn.sq {st : Status} {d : ℝ} (h : BoxSgn st d) : d * d = 1 := by
  rcases h with ⟨_, rfl⟩ | ⟨_, rfl⟩ <;> norm_num

theorem BoxSgn.ne {st : Status} {d : ℝ} (h : BoxSgn st d) : d ≠ 0 := by
  rcases h with ⟨_, rfl⟩ | ⟨_, rfl⟩ <;> norm_num

theorem get_active {A : ActiveSet} (hw : A.WF) {k : Nat} (hk : k < A.q) : A.statusAt (A.act k).p ≠ .inactive :=
  (ActiveSet.get_lt A hw k (by rw [← hw.q_eq]; exact hk)).2

theorem exists_pos {A : ActiveSet} (hw : A.WF) {i : Nat} (hi : i < A.status.length) (h : A.statusAt i ≠ .inactive) :
    ∃ k < A.q, A.act k = ⟨i, A.statusAt i⟩ := by
  have hm := (hw.mem i).2 ⟨hi, h⟩
  obtain ⟨k, hk, he⟩ := List.getElem_of_mem hm
  have hg : A.get k = i := by rw [ActiveSet.get, List.getD_eq_getElem _ _ hk, he]
  exact ⟨k, by rw [hw.q_eq]; exact hk, by rw [ActiveSet.act, hg]⟩

/-- A combination of the active normals, component by component. -/
theorem box_split {A : ActiveSet} (hw : A.WF) (hk : ∀ k < A.q, BoxKind n (A.act k)) (v : Nat → ℝ) :
    ∃ ρ : ℝ, (∀ k < A.q, (A.act k).p = 0 → v k = ρ) ∧ (A.statusAt 0 = .inactive → ρ = 0) ∧
      (∀ a, A.statusAt (a + 1) = .inactive →
        ∑ k ∈ range A.q, v k * normal (boxSpec n x0 c bl xl xu) (A.act k) a = ρ * c a) ∧
      (∀ a κ st d, κ < A.q → A.act κ = ⟨a + 1, st⟩ → BoxSgn st d →
        ∑ k ∈ range A.q, v k * normal (boxSpec n x0 c bl xl xu) (A.act k) a = ρ * c a + v κ * d) := by
  have hinj : ∀ k < A.q, ∀ l < A.q, (A.act k).p = (A.act l).p → k = l := fun k h1 l h2 h => hw.get_inj h1 h2 h
  have hterm : ∀ a, ∑ k ∈ range A.q, v k * normal (boxSpec n x0 c bl xl xu) (A.act k) a
      = (∑ k ∈ range A.q, if (A.act k).p = 0 then v k else 0) * c a
        + ∑ k ∈ range A.q, if (A.act k).p = a + 1 then v k * normal (boxSpec n x0 c bl xl xu) (A.act k) a else 0 := by
    intro a
    rw [Finset.sum_mul, ← sum_add_distrib]
    apply sum_congr rfl
    intro k hkq
    rcases hk k (mem_range.1 hkq) with h | ⟨j, hj, st, d, h, hs⟩
    · rw [h, normal_half, if_pos rfl, if_neg (by simp)]; ring
    · rw [h, normal_box hs]
      by_cases hja : a = j
      · subst hja; simp
      · simp [hja]
  refine ⟨∑ k ∈ range A.q, if (A.act k).p = 0 then v k else 0, ?_, ?_, ?_, ?_⟩
  · intro k hkq hp
    rw [sum_eq_single k]
    · rw [if_pos hp]
    · intro l hl hne
      rw [if_neg]
      intro h0
      exact hne (hinj l (mem_range.1 hl) k hkq (by rw [h0, hp]))
    · intro h; exact absurd (mem_range.2 hkq) h
  · intro h0
    apply sum_eq_zero
    intro k hkq
    rw [if_neg]
    intro hp
    exact get_active hw (mem_range.1 hkq) (by rw [hp]; exact h0)
  · intro a ha
    rw [hterm a, sum_eq_zero (s := range A.q) (f := fun k => if (A.act k).p = a + 1 then _ else 0), add_zero]
    intro k hkq
    rw [if_neg]
    intro hp
    exact get_active hw (mem_range.1 hkq) (by rw [hp]; exact ha)
  · intro a κ st d hκ hact hs
    rw [hterm a]
    congr 1
    rw [sum_eq_single κ]
    · rw [hact, if_pos rfl, normal_box hs, if_pos rfl]
    · intro l hl hne
      rw [if_neg]
      intro h0
      exact hne (hinj l (mem_range.1 hl) κ hκ (by rw [h0, hact]))
    · intro h; exact absurd (mem_range.2 hκ) h

/-- `lam` is the multiplier of the half-space. -/
structure BoxMul (s : State ℝ) (sc : SC) (skip : Bool) (lam : ℝ) : Prop where
  nn : 0 ≤ lam
  act : ∀ k < s.A.q, (s.A.act k).p = 0 → s.u k = lam
  cnd : skip = true → sc.p = 0 → s.u s.A.q = lam
  none : s.A.statusAt 0 = .inactive → ¬ (skip = true ∧ sc.p = 0) → lam = 0

/-- The inactive bounds on the side from which the components move away are satisfied. -/
def BoxSide (n : Nat) (x0 c : Nat → ℝ) (xl xu : Nat → EReal) (A : ActiveSet) (lam : ℝ) : Prop :=
  ∀ j < n, A.statusAt (j + 1) = .inactive →
    (c j ≤ 0 → ((x0 j + lam * c j : ℝ) : EReal) ≤ xu j) ∧ (0 ≤ c j → xl j ≤ ((x0 j + lam * c j : ℝ) : EReal))

/-- The constraint being processed is the half-space, or a bound towards which the component moves. -/
def BoxPush (n : Nat) (c : Nat → ℝ) (sc : SC) : Prop :=
  sc = ⟨0, .lower⟩ ∨ ∃ i < n, ∃ st d, sc = ⟨i + 1, st⟩ ∧ BoxSgn st d ∧ d * c i < 0

theorem loop_kind {s : State ℝ} {sc : SC} {skip : Bool} (h : LoopInv (boxSpec n x0 c bl xl xu) s sc skip)
    (hD : DInv (boxSpec n x0 c bl xl xu) 0 s sc skip) : ∀ k < s.A.q, BoxKind n (s.A.act k) := by
  intro k hk
  refine box_kind (h.alg.scOk hk) (h.fin k hk) ?_
  have := (hD.pre.act h.alg.good.dim.wf hk)
  by_contra hc
  have := this.1 (by simpa using hc)
  omega

theorem cand_inactive {A : ActiveSet} {sc : SC} (h : Cand A sc) : A.statusAt sc.p = .inactive :=
  ((ActiveSet.activatePre_iff _ _ _).1 h.pre).2.1

/-- Free components are at `x0 + lam c`. -/
theorem free_x {s : State ℝ} {sc : SC} {skip : Bool} (h : LoopInv (boxSpec n x0 c bl xl xu) s sc skip)
    (hD : DInv (boxSpec n x0 c bl xl xu) 0 s sc skip) {lam : ℝ} (hm : BoxMul s sc skip lam)
    (hp : skip = true → BoxPush n c sc) {j : Nat} (hj : j < n) (hin : s.A.statusAt (j + 1) = .inactive)
    (hne : skip = true → sc.p ≠ j + 1) : s.x j = x0 j + lam * c j := by
  have hw := h.alg.good.dim.wf
  obtain ⟨ρ, h1, h2, h3, _⟩ := box_split (n := n) (x0 := x0) (c := c) (bl := bl) (xl := xl) (xu := xu) hw (loop_kind h hD) s.u
  have hst := h.alg.stat j hj
  have hG : ∑ b ∈ range (boxSpec n x0 c bl xl xu).n, hess (boxSpec n x0 c bl xl xu) j b * s.x b = s.x j := by
    rw [Finset.sum_congr rfl (g := fun b => kd j b * s.x b) (fun b _ => by rw [boxSpec_hess])]
    exact sum_kd hj _
  rw [hG, h3 j hin] at hst
  change s.x j + -x0 j = _ at hst
  have hlen : 0 < s.A.status.length := by
    rw [hw.size, h.alg.good.dim.nbCstr]
    show 0 < 1 + _
    omega
  -- the multiplier when the half-space is not the candidate
  have hρ : ¬ (skip = true ∧ sc.p = 0) → ρ = lam := by
    intro hc
    by_cases h0 : s.A.statusAt 0 = .inactive
    · rw [h2 h0, hm.none h0 hc]
    · obtain ⟨k, hk, he⟩ := exists_pos hw hlen h0
      rw [← h1 k hk (by rw [he]), hm.act k hk (by rw [he])]
  cases skip with
  | false =>
    rw [hρ (by simp)] at hst
    simp only [Bool.false_eq_true, if_false, add_zero] at hst
    linarith
  | true =>
    simp only [if_true] at hst
    rcases hp rfl with he | ⟨i, hi, st, d, he, hs, _⟩
    · have h0 : s.A.statusAt 0 = .inactive := by
        have := cand_inactive (h.cand rfl)
        rw [he] at this; exact this
      rw [h2 h0, hm.cnd rfl (by rw [he]), he, normal_half] at hst
      linarith
    · rw [hρ (by rw [he]; simp), he, normal_box hs, if_neg] at hst
      · linarith
      · intro hji
        exact hne rfl (by rw [he, hji])

/-- What is known of the direction: `s` is the state after the computation of the step. -/
theorem box_dir {s : State ℝ} {sc : SC} (h : LoopInv (boxSpec n x0 c bl xl xu) s sc true)
    (hD : DInv (boxSpec n x0 c bl xl xu) 0 s sc true) (hp : BoxPush n c sc)
    (hf : StepFacts (boxSpec n x0 c bl xl xu) s sc) :
    (∀ k < s.A.q, (s.A.act k).p = 0 → s.r k ≤ 0) ∧
    (∀ κ < s.A.q, ∀ a < n, ∀ st d, s.A.act κ = ⟨a + 1, st⟩ → BoxSgn st d → s.z a = 0 ∧ (0 < s.r κ → 0 < d * c a)) := by
  have hw := h.alg.good.dim.wf
  obtain ⟨ρ, h1, h2, h3, h4⟩ := box_split (n := n) (x0 := x0) (c := c) (bl := bl) (xl := xl) (xu := xu) hw (loop_kind h hD) s.r
  have hG : ∀ a < n, ∑ b ∈ range (boxSpec n x0 c bl xl xu).n, hess (boxSpec n x0 c bl xl xu) a b * s.z b = s.z a := by
    intro a ha
    rw [Finset.sum_congr rfl (g := fun b => kd a b * s.z b) (fun b _ => by rw [boxSpec_hess])]
    exact sum_kd ha _
  have hz : ∀ κ < s.A.q, ∀ a < n, ∀ st d, s.A.act κ = ⟨a + 1, st⟩ → BoxSgn st d → s.z a = 0 := by
    intro κ hκ a ha st d hact hs
    have := hf.orth κ hκ
    rw [hact, ndot_box ha hs] at this
    exact (mul_eq_zero.1 this).resolve_left hs.ne
  have hlen : s.A.status.length = 1 + n := by
    rw [hw.size, h.alg.good.dim.nbCstr, h.alg.good.dim.nbBnd]
    show 1 + (boxSpec n x0 c bl xl xu).nb = 1 + n
    rw [show (boxSpec n x0 c bl xl xu).nb = n from boxPb_nb n x0 c bl ⊤ xl xu]
  have hci := cand_inactive (h.cand rfl)
  -- sign of the coefficient of the half-space
  have hρ : (∃ k < s.A.q, (s.A.act k).p = 0) → ρ < 0 := by
    rintro ⟨κ, hκ, hp0⟩
    have hact : s.A.act κ = ⟨0, .lower⟩ := by
      rcases loop_kind h hD κ hκ with e | ⟨j, _, st, d, e, _⟩
      · exact e
      · rw [e] at hp0; simp at hp0
    rcases hp with he | ⟨i, hi, st, d, he, hs, hneg⟩
    · exfalso
      apply get_active hw hκ
      rw [hp0]
      rw [he] at hci
      exact hci
    · by_contra hρ
      rw [not_lt] at hρ
      have ho := hf.orth κ hκ
      rw [hact] at ho
      have hi0 : s.A.statusAt (i + 1) = .inactive := by rw [he] at hci; exact hci
      have hle : ∀ a ∈ range n, c a * s.z a ≤ if a = i then d * c i else 0 := by
        intro a ha
        have ha := mem_range.1 ha
        by_cases hin : s.A.statusAt (a + 1) = .inactive
        · have hsp := hf.split a ha
          rw [hG a ha, h3 a hin, he, normal_box hs] at hsp
          by_cases hai : a = i
          · rw [if_pos hai] at hsp ⊢
            rw [← hai]
            have : s.z a = d - ρ * c a := by linarith
            rw [this]
            nlinarith [mul_nonneg hρ (mul_self_nonneg (c a))]
          · rw [if_neg hai] at hsp ⊢
            have : s.z a = - (ρ * c a) := by linarith
            rw [this]
            nlinarith [mul_nonneg hρ (mul_self_nonneg (c a))]
        · obtain ⟨k, hk, e⟩ := exists_pos hw (by rw [hlen]; omega) hin
          have hza : s.z a = 0 := by
            rcases loop_kind h hD k hk with e' | ⟨j, _, st', d', e', hs'⟩
            · rw [e] at e'; simp at e'
            · rw [e] at e'
              have hj : a = j := by simpa using congrArg SC.p e'
              rw [← hj] at e'
              exact hz k hk a ha st' d' (e.trans e') hs'
          have hai : a ≠ i := by
            rintro rfl
            exact hin hi0
          rw [hza, if_neg hai, mul_zero]
      have hsum := sum_le_sum hle
      rw [Finset.sum_ite_eq' (range n) i, if_pos (mem_range.2 hi)] at hsum
      have ho' : ∑ a ∈ range n, c a * s.z a = 0 := ho
      linarith
  refine ⟨fun k hk hp0 => ?_, fun κ hκ a ha st d hact hs => ⟨hz κ hκ a ha st d hact hs, fun hr => ?_⟩⟩
  · rw [h1 k hk hp0]
    exact (hρ ⟨k, hk, hp0⟩).le
  · have hsp := hf.split a ha
    rw [hG a ha, hz κ hκ a ha st d hact hs, h4 a κ st d hκ hact hs, add_zero] at hsp
    have hsq := hs.sq
    rcases hp with he | ⟨i, hi, st', d', he, hs', hneg⟩
    · have h0 : s.A.statusAt 0 = .inactive := by rw [he] at hci; exact hci
      rw [h2 h0, he, normal_half] at hsp
      have : c a = s.r κ * d := by linarith
      rw [this]
      nlinarith
    · have hai : a ≠ i := by
        rintro rfl
        apply get_active hw hκ
        rw [hact]
        rw [he] at hci
        exact hci
      rw [he, normal_box hs', if_neg hai] at hsp
      by_cases h0 : s.A.statusAt 0 = .inactive
      · rw [h2 h0] at hsp
        have : s.r κ * d = 0 := by linarith
        rcases mul_eq_zero.1 this with e | e
        · exact absurd e hr.ne'
        · exact absurd e hs.ne
      · obtain ⟨k, hk, e⟩ := exists_pos hw (by rw [hlen]; omega) h0
        have hρ' := hρ ⟨k, hk, by rw [e]⟩
        have h5 : ρ * (d * c a) = - s.r κ := by
          have : ρ * c a = - (s.r κ * d) := by linarith
          calc ρ * (d * c a) = d * (ρ * c a) := by ring
            _ = - s.r κ * (d * d) := by rw [this]; ring
            _ = _ := by rw [hsq, mul_one]
        by_contra hcon
        rw [not_lt] at hcon
        nlinarith [mul_nonneg_of_nonpos_of_nonpos hρ'.le hcon]

/-- The multiplier of the half-space does not decrease along a step. -/
theorem box_mul {s : State ℝ} {sc : SC} (h : LoopInv (boxSpec n x0 c bl xl xu) s sc true)
    (hD : DInv (boxSpec n x0 c bl xl xu) 0 s sc true) (hp : BoxPush n c sc)
    (hf : StepFacts (boxSpec n x0 c bl xl xu) s sc) {lam : ℝ} (hm : BoxMul s sc true lam) {t : ℝ} (ht : 0 ≤ t) {s1 : State ℝ}
    (hA : s1.A = s.A) (hu : s1.u = dualStep s.A.q t s.u s.r) : ∃ lam', lam ≤ lam' ∧ BoxMul s1 sc true lam' := by
  have hw := h.alg.good.dim.wf
  obtain ⟨ρ, h1, h2, _⟩ := box_split (n := n) (x0 := x0) (c := c) (bl := bl) (xl := xl) (xu := xu) hw (loop_kind h hD) s.r
  have hd := (box_dir h hD hp hf).1
  have hci := cand_inactive (h.cand rfl)
  by_cases h0 : sc.p = 0
  · have hin : s.A.statusAt 0 = .inactive := by rw [← h0]; exact hci
    refine ⟨lam + t, by linarith, by have := hm.nn; linarith, ?_, ?_, ?_⟩
    · intro k hk hk0
      rw [hA] at hk hk0
      exact absurd hin (by rw [← hk0]; exact get_active hw hk)
    · intro _ _
      rw [hu, hA]
      simp only [dualStep, lt_irrefl, if_false, if_true]
      rw [hm.cnd rfl h0]
    · intro _ hc
      exact absurd ⟨rfl, h0⟩ hc
  · by_cases hin : s.A.statusAt 0 = .inactive
    · have hl := hm.none hin (fun hc => h0 hc.2)
      refine ⟨lam, le_rfl, hm.nn, ?_, fun _ hc => absurd hc h0, fun _ _ => hl⟩
      intro k hk hk0
      rw [hA] at hk hk0
      exact absurd hin (by rw [← hk0]; exact get_active hw hk)
    · have hlen : 0 < s.A.status.length := by
        rw [hw.size, h.alg.good.dim.nbCstr]
        show 0 < 1 + _
        omega
      obtain ⟨k0, hk0, e⟩ := exists_pos hw hlen hin
      have hr := hd k0 hk0 (by rw [e])
      rw [h1 k0 hk0 (by rw [e])] at hr
      have h3 : 0 ≤ t * -ρ := mul_nonneg ht (by linarith)
      refine ⟨lam - t * ρ, by linarith, by have := hm.nn; linarith, ?_, fun _ hc => absurd hc h0, ?_⟩
      · intro k hk hk'
        rw [hA] at hk hk'
        rw [hu]
        simp only [dualStep, hk, if_true]
        rw [hm.act k hk hk', h1 k hk hk']
      · intro hc; rw [hA] at hc; exact absurd hc hin

/-- Weight of a component in the bound on the number of remaining iterations: `2` for a bound that may still be left, `1`
for a component between its bounds, `0` for a bound that has been reached. -/
noncomputable def boxWt (c : Nat → ℝ) (j : Nat) : Status → Nat
  | .inactive => 1
  | .lowerBound => if 0 < c j then 2 else 0
  | .upperBound => if c j < 0 then 2 else 0
  | _ => 0

/-- Bound on the number of remaining iterations. -/
noncomputable def boxMu (n : Nat) (c : Nat → ℝ) (A : ActiveSet) : Nat :=
  (if A.statusAt 0 = .inactive then 1 else 0) + ∑ j ∈ range n, boxWt c j (A.statusAt (j + 1))

theorem boxMu_le (A : ActiveSet) : boxMu n c A ≤ 2 * n + 1 := by
  have h1 : ∑ j ∈ range n, boxWt c j (A.statusAt (j + 1)) ≤ ∑ _j ∈ range n, 2 := by
    apply sum_le_sum
    intro j _
    cases A.statusAt (j + 1) <;> simp only [boxWt] <;> (try split_ifs) <;> omega
  have h2 : ∑ _j ∈ range n, 2 = 2 * n := by simp [mul_comm]
  unfold boxMu
  split_ifs <;> omega

/-- Leaving a bound. -/
theorem boxMu_drop {A : ActiveSet} (hw : A.WF) {l : Nat} (hl : l < A.q) {j : Nat} (hj : j < n) {st : Status} {d : ℝ}
    (hact : A.act l = ⟨j + 1, st⟩) (hs : BoxSgn st d) (hc : 0 < d * c j) : boxMu n c (A.deactivate l) < boxMu n c A := by
  have hl' : l < A.active.length := by rw [← hw.q_eq]; exact hl
  have hg : A.get l = j + 1 := congrArg SC.p hact
  have hst : A.statusAt (j + 1) = st := by
    have := congrArg SC.status hact
    simp only [ActiveSet.act, hg] at this
    exact this
  unfold boxMu
  have h0 : (A.deactivate l).statusAt 0 = A.statusAt 0 := by
    rw [ActiveSet.deactivate_statusAt _ hw _ _ hl', hg, if_neg (by omega)]
  rw [h0]
  apply Nat.add_lt_add_left
  have hval : ∀ a, (A.deactivate l).statusAt (a + 1) = if a = j then .inactive else A.statusAt (a + 1) := by
    intro a
    rw [ActiveSet.deactivate_statusAt _ hw _ _ hl', hg]
    by_cases haj : a = j
    · rw [if_pos (by omega), if_pos haj]
    · rw [if_neg (by omega), if_neg haj]
  have hstrict : boxWt c j .inactive < boxWt c j (A.statusAt (j + 1)) := by
    rw [hst]
    rcases hs with ⟨rfl, rfl⟩ | ⟨rfl, rfl⟩
    · simp only [boxWt]; rw [if_pos (by linarith)]; omega
    · simp only [boxWt]; rw [if_pos (by linarith)]; omega
  apply sum_lt_sum
  · intro a _
    rw [hval]
    split_ifs with haj
    · rw [haj]; exact hstrict.le
    · exact le_rfl
  · exact ⟨j, mem_range.2 hj, by rw [hval, if_pos rfl]; exact hstrict⟩

/-- Reaching a constraint. -/
theorem boxMu_add {A : ActiveSet} (hw : A.WF) {sc : SC} (hc : Cand A sc) (hp : BoxPush n c sc) :
    boxMu n c (A.activate sc.p sc.status) < boxMu n c A := by
  have hpre := (ActiveSet.activatePre_iff _ _ _).1 hc.pre
  have hi : sc.p < A.status.length := by rw [hw.size]; exact hpre.1
  have hin := cand_inactive hc
  have hval := fun j => ActiveSet.activate_statusAt A sc.p j sc.status hi
  unfold boxMu
  rcases hp with he | ⟨i, hin', st, d, he, hs, hneg⟩
  · rw [he] at hin hval ⊢
    simp only at hin hval ⊢
    rw [hval 0, if_pos rfl, if_neg (by simp), hin, if_pos rfl]
    have : ∑ j ∈ range n, boxWt c j ((A.activate 0 .lower).statusAt (j + 1)) = ∑ j ∈ range n, boxWt c j (A.statusAt (j + 1)) :=
      sum_congr rfl fun j _ => by rw [hval, if_neg (by omega)]
    rw [this]; omega
  · rw [he] at hin hval ⊢
    simp only at hin hval ⊢
    rw [hval 0, if_neg (show ¬ 0 = i + 1 by omega)]
    apply Nat.add_lt_add_left
    have hval' : ∀ a, (A.activate (i + 1) st).statusAt (a + 1) = if a = i then st else A.statusAt (a + 1) := by
      intro a
      rw [hval]
      by_cases hai : a = i
      · rw [if_pos (by omega), if_pos hai]
      · rw [if_neg (by omega), if_neg hai]
    have hstrict : boxWt c i st < boxWt c i (A.statusAt (i + 1)) := by
      rw [hin]
      rcases hs with ⟨rfl, rfl⟩ | ⟨rfl, rfl⟩
      · simp only [boxWt]; rw [if_neg (by linarith)]; omega
      · simp only [boxWt]; rw [if_neg (by linarith)]; omega
    apply sum_lt_sum
    · intro a _
      rw [hval']
      split_ifs with hai
      · rw [hai]; exact hstrict.le
      · exact le_rfl
    · exact ⟨i, mem_range.2 hin', by rw [hval', if_pos rfl]; exact hstrict⟩

theorem BoxSide.mono {A : ActiveSet} {lam lam' : ℝ} (h : BoxSide n x0 c xl xu A lam) (hl : lam ≤ lam') : BoxSide n x0 c xl xu A lam' := by
  intro j hj hin
  obtain ⟨h1, h2⟩ := h j hj hin
  constructor
  · intro hc
    refine le_trans ?_ (h1 hc)
    exact_mod_cast by nlinarith [mul_nonneg (sub_nonneg.2 hl) (neg_nonneg.2 hc)]
  · intro hc
    refine le_trans (h2 hc) ?_
    exact_mod_cast by nlinarith [mul_nonneg (sub_nonneg.2 hl) hc]

/-- What an iteration does. -/
def BoxOut (n : Nat) (x0 c : Nat → ℝ) (xl xu : Nat → EReal) (A : ActiveSet) (sc : SC) : Iter ℝ → Prop
  | .done _ _ => True
  | .cont s sc' skip => sc' = sc ∧ ∃ lam, BoxMul s sc skip lam ∧ BoxSide n x0 c xl xu s.A lam ∧ boxMu n c s.A < boxMu n c A

theorem box_step {o : Opts ℝ} {s0 : State ℝ} {sc : SC} (h0 : LoopInv (boxSpec n x0 c bl xl xu) s0 sc true)
    (hD0 : DInv (boxSpec n x0 c bl xl xu) 0 s0 sc true) (hp : BoxPush n c sc) {lam : ℝ} (hm0 : BoxMul s0 sc true lam)
    (hsd0 : BoxSide n x0 c xl xu s0.A lam) {r}
    (hr : StepR o (boxSpec n x0 c bl xl xu) (computeStep (boxSpec n x0 c bl xl xu) s0 sc) sc r) :
    BoxOut n x0 c xl xu s0.A sc r := by
  have hcand := h0.cand rfl
  have hg := h0.alg.good
  have hsc := Cand.scOk (pb := boxSpec n x0 c bl xl xu) hcand.pre hg.dim.nbCstr hg.dim.nbBnd
  have hf := computeStep_facts (sc := sc) hg.dim.nbVar (by rw [← hg.dim.nbVar]; exact hg.q_le) h0.alg.fac hsc
  have halg := stepR_alg h0 hr
  have hdual := stepR_dual h0 hD0 hr
  have h : LoopInv (boxSpec n x0 c bl xl xu) (computeStep (boxSpec n x0 c bl xl xu) s0 sc) sc true :=
    ⟨(h0.alg.step (sc := sc)).congr (by intro a _; simp [computeStep]), h0.cand, h0.fin, h0.finc⟩
  have hD : DInv (boxSpec n x0 c bl xl xu) 0 (computeStep (boxSpec n x0 c bl xl xu) s0 sc) sc true :=
    ⟨hD0.pre, hD0.pos, hD0.cpos, hD0.viol⟩
  have hm : BoxMul (computeStep (boxSpec n x0 c bl xl xu) s0 sc) sc true lam := ⟨hm0.nn, hm0.act, hm0.cnd, hm0.none⟩
  have hsd : BoxSide n x0 c xl xu (computeStep (boxSpec n x0 c bl xl xu) s0 sc).A lam := hsd0
  have hAA : s0.A = (computeStep (boxSpec n x0 c bl xl xu) s0 sc).A := rfl
  rw [hAA]
  generalize computeStep (boxSpec n x0 c bl xl xu) s0 sc = s at *
  clear h0 hD0 hm0 hsd0 hg hAA hcand
  have hw := h.alg.good.dim.wf
  obtain ⟨hd1, hd2⟩ := box_dir h hD hp hf
  have hel := hD.pre.elig
  -- removal
  have hrem : ∀ (s1 : State ℝ) (l : Nat) (t : ℝ), 0 ≤ t → s1.A = s.A → s1.u = dualStep s.A.q t s.u s.r → l < s.A.q →
      0 < s.r l → (∀ a < n, s.z a = 0 → s1.x a = s.x a) →
      AlgOut (boxSpec n x0 c bl xl xu) sc (.cont (removeConstraint o s1 l) sc true) →
      DInv (boxSpec n x0 c bl xl xu) 0 (removeConstraint o s1 l) sc true →
      BoxOut n x0 c xl xu s.A sc (.cont (removeConstraint o s1 l) sc true) := by
    intro s1 l t ht hA hu hl hrl hx hal hDl
    obtain ⟨lam', hle, hm1⟩ := box_mul h hD hp hf hm ht hA hu
    have hl' : l < s.A.active.length := by rw [← hw.q_eq]; exact hl
    have hAr : (removeConstraint o s1 l).A = s.A.deactivate l := by rw [← hA]; rfl
    have hdp : s.A.deactivatePre l = true := by simpa [ActiveSet.deactivatePre] using hl'
    have hqd := hw.q_deactivate hdp
    -- the dropped constraint is a bound
    obtain ⟨j, hj, st, d, hact, hs⟩ : ∃ j < n, ∃ st d, s.A.act l = ⟨j + 1, st⟩ ∧ BoxSgn st d := by
      rcases loop_kind h hD l hl with e | e
      · have := hd1 l hl (by rw [e])
        linarith
      · exact e
    obtain ⟨hz, hcj⟩ := hd2 l hl j hj st d hact hs
    have hcj := hcj hrl
    have hg : s.A.get l = j + 1 := congrArg SC.p hact
    have hst0 : (s.A.deactivate l).statusAt 0 = s.A.statusAt 0 := by
      rw [ActiveSet.deactivate_statusAt _ hw _ _ hl', hg, if_neg (by omega)]
    have hmr : BoxMul (removeConstraint o s1 l) sc true lam' := by
      refine ⟨hm1.nn, ?_, ?_, ?_⟩
      · intro k hk hk0
        rw [hAr, hqd] at hk
        rw [hAr, act_deactivate hw hl k hk] at hk0
        rw [remove_u k (by rw [hA]; omega)]
        exact hm1.act _ (by rw [hA]; split_ifs <;> omega) (by rw [hA]; exact hk0)
      · intro _ h0
        rw [hAr, hqd, remove_u _ (by rw [hA]; omega), if_neg (by omega), show s.A.q - 1 + 1 = s.A.q by omega]
        have := hm1.cnd rfl h0
        rw [hA] at this
        exact this
      · intro h0 hc
        rw [hAr, hst0] at h0
        exact hm1.none (by rw [hA]; exact h0) hc
    refine ⟨rfl, lam', hmr, ?_, ?_⟩
    · intro a ha hin
      by_cases haj : a = j
      · subst haj
        have hfx := free_x hal.2 hDl hmr (fun _ => hp) ha hin (fun _ he => by
          have hci := cand_inactive (h.cand rfl)
          rw [he] at hci
          exact get_active hw hl (by rw [hact]; exact hci))
        have hx1 : (removeConstraint o s1 l).x a = s.x a := hx a ha hz
        have htl := h.alg.tight l hl
        have hfin := h.fin l hl
        rw [hact] at htl hfin
        rw [ndot_box ha hs] at htl
        rw [hx1] at hfx
        rcases hs with ⟨rfl, rfl⟩ | ⟨rfl, rfl⟩
        · refine ⟨fun hc => by linarith, fun _ => ?_⟩
          simp only [BndFin] at hfin
          obtain ⟨v, hv⟩ := hfin
          have hv' : xl a = (v : EReal) := hv
          have : rhs (boxSpec n x0 c bl xl xu) ⟨a + 1, .lowerBound⟩ = v := by
            show (xl a).toReal = v
            rw [hv', EReal.toReal_coe]
          rw [this] at htl
          rw [hv', ← hfx]
          exact_mod_cast by linarith
        · refine ⟨fun _ => ?_, fun hc => by linarith⟩
          simp only [BndFin] at hfin
          obtain ⟨v, hv⟩ := hfin
          have hv' : xu a = (v : EReal) := hv
          have : rhs (boxSpec n x0 c bl xl xu) ⟨a + 1, .upperBound⟩ = -v := by
            show -(xu a).toReal = -v
            rw [hv', EReal.toReal_coe]
          rw [this] at htl
          rw [hv', ← hfx]
          exact_mod_cast by linarith
      · refine hsd.mono hle a ha ?_
        rw [hAr, ActiveSet.deactivate_statusAt _ hw _ _ hl', hg, if_neg (by omega)] at hin
        exact hin
    · rw [hAr]
      exact boxMu_drop hw hl hj hact hs hcj
  cases hr with
  | infeasible hz hr => trivial
  | dropDual hz l hl he hrl hmin =>
    have ht : 0 ≤ s.u l / s.r l := div_nonneg (hD.pos l hl ((hel l).1 he)) hrl.le
    exact hrem _ l _ ht rfl rfl hl hrl (fun _ _ _ => rfl) halg hdual.1
  | dropFull hz l hl he hrl hmin htl =>
    have ht : 0 ≤ s.u l / s.r l := div_nonneg (hD.pos l hl ((hel l).1 he)) hrl.le
    obtain ⟨_, b2, _⟩ := h.alg.congr (w' := fun a => s.u s.A.q * normal _ sc a) (by intro a _; simp) |>.full hf hsc (s.u l / s.r l)
    refine hrem _ l _ ht rfl rfl hl hrl (fun a ha hz => ?_) halg hdual.1
    rw [b2 a ha, hz]; ring
  | full hz hq hmin =>
    have hsl := hf.slope_pos hz
    have ht : 0 ≤ tFull (boxSpec n x0 c bl xl xu) s sc := by
      rw [tFull]
      have := hD.viol rfl
      exact (div_pos (by linarith) hsl).le
    obtain ⟨lam', hle, hm1⟩ := box_mul h hD hp hf hm ht (s1 := fullUpdate (boxSpec n x0 c bl xl xu) s sc
      (tFull (boxSpec n x0 c bl xl xu) s sc)) rfl rfl
    have hcand := h.cand rfl
    have hpre := (ActiveSet.activatePre_iff _ _ _).1 hcand.pre
    have hi : sc.p < s.A.status.length := by rw [hw.size]; exact hpre.1
    obtain ⟨d1, d2⟩ := act_activate hw hcand.pre
    refine ⟨rfl, lam', ⟨hm1.nn, ?_, by simp, ?_⟩, ?_, boxMu_add hw hcand hp⟩
    · intro k hk hk0
      change k < (s.A.activate sc.p sc.status).q at hk
      change ((s.A.activate sc.p sc.status).act k).p = 0 at hk0
      rw [hw.q_activate hcand.pre] at hk
      by_cases hkq : k = s.A.q
      · rw [hkq, d2] at hk0
        rw [hkq]
        exact hm1.cnd rfl hk0
      · rw [d1 k (by omega)] at hk0
        exact hm1.act k (by show k < s.A.q; omega) hk0
    · intro hin _
      change (s.A.activate sc.p sc.status).statusAt 0 = .inactive at hin
      rw [ActiveSet.activate_statusAt _ _ _ _ hi] at hin
      by_cases hp0 : 0 = sc.p
      · rw [if_pos hp0] at hin
        exact absurd hin hpre.2.2.1
      · rw [if_neg hp0] at hin
        exact hm1.none hin (fun hc => hp0 hc.2.symm)
    · intro a ha hin
      change (s.A.activate sc.p sc.status).statusAt (a + 1) = .inactive at hin
      rw [ActiveSet.activate_statusAt _ _ _ _ hi] at hin
      refine hsd.mono hle a ha ?_
      by_cases hpa : a + 1 = sc.p
      · rw [if_pos hpa] at hin
        exact absurd hin hpre.2.2.1
      · rw [if_neg hpa] at hin
        exact hin

/-- Entry of Step 2. -/
theorem box_enter (hd : BoxData n bl xl xu) {s : State ℝ} {sc : SC} {skip : Bool}
    (h : LoopInv (boxSpec n x0 c bl xl xu) s sc skip) (hD : DInv (boxSpec n x0 c bl xl xu) 0 s sc skip) {lam : ℝ}
    (hm : BoxMul s sc skip lam) (hsd : BoxSide n x0 c xl xu s.A lam) (hp : skip = true → BoxPush n c sc) {s1 : State ℝ} {sc1 : SC}
    (he : Enter (boxSpec n x0 c bl xl xu) s sc skip s1 sc1) : s1.A = s.A ∧ BoxPush n c sc1 ∧ BoxMul s1 sc1 true lam := by
  cases skip with
  | true =>
    simp only [Enter, if_true] at he
    obtain ⟨rfl, rfl⟩ := he
    exact ⟨rfl, hp rfl, hm⟩
  | false =>
    obtain ⟨hi, hv⟩ := enter_inv hd.proper hd.notCrossed h he
    obtain ⟨hv1, hv2⟩ := hv rfl
    obtain ⟨hDe, _, hA⟩ := enter_dual hd.proper hd.notCrossed h hD he
    have hcand := hi.cand rfl
    have hx : s1.x = s.x := by
      simp only [Enter, Bool.false_eq_true, if_false] at he
      rw [he.2.2]
    have hu : ∀ k < s.A.q, s1.u k = s.u k := by
      intro k hk
      simp only [Enter, Bool.false_eq_true, if_false] at he
      rw [he.2.2]
      simp only [upd]
      rw [if_neg (by omega)]
    have hsc := Cand.scOk (pb := boxSpec n x0 c bl xl xu) hcand.pre hi.alg.good.dim.nbCstr hi.alg.good.dim.nbBnd
    have hk := box_kind hsc (hi.finc rfl) hcand.ineq
    have hin := cand_inactive hcand
    rw [hA] at hin
    refine ⟨hA, ?_, hm.nn, ?_, ?_, ?_⟩
    · rcases hk with e | ⟨j, hj, st, d, e, hs⟩
      · exact Or.inl e
      · refine Or.inr ⟨j, hj, st, d, e, hs, ?_⟩
        rw [e] at hin hv1
        have hfx := free_x h hD hm hp hj hin (by simp)
        obtain ⟨g1, g2⟩ := hsd j hj hin
        rw [ndot_box hj hs, hx, hfx] at hv1
        have hfin := hi.finc rfl
        rw [e] at hfin
        by_contra hcon
        rw [not_lt] at hcon
        rcases hs with ⟨rfl, rfl⟩ | ⟨rfl, rfl⟩
        · simp only [BndFin] at hfin
          obtain ⟨v, hv⟩ := hfin
          have hv' : xl j = (v : EReal) := hv
          have : rhs (boxSpec n x0 c bl xl xu) ⟨j + 1, .lowerBound⟩ = v := by
            show (xl j).toReal = v
            rw [hv', EReal.toReal_coe]
          rw [this] at hv1
          have := g2 (by linarith)
          rw [hv'] at this
          have : v ≤ x0 j + lam * c j := by exact_mod_cast this
          linarith
        · simp only [BndFin] at hfin
          obtain ⟨v, hv⟩ := hfin
          have hv' : xu j = (v : EReal) := hv
          have : rhs (boxSpec n x0 c bl xl xu) ⟨j + 1, .upperBound⟩ = -v := by
            show -(xu j).toReal = -v
            rw [hv', EReal.toReal_coe]
          rw [this] at hv1
          have := g1 (by linarith)
          rw [hv'] at this
          have : x0 j + lam * c j ≤ v := by exact_mod_cast this
          linarith
    · intro k hk hk0
      rw [hA] at hk hk0
      rw [hu k hk]
      exact hm.act k hk hk0
    · intro _ h0
      rw [hv2]
      rw [h0] at hin
      exact (hm.none hin (by simp)).symm
    · intro h0 hc
      rw [hA] at h0
      exact hm.none h0 (by simp)

/-- There are `n + 1` constraints, of which at most `n` are active. -/
theorem boxMu_pos {s : State ℝ} (h : Good (boxSpec n x0 c bl xl xu) s) : 1 ≤ boxMu n c s.A := by
  have hw := h.dim.wf
  have hlen : s.A.status.length = 1 + n := by
    rw [hw.size, h.dim.nbCstr, h.dim.nbBnd]
    show 1 + (boxSpec n x0 c bl xl xu).nb = 1 + n
    rw [show (boxSpec n x0 c bl xl xu).nb = n from boxPb_nb n x0 c bl ⊤ xl xu]
  have hq : s.A.q ≤ n := by
    have h1 := h.q_le
    have h2 : s.nbVar = n := h.dim.nbVar
    omega
  by_contra hc
  have h0 : boxMu n c s.A = 0 := by omega
  unfold boxMu at h0
  have h1 : s.A.statusAt 0 ≠ .inactive := by
    intro he
    rw [if_pos he] at h0
    omega
  have h2 : ∀ j < n, s.A.statusAt (j + 1) ≠ .inactive := by
    intro j hj he
    have hs : ∑ j ∈ range n, boxWt c j (s.A.statusAt (j + 1)) = 0 := by omega
    have := (Finset.sum_eq_zero_iff.1 hs) j (mem_range.2 hj)
    rw [he] at this
    simp [boxWt] at this
  have hsub : range (1 + n) ⊆ s.A.active.toFinset := by
    intro i hi
    have hi := mem_range.1 hi
    rw [List.mem_toFinset, hw.mem]
    refine ⟨by rw [hlen]; exact hi, ?_⟩
    cases i with
    | zero => exact h1
    | succ j => exact h2 j (by omega)
  have hcard := card_le_card hsub
  rw [card_range] at hcard
  have := hcard.trans (List.toFinset_card_le s.A.active)
  rw [← hw.q_eq] at this
  omega

/-- The loop ends in at most `boxMu` iterations. -/
theorem box_loop {o : Opts ℝ} (hd : BoxData n bl xl xu) (ht0 : 0 ≤ o.tiny) (fuel : Nat) : ∀ {s : State ℝ} {sc : SC} {skip : Bool}
    {lam : ℝ}, LoopInv (boxSpec n x0 c bl xl xu) s sc skip → DInv (boxSpec n x0 c bl xl xu) 0 s sc skip →
    BoxMul s sc skip lam → BoxSide n x0 c xl xu s.A lam → (skip = true → BoxPush n c sc) →
    RegLoop o (boxSpec n x0 c bl xl xu) fuel s sc skip → ∀ {t s'}, loop o (boxSpec n x0 c bl xl xu) fuel s sc skip = .ok (t, s') →
    s'.it + 1 ≤ s.it + boxMu n c s.A ∧ (boxMu n c s.A ≤ fuel → t = .success ∨ t = .infeasible) := by
  induction fuel with
  | zero =>
    intro s sc skip lam h _ _ _ _ _ t s' hl
    have hpos := boxMu_pos h.alg.good
    simp only [loop, Except.ok.injEq, Prod.mk.injEq] at hl
    obtain ⟨_, rfl⟩ := hl
    exact ⟨by omega, by omega⟩
  | succ fuel ih =>
    intro s sc skip lam h hD hm hsd hp hreg t s' hl
    have hpos := boxMu_pos h.alg.good
    simp only [loop] at hl
    simp only [RegLoop] at hreg
    cases hr : iterate o (boxSpec n x0 c bl xl xu) s sc skip with
    | error e => simp [hr] at hl
    | ok r =>
      rw [hr] at hl hreg
      have hit := iterate_it hr
      have hout := iterate_dual hd.proper hd.notCrossed ht0 h hD hreg.1 hr
      cases r with
      | done t1 s1 =>
        simp only [Except.ok.injEq, Prod.mk.injEq] at hl
        obtain ⟨rfl, rfl⟩ := hl
        refine ⟨?_, fun _ => ?_⟩
        · have : s1.it = s.it := hit.2
          omega
        · rcases hout with ⟨h1, _⟩ | ⟨sc1, h1, _⟩
          · cases h1; exact Or.inl rfl
          · exact Or.inr h1.1
      | cont s1 sc1 k1 =>
        rcases iterate_exact hd.proper hd.notCrossed ht0 h hreg.1 hr with ⟨h1, _⟩ | ⟨s2, sc2, he, hst⟩
        · cases h1
        · obtain ⟨e1, e2, e3⟩ := box_enter hd h hD hm hsd hp he
          obtain ⟨i1, _⟩ := enter_inv hd.proper hd.notCrossed h he
          obtain ⟨i2, _⟩ := enter_dual hd.proper hd.notCrossed h hD he
          obtain ⟨g1, g2⟩ := stepR_alg i1 hst
          obtain ⟨g3, _⟩ := stepR_dual i1 i2 hst
          obtain ⟨g4, lam', g5, g6, g7⟩ := box_step i1 i2 e2 e3 (by rw [e1]; exact hsd) hst
          subst g4
          rw [e1] at g7
          have := ih (s := { s1 with it := s1.it + 1 }) (lam := lam') (g2.setIt _) (g3.setIt _) ⟨g5.nn, g5.act, g5.cnd, g5.none⟩ g6
            (fun _ => e2) hreg.2 hl
          have hs1 : s1.it = s.it := hit
          have hA1 : boxMu n c ({ s1 with it := s1.it + 1 } : State ℝ).A = boxMu n c s1.A := rfl
          rw [hA1] at this
          refine ⟨?_, fun hlt => this.2 (by omega)⟩
          have h3 := this.1
          simp only at h3
          omega

/-- The conditions above hold when the loop starts. -/
theorem box_begin (o : Opts ℝ) (hd : BoxData n bl xl xu) {s : State ℝ} (h : Inv s) :
    BoxMul (boxEntry o n x0 c bl xl xu s) ⟨0, .inactive⟩ false 0 ∧ BoxSide n x0 c xl xu (boxEntry o n x0 c bl xl xu s).A 0 := by
  obtain ⟨i1, i2⟩ := boxEntry_inv (x0 := x0) (c := c) o hd h
  have hX := boxReady_x (x0 := x0) (c := c) o hd h
  have hm : BoxMul (boxEntry o n x0 c bl xl xu s) ⟨0, .inactive⟩ false 0 := by
    refine ⟨le_rfl, ?_, by simp, fun _ _ => rfl⟩
    intro k hk hk0
    obtain ⟨j, _, st, e, _⟩ := hX.idx k hk
    have : ((boxEntry o n x0 c bl xl xu s).A.act k).p = j + 1 := congrArg SC.p e
    omega
  refine ⟨hm, ?_⟩
  intro j hj hin
  have hfx := free_x i1 i2 hm (by simp) hj hin (by simp)
  have hx : (boxEntry o n x0 c bl xl xu s).x j = clamp (x0 j) (xl j) (xu j) := hX.x j hj
  have hc := clamp_mem (v := x0 j) (hd.low j hj) (hd.up j hj) (hd.le j hj)
  rw [← hx, hfx] at hc
  exact ⟨fun _ => hc.2, fun _ => hc.1⟩

/-- **C52 (partial), for harmless thresholds.** In exact arithmetic, when the thresholds `1e-14` and `bigBnd` are harmless in
this call, `iterations()` is at most `2n`, and `MAX_ITER_REACHED` is not returned if `maxIter ≥ 2n + 1`. `C52_linear` below
discharges the condition on the thresholds. -/
theorem C52_call_partial {o : Opts ℝ} (hd : BoxData n bl xl xu) {s : State ℝ} (h : Inv s)
    (hr : RegBox o n x0 c bl xl xu s) {t s'} (hs : boxSolve o n x0 c bl ⊤ xl xu s = .ok (t, s')) :
    s'.it ≤ 2 * n ∧ (2 * n + 1 ≤ o.maxIter → t = .success ∨ t = .infeasible) := by
  obtain ⟨i1, i2⟩ := boxEntry_inv (x0 := x0) (c := c) o hd h
  obtain ⟨b1, b2⟩ := box_begin (x0 := x0) (c := c) o hd h
  have hl := boxEntry_loop h hs
  have hmu := boxMu_le (n := n) (c := c) (boxEntry o n x0 c bl xl xu s).A
  obtain ⟨k1, k2⟩ := box_loop hd hr.1 o.maxIter i1 i2 b1 b2 (by simp) hr.2 hl
  have hit : (boxEntry o n x0 c bl xl xu s).it = 0 := boxReady_it o n x0 c bl ⊤ xl xu s
  rw [hit] at k1
  have : (addF (boxShift n x0) s').it = s'.it := rfl
  refine ⟨by omega, fun hmax => k2 (by omega)⟩

/-- Specification: after any history of the solver, a call on this problem ends by itself after at most `2n` iterations, with
the projection or a correct report of infeasibility; only a `maxIter` of `2n` or less can stop it. -/
def BoxLinear (o : Opts ℝ) (n : Nat) (x0 c : Nat → ℝ) (bl : EReal) (xl xu : Nat → EReal) : Prop :=
  ∀ cs : List (BoxCall ℝ EReal), (∀ b ∈ cs, b.Admissible) →
    ∃ s t s', boxCalls cs (State.empty : State ℝ) = .ok s ∧ boxSolve o n x0 c bl ⊤ xl xu s = .ok (t, s') ∧
      s'.it ≤ 2 * n ∧ (t = .maxIterReached → o.maxIter ≤ 2 * n) ∧
      (2 * n + 1 ≤ o.maxIter →
        (t = .success ∧ IsProjection n (BoxFeasible n c bl xl xu) x0 s'.x ∧ s'.f = 1 / 2 * dist2 n s'.x x0) ∨
        (t = .infeasible ∧ ¬ ∃ y, BoxFeasible n c bl xl xu y))

/-- **C52.** The box solver needs a number of iterations linear in the number of variables: for all data with bounds that do
not cross, all small enough `tiny` and all large enough `bigBnd`, after any history and for all other options, `iterations()`
is at most `2n`, and `maxIter ≥ 2n + 1` is enough to get the projection, or the (correct) answer that there is none. -/
theorem C52_linear (x0 c : Nat → ℝ) (hd : BoxData n bl xl xu) :
    ∃ ε > 0, ∃ β : ℝ, ∀ o : Opts ℝ, 0 ≤ o.tiny → o.tiny < ε → β < o.bigBnd → BoxLinear o n x0 c bl xl xu := by
  obtain ⟨ε1, hε1, β1, hsound⟩ := C25_thresholds_partial x0 c hd
  have hpd := posDefN_kd (n := n) (boxSpec_hess n x0 c bl xl xu)
  obtain ⟨o0, ho0⟩ : ∃ o0 : Opts ℝ, o0 = ⟨0, 0, false, 0, false⟩ := ⟨_, rfl⟩
  obtain ⟨i1, i2⟩ := boxEntry_inv (x0 := x0) (c := c) o0 hd (inv_empty (K := ℝ))
  obtain ⟨ε, hε, β, hev⟩ := ev_regLoop (dbg := false) hd.proper hd.notCrossed hpd _ i1 i2 le_rfl
  refine ⟨min ε ε1, lt_min hε hε1, max β β1, ?_⟩
  intro o h0 h1 h2 cs hcs
  obtain ⟨s, t, s', g1, g3, hcase, hsu, hinf, _⟩ := hsound o h0 (h1.trans_le (min_le_right _ _)) ((le_max_right _ _).trans_lt h2) cs hcs
  obtain ⟨s2, g1', g2⟩ := boxCalls_safe cs _ (inv_empty (K := ℝ)) hcs
  rw [g1] at g1'
  cases g1'
  have law := fpLaws_real o h0
  obtain ⟨o1, ho1⟩ : ∃ o1 : Opts ℝ, o1 = { o with dbg := false, warmStart := false } := ⟨_, rfl⟩
  have hm1 : o1.maxIter = o.maxIter := by rw [ho1]
  have law1 : FpLaws ℝ o1 := fpLaws_real o1 (by rw [ho1]; exact h0)
  obtain ⟨t1, s1, k3, _⟩ := boxSolve_safe law1 n x0 c bl ⊤ xl xu (inv_empty (K := ℝ))
  have hentry : boxEntry o1 n x0 c bl xl xu (State.empty : State ℝ) = boxEntry o0 n x0 c bl xl xu (State.empty : State ℝ) := by
    rw [ho1, ho0]; rfl
  have hr : RegBox o1 n x0 c bl xl xu (State.empty : State ℝ) := by
    refine ⟨by rw [ho1]; exact h0, ?_⟩
    rw [hentry]
    exact hev o1 (by rw [ho1]) (by rw [ho1]; exact h0) (by rw [ho1]; exact h1.trans_le (min_le_left _ _))
      (by rw [ho1]; exact (le_max_left _ _).trans_lt h2) _
  have hobs := boxSolve_sim (o := o) (o' := o1) ⟨hm1, by rw [ho1], by rw [ho1]⟩ law law1 n x0 c bl ⊤ xl xu g2 inv_empty g3 k3
  have ht : t = t1 := congrArg Obs.status hobs
  have hit : s'.it = s1.it := congrArg Obs.iterations hobs
  subst ht
  obtain ⟨e1, e2⟩ := C52_call_partial hd inv_empty hr k3
  rw [hm1] at e2
  refine ⟨s, t, s', g1, g3, by omega, ?_, ?_⟩
  · rintro rfl
    by_contra hc
    rcases e2 (by omega) with a | a <;> cases a
  · intro hmax
    rcases e2 hmax with rfl | rfl
    · exact Or.inl ⟨rfl, hsu rfl⟩
    · exact Or.inr ⟨rfl, hinf rfl⟩

/-- The hypotheses of `C52_linear` are met: the box `[0, 1]²`, the point `(2, -1)`, the half-space `x + y ≥ 3/2`; `5`
iterations are enough. -/
example : ∃ o : Opts ℝ, 0 < o.tiny ∧ o.maxIter = 5 ∧
    ∃ s', boxSolve o 2 (fun i => if i = 0 then 2 else -1) (fun _ => 1) ((3 / 2 : ℝ) : EReal) ⊤ (fun _ => ((0 : ℝ) : EReal))
      (fun _ => ((1 : ℝ) : EReal)) (State.empty : State ℝ) = .ok (.success, s') ∧ s'.it ≤ 4 := by
  have hd : BoxData 2 ((3 / 2 : ℝ) : EReal) (fun _ => ((0 : ℝ) : EReal)) (fun _ => ((1 : ℝ) : EReal)) :=
    ⟨EReal.coe_ne_top _, fun _ _ => EReal.coe_ne_top _, fun _ _ => EReal.coe_ne_bot _,
      fun _ _ => by exact_mod_cast zero_le_one⟩
  obtain ⟨ε, hε, β, h⟩ := C52_linear (fun i => if i = 0 then 2 else -1) (fun _ => 1) hd
  refine ⟨⟨5, β + 1, false, ε / 2, false⟩, half_pos hε, rfl, ?_⟩
  obtain ⟨s, t, s', h1, h2, h3, _, h5⟩ := h ⟨5, β + 1, false, ε / 2, false⟩ (half_pos hε).le (by simpa using half_lt_self hε)
    (by simp) [] (by simp)
  cases h1
  rcases h5 (by simp) with ⟨rfl, _⟩ | ⟨_, h6⟩
  · exact ⟨s', h2, h3⟩
  · exfalso
    apply h6
    refine ⟨fun _ => 1, ?_, fun i _ => ⟨by exact_mod_cast zero_le_one, le_rfl⟩⟩
    rw [EReal.coe_le_coe_iff]
    norm_num

end

end JrlQp
