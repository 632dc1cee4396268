import Verif.ExpActive
import Verif.PropsSafety

/-!
# Safety and termination of the initialisation of the experimental solver (C23)

Independent of the arithmetic.
-/

namespace JrlQp

open NumOps

variable {K B : Type} [Zero K] [One K] [Add K] [Sub K] [Neg K] [Mul K] [Div K] [NumOps K B] [SumOps K]

/-- Sizes of the workspaces of the experimental solver. -/
structure XGood (pb : Pb K B) (xs : XState K) : Prop where
  good : Good pb xs.s
  szB : xs.s.nbVar ≤ xs.szB
  szT : xs.s.nbVar ≤ xs.szT
  szH : xs.s.nbVar ≤ xs.szH

theorem minMult_fold (A : ActiveSet) (u : Nat → K) (l : List Nat) : ∀ (acc : K × Option Nat),
    (∀ k, (l.foldl (minMult A u) acc).2 = some k → acc.2 = some k ∨ (k ∈ l ∧ (A.statusAt (A.get k)).isEq = false)) ∧
    ((l.foldl (minMult A u) acc).2 = none → acc.2 = none ∧
      ∀ k ∈ l, (A.statusAt (A.get k)).isEq = false → ltb (u k) acc.1 = false) := by
  induction l with
  | nil => intro acc; exact ⟨fun k hk => Or.inl hk, fun h => ⟨h, by simp⟩⟩
  | cons a l ih =>
    intro acc
    rw [List.foldl_cons]
    have hiff : (A.statusAt (A.get a) ≠ .fixed ∧ A.statusAt (A.get a) ≠ .equality) ↔ (A.statusAt (A.get a)).isEq = false := by
      cases A.statusAt (A.get a) <;> simp [Status.isEq]
    obtain ⟨h1, h2⟩ := ih (minMult A u acc a)
    constructor
    · intro k hk
      rcases h1 k hk with h | h
      · unfold minMult at h
        split_ifs at h with hc
        · have : a = k := by simpa using h
          subst this
          exact Or.inr ⟨by simp, hiff.1 hc.2⟩
        · exact Or.inl h
      · exact Or.inr ⟨by simp [h.1], h.2⟩
    · intro hn
      obtain ⟨h3, h4⟩ := h2 hn
      unfold minMult at h3 h4
      split_ifs at h3 with hc
      rw [if_neg hc] at h4
      refine ⟨h3, ?_⟩
      intro k hk hs
      rcases List.mem_cons.1 hk with rfl | hk
      · by_contra hlt
        exact hc ⟨by simpa using hlt, hiff.2 hs⟩
      · exact h4 k hk hs

theorem dropPos_some {o : Opts K} {xs : XState K} {l : Nat} (h : dropPos o xs = some l) :
    l < xs.s.A.q ∧ (xs.s.A.statusAt (xs.s.A.get l)).isEq = false := by
  rcases (minMult_fold xs.s.A xs.s.u (List.range xs.s.A.q) (-o.tiny, none)).1 l h with h | h
  · simp at h
  · exact ⟨List.mem_range.1 h.1, h.2⟩

theorem dropPos_none {o : Opts K} {xs : XState K} (h : dropPos o xs = none) :
    ∀ k < xs.s.A.q, (xs.s.A.statusAt (xs.s.A.get k)).isEq = false → ltb (xs.s.u k) (-o.tiny) = false := by
  intro k hk
  exact ((minMult_fold xs.s.A xs.s.u (List.range xs.s.A.q) (-o.tiny, none)).2 h).2 k (List.mem_range.2 hk)

theorem dropAt_good {o : Opts K} {pb : Pb K B} {xs : XState K} (h : XGood pb xs) {l : Nat} (hl : l < xs.s.A.q) :
    XGood pb (dropAt o xs l) ∧ (dropAt o xs l).s.A.q = xs.s.A.q - 1 := by
  have hw := h.good.dim.wf
  have hp : xs.s.A.deactivatePre l = true := by
    rw [hw.q_eq] at hl; simpa [ActiveSet.deactivatePre] using hl
  have hq := hw.q_deactivate hp
  have hq' : (dropAt o xs l).s.A.q = xs.s.A.q - 1 := hq
  have := h.good.q_le
  have hd := h.good.dim
  refine ⟨⟨⟨⟨hd.nbVar, ActiveSet.wf_deactivate _ hw _ hp, ?_, ?_, hd.szX, hd.szZ, hd.szD, ?_, ?_, hd.szJ, hd.szRm⟩, ?_⟩,
    h.szB, h.szT, h.szH⟩, hq'⟩
  · show (xs.s.A.deactivate l).nbCstr = _
    rw [ActiveSet.deactivate_nbCstr, hd.nbCstr]
  · show (xs.s.A.deactivate l).nbBnd = _
    rw [ActiveSet.deactivate_nbBnd, hd.nbBnd]
  · show (xs.s.A.deactivate l).nbCstr + (xs.s.A.deactivate l).nbBnd ≤ _
    rw [ActiveSet.deactivate_nbCstr, ActiveSet.deactivate_nbBnd]; exact hd.szU
  · show (xs.s.A.deactivate l).nbCstr + (xs.s.A.deactivate l).nbBnd ≤ _
    rw [ActiveSet.deactivate_nbCstr, ActiveSet.deactivate_nbBnd]; exact hd.szR
  · rw [hq']
    show xs.s.A.q - 1 ≤ xs.s.nbVar
    omega

theorem initPoints_xgood {pb : Pb K B} {xs : XState K} (h : XGood pb xs) : XGood pb (initPoints pb xs) := by
  obtain ⟨⟨⟨a1, a2, a3, a4, a5, a6, a7, a8, a9, a10, a11⟩, b⟩, c1, c2, c3⟩ := h
  exact ⟨⟨⟨a1, a2, a3, a4, a5, a6, a7, a8, a9, a10, a11⟩, b⟩, c1, c2, c3⟩

theorem initData_xgood {o : Opts K} {pb : Pb K B} {xs : XState K} (h : XGood pb xs) : XGood pb (initData o pb xs) := by
  obtain ⟨⟨⟨a1, a2, a3, a4, a5, a6, a7, a8, a9, a10, a11⟩, b⟩, c1, c2, c3⟩ := h
  exact ⟨⟨⟨a1, a2, a3, a4, a5, a6, a7, a8, a9, a10, a11⟩, b⟩, c1, c2, c3⟩

theorem Good.q_le_all {pb : Pb K B} {s : State K} (h : Good pb s) : s.A.q ≤ s.A.nbCstr + s.A.nbBnd := by
  have hw := h.dim.wf
  have h1 := q_cnt hw
  have h2 : s.A.cnt (· != .inactive) ≤ s.A.status.length := by
    unfold ActiveSet.cnt
    exact_mod_cast List.countP_le_length
  have := hw.size
  omega

theorem XGood.pointsOk {pb : Pb K B} {xs : XState K} (h : XGood pb xs) : initPointsOk pb xs = true := by
  have h1 := h.good.q_le_all
  have h2 := h.good.q_le
  have h3 := h.good.dim.nbVar
  have h4 := h.good.dim.szRm
  have h5 : xs.s.nbVar * xs.s.A.q ≤ xs.s.nbVar * xs.s.nbVar := Nat.mul_le_mul_left _ h2
  have h6 := h.good.dim.szU
  have h7 := h.good.dim.szR
  have h8 := h.szB
  have h9 := h.szT
  simp only [initPointsOk, Bool.and_eq_true, decide_eq_true_eq]
  exact ⟨⟨⟨⟨⟨⟨⟨⟨h2, h3.le⟩, h5.trans h4⟩, h.good.dim.szJ⟩, by omega⟩, h9⟩, by omega⟩, h.good.dim.szX⟩, by omega⟩

theorem XGood.dropOk {pb : Pb K B} {xs : XState K} (h : XGood pb xs) {l : Nat} (hl : l < xs.s.A.q) : dropOk xs l = true := by
  have h1 := h.good.q_le_all
  have h2 := h.good.q_le
  have h4 := h.good.dim.szRm
  have h5 : xs.s.nbVar * xs.s.A.q ≤ xs.s.nbVar * xs.s.nbVar := Nat.mul_le_mul_left _ h2
  have h6 := h.good.dim.szU
  have h8 := h.szB
  have hp : xs.s.A.deactivatePre l = true := by
    rw [h.good.dim.wf.q_eq] at hl; simpa [ActiveSet.deactivatePre] using hl
  simp only [JrlQp.dropOk, Bool.and_eq_true, decide_eq_true_eq]
  exact ⟨⟨⟨⟨⟨⟨hp, hl⟩, by omega⟩, by omega⟩, h2⟩, h.good.dim.szJ⟩, h5.trans h4⟩

/-- What the removal loop does. -/
structure DropR (o : Opts K) (pb : Pb K B) (xs xs' : XState K) : Prop where
  good : XGood pb xs'
  /-- one iteration per removed constraint -/
  it : xs'.s.it + xs'.s.A.q = xs.s.it + xs.s.A.q
  q : xs'.s.A.q ≤ xs.s.A.q
  /-- only inequality constraints are removed -/
  status : ∀ i, xs'.s.A.statusAt i = xs.s.A.statusAt i ∨
    (xs'.s.A.statusAt i = .inactive ∧ (xs.s.A.statusAt i).isEq = false)
  /-- no remaining multiplier of an inequality is below the threshold -/
  done : ∀ k < xs'.s.A.q, (xs'.s.A.statusAt (xs'.s.A.get k)).isEq = false → ltb (xs'.s.u k) (-o.tiny) = false

/-- The removal loop ends without a fault, and its result satisfies each property kept by one removal. -/
theorem dropLoop_spec {o : Opts K} {pb : Pb K B} {P : XState K → Prop}
    (hP : ∀ xs l, XGood pb xs → P xs → dropPos o xs = some l → P (initPoints pb (dropAt o xs l))) (fuel : Nat) :
    ∀ {xs : XState K}, XGood pb xs → P xs → xs.s.A.q ≤ fuel →
      ∃ xs', dropLoop o pb fuel xs = .ok xs' ∧ DropR o pb xs xs' ∧ P xs' := by
  induction fuel with
  | zero =>
    intro xs h hp hq
    have hnone : dropPos o xs = none := by
      cases hd : dropPos o xs with
      | none => rfl
      | some l => have := (dropPos_some hd).1; omega
    rw [dropLoop, hnone]
    exact ⟨xs, rfl, ⟨h, rfl, le_rfl, fun _ => Or.inl rfl, dropPos_none hnone⟩, hp⟩
  | succ fuel ih =>
    intro xs h hp hq
    rw [dropLoop]
    cases hd : dropPos o xs with
    | none => exact ⟨xs, rfl, ⟨h, rfl, le_rfl, fun _ => Or.inl rfl, dropPos_none hd⟩, hp⟩
    | some l =>
      obtain ⟨hl, hs⟩ := dropPos_some hd
      obtain ⟨h1, h2⟩ := dropAt_good (o := o) h hl
      simp only [h.dropOk hl, h1.pointsOk, if_true]
      have h3 : (initPoints pb (dropAt o xs l)).s.A = xs.s.A.deactivate l := rfl
      have hqd : (xs.s.A.deactivate l).q = xs.s.A.q - 1 := h2
      obtain ⟨xs', e, hr, hp'⟩ := ih (initPoints_xgood h1) (hP xs l h hp hd) (by rw [h3, hqd]; omega)
      refine ⟨xs', e, ⟨hr.good, ?_, ?_, ?_, hr.done⟩, hp'⟩
      · have := hr.it
        rw [h3, hqd] at this
        have h5 : (initPoints pb (dropAt o xs l)).s.it = xs.s.it + 1 := rfl
        omega
      · have := hr.q
        rw [h3, hqd] at this
        omega
      · intro i
        have := hr.status i
        have hll : l < xs.s.A.active.length := by rw [← h.good.dim.wf.q_eq]; exact hl
        rw [h3, ActiveSet.deactivate_statusAt _ h.good.dim.wf _ _ hll] at this
        by_cases hi : i = xs.s.A.get l
        · rw [if_pos hi] at this
          right
          refine ⟨?_, by rw [hi]; exact hs⟩
          rcases this with h | h
          · exact h
          · exact h.1
        · rw [if_neg hi] at this
          exact this

end JrlQp
