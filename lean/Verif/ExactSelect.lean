import Verif.ExactStep

/-!
# Selection of the violated constraint in exact arithmetic (C16)
-/

namespace JrlQp

open NumOps Finset Spec

namespace Spec

/-- Signed distance to the lower side of constraint `i` (general constraints first, then bounds): negative iff violated. -/
noncomputable def slackLo (pb : Pb ℝ EReal) (x : Nat → ℝ) (i : Nat) : EReal :=
  if i < pb.m then ((row pb x i : ℝ) : EReal) - pb.bl i else ((x (i - pb.m) : ℝ) : EReal) - pb.xl (i - pb.m)

/-- Signed distance to the upper side of constraint `i`: negative iff violated. -/
noncomputable def slackHi (pb : Pb ℝ EReal) (x : Nat → ℝ) (i : Nat) : EReal :=
  if i < pb.m then pb.bu i - ((row pb x i : ℝ) : EReal) else pb.xu (i - pb.m) - ((x (i - pb.m) : ℝ) : EReal)

end Spec

theorem coe_sub_neg (x : ℝ) (b : EReal) : (x : EReal) - b < 0 ↔ (x : EReal) < b := by
  induction b using EReal.rec with
  | bot => simp
  | top => simp
  | coe y => norm_cast; constructor <;> intro h <;> linarith

theorem sub_coe_neg (x : ℝ) (b : EReal) : b - (x : EReal) < 0 ↔ b < (x : EReal) := by
  induction b using EReal.rec with
  | bot => simp
  | top => simp
  | coe y => norm_cast; constructor <;> intro h <;> linarith

theorem not_both_neg (x : ℝ) (l u : EReal) (h : l ≤ u) : ¬ ((x : EReal) - l < 0 ∧ u - (x : EReal) < 0) := by
  rw [coe_sub_neg, sub_coe_neg]
  rintro ⟨h1, h2⟩
  exact absurd (h1.trans_le h) (not_lt.2 h2.le)

/-- The selected side. -/
noncomputable def viol (pb : Pb ℝ EReal) (x : Nat → ℝ) (sc : SC) : EReal :=
  if sc.status.isUpper then slackHi pb x sc.p else slackLo pb x sc.p

/-- Invariant of the selection loops; `D` is the set of constraints already examined. -/
structure SelInv (pb : Pb ℝ EReal) (A : ActiveSet) (x : Nat → ℝ) (D : Nat → Prop) (acc : Sel EReal) : Prop where
  le : acc.smin ≤ 0
  none : acc.sc.status = .inactive → acc.smin = 0
  some : acc.sc.status ≠ .inactive → acc.smin < 0 ∧ acc.smin = viol pb x acc.sc ∧
    (acc.sc.p < pb.m ∧ (acc.sc.status = .lower ∨ acc.sc.status = .upper) ∨
      pb.m ≤ acc.sc.p ∧ acc.sc.p < pb.m + pb.nb ∧ (acc.sc.status = .lowerBound ∨ acc.sc.status = .upperBound)) ∧
    A.statusAt acc.sc.p = .inactive
  min : ∀ i, D i → A.statusAt i = .inactive → acc.smin ≤ slackLo pb x i ∧ acc.smin ≤ slackHi pb x i

theorem SelInv.step {pb : Pb ℝ EReal} {A : ActiveSet} {x : Nat → ℝ} {D : Nat → Prop} {acc : Sel EReal}
    (h : SelInv pb A x D acc) (i : Nat) (lo hi : EReal) (sl su : Status)
    (hlo : lo = slackLo pb x i) (hhi : hi = slackHi pb x i) (hboth : ¬ (lo < 0 ∧ hi < 0))
    (hk : i < pb.m ∧ sl = .lower ∧ su = .upper ∨ pb.m ≤ i ∧ i < pb.m + pb.nb ∧ sl = .lowerBound ∧ su = .upperBound)
    (hst : A.statusAt i = .inactive) :
    SelInv pb A x (fun j => D j ∨ j = i)
      (if bLt ℝ lo acc.smin then ⟨lo, ⟨i, sl⟩⟩ else if bLt ℝ hi acc.smin then ⟨hi, ⟨i, su⟩⟩ else acc) := by
  have hb : ∀ a b : EReal, bLt ℝ a b = true ↔ a < b := by intro a b; simp [bLt]
  have hkl : sl ≠ .inactive ∧ sl.isUpper = false := by
    rcases hk with ⟨_, rfl, _⟩ | ⟨_, _, rfl, _⟩ <;> simp [Status.isUpper]
  have hku : su ≠ .inactive ∧ su.isUpper = true := by
    rcases hk with ⟨_, _, rfl⟩ | ⟨_, _, _, rfl⟩ <;> simp [Status.isUpper]
  by_cases h1 : bLt ℝ lo acc.smin = true
  · rw [if_pos h1]
    rw [hb] at h1
    have hneg : lo < 0 := h1.trans_le h.le
    have hhi0 : 0 ≤ hi := not_lt.1 (fun hc => hboth ⟨hneg, hc⟩)
    refine ⟨hneg.le, fun he => absurd he hkl.1, fun _ => ⟨hneg, ?_, ?_, hst⟩, ?_⟩
    · simp only [viol, hkl.2, hlo]; simp
    · rcases hk with ⟨a, rfl, _⟩ | ⟨a, b, rfl, _⟩
      · exact Or.inl ⟨a, Or.inl rfl⟩
      · exact Or.inr ⟨a, b, Or.inl rfl⟩
    · rintro j (hj | rfl) hjs
      · have := h.min j hj hjs
        exact ⟨h1.le.trans this.1, h1.le.trans this.2⟩
      · exact ⟨hlo.le, by rw [← hhi]; exact hneg.le.trans hhi0⟩
  · rw [if_neg h1]
    rw [hb, not_lt] at h1
    by_cases h2 : bLt ℝ hi acc.smin = true
    · rw [if_pos h2]
      rw [hb] at h2
      have hneg : hi < 0 := h2.trans_le h.le
      refine ⟨hneg.le, fun he => absurd he hku.1, fun _ => ⟨hneg, ?_, ?_, hst⟩, ?_⟩
      · simp only [viol, hku.2, hhi]; simp
      · rcases hk with ⟨a, _, rfl⟩ | ⟨a, b, _, rfl⟩
        · exact Or.inl ⟨a, Or.inr rfl⟩
        · exact Or.inr ⟨a, b, Or.inr rfl⟩
      · rintro j (hj | rfl) hjs
        · have := h.min j hj hjs
          exact ⟨h2.le.trans this.1, h2.le.trans this.2⟩
        · exact ⟨by rw [← hlo]; exact h2.le.trans h1, hhi.le⟩
    · rw [if_neg h2]
      rw [hb, not_lt] at h2
      refine ⟨h.le, h.none, h.some, ?_⟩
      rintro j (hj | rfl) hjs
      · exact h.min j hj hjs
      · exact ⟨by rw [← hlo]; exact h1, by rw [← hhi]; exact h2⟩

theorem SelInv.mono {pb : Pb ℝ EReal} {A : ActiveSet} {x : Nat → ℝ} {D D' : Nat → Prop} {acc : Sel EReal}
    (h : SelInv pb A x D acc) (hD : ∀ i, D' i → A.statusAt i = .inactive → D i) : SelInv pb A x D' acc :=
  ⟨h.le, h.none, h.some, fun i hi hs => h.min i (hD i hi hs) hs⟩

theorem select_inv {pb : Pb ℝ EReal} (hx : NotCrossed pb) {A : ActiveSet} (hm : A.nbCstr = pb.m)
    (hnb : A.nbBnd = pb.nb) (x : Nat → ℝ) :
    ∃ acc : Sel EReal, acc.sc = select pb pb.n A x ∧ SelInv pb A x (fun i => i < pb.m + pb.nb) acc := by
  have hgen : ∀ k ≤ pb.m, SelInv pb A x (fun i => i < k)
      ((List.range k).foldl (selGen pb pb.n A x) ⟨bZero ℝ, ⟨0, .inactive⟩⟩) := by
    intro k
    induction k with
    | zero => intro _; exact ⟨le_rfl, fun _ => rfl, fun h => absurd rfl h, fun i hi => by omega⟩
    | succ k ih =>
      intro hk
      have h := ih (by omega)
      rw [List.range_succ, List.foldl_append, List.foldl_cons, List.foldl_nil]
      generalize (List.range k).foldl (selGen pb pb.n A x) ⟨bZero ℝ, ⟨0, .inactive⟩⟩ = acc at h
      unfold selGen
      by_cases ha : A.isActive k = true
      · rw [if_pos ha]
        refine h.mono ?_
        intro i hi hs
        have : i ≠ k := by rintro rfl; simp [ActiveSet.isActive, hs] at ha
        omega
      · rw [if_neg ha]
        have hst : A.statusAt k = .inactive := by simpa [ActiveSet.isActive] using ha
        refine (h.step k _ _ .lower .upper ?_ ?_ ?_ (Or.inl ⟨by omega, rfl, rfl⟩) hst).mono ?_
        · simp only [slackLo, show k < pb.m by omega, if_true, colDot_eq]; rfl
        · simp only [slackHi, show k < pb.m by omega, if_true, colDot_eq]; rfl
        · exact not_both_neg _ _ _ (hx.gen k (by omega))
        · intro i hi _; omega
  have hbnd : ∀ k ≤ pb.nb, SelInv pb A x (fun i => i < pb.m + k)
      ((List.range k).foldl (selBnd pb A x) ((List.range pb.m).foldl (selGen pb pb.n A x) ⟨bZero ℝ, ⟨0, .inactive⟩⟩)) := by
    intro k
    induction k with
    | zero => intro _; exact hgen pb.m le_rfl
    | succ k ih =>
      intro hk
      have h := ih (by omega)
      rw [List.range_succ, List.foldl_append, List.foldl_cons, List.foldl_nil]
      generalize (List.range k).foldl (selBnd pb A x) _ = acc at h
      have hub : pb.useBnd = true ∧ k < pb.n := by
        unfold Pb.nb at hk
        split_ifs at hk with hb
        · exact ⟨hb, by omega⟩
        · omega
      unfold selBnd
      by_cases ha : A.isActiveBnd k = true
      · rw [if_pos ha]
        refine h.mono ?_
        intro i hi hs
        have : i ≠ pb.m + k := by
          rintro rfl
          simp [ActiveSet.isActiveBnd, ActiveSet.statusAtBnd, hm, hs] at ha
        omega
      · rw [if_neg ha]
        have hst : A.statusAt (pb.m + k) = .inactive := by
          by_contra hne
          apply ha
          simp only [ActiveSet.isActiveBnd, ActiveSet.statusAtBnd, hm]
          exact decide_eq_true hne
        rw [hm]
        refine (h.step (pb.m + k) _ _ .lowerBound .upperBound ?_ ?_ ?_ (Or.inr ⟨by omega, by omega, rfl, rfl⟩) hst).mono ?_
        · simp only [slackLo, show ¬ pb.m + k < pb.m by omega, if_false, Nat.add_sub_cancel_left]; rfl
        · simp only [slackHi, show ¬ pb.m + k < pb.m by omega, if_false, Nat.add_sub_cancel_left]; rfl
        · exact not_both_neg _ _ _ (hx.bnd hub.1 k hub.2)
        · intro i hi _; omega
  refine ⟨_, ?_, hbnd pb.nb le_rfl⟩
  simp only [select, hm, hnb]

end JrlQp
