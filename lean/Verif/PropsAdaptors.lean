import Verif.Adaptors
import Verif.PropsProblems
import Verif.Spec

/-!
# C65: the adaptors to the formats of other solvers keep the problem
-/

namespace JrlQp

open Classical Finset

/-! ### Specification: what the formats mean -/

/-- Problem of eigen-quadprog: `Aeq x = beq`, `Aineq x ≤ bineq`. -/
def EigenQuadprogPb.Holds (q : EigenQuadprogPb) (x : Nat → ℝ) : Prop :=
  (∀ r < q.beq.size, ∑ k ∈ range q.Aeq.cols, q.Aeq.at' r k * x k = q.beq.at' r) ∧
  ∀ r < q.bineq.size, ((∑ k ∈ range q.Aineq.cols, q.Aineq.at' r k * x k : ℝ) : EReal) ≤ q.bineq.at' r

/-- Problem of LSSOL: `l ≤ (x, C x) ≤ u`, with one element of `l` and `u` per variable and then per row of `C`. -/
def LssolPb.Holds (q : LssolPb) (x : Nat → ℝ) : Prop :=
  (∀ i < q.C.cols, q.l.at' i ≤ ((x i : ℝ) : EReal) ∧ ((x i : ℝ) : EReal) ≤ q.u.at' i) ∧
  ∀ r < q.C.rows, q.l.at' (q.C.cols + r) ≤ ((∑ k ∈ range q.C.cols, q.C.at' r k * x k : ℝ) : EReal) ∧
    ((∑ k ∈ range q.C.cols, q.C.at' r k * x k : ℝ) : EReal) ≤ q.u.at' (q.C.cols + r)

/-- Problem of QLD with `me` equalities: `A x + b = 0` for the first `me` rows, `A x + b ≥ 0` for the others, `xl ≤ x ≤ xu`. -/
def QLDPb.Holds (q : QLDPb) (me : Nat) (x : Nat → ℝ) : Prop :=
  (∀ r < q.A.rows, if r < me then ((∑ k ∈ range q.A.cols, q.A.at' r k * x k : ℝ) : EReal) + q.b.at' r = 0
    else 0 ≤ ((∑ k ∈ range q.A.cols, q.A.at' r k * x k : ℝ) : EReal) + q.b.at' r) ∧
  ∀ i < q.A.cols, q.xl.at' i ≤ ((x i : ℝ) : EReal) ∧ ((x i : ℝ) : EReal) ≤ q.xu.at' i

/-- Problem of eiquadprog: `CEᵀ x + ce0 = 0`, `CIᵀ x + ci0 ≥ 0`. -/
def EiQuadprogPb.Holds (q : EiQuadprogPb) (x : Nat → ℝ) : Prop :=
  (∀ r < q.CE.cols, ∑ k ∈ range q.CE.rows, q.CE.at' k r * x k + q.ce0.at' r = 0) ∧
  ∀ r < q.CI.cols, 0 ≤ ((∑ k ∈ range q.CI.rows, q.CI.at' k r * x k : ℝ) : EReal) + q.ci0.at' r

/-- Sizes of the fields agree, as every one of the solvers requires. -/
def EigenQuadprogPb.Sized (q : EigenQuadprogPb) (n : Nat) : Prop :=
  q.Aeq.cols = n ∧ q.Aineq.cols = n ∧ q.c.size = n ∧ q.beq.size = q.Aeq.rows ∧ q.bineq.size = q.Aineq.rows

/-- Sizes of the fields agree. -/
def LssolPb.Sized (q : LssolPb) (n : Nat) : Prop :=
  q.C.cols = n ∧ q.p.size = n ∧ q.l.size = n + q.C.rows ∧ q.u.size = n + q.C.rows

/-- Sizes of the fields agree. -/
def QLDPb.Sized (q : QLDPb) (n me : Nat) : Prop :=
  q.A.cols = n ∧ q.c.size = n ∧ q.b.size = q.A.rows ∧ me ≤ q.A.rows ∧ q.xl.size = n ∧ q.xu.size = n

/-- Sizes of the fields agree. -/
def EiQuadprogPb.Sized (q : EiQuadprogPb) (n : Nat) : Prop :=
  q.CE.rows = n ∧ q.CI.rows = n ∧ q.g0.size = n ∧ q.ce0.size = q.CE.cols ∧ q.ci0.size = q.CI.cols

/-- The part of `QPProblem<true>::wellFormed` about the sizes that the adaptors rely on: well formed constraints and one element of `a`
per variable (src/test/problems.cpp:106-112, include/jrl-qp/test/problems.h:140-142). -/
structure SepQp.Ok (pb : SepQp) : Prop where
  cstr : pb.cstr.WellFormed
  a : pb.cost.a.size = pb.cstr.nvar

/-- No lower bound on a variable is `+∞`, no upper bound is `-∞`. -/
def SepQp.ProperBounds (pb : SepQp) : Prop := ∀ i < pb.cstr.xl.size, pb.cstr.xl.at' i ≠ ⊤ ∧ pb.cstr.xu.at' i ≠ ⊥

/-! ### Proofs -/

theorem forall_split2 {P : Nat → Prop} (a b : Nat) : (∀ r < a + b, P r) ↔ (∀ r < a, P r) ∧ ∀ r < b, P (a + r) := by
  constructor
  · exact fun h => ⟨fun r hr => h r (by omega), fun r hr => h _ (by omega)⟩
  · rintro ⟨h1, h2⟩ r hr
    by_cases hra : r < a
    · exact h1 r hra
    · have := h2 (r - a) (by omega)
      rwa [Nat.add_sub_cancel' (by omega)] at this

theorem hfe_bot {v : Vx EReal} (h : ¬ hasFiniteElements v) (hv : ∀ i < v.size, v.at' i ≠ ⊤) : ∀ i < v.size, v.at' i = ⊥ := by
  intro i hi
  by_contra hb
  exact h (Or.inr ⟨⟨i, hi, bot_lt_iff_ne_bot.2 hb⟩, i, hi, lt_top_iff_ne_top.2 (hv i hi)⟩)

theorem hfe_top {v : Vx EReal} (h : ¬ hasFiniteElements v) (hv : ∀ i < v.size, v.at' i ≠ ⊥) : ∀ i < v.size, v.at' i = ⊤ := by
  intro i hi
  by_contra hb
  exact h (Or.inr ⟨⟨i, hi, bot_lt_iff_ne_bot.2 (hv i hi)⟩, i, hi, lt_top_iff_ne_top.2 hb⟩)

theorem rowAt_sum (M : Mx) (tr : Bool) (n : Nat) (x : Nat → ℝ) (i : Nat) : ∑ k ∈ range n, M.rowAt tr i k * x k = M.val tr n x i := rfl

theorem rowAt_neg_sum (M : Mx) (tr : Bool) (n : Nat) (x : Nat → ℝ) (i : Nat) :
    ∑ k ∈ range n, -M.rowAt tr i k * x k = -M.val tr n x i := by
  simp only [neg_mul, sum_neg_distrib]; rfl

theorem diag_sum (n : Nat) (x : Nat → ℝ) (c : ℝ) {i : Nat} (hi : i < n) :
    ∑ k ∈ range n, (if k = i then c else 0) * x k = c * x i := by
  rw [sum_eq_single_of_mem i (mem_range.2 hi)]
  · simp
  · intro b _ hb; simp [hb]

theorem ereal_neg_le (v : ℝ) (l : EReal) : ((-v : ℝ) : EReal) ≤ -l ↔ l ≤ (v : EReal) := by
  rw [EReal.coe_neg, EReal.neg_le_neg_iff]

theorem ereal_add_nonneg (v : ℝ) (b : EReal) : 0 ≤ (v : EReal) + b ↔ ((-v : ℝ) : EReal) ≤ b := by
  induction b with
  | bot => simp
  | top => simp
  | coe b => norm_cast; constructor <;> intro h <;> linarith

theorem ereal_add_zero (v b : ℝ) : (v : EReal) + ((-b : ℝ) : EReal) = 0 ↔ v = b := by
  norm_cast; constructor <;> intro h <;> linarith

namespace SepQp.Ok
variable {pb : SepQp} (h : pb.Ok)
include h

theorem mi_l : pb.mi = pb.cstr.l.size := by
  have := h.cstr.b1.b2
  unfold SepQp.mi; split at this <;> simp_all

theorem mi_u : pb.mi = pb.cstr.u.size := h.mi_l.trans h.cstr.b1.b1

theorem me_f : pb.me = pb.cstr.f.size := by
  have := h.cstr.b3
  unfold SepQp.me; split at this <;> simp_all

theorem bnd : pb.cstr.xl.size = 0 ∨ pb.cstr.xl.size = pb.cost.a.size := by
  by_cases h0 : pb.cstr.xl.size = 0
  · exact Or.inl h0
  · have := h.cstr.b1.b4 h0
    refine Or.inr ?_
    rw [h.a]; unfold Feas.nvar
    split at this <;> simp_all

theorem lt {i : Nat} (hi : i < pb.cstr.l.size) : pb.cstr.l.at' i < pb.cstr.u.at' i := by
  have := h.cstr.b1.b5
  simp only [if_true] at this
  exact this i hi

theorem l_drop (hf : ¬ hasFiniteElements pb.cstr.l) (v : Nat → ℝ) : ∀ i < pb.mi, pb.cstr.l.at' i ≤ (v i : EReal) := by
  intro i hi
  rw [hfe_bot hf (fun i hi => (lt_of_lt_of_le (h.lt hi) le_top).ne) i (h.mi_l ▸ hi)]
  exact bot_le

theorem u_drop (hf : ¬ hasFiniteElements pb.cstr.u) (v : Nat → ℝ) : ∀ i < pb.mi, (v i : EReal) ≤ pb.cstr.u.at' i := by
  intro i hi
  rw [hfe_top hf (fun i hi => (lt_of_le_of_lt bot_le (h.lt (h.cstr.b1.b1 ▸ hi))).ne') i (h.mi_u ▸ hi)]
  exact le_top

/-- The constraints, side by side. -/
theorem holds_iff (x : Nat → ℝ) : pb.cstr.Holds x ↔
    (∀ i < pb.me, pb.cstr.E.val pb.cstr.tr pb.cost.a.size x i = pb.cstr.f.at' i) ∧
    (∀ i < pb.mi, pb.cstr.l.at' i ≤ ((pb.cstr.C.val pb.cstr.tr pb.cost.a.size x i : ℝ) : EReal)) ∧
    (∀ i < pb.mi, ((pb.cstr.C.val pb.cstr.tr pb.cost.a.size x i : ℝ) : EReal) ≤ pb.cstr.u.at' i) ∧
    (∀ i < pb.cstr.xl.size, pb.cstr.xl.at' i ≤ ((x i : ℝ) : EReal)) ∧
    ∀ i < pb.cstr.xl.size, ((x i : ℝ) : EReal) ≤ pb.cstr.xu.at' i := by
  unfold SepFeas.Holds Feas.Holds
  rw [h.mi_l, h.me_f, h.a]
  constructor
  · rintro ⟨a, b, c⟩
    exact ⟨a, fun i hi => (b i hi).1, fun i hi => (b i hi).2, fun i hi => (c i hi).1, fun i hi => (c i hi).2⟩
  · rintro ⟨a, b, c, d, e⟩
    exact ⟨a, fun i hi => ⟨b i hi, c i hi⟩, fun i hi => ⟨d i hi, e i hi⟩⟩

theorem seg_l (v : Nat → ℝ) : (∀ r < (if hasFiniteElements pb.cstr.l then pb.mi else 0), pb.cstr.l.at' r ≤ (v r : EReal)) ↔
    ∀ i < pb.mi, pb.cstr.l.at' i ≤ (v i : EReal) := by
  by_cases hf : hasFiniteElements pb.cstr.l
  · rw [if_pos hf]
  · rw [if_neg hf]
    exact ⟨fun _ => h.l_drop hf v, fun _ r hr => absurd hr (by omega)⟩

theorem seg_u (v : Nat → ℝ) : (∀ r < (if hasFiniteElements pb.cstr.u then pb.mi else 0), (v r : EReal) ≤ pb.cstr.u.at' r) ↔
    ∀ i < pb.mi, (v i : EReal) ≤ pb.cstr.u.at' i := by
  by_cases hf : hasFiniteElements pb.cstr.u
  · rw [if_pos hf]
  · rw [if_neg hf]
    exact ⟨fun _ => h.u_drop hf v, fun _ r hr => absurd hr (by omega)⟩

omit h in
theorem seg_xl (hb : pb.ProperBounds) (v : Nat → ℝ) :
    (∀ r < (if hasFiniteElements pb.cstr.xl then pb.cstr.xl.size else 0), pb.cstr.xl.at' r ≤ (v r : EReal)) ↔
    ∀ i < pb.cstr.xl.size, pb.cstr.xl.at' i ≤ (v i : EReal) := by
  by_cases hf : hasFiniteElements pb.cstr.xl
  · rw [if_pos hf]
  · rw [if_neg hf]
    refine ⟨fun _ i hi => ?_, fun _ r hr => absurd hr (by omega)⟩
    rw [hfe_bot hf (fun i hi => (hb i hi).1) i hi]
    exact bot_le

theorem seg_xu (hb : pb.ProperBounds) (v : Nat → ℝ) :
    (∀ r < (if hasFiniteElements pb.cstr.xu then pb.cstr.xu.size else 0), (v r : EReal) ≤ pb.cstr.xu.at' r) ↔
    ∀ i < pb.cstr.xl.size, (v i : EReal) ≤ pb.cstr.xu.at' i := by
  rw [← h.cstr.b1.b3]
  by_cases hf : hasFiniteElements pb.cstr.xu
  · rw [if_pos hf]
  · rw [if_neg hf]
    refine ⟨fun _ i hi => ?_, fun _ r hr => absurd hr (by omega)⟩
    rw [hfe_top hf (fun i hi => (hb i (h.cstr.b1.b3 ▸ hi)).2) i (h.cstr.b1.b3 ▸ hi)]
    exact le_top

end SepQp.Ok

/-- **C65, eigen-quadprog.** -/
theorem C65_eigenQuadprog (pb : SepQp) (h : pb.Ok) (hb : pb.ProperBounds) :
    (EigenQuadprogPb.of pb).Sized pb.cstr.nvar ∧ (EigenQuadprogPb.of pb).Q = pb.cost.G ∧ (EigenQuadprogPb.of pb).c = pb.cost.a ∧
    ∀ x, (EigenQuadprogPb.of pb).Holds x ↔ pb.cstr.Holds x := by
  refine ⟨⟨h.a, h.a, h.a, h.me_f.symm, rfl⟩, rfl, rfl, fun x => ?_⟩
  rw [h.holds_iff]
  unfold EigenQuadprogPb.Holds
  refine and_congr (by rw [h.me_f]; rfl) ?_
  dsimp only [EigenQuadprogPb.of]
  rw [forall_split2, forall_split2, forall_split2, and_assoc, and_assoc, ← h.seg_l, ← h.seg_u, ← SepQp.Ok.seg_xl hb, ← h.seg_xu hb]
  set nl := if hasFiniteElements pb.cstr.l then pb.mi else 0
  set nu := if hasFiniteElements pb.cstr.u then pb.mi else 0
  have hxl : (if hasFiniteElements pb.cstr.xl then pb.cstr.xl.size else 0) ≤ pb.cost.a.size := by
    have := h.bnd; split <;> omega
  have hxu : (if hasFiniteElements pb.cstr.xu then pb.cstr.xu.size else 0) ≤ pb.cost.a.size := by
    have := h.bnd; have := h.cstr.b1.b3; split <;> omega
  set nxl := if hasFiniteElements pb.cstr.xl then pb.cstr.xl.size else 0
  set nxu := if hasFiniteElements pb.cstr.xu then pb.cstr.xu.size else 0
  refine and_congr ?_ (and_congr ?_ (and_congr ?_ ?_)) <;> refine forall₂_congr fun r hr => ?_
  · rw [if_pos hr]
    simp only [if_pos hr]
    rw [rowAt_neg_sum, ereal_neg_le]
  · have h1 : ¬ nl + r < nl := by omega
    have h2 : nl + r < nl + nu := by omega
    simp only [if_neg h1, if_pos h2, Nat.add_sub_cancel_left]
    rw [rowAt_sum]
  · have h1 : ¬ nl + nu + r < nl := by omega
    have h2 : ¬ nl + nu + r < nl + nu := by omega
    have h3 : nl + nu + r < nl + nu + nxl := by omega
    simp only [if_neg h1, if_neg h2, if_pos h3, Nat.add_sub_cancel_left]
    rw [diag_sum _ _ _ (by omega), neg_one_mul, ereal_neg_le]
  · have h1 : ¬ nl + nu + nxl + r < nl := by omega
    have h2 : ¬ nl + nu + nxl + r < nl + nu := by omega
    have h3 : ¬ nl + nu + nxl + r < nl + nu + nxl := by omega
    simp only [if_neg h1, if_neg h2, if_neg h3, Nat.add_sub_cancel_left]
    rw [diag_sum _ _ _ (by omega), one_mul]

/-- **C65, eiquadprog.** -/
theorem C65_eiQuadprog (pb : SepQp) (h : pb.Ok) (hb : pb.ProperBounds) :
    (EiQuadprogPb.of pb).Sized pb.cstr.nvar ∧ (EiQuadprogPb.of pb).G = pb.cost.G ∧ (EiQuadprogPb.of pb).g0 = pb.cost.a ∧
    ∀ x, (EiQuadprogPb.of pb).Holds x ↔ pb.cstr.Holds x := by
  obtain ⟨⟨s1, s2, s3, s4, s5⟩, h1, h2, h3⟩ := C65_eigenQuadprog pb h hb
  refine ⟨⟨s1, s2, s3, s4, s5⟩, h1, h2, fun x => ?_⟩
  rw [← h3]
  unfold EiQuadprogPb.Holds EigenQuadprogPb.Holds
  rw [s4, s5]
  dsimp only [EiQuadprogPb.of]
  refine and_congr ?_ ?_ <;> refine forall₂_congr fun r hr => ?_
  · constructor <;> intro h <;> linarith
  · rw [ereal_add_nonneg]
    simp only [neg_mul, sum_neg_distrib, neg_neg]

/-- **C65, QLD.** Here contradictory infinite bounds are kept. -/
theorem C65_qld (pb : SepQp) (h : pb.Ok) :
    (QLDPb.of pb).Sized pb.cstr.nvar pb.me ∧ (QLDPb.of pb).Q = pb.cost.G ∧ (QLDPb.of pb).c = pb.cost.a ∧
    ∀ x, (QLDPb.of pb).Holds pb.me x ↔ pb.cstr.Holds x := by
  have hbd := h.bnd
  have h3 := h.cstr.b1.b3
  refine ⟨⟨h.a, h.a, rfl, by dsimp only [QLDPb.of]; omega, ?_, ?_⟩, rfl, rfl, fun x => ?_⟩
  · dsimp only [QLDPb.of]; rw [← h.a]; split
    · omega
    · rfl
  · dsimp only [QLDPb.of]; rw [← h.a]; split
    · omega
    · rfl
  rw [h.holds_iff]
  unfold QLDPb.Holds
  have hbnds : (∀ i < (QLDPb.of pb).A.cols, (QLDPb.of pb).xl.at' i ≤ ((x i : ℝ) : EReal) ∧ ((x i : ℝ) : EReal) ≤ (QLDPb.of pb).xu.at' i) ↔
      (∀ i < pb.cstr.xl.size, pb.cstr.xl.at' i ≤ ((x i : ℝ) : EReal)) ∧
      ∀ i < pb.cstr.xl.size, ((x i : ℝ) : EReal) ≤ pb.cstr.xu.at' i := by
    dsimp only [QLDPb.of]
    by_cases h0 : pb.cstr.xl.size = 0
    · rw [if_neg (not_not.2 h0), if_neg (not_not.2 (h3 ▸ h0)), h0]
      simp
    · rw [if_pos h0, if_pos (h3 ▸ h0), hbd.resolve_left h0]
      exact ⟨fun h => ⟨fun i hi => (h i hi).1, fun i hi => (h i hi).2⟩, fun h i hi => ⟨h.1 i hi, h.2 i hi⟩⟩
  rw [hbnds]
  dsimp only [QLDPb.of]
  rw [forall_split2, forall_split2, and_assoc, and_assoc, ← h.seg_l, ← h.seg_u]
  set nl := if hasFiniteElements pb.cstr.l then pb.mi else 0
  set nu := if hasFiniteElements pb.cstr.u then pb.mi else 0
  refine and_congr ?_ (and_congr ?_ (and_congr ?_ Iff.rfl)) <;> refine forall₂_congr fun r hr => ?_
  · simp only [if_pos hr]
    rw [rowAt_sum, ereal_add_zero]
  · have h1 : ¬ pb.me + r < pb.me := by omega
    have h2 : pb.me + r < pb.me + nl := by omega
    simp only [if_neg h1, if_pos h2, Nat.add_sub_cancel_left]
    rw [rowAt_sum, ereal_add_nonneg, ereal_neg_le]
  · have h1 : ¬ pb.me + nl + r < pb.me := by omega
    have h2 : ¬ pb.me + nl + r < pb.me + nl := by omega
    simp only [if_neg h1, if_neg h2, Nat.add_sub_cancel_left]
    rw [rowAt_neg_sum, ereal_add_nonneg, neg_neg]

/-- **C65, LSSOL.** With bounds, the same feasible set; without bounds, `-1e30 ≤ x ≤ 1e30` is added. -/
theorem C65_lssol (pb : SepQp) (h : pb.Ok) :
    (LssolPb.of pb).Sized pb.cstr.nvar ∧ (LssolPb.of pb).Q = pb.cost.G ∧ (LssolPb.of pb).p = pb.cost.a ∧
    (pb.cstr.xl.size ≠ 0 → ∀ x, (LssolPb.of pb).Holds x ↔ pb.cstr.Holds x) ∧
    (pb.cstr.xl.size = 0 → ∀ x, (LssolPb.of pb).Holds x ↔ pb.cstr.Holds x ∧ ∀ i < pb.cstr.nvar, |x i| ≤ 1e30) := by
  have hbd := h.bnd
  refine ⟨⟨h.a, h.a, ?_, ?_⟩, rfl, rfl, ?_⟩
  · dsimp only [LssolPb.of]; rw [h.a]; omega
  · dsimp only [LssolPb.of]; rw [h.a]; omega
  have key : ∀ x, (LssolPb.of pb).Holds x ↔
      (∀ i < pb.cost.a.size, (if pb.cstr.xl.size ≠ 0 then pb.cstr.xl.at' i else ((-1e30 : ℝ) : EReal)) ≤ ((x i : ℝ) : EReal) ∧
        ((x i : ℝ) : EReal) ≤ (if pb.cstr.xl.size ≠ 0 then pb.cstr.xu.at' i else ((1e30 : ℝ) : EReal))) ∧
      (∀ i < pb.me, pb.cstr.E.val pb.cstr.tr pb.cost.a.size x i = pb.cstr.f.at' i) ∧
      (∀ i < pb.mi, pb.cstr.l.at' i ≤ ((pb.cstr.C.val pb.cstr.tr pb.cost.a.size x i : ℝ) : EReal)) ∧
      (∀ i < pb.mi, ((pb.cstr.C.val pb.cstr.tr pb.cost.a.size x i : ℝ) : EReal) ≤ pb.cstr.u.at' i) := by
    intro x
    unfold LssolPb.Holds
    dsimp only [LssolPb.of]
    refine and_congr ?_ ?_
    · refine forall₂_congr fun r hr => ?_
      rw [if_pos hr, if_pos hr]
    · rw [forall_split2]
      refine and_congr ?_ ?_
      · refine forall₂_congr fun r hr => ?_
        have h1 : ¬ pb.cost.a.size + r < pb.cost.a.size := by omega
        have h2 : pb.cost.a.size + r < pb.cost.a.size + pb.me := by omega
        simp only [if_neg h1, if_pos h2, if_pos hr, Nat.add_sub_cancel_left]
        rw [rowAt_sum, ← le_antisymm_iff]
        norm_cast
        exact eq_comm
      · rw [← forall₂_and]
        refine forall₂_congr fun r hr => ?_
        have h1 : ¬ pb.cost.a.size + (pb.me + r) < pb.cost.a.size := by omega
        have h2 : ¬ pb.cost.a.size + (pb.me + r) < pb.cost.a.size + pb.me := by omega
        have h3 : ¬ pb.me + r < pb.me := by omega
        have h4 : pb.cost.a.size + (pb.me + r) - (pb.cost.a.size + pb.me) = r := by omega
        simp only [if_neg h1, if_neg h2, if_neg h3, h4, Nat.add_sub_cancel_left]
        rw [rowAt_sum]
  constructor
  · intro h0 x
    rw [key, h.holds_iff]
    simp only [if_pos h0]
    rw [hbd.resolve_left h0]
    constructor
    · rintro ⟨a, b, c, d⟩
      exact ⟨b, c, d, fun i hi => (a i hi).1, fun i hi => (a i hi).2⟩
    · rintro ⟨b, c, d, e, f⟩
      exact ⟨fun i hi => ⟨e i hi, f i hi⟩, b, c, d⟩
  · intro h0 x
    rw [key, h.holds_iff, h0, ← h.a]
    simp only [ne_eq, not_true, if_false, abs_le, EReal.coe_le_coe_iff]
    constructor
    · rintro ⟨a, b, c, d⟩
      exact ⟨⟨b, c, d, fun i hi => absurd hi (by omega), fun i hi => absurd hi (by omega)⟩, a⟩
    · rintro ⟨⟨b, c, d, -, -⟩, a⟩
      exact ⟨a, b, c, d⟩

end JrlQp
