import Verif.PropsKkt

/-!
# C33: conversions between problem descriptions
-/

namespace JrlQp

open Finset Spec

/-! ### Specification -/

/-- Number of variables of constraints. -/
def Feas.nvar (c : Feas) : Nat := if c.tr then c.C.rows else c.C.cols

/-- Value of the row `i` of `M` (of its column `i` if it is stored transposed) at `x`. -/
noncomputable def Mx.val (M : Mx) (tr : Bool) (n : Nat) (x : Nat → ℝ) (i : Nat) : ℝ :=
  ∑ k ∈ range n, (if tr then M.at' k i else M.at' i k) * x k

/-- `x` satisfies `l ≤ Cx ≤ u`, `xl ≤ x ≤ xu` (doc of `FeasibilityConstraints`). -/
def Feas.Holds (c : Feas) (x : Nat → ℝ) : Prop :=
  (∀ i < c.l.size, c.l.at' i ≤ ((c.C.val c.tr c.nvar x i : ℝ) : EReal) ∧ ((c.C.val c.tr c.nvar x i : ℝ) : EReal) ≤ c.u.at' i) ∧
  ∀ i < c.xl.size, c.xl.at' i ≤ ((x i : ℝ) : EReal) ∧ ((x i : ℝ) : EReal) ≤ c.xu.at' i

/-- `x` satisfies `Ex = f`, `l ≤ Cx ≤ u`, `xl ≤ x ≤ xu` (doc of `SeparatedFeasibilityConstraints`). -/
def SepFeas.Holds (c : SepFeas) (x : Nat → ℝ) : Prop :=
  (∀ i < c.f.size, c.E.val c.tr c.nvar x i = c.f.at' i) ∧ c.toFeas.Holds x

/-- `½ ‖Ax - b‖²` (doc of `LeastSquareProblem`). -/
noncomputable def LsCost.value (ls : LsCost) (x : Nat → ℝ) : ℝ :=
  1 / 2 * ∑ k ∈ range ls.A.rows, (∑ j ∈ range ls.A.cols, ls.A.at' k j * x j - ls.b.at' k) ^ 2

/-- `½ x'Gx + a'x + objCst` (doc of `QPProblem`). -/
noncomputable def QpCost.value (q : QpCost) (x : Nat → ℝ) : ℝ :=
  1 / 2 * ∑ i ∈ range q.G.rows, ∑ j ∈ range q.G.cols, x i * q.G.at' i j * x j + ∑ i ∈ range q.a.size, q.a.at' i * x i + q.objCst

/-- `x` minimises `f` over `S`. -/
def IsMin (S : (Nat → ℝ) → Prop) (f : (Nat → ℝ) → ℝ) (x : Nat → ℝ) : Prop := S x ∧ ∀ y, S y → f x ≤ f y

/-! ### Constraints -/

theorem ofSep_nvar {c : SepFeas} : (Feas.ofSep c).nvar = c.nvar := by
  unfold Feas.nvar Feas.ofSep
  cases h : c.tr <;> simp

theorem ofSep_val_eq {c : SepFeas} (h : c.WellFormed) (n : Nat) (x : Nat → ℝ) {i : Nat} (hi : i < c.f.size) :
    (Feas.ofSep c).C.val (Feas.ofSep c).tr n x i = c.E.val c.tr n x i := by
  have h3 := h.b3
  unfold Mx.val Feas.ofSep
  cases ht : c.tr <;> simp only [ht, if_true, if_false, Bool.false_eq_true] at h3 ⊢ <;>
    exact Finset.sum_congr rfl fun k _ => by rw [if_pos (by omega)]

theorem ofSep_val_ineq {c : SepFeas} (h : c.WellFormed) (n : Nat) (x : Nat → ℝ) (i : Nat) :
    (Feas.ofSep c).C.val (Feas.ofSep c).tr n x (c.f.size + i) = c.C.val c.tr n x i := by
  have h3 := h.b3
  unfold Mx.val Feas.ofSep
  cases ht : c.tr <;> simp only [ht, if_true, if_false, Bool.false_eq_true] at h3 ⊢ <;>
    exact Finset.sum_congr rfl fun k _ => by
      rw [if_neg (by omega), h3, Nat.add_sub_cancel_left]

/-- **C33, constraints.** The conversion from separated constraints keeps the number of variables and the feasible set, and gives
well formed constraints with one row per equality and per inequality. -/
theorem C33_sep_to_feas (c : SepFeas) (h : c.WellFormed) :
    (Feas.ofSep c).nvar = c.nvar ∧ (Feas.ofSep c).l.size = c.f.size + c.l.size ∧ (Feas.ofSep c).WellFormed false ∧
    ∀ x, (Feas.ofSep c).Holds x ↔ c.Holds x := by
  have hl : (Feas.ofSep c).l.size = c.f.size + c.l.size := Nat.add_comm _ _
  refine ⟨ofSep_nvar, hl, ?_, fun x => ?_⟩
  · have w := h.b1
    refine ⟨by simp [Feas.ofSep, w.b1], ?_, w.b3, ?_, ?_, w.b6⟩
    · have h2 := w.b2
      have h3 := h.b3
      cases ht : c.tr <;> simp only [Feas.ofSep, ht, if_true, if_false, Bool.false_eq_true] at h2 h3 ⊢ <;> omega
    · intro hx
      have h4 := w.b4 hx
      cases ht : c.tr <;> simp only [Feas.ofSep, ht, if_true, if_false, Bool.false_eq_true] at h4 ⊢ <;> exact h4
    · have h5 := w.b5
      simp only [if_true] at h5
      simp only [Bool.false_eq_true, if_false]
      intro i hi
      simp only [Feas.ofSep] at hi ⊢
      by_cases hf : i < c.f.size
      · rw [if_pos hf, if_pos hf]
      · rw [if_neg hf, if_neg hf]
        exact (h5 _ (by omega)).le
  · unfold SepFeas.Holds Feas.Holds
    rw [hl, ofSep_nvar, ← and_assoc]
    refine and_congr ⟨fun H => ⟨fun i hi => ?_, fun i hi => ?_⟩, fun H i hi => ?_⟩ Iff.rfl
    · have := H i (by omega)
      rw [ofSep_val_eq h _ _ hi] at this
      simp only [Feas.ofSep, if_pos hi, EReal.coe_le_coe_iff] at this
      exact le_antisymm this.2 this.1
    · have := H (c.f.size + i) (by omega)
      rw [ofSep_val_ineq h] at this
      simpa only [Feas.ofSep, if_neg (show ¬ c.f.size + i < c.f.size by omega), Nat.add_sub_cancel_left] using this
    · by_cases hf : i < c.f.size
      · rw [ofSep_val_eq h _ _ hf, H.1 i hf]
        simp [Feas.ofSep, hf]
      · obtain ⟨j, rfl⟩ : ∃ j, i = c.f.size + j := ⟨i - c.f.size, by omega⟩
        rw [ofSep_val_ineq h]
        simp only [Feas.ofSep, if_neg (show ¬ c.f.size + j < c.f.size by omega), Nat.add_sub_cancel_left]
        exact H.2 j (by omega)

/-- **C33 is false for the other direction**: the conversion to separated constraints reads out of bounds whenever there is a
constraint. -/
theorem C33_feas_to_sep_faults (c : Feas) (h : 0 < c.l.size) : SepFeas.ofFeas c = .error .outOfBounds := if_pos h

/-- **C33 (partial), the other direction.** Without general constraints, the conversion keeps the bounds. -/
theorem C33_feas_to_sep_partial (c : Feas) (h : c.l.size = 0) :
    ∃ d, SepFeas.ofFeas c = .ok d ∧ d.nvar = c.nvar ∧ ∀ x, d.Holds x ↔ c.Holds x := by
  unfold SepFeas.ofFeas
  rw [if_neg (by omega)]
  refine ⟨_, rfl, rfl, fun x => ?_⟩
  simp [SepFeas.Holds, Feas.Holds, h]

/-! ### Objective -/

theorem ofLs_quad (ls : LsCost) (x : Nat → ℝ) :
    ∑ i ∈ range ls.A.cols, ∑ j ∈ range ls.A.cols, x i * (QpCost.ofLs ls).G.at' i j * x j =
      ∑ k ∈ range ls.A.rows, (∑ j ∈ range ls.A.cols, ls.A.at' k j * x j) ^ 2 := by
  have e : ∀ i j, x i * (QpCost.ofLs ls).G.at' i j * x j =
      ∑ k ∈ range ls.A.rows, (ls.A.at' k i * x i) * (ls.A.at' k j * x j) := by
    intro i j
    simp only [QpCost.ofLs, sumTo_eq, Finset.mul_sum, Finset.sum_mul]
    exact Finset.sum_congr rfl fun k _ => by ring
  simp only [e]
  rw [Finset.sum_congr rfl fun i _ => Finset.sum_comm, Finset.sum_comm]
  refine Finset.sum_congr rfl fun k _ => ?_
  rw [sq, Finset.sum_mul]
  refine Finset.sum_congr rfl fun i _ => ?_
  rw [Finset.mul_sum]

theorem ofLs_lin (ls : LsCost) (x : Nat → ℝ) :
    ∑ i ∈ range ls.A.cols, (QpCost.ofLs ls).a.at' i * x i =
      -∑ k ∈ range ls.A.rows, (∑ j ∈ range ls.A.cols, ls.A.at' k j * x j) * ls.b.at' k := by
  simp only [QpCost.ofLs, sumTo_eq, Finset.sum_mul]
  rw [Finset.sum_comm, ← Finset.sum_neg_distrib]
  refine Finset.sum_congr rfl fun k _ => ?_
  rw [← Finset.sum_neg_distrib]
  exact Finset.sum_congr rfl fun j _ => by ring

/-- **C33, objective of a least-squares problem.** The objective of the quadratic program differs by the constant `½ ‖b‖²`. -/
theorem C33_ls_objective (ls : LsCost) (x : Nat → ℝ) :
    ls.value x = (QpCost.ofLs ls).value x + 1 / 2 * ∑ k ∈ range ls.A.rows, ls.b.at' k ^ 2 := by
  have h1 := ofLs_quad ls x
  have h2 := ofLs_lin ls x
  unfold LsCost.value QpCost.value
  change _ = 1 / 2 * ∑ i ∈ range ls.A.cols, ∑ j ∈ range ls.A.cols, x i * (QpCost.ofLs ls).G.at' i j * x j
    + ∑ i ∈ range ls.A.cols, (QpCost.ofLs ls).a.at' i * x i + 0 + _
  rw [h1, h2]
  have e : ∀ k, (∑ j ∈ range ls.A.cols, ls.A.at' k j * x j - ls.b.at' k) ^ 2 =
      (∑ j ∈ range ls.A.cols, ls.A.at' k j * x j) ^ 2 - 2 * ((∑ j ∈ range ls.A.cols, ls.A.at' k j * x j) * ls.b.at' k)
        + ls.b.at' k ^ 2 := fun k => by ring
  simp only [e, Finset.sum_add_distrib, Finset.sum_sub_distrib, ← Finset.mul_sum]
  ring

/-- The conversion from a least-squares problem gives a symmetric matrix and a convex objective: the hypotheses of the solvers
and of the checker. -/
theorem C33_ls_convex (ls : LsCost) : SymMx ls.A.cols (QpCost.ofLs ls).G ∧ PsdMx ls.A.cols (QpCost.ofLs ls).G := by
  refine ⟨fun i _ j _ => ?_, fun x => ?_⟩
  · simp only [QpCost.ofLs]
    congr 1
    funext k
    ring
  · rw [ofLs_quad]
    exact Finset.sum_nonneg fun k _ => sq_nonneg _

/-- **C33, quadratic programs.** Changing the representation of the constraints keeps the objective up to its constant. -/
theorem C33_qp_objective (q : QpCost) (x : Nat → ℝ) : q.value x = (QpCost.ofQp q).value x + q.objCst := by
  simp [QpCost.value, QpCost.ofQp]

/-- **C33 is false for the constant of the objective**: `½ ‖b‖²` is not stored in `objCst` by the conversion from a
least-squares problem, and `objCst` is not copied by the conversion from a quadratic program. -/
theorem C33_constant_lost :
    (∃ ls : LsCost, ∀ x, (QpCost.ofLs ls).value x ≠ ls.value x) ∧ ∃ q : QpCost, ∀ x, (QpCost.ofQp q).value x ≠ q.value x := by
  refine ⟨⟨⟨⟨1, 1, fun _ _ => 1⟩, ⟨1, fun _ => 1⟩⟩, fun x h => ?_⟩, ⟨⟨⟨1, 1, fun _ _ => 1⟩, ⟨1, fun _ => 1⟩, 1⟩, fun x h => ?_⟩⟩
  · have := C33_ls_objective ⟨⟨1, 1, fun _ _ => 1⟩, ⟨1, fun _ => 1⟩⟩ x
    rw [h] at this
    simp at this
  · have := C33_qp_objective ⟨⟨1, 1, fun _ _ => 1⟩, ⟨1, fun _ => 1⟩, 1⟩ x
    rw [h] at this
    simp at this

theorem isMin_congr {S T : (Nat → ℝ) → Prop} {f g : (Nat → ℝ) → ℝ} (k : ℝ) (hS : ∀ x, S x ↔ T x) (hf : ∀ x, f x = g x + k)
    (x : Nat → ℝ) : IsMin S f x ↔ IsMin T g x := by
  unfold IsMin
  simp only [hS, hf, add_le_add_iff_right]

/-- **C33, solutions.** All the conversions to a quadratic program that do not fault keep the set of solutions. -/
theorem C33_solutions (x : Nat → ℝ) :
    (∀ ls : Ls, IsMin (Qp.ofLs ls).cstr.Holds (Qp.ofLs ls).cost.value x ↔ IsMin ls.cstr.Holds ls.cost.value x) ∧
    (∀ ls : SepLs, ls.cstr.WellFormed →
      (IsMin (Qp.ofSepLs ls).cstr.Holds (Qp.ofSepLs ls).cost.value x ↔ IsMin ls.cstr.Holds ls.cost.value x)) ∧
    (∀ ls : SepLs,
      (IsMin (SepQp.ofSepLs ls).cstr.Holds (SepQp.ofSepLs ls).cost.value x ↔ IsMin ls.cstr.Holds ls.cost.value x)) ∧
    (∀ qp : SepQp, qp.cstr.WellFormed →
      (IsMin (Qp.ofSepQp qp).cstr.Holds (Qp.ofSepQp qp).cost.value x ↔ IsMin qp.cstr.Holds qp.cost.value x)) := by
  refine ⟨fun ls => ?_, fun ls h => ?_, fun ls => ?_, fun qp h => ?_⟩
  · exact (isMin_congr _ (fun _ => Iff.rfl) (C33_ls_objective ls.cost) x).symm
  · exact (isMin_congr _ (fun y => ((C33_sep_to_feas ls.cstr h).2.2.2 y).symm) (C33_ls_objective ls.cost) x).symm
  · exact (isMin_congr _ (fun _ => Iff.rfl) (C33_ls_objective ls.cost) x).symm
  · exact (isMin_congr _ (fun y => ((C33_sep_to_feas qp.cstr h).2.2.2 y).symm) (C33_qp_objective qp.cost) x).symm

/-! ### Sizes -/

/-- The overload of `testKKT` on a `QPProblem<>` answers, without failing an assertion, if the problem is the conversion of a
well formed least-squares problem and the vectors have the right sizes. -/
theorem C33_ls_checkable (ls : Ls) (h : ls.WellFormed) (x u : Vx ℝ) (hx : x.size = ls.cost.A.cols)
    (hu : u.size = ls.cstr.l.size + ls.cstr.xl.size) (τp τd : ℝ) : ∃ b, ∀ dbg, testKKTqp dbg x u (Qp.ofLs ls) τp τd = .ok b := by
  have w := h.b1
  have h2 := h.b2
  have w2 := w.b2
  have w4 := w.b4
  refine C32_answers ⟨hx, ⟨rfl, rfl⟩, ⟨hu, ?_, w.b1.symm, ?_, w.b3.symm⟩⟩
  · rw [hx]
    change (ls.cstr.tr = false ∧ ls.cstr.C.rows = ls.cstr.l.size ∧ ls.cstr.C.cols = ls.cost.A.cols) ∨
      (ls.cstr.tr = true ∧ ls.cstr.C.rows = ls.cost.A.cols ∧ ls.cstr.C.cols = ls.cstr.l.size)
    cases ht : ls.cstr.tr <;> simp only [ht, if_true, if_false, Bool.false_eq_true] at h2 w2
    · exact Or.inl ⟨rfl, w2.symm, h2.symm⟩
    · exact Or.inr ⟨rfl, h2.symm, w2.symm⟩
  · rw [hx]
    change ls.cstr.xl.size = 0 ∨ ls.cstr.xl.size = ls.cost.A.cols
    by_cases h0 : ls.cstr.xl.size = 0
    · exact Or.inl h0
    · have := w4 h0
      cases ht : ls.cstr.tr <;> simp only [ht, if_true, if_false, Bool.false_eq_true] at h2 this <;> right <;> omega

/-- `QPProblem::wellFormed` rejects valid problems whose constraint matrix is transposed: the conversion of a well formed
least-squares problem with 2 variables, one constraint `x + y ≥ 0` and no bounds is not well formed. -/
theorem C33_wellFormed_transposed : ∃ ls : Ls, ls.WellFormed ∧ ¬ (Qp.ofLs ls).WellFormed := by
  refine ⟨⟨⟨⟨2, 1, fun _ _ => 1⟩, ⟨1, fun _ => 0⟩, ⟨1, fun _ => ⊤⟩, ⟨0, fun _ => 0⟩, ⟨0, fun _ => 0⟩, true⟩,
    ⟨⟨1, 2, fun _ _ => 1⟩, ⟨1, fun _ => 1⟩⟩⟩, ⟨⟨rfl, rfl, rfl, fun h => absurd rfl h, ?_, ?_⟩, rfl, rfl⟩, fun h => ?_⟩
  · simp
  · simp
  · have := h.b4
    simp [Qp.ofLs, QpCost.ofLs] at this

/-- `QPProblem::wellFormed` does not check the number of rows of `G`: the checker may assert on a well formed problem. -/
theorem C33_wellFormed_rows : ∃ qp : Qp, qp.WellFormed ∧ ∀ x u τp τd, testKKTqp true x u qp τp τd = .error .assertFailed := by
  refine ⟨⟨⟨⟨0, 1, fun _ _ => 1⟩, ⟨0, fun _ => 0⟩, ⟨0, fun _ => 0⟩, ⟨0, fun _ => 0⟩, ⟨0, fun _ => 0⟩, false⟩,
    ⟨⟨2, 1, fun _ _ => 1⟩, ⟨1, fun _ => 1⟩, 0⟩⟩, ⟨⟨rfl, rfl, rfl, fun h => absurd rfl h, ?_, ?_⟩, rfl, rfl, rfl⟩, fun x u τp τd => ?_⟩
  · simp
  · simp
  · unfold testKKTqp testKKT testKKTStationarity
    rw [if_neg fun h => by have := h.G_size; simp at this]
    rfl

/-- The hypotheses are met: `x + y = 1`, `0 ≤ x - y ≤ 1`, `0 ≤ x ≤ 1`, `0 ≤ y ≤ 1` in both storage orders; `(1/2, 1/2)` is a solution. -/
example (tr : Bool) : ∃ c : SepFeas, c.WellFormed ∧ c.tr = tr ∧ c.f.size = 1 ∧ c.l.size = 1 ∧ c.xl.size = 2 ∧
    c.Holds (fun _ => 1 / 2) ∧ ¬ c.Holds (fun _ => 1) := by
  refine ⟨{ C := if tr then ⟨2, 1, fun i _ => if i = 0 then 1 else -1⟩ else ⟨1, 2, fun _ i => if i = 0 then 1 else -1⟩
            l := ⟨1, fun _ => 0⟩
            u := ⟨1, fun _ => ((1 : ℝ) : EReal)⟩
            xl := ⟨2, fun _ => 0⟩
            xu := ⟨2, fun _ => ((1 : ℝ) : EReal)⟩
            tr := tr
            E := if tr then ⟨2, 1, fun _ _ => 1⟩ else ⟨1, 2, fun _ _ => 1⟩
            f := ⟨1, fun _ => 1⟩ }, ?_, rfl, rfl, rfl, rfl, ?_, ?_⟩
  · cases tr <;> refine ⟨⟨rfl, rfl, rfl, fun _ => rfl, ?_, ?_⟩, rfl, rfl⟩ <;> simp
  · refine ⟨fun i hi => ?_, fun i hi => ?_, fun i hi => ?_⟩
    · cases tr <;> simp [Mx.val, Feas.nvar, Finset.sum_range_succ] <;> norm_num
    · cases tr <;> simp [Mx.val, Feas.nvar, Finset.sum_range_succ]
    · constructor
      · simp only []; exact_mod_cast (by norm_num : (0 : ℝ) ≤ 1 / 2)
      · simp only []; exact_mod_cast (by norm_num : (1 / 2 : ℝ) ≤ 1)
  · intro h
    have := h.1 0 (by simp)
    cases tr <;> simp [Mx.val, Feas.nvar, Finset.sum_range_succ] at this

end JrlQp
