import Verif.Problems
import Verif.PropsBox

/-!
# C43: the generator of box problems

Model of `generateBoxAndSingleConstraintProblem`, src/experimental/BoxAndSingleConstraintSolver.cpp:99-175, in exact arithmetic,
the random vectors being arguments, and what its documentation (include/jrl-qp/experimental/BoxAndSingleConstraintSolver.h:38-47)
says about the generated problems.
-/

namespace JrlQp

open Finset Spec

/-- Clamp of `x0` in the box, src/experimental/BoxAndSingleConstraintSolver.cpp:123-129. -/
noncomputable def genClamp (x0 xl xu : ℝ) : ℝ := if x0 < xl then xl else if xu < x0 then xu else x0

/-- `generateBoxAndSingleConstraintProblem`, src/experimental/BoxAndSingleConstraintSolver.cpp:99-175: `x0`, `r1`, `r2`, `c` are the
random vectors; `none`: the assert of line 101. -/
noncomputable def genBox (n : Nat) (act : Bool) (lvl : ℝ) (x0 r1 r2 c : Nat → ℝ) : Option Ls :=
  if act = true → 0 < lvl ∧ lvl < 1 then
    let xl : Nat → ℝ := fun i => if r1 i < r2 i then r1 i else r2 i
    let xu : Nat → ℝ := fun i => if r1 i < r2 i then r2 i else r1 i
    let xb : Nat → ℝ := fun i => genClamp (x0 i) (xl i) (xu i)
    let sl : Nat → ℝ := fun i => if 0 < c i then xl i else xu i
    let su : Nat → ℝ := fun i => if 0 < c i then xu i else xl i
    let b : ℝ := if act then lvl * sumTo (fun i => c i * xb i) n + (1 - lvl) * sumTo (fun i => c i * su i) n
      else sumTo (fun i => c i * sl i) n
    some { cost := ⟨⟨n, n, fun i j => if i = j then 1 else 0⟩, ⟨n, x0⟩⟩,
           cstr := { C := ⟨n, 1, fun i _ => c i⟩, l := ⟨1, fun _ => (b : EReal)⟩, u := ⟨1, fun _ => ⊤⟩,
                     xl := ⟨n, fun i => (xl i : EReal)⟩, xu := ⟨n, fun i => (xu i : EReal)⟩, tr := false } }
  else none

/-- Specification: `y` is in the box of the problem. -/
def InBox (n : Nat) (ls : Ls) (y : Nat → ℝ) : Prop :=
  ∀ i < n, ls.cstr.xl.at' i ≤ ((y i : ℝ) : EReal) ∧ ((y i : ℝ) : EReal) ≤ ls.cstr.xu.at' i

/-- Specification: feasible set of the problem given to the box solver (as tests/BoxAndSingleConstraintSolverTest.cpp:30 does:
`solver.solve(pb.b, pb.C, pb.l[0], pb.xl, pb.xu)`). -/
def GenFeasible (n : Nat) (ls : Ls) (y : Nat → ℝ) : Prop :=
  BoxFeasible n (fun i => ls.cstr.C.at' i 0) (ls.cstr.l.at' 0) ls.cstr.xl.at' ls.cstr.xu.at' y

section
variable {n : Nat} {act : Bool} {lvl : ℝ} {x0 r1 r2 c : Nat → ℝ} {ls : Ls}

theorem genClamp_mem {v l u : ℝ} (h : l ≤ u) : l ≤ genClamp v l u ∧ genClamp v l u ≤ u := by
  unfold genClamp; split_ifs <;> constructor <;> linarith

theorem genClamp_best {v l u w : ℝ} (h1 : l ≤ w) (h2 : w ≤ u) : (genClamp v l u - v) ^ 2 + (w - genClamp v l u) ^ 2 ≤ (w - v) ^ 2 := by
  unfold genClamp; split_ifs <;> nlinarith

theorem genBox_some (h : genBox n act lvl x0 r1 r2 c = some ls) : (act = true → 0 < lvl ∧ lvl < 1) ∧
    ∃ xl xu : Nat → ℝ, (∀ i, xl i ≤ xu i) ∧ ls.cstr.xl = ⟨n, fun i => (xl i : EReal)⟩ ∧ ls.cstr.xu = ⟨n, fun i => (xu i : EReal)⟩ ∧
      ls.cstr.C = ⟨n, 1, fun i _ => c i⟩ ∧ ls.cost.b = ⟨n, x0⟩ ∧ ls.cstr.tr = false ∧ ls.cstr.u = ⟨1, fun _ => ⊤⟩ ∧
      ls.cost.A = ⟨n, n, fun i j => if i = j then 1 else 0⟩ ∧
      ls.cstr.l = ⟨1, fun _ => ((if act then lvl * (∑ i ∈ range n, c i * genClamp (x0 i) (xl i) (xu i)) +
        (1 - lvl) * (∑ i ∈ range n, c i * (if 0 < c i then xu i else xl i)) else ∑ i ∈ range n, c i * (if 0 < c i then xl i else xu i) : ℝ) : EReal)⟩ := by
  unfold genBox at h
  by_cases h1 : act = true → 0 < lvl ∧ lvl < 1
  swap
  · rw [if_neg h1] at h; cases h
  rw [if_pos h1] at h
  refine ⟨h1, fun i => if r1 i < r2 i then r1 i else r2 i, fun i => if r1 i < r2 i then r2 i else r1 i, fun i => ?_, ?_⟩
  · dsimp only
    split_ifs with h2
    · exact h2.le
    · exact not_lt.1 h2
  · simp only [Option.some.injEq] at h
    subst h
    simp only [sumTo_eq, true_and]

/-- **C43, sides.** The generated bounds do not cross, and the problem is meaningful data for the box solver. -/
theorem C43_data (h : genBox n act lvl x0 r1 r2 c = some ls) :
    BoxData n (ls.cstr.l.at' 0) ls.cstr.xl.at' ls.cstr.xu.at' := by
  obtain ⟨_, xl, xu, hle, e1, e2, _, _, _, _, _, e3⟩ := genBox_some h
  rw [e1, e2, e3]
  exact ⟨EReal.coe_ne_top _, fun i _ => EReal.coe_ne_top _, fun i _ => EReal.coe_ne_bot _, fun i _ => EReal.coe_le_coe_iff.2 (hle i)⟩

/-- **C43, active.** When the constraint is asked to be active, the problem is feasible and its solution satisfies the constraint as
an equality. Moreover the constraint cuts the unconstrained (box only) solution off, unless that point already has the largest
value of `c'x` in the box. -/
theorem C43_active (h : genBox n true lvl x0 r1 r2 c = some ls) :
    (∃ y, GenFeasible n ls y) ∧
    (∀ x, IsProjection n (GenFeasible n ls) x0 x → ((∑ i ∈ range n, c i * x i : ℝ) : EReal) = ls.cstr.l.at' 0) ∧
    (∀ xb, IsProjection n (InBox n ls) x0 xb → ((∑ i ∈ range n, c i * xb i : ℝ) : EReal) < ls.cstr.l.at' 0 ∨
      ∀ y, InBox n ls y → ∑ i ∈ range n, c i * y i ≤ ∑ i ∈ range n, c i * xb i) := by
  obtain ⟨hl, xl, xu, hle, e1, e2, eC, _, _, _, _, e3⟩ := genBox_some h
  obtain ⟨hl0, hl1⟩ := hl rfl
  simp only [if_true] at e3
  set xb : Nat → ℝ := fun i => genClamp (x0 i) (xl i) (xu i) with hxb
  set su : Nat → ℝ := fun i => if 0 < c i then xu i else xl i with hsu
  set b : ℝ := lvl * (∑ i ∈ range n, c i * xb i) + (1 - lvl) * ∑ i ∈ range n, c i * su i with hb
  have hin : ∀ y, InBox n ls y ↔ ∀ i < n, xl i ≤ y i ∧ y i ≤ xu i := by
    intro y
    unfold InBox
    rw [e1, e2]
    simp only [EReal.coe_le_coe_iff]
  have hf : ∀ y, GenFeasible n ls y ↔ b ≤ ∑ i ∈ range n, c i * y i ∧ InBox n ls y := by
    intro y
    unfold GenFeasible BoxFeasible
    rw [e3, eC]
    simp only [EReal.coe_le_coe_iff]
    exact Iff.rfl
  have hsum : ∀ y : Nat → ℝ, (∀ i < n, xl i ≤ y i ∧ y i ≤ xu i) → ∑ i ∈ range n, c i * y i ≤ ∑ i ∈ range n, c i * su i := by
    intro y hy
    refine Finset.sum_le_sum fun i hi => ?_
    obtain ⟨h1, h2⟩ := hy i (mem_range.1 hi)
    simp only [hsu]
    split_ifs with h3
    · exact mul_le_mul_of_nonneg_left h2 h3.le
    · exact mul_le_mul_of_nonpos_left h1 (not_lt.1 h3)
  have hxbin : ∀ i < n, xl i ≤ xb i ∧ xb i ≤ xu i := fun i _ => genClamp_mem (hle i)
  have hsuin : ∀ i < n, xl i ≤ su i ∧ su i ≤ xu i := by
    intro i _
    simp only [hsu]
    split_ifs
    · exact ⟨hle i, le_rfl⟩
    · exact ⟨le_rfl, hle i⟩
  have h12 := hsum xb hxbin
  have hb2 : b ≤ ∑ i ∈ range n, c i * su i := by rw [hb]; nlinarith
  have hb1 : ∑ i ∈ range n, c i * xb i ≤ b := by rw [hb]; nlinarith
  have hbest : ∀ y, InBox n ls y → dist2 n xb x0 + dist2 n y xb ≤ dist2 n y x0 := by
    intro y hy
    rw [hin] at hy
    unfold dist2
    rw [← Finset.sum_add_distrib]
    exact Finset.sum_le_sum fun i hi => genClamp_best (hy i (mem_range.1 hi)).1 (hy i (mem_range.1 hi)).2
  have hd0 : ∀ y z, 0 ≤ dist2 n y z := fun y z => Finset.sum_nonneg fun i _ => sq_nonneg _
  have hdz : ∀ y z, dist2 n y z ≤ 0 → ∀ i < n, y i = z i := by
    intro y z hyz i hi
    have := (Finset.sum_eq_zero_iff_of_nonneg (fun i _ => sq_nonneg (y i - z i))).1 (le_antisymm hyz (hd0 y z)) i (mem_range.2 hi)
    have := pow_eq_zero_iff (n := 2) (by norm_num) |>.1 this
    linarith
  refine ⟨⟨su, (hf su).2 ⟨hb2, (hin su).2 hsuin⟩⟩, ?_, ?_⟩
  · intro x hx
    rw [e3]
    simp only [EReal.coe_eq_coe_iff]
    obtain ⟨h1, h2⟩ := hx
    obtain ⟨h3, h4⟩ := (hf x).1 h1
    refine le_antisymm ?_ h3
    by_contra hlt
    push Not at hlt
    -- a point of the segment between `x` and `xb` is feasible and closer
    set cx := ∑ i ∈ range n, c i * x i
    set cb := ∑ i ∈ range n, c i * xb i
    obtain ⟨θ, t0, t1, tb⟩ : ∃ θ : ℝ, 0 < θ ∧ θ ≤ 1 ∧ b ≤ (1 - θ) * cx + θ * cb := by
      refine ⟨(cx - b) / (cx - cb), div_pos (by linarith) (by linarith), (div_le_one (by linarith)).2 (by linarith), ?_⟩
      have : (cx - b) / (cx - cb) * (cx - cb) = cx - b := div_mul_cancel₀ _ (by linarith)
      nlinarith
    obtain ⟨y, hy⟩ : ∃ y : Nat → ℝ, y = fun i => (1 - θ) * x i + θ * xb i := ⟨_, rfl⟩
    have hyf : GenFeasible n ls y := by
      rw [hf, hin]
      rw [hin] at h4
      constructor
      · have : ∑ i ∈ range n, c i * y i = (1 - θ) * cx + θ * cb := by
          simp only [cx, cb, Finset.mul_sum, ← Finset.sum_add_distrib, hy]
          exact Finset.sum_congr rfl fun i _ => by ring
        rw [this]; exact tb
      · intro i hi
        obtain ⟨a1, a2⟩ := h4 i hi
        obtain ⟨b1, b2⟩ := hxbin i hi
        rw [hy]
        constructor <;> simp only <;> nlinarith
    have hcl := (h2 y hyf).1
    have hxx := hbest x h4
    -- dist2 y x0 = (1-θ) dist2 x x0 + θ dist2 xb x0 - θ(1-θ) dist2 x xb
    have hid : dist2 n y x0 = (1 - θ) * dist2 n x x0 + θ * dist2 n xb x0 - θ * (1 - θ) * dist2 n x xb := by
      unfold dist2
      rw [Finset.mul_sum, Finset.mul_sum, Finset.mul_sum, ← Finset.sum_add_distrib, ← Finset.sum_sub_distrib]
      exact Finset.sum_congr rfl fun i _ => by rw [hy]; ring
    have hz : dist2 n x xb ≤ 0 := by
      have e1 := hd0 x xb
      by_contra hp
      push Not at hp
      have : θ * (dist2 n x x0) ≤ θ * dist2 n xb x0 - θ * (1 - θ) * dist2 n x xb := by linarith
      have : dist2 n x x0 ≤ dist2 n xb x0 - (1 - θ) * dist2 n x xb := by
        have := le_of_mul_le_mul_left (a := θ) (b := dist2 n x x0) (c := dist2 n xb x0 - (1 - θ) * dist2 n x xb) (by linarith) t0
        exact this
      nlinarith
    have heq := hdz x xb hz
    have : cx = cb := Finset.sum_congr rfl fun i hi => by rw [heq i (mem_range.1 hi)]
    linarith
  · intro z hz
    have hzz : ∀ i < n, z i = xb i := by
      have h1 := (hz.2 xb ((hin xb).2 hxbin)).1
      have h2 := hbest z hz.1
      exact hdz z xb (by linarith)
    have hcz : ∑ i ∈ range n, c i * z i = ∑ i ∈ range n, c i * xb i :=
      Finset.sum_congr rfl fun i hi => by rw [hzz i (mem_range.1 hi)]
    rw [e3, hcz]
    simp only [EReal.coe_lt_coe_iff]
    rcases h12.lt_or_eq with h3 | h3
    · left; rw [hb]; nlinarith
    · right
      intro y hy
      rw [h3]
      exact hsum y ((hin y).1 hy)

/-- **C43, level.** `actLevel` says where the plane of the constraint cuts the segment from `xb`, the solution without the
constraint, to a point `su` of the box with the largest value of `c'x`. -/
theorem C43_level (h : genBox n true lvl x0 r1 r2 c = some ls) {xb su : Nat → ℝ} (h1 : IsProjection n (InBox n ls) x0 xb)
    (h2 : InBox n ls su) (h3 : ∀ y, InBox n ls y → ∑ i ∈ range n, c i * y i ≤ ∑ i ∈ range n, c i * su i) :
    ((∑ i ∈ range n, c i * (lvl * xb i + (1 - lvl) * su i) : ℝ) : EReal) = ls.cstr.l.at' 0 := by
  obtain ⟨_, xl, xu, hle, e1, e2, eC, _, _, _, _, e3⟩ := genBox_some h
  simp only [if_true] at e3
  have hin : ∀ y, InBox n ls y ↔ ∀ i < n, xl i ≤ y i ∧ y i ≤ xu i := by
    intro y
    unfold InBox
    rw [e1, e2]
    simp only [EReal.coe_le_coe_iff]
  have hxb : ∀ i < n, xb i = genClamp (x0 i) (xl i) (xu i) := by
    have hc : InBox n ls (fun i => genClamp (x0 i) (xl i) (xu i)) := (hin _).2 fun i _ => genClamp_mem (hle i)
    have k1 := (h1.2 _ hc).1
    have k2 : dist2 n (fun i => genClamp (x0 i) (xl i) (xu i)) x0 ≤ dist2 n xb x0 :=
      Finset.sum_le_sum fun i hi => by
        have := genClamp_best (v := x0 i) ((hin _).1 h1.1 i (mem_range.1 hi)).1 ((hin _).1 h1.1 i (mem_range.1 hi)).2
        nlinarith [sq_nonneg (xb i - genClamp (x0 i) (xl i) (xu i))]
    intro i hi
    exact ((h1.2 _ hc).2 (le_antisymm k2 k1) i hi).symm
  have hsu : ∑ i ∈ range n, c i * su i = ∑ i ∈ range n, c i * (if 0 < c i then xu i else xl i) := by
    refine le_antisymm (Finset.sum_le_sum fun i hi => ?_) (h3 _ ((hin _).2 fun i _ => ?_))
    · obtain ⟨a1, a2⟩ := (hin _).1 h2 i (mem_range.1 hi)
      split_ifs with h4
      · exact mul_le_mul_of_nonneg_left a2 h4.le
      · exact mul_le_mul_of_nonpos_left a1 (not_lt.1 h4)
    · split_ifs
      · exact ⟨hle i, le_rfl⟩
      · exact ⟨le_rfl, hle i⟩
  have hcb : ∑ i ∈ range n, c i * xb i = ∑ i ∈ range n, c i * genClamp (x0 i) (xl i) (xu i) :=
    Finset.sum_congr rfl fun i hi => by rw [hxb i (mem_range.1 hi)]
  rw [e3]
  simp only [EReal.coe_eq_coe_iff]
  rw [← hcb, ← hsu, Finset.mul_sum, Finset.mul_sum, ← Finset.sum_add_distrib]
  exact Finset.sum_congr rfl fun i _ => by ring

/-- **C43, inactive.** When the constraint is not asked to be active, it removes nothing from the box: every point of the box is
feasible, hence the solution is the one without the constraint. -/
theorem C43_inactive (h : genBox n false lvl x0 r1 r2 c = some ls) :
    (∀ y, GenFeasible n ls y ↔ InBox n ls y) ∧
    ∀ x, IsProjection n (GenFeasible n ls) x0 x ↔ IsProjection n (InBox n ls) x0 x := by
  have h1 : ∀ y, GenFeasible n ls y ↔ InBox n ls y := by
    obtain ⟨_, xl, xu, hle, e1, e2, eC, _, _, _, _, e3⟩ := genBox_some h
    intro y
    refine ⟨fun h => h.2, fun hy => ⟨?_, hy⟩⟩
    unfold InBox at hy
    rw [e1, e2] at hy
    rw [e3, eC]
    simp only [Bool.false_eq_true, if_false, EReal.coe_le_coe_iff] at hy ⊢
    refine Finset.sum_le_sum fun i hi => ?_
    obtain ⟨h1, h2⟩ := hy i (mem_range.1 hi)
    split_ifs with h3
    · exact mul_le_mul_of_nonneg_left h1 h3.le
    · exact mul_le_mul_of_nonpos_left h2 (not_lt.1 h3)
  refine ⟨h1, fun x => ?_⟩
  unfold IsProjection
  simp only [h1]

/-- **C43, shape.** `wellFormed()` of the generated problem is false unless there is exactly one variable: the matrix of the
constraint is stored transposed but `transposedMat` is left to `false`. -/
theorem C43_not_wellFormed (h : genBox n act lvl x0 r1 r2 c = some ls) : ls.WellFormed ↔ n = 1 := by
  obtain ⟨_, xl, xu, hle, e1, e2, eC, eb, et, eu, eA, e3⟩ := genBox_some h
  constructor
  · intro hw
    have := hw.b1.b2
    rw [et, e3, eC] at this
    simpa using this.symm
  · rintro rfl
    refine ⟨⟨by rw [e3, eu], ?_, by rw [e1, e2], ?_, ?_, ?_⟩, ?_, ?_⟩
    · rw [et, e3, eC]; simp
    · rw [et, e1, eC]; simp
    · rw [if_neg (by simp), eu]
      intro i _
      exact le_top
    · rw [e1, e2]
      intro i _
      simp only [EReal.coe_le_coe_iff]
      exact hle i
    · rw [et, eA, eC]; simp
    · rw [eA, eb]

end

/-- The generator answers when its assert holds: with a concrete draw in dimension two and an active constraint, the hypotheses of
the theorems above are met and the constraint does cut the box. -/
theorem C43_example : ∃ ls, genBox 2 true (1 / 2) (fun _ => 0) (fun _ => -1) (fun _ => 1) (fun _ => 1) = some ls ∧
    ls.cstr.l.at' 0 = ((1 : ℝ) : EReal) := by
  refine ⟨_, by unfold genBox; rw [if_pos (by norm_num)], ?_⟩
  simp only [sumTo, genClamp, if_true]
  norm_num

end JrlQp
