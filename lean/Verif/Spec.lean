import Verif.Solver
import Mathlib.Algebra.BigOperators.Group.Finset.Basic

/-!
# Specification of the quadratic programs, in exact arithmetic

Independent of the solver: objective, feasibility, optimality, Karush-Kuhn-Tucker conditions of
`min ½ xᵀHx + aᵀx  s.t.  bl ≤ Cᵀx ≤ bu, xl ≤ x ≤ xu` (doc of include/jrl-qp/GoldfarbIdnaniSolver.h:17-31), where `H` is
the symmetric matrix whose lower triangle is that of `G`. Vectors are functions of which the first `n` values matter.
-/

namespace JrlQp

open Finset

namespace Spec

variable (pb : Pb ℝ EReal)

/-- The Hessian: the symmetric matrix with the lower triangle of `G`. -/
def hess (i j : Nat) : ℝ := if j ≤ i then pb.G i j else pb.G j i

/-- Value of the objective. -/
noncomputable def obj (x : Nat → ℝ) : ℝ :=
  1 / 2 * (∑ i ∈ range pb.n, ∑ j ∈ range pb.n, x i * hess pb i j * x j) + ∑ i ∈ range pb.n, pb.a i * x i

/-- Value of the `i`-th general constraint. -/
def row (x : Nat → ℝ) (i : Nat) : ℝ := ∑ a ∈ range pb.n, pb.C a i * x a

/-- `x` satisfies all the constraints and bounds. -/
structure Feasible (x : Nat → ℝ) : Prop where
  gen : ∀ i < pb.m, pb.bl i ≤ ((row pb x i : ℝ) : EReal) ∧ ((row pb x i : ℝ) : EReal) ≤ pb.bu i
  bnd : pb.useBnd = true → ∀ i < pb.n, pb.xl i ≤ ((x i : ℝ) : EReal) ∧ ((x i : ℝ) : EReal) ≤ pb.xu i

/-- `x` is a global minimiser. -/
def IsOptimal (x : Nat → ℝ) : Prop := Feasible pb x ∧ ∀ y, Feasible pb y → obj pb x ≤ obj pb y

/-- `x` is the only global minimiser. -/
def IsUniqueOptimal (x : Nat → ℝ) : Prop :=
  IsOptimal pb x ∧ ∀ y, IsOptimal pb y → ∀ i < pb.n, y i = x i

/-- Karush-Kuhn-Tucker conditions, with the sign convention of `multipliers()`: `lam` has one entry per general
constraint then one per bound; a negative multiplier goes with the lower side, a positive one with the upper side. -/
structure KKT (x lam : Nat → ℝ) : Prop where
  feasible : Feasible pb x
  stationary : ∀ a < pb.n, ∑ b ∈ range pb.n, hess pb a b * x b + pb.a a + ∑ i ∈ range pb.m, lam i * pb.C a i
      + (if pb.useBnd then lam (pb.m + a) else 0) = 0
  lower : ∀ i < pb.m, lam i < 0 → ((row pb x i : ℝ) : EReal) = pb.bl i
  upper : ∀ i < pb.m, 0 < lam i → ((row pb x i : ℝ) : EReal) = pb.bu i
  lowerBnd : pb.useBnd = true → ∀ i < pb.n, lam (pb.m + i) < 0 → ((x i : ℝ) : EReal) = pb.xl i
  upperBnd : pb.useBnd = true → ∀ i < pb.n, 0 < lam (pb.m + i) → ((x i : ℝ) : EReal) = pb.xu i

/-- Lower sides are not `+∞`, upper sides are not `-∞`. -/
structure Proper : Prop where
  bl : ∀ i < pb.m, pb.bl i ≠ ⊤
  bu : ∀ i < pb.m, pb.bu i ≠ ⊥
  xl : pb.useBnd = true → ∀ i < pb.n, pb.xl i ≠ ⊤
  xu : pb.useBnd = true → ∀ i < pb.n, pb.xu i ≠ ⊥

/-- Lower sides do not exceed upper sides. -/
structure NotCrossed : Prop where
  gen : ∀ i < pb.m, pb.bl i ≤ pb.bu i
  bnd : pb.useBnd = true → ∀ i < pb.n, pb.xl i ≤ pb.xu i

/-- Constraint `i` (general constraints first, then bounds) is an equality. -/
def IsEqIdx (i : Nat) : Prop :=
  (i < pb.m ∧ pb.bl i = pb.bu i) ∨ (pb.m ≤ i ∧ pb.xl (i - pb.m) = pb.xu (i - pb.m))

end Spec
end JrlQp
