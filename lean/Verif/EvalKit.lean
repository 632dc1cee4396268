import Verif.Eigen

/-!
# Comparisons of the exact instance as propositions (for evaluating the model on concrete data)
-/

namespace JrlQp

open NumOps

@[simp] theorem ltb_real (a b : ℝ) : ltb a b = true ↔ a < b := by simp [ltb]
@[simp] theorem leb_real (a b : ℝ) : leb a b = true ↔ a ≤ b := by simp [leb]
@[simp] theorem eqb_real (a b : ℝ) : eqb a b = true ↔ a = b := by simp [eqb]
@[simp] theorem bEq_real (a b : EReal) : bEq ℝ a b = true ↔ a = b := by simp [bEq]
@[simp] theorem bLt_real (a b : EReal) : bLt ℝ a b = true ↔ a < b := by simp [bLt]
theorem sqrt_real (a : ℝ) : NumOps.sqrt a = Real.sqrt a := rfl
theorem abs_real (a : ℝ) : NumOps.abs a = |a| := rfl
theorem half_real : (NumOps.half : ℝ) = 1 / 2 := rfl
theorem toK_real (a : EReal) : (toK a : ℝ) = a.toReal := rfl
theorem bZero_real : bZero ℝ = (0 : EReal) := rfl

/-- A positive `1 x 1` matrix is accepted by the Cholesky factorisation. -/
theorem chol_one {M : Nat → Nat → ℝ} (h : 0 < M 0 0) : (chol 1 M 1).2 = none := by
  have : ¬ leb (esub (.llt 1 0 0) (M 0 0) (fun j => M 0 j * M 0 j) 0) 0 = true := by
    rw [leb_real]; simp [esub_real, sumTo]; exact h
  simp only [chol, cholCol]
  rw [if_neg this]

end JrlQp
