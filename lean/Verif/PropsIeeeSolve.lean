import Verif.IeeeSubstOk

/-!
# C81: an unconstrained problem is solved, without overflow, to within rounding errors
-/

namespace JrlQp
namespace Ieee

open NumOps Finset

variable {F : Fmt}

/-- **C81, with no assumption on what is computed.** In a standard format, after any history, on a problem without constraint whose Hessian is
positive definite beyond the rounding errors and whose gradient is not too large, `solve` returns SUCCESS without an iteration, the solution is finite
and within rounding errors of the exact minimiser. -/
theorem C81_unconstrained_solved (hF : F.Std) (cs : List (Call (Fl F) (Fl F))) (h : ∀ c ∈ cs, CallOk c) {o : Opts (Fl F)} (hit : 0 < o.maxIter)
    {pb : Pb (Fl F) (Fl F)} (hm : pb.m = 0) (hb : pb.useBnd = false) {m lam α : ℝ} (hG : SafeHessian F pb.n pb.G m lam)
    (ha : SafeGradient F pb.n pb.G pb.a m lam α) :
    ∃ s s' y, calls cs (State.empty : State (Fl F)) = .ok s ∧ solve o pb s = .ok (.success, s') ∧ s'.it = 0 ∧ (∀ i < pb.n, (s'.x i).Finite) ∧
      IsMin pb.n pb.G pb.a y ∧
      lam * dnorm pb.n pb.G (fun i => (s'.x i).val - y i) ≤
        48 * pb.n * (pb.n + 2) * u F * dnorm pb.n pb.G y + 9 * (Real.sqrt pb.n * tiny pb.n pb.G m) := by
  obtain ⟨s, s', y, h1, h2, h3, h4, h5⟩ := C81_unconstrained_accuracy cs h hit hm hb hG
  have hx : ∀ i < pb.n, (s'.x i).Finite := by
    rcases Nat.eq_zero_or_pos pb.n with h0 | hn
    · intro i hi; omega
    obtain ⟨s1, hs1, hi⟩ := calls_inv cs h
    rw [h1] at hs1
    cases hs1
    have hnb : pb.nb = 0 := by simp [Pb.nb, hb]
    have hq : numEq pb = 0 := by simp [numEq, hm, hnb]
    have hx' := solve_first hi hq h2 h3
    obtain ⟨L, hL, hfin⟩ := hG.chol
    have e : s'.G = L := by rw [(solve_chol hi h2).1, hL]
    obtain ⟨g1, _, g3⟩ := chol_close hL hfin
    have r : Ready F pb.n pb.G L pb.a m lam α := ⟨hG, ha, g3, g1, hfin, hn⟩
    intro i hi
    rw [hx' i hi, e]
    exact r.min_fin hF i hi
  exact ⟨s, s', y, h1, h2, h3, hx, h4, h5 hx⟩

theorem binary64_std : binary64.Std := by unfold Fmt.Std; norm_num [binary64]

theorem binary32_std : binary32.Std := by unfold Fmt.Std; norm_num [binary32]

/-- A gradient of one halves, with a Hessian of diagonal at least one. -/
theorem half_gradient {n : ℕ} (hn : n ≤ 2 ^ 22) {G : ℕ → ℕ → Fl binary64} (h1 : SafeHessian binary64 n G 1 (1 / 2)) {x : Fl binary64} (hx : x.Finite)
    (hv : x.val = 1 / 2) : SafeGradient binary64 n G (fun _ => x) 1 (1 / 2) 1 := by
  refine ⟨fun _ _ => hx, le_rfl, fun i hi => ?_, ?_⟩
  · rw [hv, one_mul]
    have := Real.one_le_sqrt.2 (h1.low i hi)
    rw [abs_of_pos (by norm_num)]
    linarith
  · have hr : (n : ℝ) ≤ 2 ^ 22 := by exact_mod_cast hn
    have e : Real.sqrt ((2 : ℝ) ^ (binary64.emax + 1)) = 2 ^ 512 := by
      rw [show binary64.emax + 1 = ((1024 : ℕ) : ℤ) by rfl, zpow_natCast, show (2 : ℝ) ^ 1024 = (2 ^ 512) ^ 2 by rw [← pow_mul],
        Real.sqrt_sq (by positivity)]
    rw [e, Real.sqrt_one, one_mul, mul_one]
    have h3 : (n : ℝ) / (1 / 2) ≤ 2 ^ 23 := by
      rw [div_le_iff₀ (by norm_num)]; linarith
    have h4 := pow_le_pow_left₀ (by positivity) h3 3
    have h5 : (25 : ℝ) * (2 ^ 23) ^ 3 ≤ 2 ^ 512 := by
      rw [← pow_mul]
      calc (25 : ℝ) * 2 ^ (23 * 3) ≤ 2 ^ 5 * 2 ^ (23 * 3) := by norm_num
        _ = 2 ^ 74 := by norm_num
        _ ≤ 2 ^ 512 := pow_le_pow_right₀ (by norm_num) (by norm_num)
    exact (mul_le_mul_of_nonneg_left h4 (by norm_num)).trans h5

/-- For `double`: Hessian with ones on the diagonal and one half elsewhere, gradient one half, any size up to `2^22`. The hypotheses of C81 hold. -/
theorem C81_hypotheses_met {n : ℕ} (hn : n ≤ 2 ^ 22) : ∃ (G : ℕ → ℕ → Fl binary64) (a : ℕ → Fl binary64),
    SafeHessian binary64 n G 1 (1 / 2) ∧ SafeGradient binary64 n G a 1 (1 / 2) 1 ∧ (∀ i j, i ≠ j → (G i j).val = 1 / 2) ∧
      ∀ i, (a i).val = 1 / 2 := by
  obtain ⟨G, h1, h2⟩ := C80_hypotheses_met hn
  obtain ⟨x, hx, hv⟩ := exists_half
  exact ⟨G, fun _ => x, h1, half_gradient hn h1 hx hv, fun i j hij => by rw [h2, if_neg hij], fun _ => hv⟩

end Ieee
end JrlQp
