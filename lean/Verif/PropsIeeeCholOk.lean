import Verif.PropsIeeeChol
import Verif.IeeeCholRun

/-!
# C80: a Hessian positive definite beyond the rounding errors is accepted

The specification `SafeHessian` is about the real values of the matrix given by the user only.
-/

namespace JrlQp
namespace Ieee

open NumOps Finset

variable {F : Fmt}

/-- The `n x n` matrix stored in the lower triangle of `G` is positive definite by more than the rounding errors: with `D` its diagonal,
`vᵀ G v ≥ lam vᵀ D v` for every `v`, where `lam > 24 n (n + 2) u`; its diagonal is between `m` and `2^(emax - 1)`, where `m` is at most 1 and
at least `8 η / u` (`2^-1019` for `double`). -/
structure SafeHessian (F : Fmt) (n : ℕ) (G : ℕ → ℕ → Fl F) (m lam : ℝ) : Prop where
  fin : ∀ i < n, ∀ j ≤ i, (G i j).Finite
  m1 : m ≤ 1
  low : ∀ i < n, m ≤ (G i i).val
  high : ∀ i < n, (G i i).val ≤ 2 ^ (F.emax - 1)
  margin : ∀ v : ℕ → ℝ, lam * (∑ i ∈ range n, (G i i).val * v i ^ 2) ≤ ∑ i ∈ range n, ∑ j ∈ range n, v i * hessVal G i j * v j
  lam : 24 * n * (n + 2) * u F < lam
  under : 8 * eta F ≤ u F * m

variable {n : ℕ} {G : ℕ → ℕ → Fl F} {m lam : ℝ}

theorem relErr_ge : (n + 2) * u F ≤ relErr F n := by
  have hu0 := u_pos (F := F)
  have hb : 1 + ((n + 2 : ℕ) : ℝ) * u F ≤ (1 + u F) ^ (n + 2) := one_add_mul_le_pow (by linarith) _
  have hc := pow_le_pow_left₀ (by linarith) (one_add_u_le_qf (F := F)) (n + 2)
  push_cast at hb
  unfold relErr
  linarith

theorem SafeHessian.m0 (h : SafeHessian F n G m lam) : 0 < m := by
  have h1 := h.under
  have h2 := eta_pos (F := F)
  have h3 := u_pos (F := F)
  by_contra hc
  nlinarith

theorem SafeHessian.rel_le' (h : SafeHessian F n G m lam) (hn : 0 < n) : (n + 2) * u F ≤ 1 / 24 ∧ relErr F n ≤ 2 * ((n + 2) * u F) := by
  have hu0 := u_pos (F := F)
  have he := eta_pos (F := F)
  have hm0 := h.m0
  have h1 : (1 : ℝ) ≤ n := by exact_mod_cast hn
  have hlam1 : lam ≤ 1 := by
    have := h.margin (fun i => if i = 0 then 1 else 0)
    have e1 : ∑ i ∈ range n, (G i i).val * (if i = 0 then (1 : ℝ) else 0) ^ 2 = (G 0 0).val := by
      rw [sum_eq_single 0 (fun b _ hb => by rw [if_neg hb]; ring) (fun hc => absurd (mem_range.2 hn) hc)]
      simp
    have e2 : ∑ i ∈ range n, ∑ j ∈ range n, (if i = 0 then (1 : ℝ) else 0) * hessVal G i j * (if j = 0 then (1 : ℝ) else 0) = (G 0 0).val := by
      rw [sum_eq_single 0 (fun b _ hb => sum_eq_zero fun c _ => by rw [if_neg hb]; ring) (fun hc => absurd (mem_range.2 hn) hc),
        sum_eq_single 0 (fun b _ hb => by rw [if_neg hb]; ring) (fun hc => absurd (mem_range.2 hn) hc)]
      simp [hessVal]
    rw [e1, e2] at this
    have hl := h.low 0 hn
    by_contra hc
    have hc := not_le.1 hc
    nlinarith
  have hnu : (n + 2) * u F ≤ 1 / 24 := by
    have h2 := h.lam
    have h3 : (0 : ℝ) ≤ (n + 2) * u F := by positivity
    have h4 := mul_le_mul_of_nonneg_right h1 h3
    nlinarith
  have hr : relErr F n ≤ 2 * ((n + 2) * u F) := by
    refine (relErr_le (by linarith)).trans ?_
    rw [div_le_iff₀ (by linarith)]
    have h3 : (0 : ℝ) ≤ (n + 2) * u F := by positivity
    nlinarith
  exact ⟨hnu, hr⟩

theorem SafeHessian.rel_le (h : SafeHessian F n G m lam) (hn : 0 < n) : relErr F n ≤ 2 * ((n + 2) * u F) := (h.rel_le' hn).2

theorem SafeHessian.wellPosed (h : SafeHessian F n G m lam) (hn : 0 < n) : WellPosed F n G m lam := by
  have hu0 := u_pos (F := F)
  have he := eta_pos (F := F)
  have hm0 := h.m0
  have h1 : (1 : ℝ) ≤ n := by exact_mod_cast hn
  obtain ⟨hnu, hr⟩ := h.rel_le' hn
  have hr2 := relErr_ge (F := F) (n := n)
  refine ⟨h.fin, hm0, h.m1, h.low, h.high, h.margin, ?_, ?_⟩
  · refine lt_of_le_of_lt ?_ h.lam
    have := mul_le_mul_of_nonneg_left hr (show (0 : ℝ) ≤ 12 * n by positivity)
    nlinarith
  · have h5 : (1 + relErr F n) ≤ 2 := by linarith
    have h6 : (0 : ℝ) ≤ 4 * (eta F * (n + 2)) := by positivity
    have h7 := mul_le_mul_of_nonneg_right h5 h6
    have h8 := mul_le_mul_of_nonneg_left h.under (show (0 : ℝ) ≤ n + 2 by positivity)
    have h9 := mul_le_mul_of_nonneg_right hr2 hm0.le
    nlinarith

/-- The factorisation of such a matrix succeeds and overflows nowhere. -/
theorem SafeHessian.chol (h : SafeHessian F n G m lam) :
    ∃ L, chol n G n = (L, none) ∧ ∀ i < n, ∀ j ≤ i, (L i j).Finite := by
  rcases Nat.eq_zero_or_pos n with rfl | hn
  · exact ⟨G, rfl, fun i hi => by omega⟩
  · obtain ⟨L, h1, h2⟩ := (h.wellPosed hn).runs n le_rfl
    exact ⟨L, h1, fun i hi j hj => h2 j (by omega) i hj hi⟩

/-- **C80, base solver.** After any history, `solve` on a problem whose Hessian is positive definite beyond the rounding errors does not
return NON_POS_HESSIAN, and leaves in the user's matrix a finite factor of a positive definite matrix close to it. -/
theorem C80_safe_hessian_accepted (cs : List (Call (Fl F) (Fl F))) (h : ∀ c ∈ cs, CallOk c) {o : Opts (Fl F)} (ho : OptOk o)
    {pb : Pb (Fl F) (Fl F)} (hq : numEq pb ≤ pb.n) {m lam : ℝ} (hG : SafeHessian F pb.n pb.G m lam) :
    ∃ s t s', calls cs (State.empty : State (Fl F)) = .ok s ∧ solve o pb s = .ok (t, s') ∧ t ≠ .nonPosHessian ∧
      (∀ i < pb.n, ∀ j ≤ i, (s'.G i j).Finite) ∧ (∀ i < pb.n, 0 < (s'.G i i).val) ∧ PosDefN pb.n (gram pb.n s'.G) ∧
      Close pb.n pb.G (gram pb.n s'.G) := by
  obtain ⟨s, hs, hi⟩ := calls_inv cs h
  obtain ⟨t, s', h1, _⟩ := solve_safe (fpLaws ho) hi (pb := pb) (fun _ => hq)
  obtain ⟨h2, h3⟩ := solve_chol hi h1
  obtain ⟨L, hL, hfin⟩ := hG.chol
  have hc : cholOk pb := by unfold cholOk; rw [hL]
  have ht : t ≠ .nonPosHessian := fun ht => h3.1 ht hc
  have hf : ∀ i < pb.n, ∀ j ≤ i, (s'.G i j).Finite := by rw [h2, hL]; exact hfin
  exact ⟨s, t, s', hs, h1, ht, hf, C78_accepted_hessian cs h hs h1 ht hf⟩

/-- **C80, warm-started solver.** -/
theorem C80_warm_safe_hessian_accepted (cs : List (XCall (Fl F) (Fl F))) (h : ∀ c ∈ cs, c.Admissible) {o : Opts (Fl F)}
    {pb : Pb (Fl F) (Fl F)} {as : List Status} (ha : ArgOk o pb as) {m lam : ℝ} (hG : SafeHessian F pb.n pb.G m lam) {xs : XState (Fl F)}
    (hx : xcalls cs (XState.empty : XState (Fl F)) = .ok xs) {t xs'} (hr : xsolve o pb as xs = .ok (t, xs')) :
    t ≠ .nonPosHessian ∧ (t ≠ .overconstrainedProblem →
      (∀ i < pb.n, ∀ j ≤ i, (xs'.s.G i j).Finite) ∧ (∀ i < pb.n, 0 < (xs'.s.G i i).val) ∧ PosDefN pb.n (gram pb.n xs'.s.G) ∧
        Close pb.n pb.G (gram pb.n xs'.s.G)) := by
  obtain ⟨ys, h1, hy⟩ := C37_no_fault cs h
  rw [hx] at h1
  cases h1
  obtain ⟨L, hL, hfin⟩ := hG.chol
  have hc : cholOk pb := by unfold cholOk; rw [hL]
  by_cases hov : t = .overconstrainedProblem
  · exact ⟨by rw [hov]; simp, fun hh => absurd hov hh⟩
  obtain ⟨h2, h3⟩ := xsolve_chol hy ha hr hov
  have ht : t ≠ .nonPosHessian := fun ht => h3.1 ht hc
  have hf : ∀ i < pb.n, ∀ j ≤ i, (xs'.s.G i j).Finite := by rw [h2, hL]; exact hfin
  exact ⟨ht, fun _ => ⟨hf, C78_warm_accepted_hessian cs h ha hx hr ht hov hf⟩⟩

/-! ## Hypotheses met -/

/-- One half is a `double`. -/
theorem exists_half : ∃ x : Fl binary64, x.Finite ∧ x.val = 1 / 2 := by
  refine ⟨.fin false ⟨1 / 2, ⟨1, -1, by norm_num [binary64], by norm_num [binary64], by norm_num⟩, ?_⟩, trivial, ?_⟩
  · have := one_lt_max (F := binary64)
    refine lt_trans (by norm_num) this
  · simp [Fl.val]

/-- For `double`: a matrix with ones on the diagonal and one half elsewhere, of any size up to `2^22`, meets the hypotheses of C80. -/
theorem C80_hypotheses_met {n : ℕ} (hn : n ≤ 2 ^ 22) : ∃ G : ℕ → ℕ → Fl binary64, SafeHessian binary64 n G 1 (1 / 2) ∧
    ∀ i j, (G i j).val = if i = j then 1 else 1 / 2 := by
  obtain ⟨x, hx, hv⟩ := exists_half
  have e1 : (1 : Fl binary64).val = 1 := one_val
  refine ⟨fun i j => if i = j then 1 else x, ⟨?_, le_rfl, ?_, ?_, ?_, ?_, ?_⟩, ?_⟩
  · intro i _ j _
    split_ifs
    · exact trivial
    · exact hx
  · intro i _; rw [if_pos rfl, e1]
  · intro i _
    rw [if_pos rfl, e1]
    exact one_le_zpow₀ (by norm_num) (by norm_num [binary64])
  · intro v
    have e2 : ∀ i j, hessVal (fun i j => if i = j then (1 : Fl binary64) else x) i j = (if i = j then 1 / 2 else 0) + 1 / 2 := by
      intro i j
      unfold hessVal
      by_cases hij : i = j
      · subst hij; simp [e1]; norm_num
      · have hji : ¬ j = i := fun h => hij h.symm
        simp only [if_neg hij, if_neg hji, hv, ite_self, zero_add]
    have e3 : ∀ i ∈ range n, ∑ j ∈ range n, v i * hessVal (fun i j => if i = j then (1 : Fl binary64) else x) i j * v j =
        v i ^ 2 / 2 + 1 / 2 * (v i * ∑ j ∈ range n, v j) := by
      intro i hi
      have : ∀ j ∈ range n, v i * hessVal (fun i j => if i = j then (1 : Fl binary64) else x) i j * v j =
          (if i = j then v i ^ 2 / 2 else 0) + 1 / 2 * (v i * v j) := by
        intro j _
        rw [e2]
        split_ifs with hij
        · subst hij; ring
        · ring
      rw [sum_congr rfl this, sum_add_distrib, sum_ite_eq, if_pos hi, ← mul_sum, ← mul_sum]
    rw [sum_congr rfl e3, sum_add_distrib, ← mul_sum, ← sum_mul, ← sum_div]
    have e4 : ∑ i ∈ range n, (if i = i then (1 : Fl binary64) else x).val * v i ^ 2 = ∑ i ∈ range n, v i ^ 2 :=
      sum_congr rfl fun i _ => by rw [if_pos rfl, e1, one_mul]
    rw [e4]
    nlinarith [sq_nonneg (∑ i ∈ range n, v i)]
  · have hr : (n : ℝ) ≤ 2 ^ 22 := by exact_mod_cast hn
    have hn0 : (0 : ℝ) ≤ n := Nat.cast_nonneg n
    have : u binary64 = 2 ^ (-53 : ℤ) := by norm_num [u, binary64]
    rw [this]
    have h1 : (24 : ℝ) * n * (n + 2) ≤ 24 * 2 ^ 22 * (2 ^ 22 + 2) := by gcongr
    have h2 := mul_le_mul_of_nonneg_right h1 (two_zpow_pos (-53)).le
    refine lt_of_le_of_lt h2 ?_
    norm_num
  · have h1 : u binary64 = 2 ^ (-53 : ℤ) := by norm_num [u, binary64]
    have h2 : eta binary64 = 2 ^ (-1075 : ℤ) := by norm_num [eta, binary64]
    rw [h1, h2, mul_one, show (8 : ℝ) = 2 ^ (3 : ℤ) by norm_num, ← zpow_add₀ (by norm_num)]
    exact zpow_le_zpow_right₀ (by norm_num) (by norm_num)
  · intro i j
    dsimp only
    split_ifs
    · exact e1
    · exact hv

end Ieee
end JrlQp
