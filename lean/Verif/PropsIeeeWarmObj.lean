import Verif.PropsIeeeWarm

/-!
# C87: the objective value of the warm-started solver on a problem without active constraint, in IEEE arithmetic
-/

namespace JrlQp
namespace Ieee

open NumOps Finset

variable {F : Fmt} {n : ℕ} {G L : ℕ → ℕ → Fl F} {m lam : ℝ}

/-- Minus half of a squared norm, computed as a difference with an empty sum. -/
theorem neg_half_sq_err (h : SafeHessian F n G m lam) (hn : 0 < n) (st st' : Site) (w α : ℕ → Fl F)
    (hf : (esum st' w 0 - half * esum st (fun k => α k * α k) n).Finite) :
    |(esum st' w 0 - half * esum st (fun k => α k * α k) n).val + 1 / 2 * ∑ k ∈ range n, (α k).val ^ 2| ≤
      25 / 24 * relErr F n * (∑ k ∈ range n, (α k).val ^ 2) + 13 / 8 * ((1 + relErr F n) * eta F * n) := by
  obtain ⟨_, h1, h2⟩ := sub_err hf
  have h3 := half_dot_err st α α n h1
  have hz : (esum st' w 0 : Fl F).val = 0 := by
    have hp := F.order_perm st' 0
    have : (esum st' w 0 : Fl F) = 0 := tree_nil (List.perm_nil.1 (by simpa using hp)) w
    rw [this]; exact val_zero _
  rw [hz, zero_sub, abs_neg] at h2
  have e1 : ∑ k ∈ range n, (α k).val * (α k).val = ∑ k ∈ range n, (α k).val ^ 2 := sum_congr rfl fun k _ => (sq _).symm
  have e2 : ∑ k ∈ range n, |(α k).val| * |(α k).val| = ∑ k ∈ range n, (α k).val ^ 2 := sum_congr rfl fun k _ => by rw [← sq, sq_abs]
  rw [e1, e2] at h3
  have hA : 0 ≤ ∑ k ∈ range n, (α k).val ^ 2 := sum_nonneg fun k _ => sq_nonneg _
  have hε := (h.wellPosed hn).err_le hn
  have hε0 := relErr_nonneg (F := F) (n := n)
  have hu := u_pos (F := F)
  have hη := eta_pos (F := F)
  have hn1 : (1 : ℝ) ≤ n := by exact_mod_cast hn
  have huε : u F ≤ relErr F n := by
    have := relErr_ge (F := F) (n := n)
    have : u F ≤ (n + 2) * u F := le_mul_of_one_le_left hu.le (by linarith)
    linarith
  have k1 := mul_le_mul_of_nonneg_right (one_add_u_pow_le h hn (k := n + 2) le_rfl) hA
  have k2 := mul_le_mul_of_nonneg_left (one_add_u_pow_le h hn (k := n + 1) (by omega)) (show 0 ≤ n * eta F from mul_nonneg (by linarith) hη.le)
  have k3 : eta F ≤ (1 + relErr F n) * eta F * n := by
    have a1 : eta F ≤ (1 + relErr F n) * eta F := le_mul_of_one_le_left hη.le (by linarith)
    exact a1.trans (le_mul_of_one_le_right (by positivity) hn1)
  have k4 : 0 ≤ (1 + relErr F n) * eta F * n := by positivity
  generalize (esum st' w 0 - half * esum st (fun k => α k * α k) n : Fl F).val = W at *
  generalize (half * esum st (fun k => α k * α k) n : Fl F).val = V at *
  generalize ∑ k ∈ range n, (α k).val ^ 2 = A at *
  have e3 : n * eta F * (1 + relErr F n) = (1 + relErr F n) * eta F * n := by ring
  rw [e3] at k2
  generalize (1 + relErr F n) * eta F * n = κ at *
  generalize relErr F n = ε at *
  have k5 : |V - 1 / 2 * A| ≤ 1 / 2 * (ε * A + κ) + κ := by linarith
  have k6 : |V| ≤ 1 / 2 * A + (1 / 2 * (ε * A + κ) + κ) := by
    have := abs_add_le (V - 1 / 2 * A) (1 / 2 * A)
    rw [sub_add_cancel, abs_of_nonneg (show 0 ≤ 1 / 2 * A by linarith)] at this
    linarith
  have k7 : u F * |V| ≤ ε * (1 / 2 * A) + 1 / 12 * (1 / 2 * (ε * A + κ) + κ) := by
    have a1 : u F * |V| ≤ ε * |V| := mul_le_mul_of_nonneg_right huε (abs_nonneg _)
    have a2 := mul_le_mul_of_nonneg_left k6 hε0
    have a3 : ε * (1 / 2 * (ε * A + κ) + κ) ≤ 1 / 12 * (1 / 2 * (ε * A + κ) + κ) := mul_le_mul_of_nonneg_right hε (by positivity)
    linarith
  have k8 : |W + 1 / 2 * A| ≤ |W - -V| + |V - 1 / 2 * A| := by
    have := abs_add_le (W - -V) (-(V - 1 / 2 * A))
    rw [abs_neg] at this
    refine le_trans (le_of_eq ?_) this
    congr 1; ring
  have k9 : 0 ≤ ε * A := by positivity
  linarith

theorem warm_obj_num {s ε T κ N r u' Y t W : ℝ} (hN : 1 ≤ N) (hr0 : 0 ≤ r) (hY : 0 ≤ Y) (ht0 : 0 ≤ t) (hε : ε ≤ 2 * u') (hT : T ≤ 63 / 50 * t)
    (hκ : κ * N ≤ 13 / 12 * t) (h : s * W ≤ 22 * ε * N ^ 2 * Y ^ 2 + 2 * r * N * T * Y ^ 2 + 3 * N * κ * (Y + 1)) :
    s * W ≤ 44 * N ^ 2 * u' * Y ^ 2 + t * (3 * N * r * Y ^ 2 + 4 * (Y + 1)) := by
  have h1 : ε * (N ^ 2 * Y ^ 2) ≤ 2 * u' * (N ^ 2 * Y ^ 2) := mul_le_mul_of_nonneg_right hε (by positivity)
  have h2 : T * (r * N * Y ^ 2) ≤ 63 / 50 * t * (r * N * Y ^ 2) := mul_le_mul_of_nonneg_right hT (by positivity)
  have h3 : κ * N * (Y + 1) ≤ 13 / 12 * t * (Y + 1) := mul_le_mul_of_nonneg_right hκ (by linarith)
  have h4 : 0 ≤ t * (r * N * Y ^ 2) := by positivity
  have h5 : 0 ≤ t * (Y + 1) := by positivity
  linarith

/-- Accuracy of the value computed first. -/
theorem SafeHessian.first_value (h : SafeHessian F n G m lam) (hn : 0 < n) (ht : 30 * n * tiny n G m ≤ 1) (hL : ∀ i < n, (L i i).Finite)
    (hd : ∀ i < n, 0 < (L i i).val) (hc : Close n G (gram n L)) {a x : ℕ → Fl F} {f : Fl F} (hp : FirstPoint n L a x f) (hx : ∀ i < n, (x i).Finite)
    (hf : f.Finite) {y : ℕ → ℝ} (hy : ∀ i < n, (a i).val + ∑ j ∈ range n, hessVal G i j * y j = 0) :
    Real.sqrt lam * |f.val - objVal n G a y| ≤
      44 * (n : ℝ) ^ 2 * ((n + 2) * u F) * dnorm n G y ^ 2 + tiny n G m * (3 * n * Real.sqrt n * dnorm n G y ^ 2 + 4 * (dnorm n G y + 1)) := by
  obtain ⟨J, z, w, hJ, hp, hv⟩ := hp
  obtain ⟨run, hT, hκN, _, ht0⟩ := h.first_run hn ht hL hd hc hJ hp hx hy
  have hG : ∀ i < n, 0 ≤ (G i i).val := fun i hi => h.m0.le.trans (h.low i hi)
  have hn1 : (1 : ℝ) ≤ n := by exact_mod_cast hn
  rw [hv] at hf
  have h1 := neg_half_sq_err h hn (.init 4 0) (.init 3 0) w (fun k => esum (.init 0 k) (fun c => J c k * a c) n) hf
  rw [← hv] at h1
  have hκ0 := run.κ0
  have hκ1 : (1 + relErr F n) * eta F * n ≤ 1 := by
    have a1 : (1 + relErr F n) * eta F * n ≤ (1 + relErr F n) * eta F * n * n := le_mul_of_one_le_right hκ0 hn1
    have a2 : tiny n G m ≤ n * tiny n G m := le_mul_of_one_le_left ht0 hn1
    linarith
  have key := run.value hκ1 h1
  rw [en_eq_dnorm hG] at key
  have e : f.val - objVal n G a y = f.val + 1 / 2 * ∑ i ∈ range n, ∑ j ∈ range n, y i * hessVal G i j * y j := by
    rw [(objVal_min hy).2]; ring
  rw [e]
  exact warm_obj_num hn1 (Real.sqrt_nonneg _) (dnorm_nonneg y) ht0 (h.rel_le hn) hT hκN key

/-- The value computed first without variable. -/
theorem first_value_zero {a x : ℕ → Fl F} {f : Fl F} (hp : FirstPoint 0 L a x f) : f.Finite ∧ f.val = 0 := by
  obtain ⟨J, z, w, _, _, hv⟩ := hp
  have hz : ∀ (st : Site) (g : ℕ → Fl F), (esum st g 0 : Fl F) = 0 := fun st g => by
    have hp := F.order_perm st 0
    exact tree_nil (List.perm_nil.1 (by simpa using hp)) g
  rw [hz, hz] at hv
  have h1 : ((half : Fl F) * 0).Finite := by
    refine mul_fin (b := (0 : Fl F)) half_val.2 trivial ?_
    have := eta_le (F := F)
    have := two_le_top (F := F)
    rw [show (0 : Fl F).val = 0 from val_zero _, mul_zero, abs_zero, mul_zero]
    linarith
  have h2 : ((half : Fl F) * 0).val = 0 := by
    show (ofReal _ _ : Fl F).val = 0
    rw [show (Fl.fin false m0 : Fl F).val = 0 from val_zero _, mul_zero, ofReal_zero]
    exact val_zero _
  have h3 : ((0 : Fl F) - half * 0).Finite := by
    refine sub_fin trivial h1 ?_
    have := two_le_top (F := F)
    rw [h2, show (0 : Fl F).val = 0 from val_zero _, sub_zero, abs_zero, mul_zero]
    linarith
  refine ⟨by rw [hv]; exact h3, ?_⟩
  obtain ⟨_, _, h4⟩ := sub_err h3
  rw [h2, show (0 : Fl F).val = 0 from val_zero _, sub_zero, sub_zero, abs_zero, mul_zero] at h4
  rw [hv]
  exact abs_nonpos_iff.1 h4

/-- **C87.** In the situation of C86 (no constraint active at the start, SUCCESS without an iteration, finite point), a finite objective value is within
rounding errors of the minimum of the objective: the first bound is in terms of the size of the minimiser, the second one in terms of the minimum itself. -/
theorem C87_warm_objective (cs : List (XCall (Fl F) (Fl F))) (h : ∀ c ∈ cs, c.Admissible) {o : Opts (Fl F)} {pb : Pb (Fl F) (Fl F)} {as : List Status}
    (ha : ArgOk o pb as) {xs : XState (Fl F)} (hx : xcalls cs (XState.empty : XState (Fl F)) = .ok xs)
    (hw : ∀ i < pb.m + pb.nb, want o pb (usedAs o pb as xs) i = .inactive) (hG : SafeHessian F pb.n pb.G m lam)
    (ht : 30 * pb.n * tiny pb.n pb.G m ≤ 1) {xs'} (hr : xsolve o pb as xs = .ok (.success, xs')) (hit : xs'.s.it = 0)
    (hf : ∀ i < pb.n, (xs'.s.x i).Finite) (hff : xs'.s.f.Finite) {y : ℕ → ℝ} (hy : IsMin pb.n pb.G pb.a y) :
    Real.sqrt lam * |xs'.s.f.val - objVal pb.n pb.G pb.a y| ≤
        44 * (pb.n : ℝ) ^ 2 * ((pb.n + 2) * u F) * dnorm pb.n pb.G y ^ 2
          + tiny pb.n pb.G m * (3 * pb.n * Real.sqrt pb.n * dnorm pb.n pb.G y ^ 2 + 4 * (dnorm pb.n pb.G y + 1)) ∧
      lam * (Real.sqrt lam * |xs'.s.f.val - objVal pb.n pb.G pb.a y|) ≤
        88 * (pb.n : ℝ) ^ 2 * ((pb.n + 2) * u F) * |objVal pb.n pb.G pb.a y|
          + lam * (tiny pb.n pb.G m * (3 * pb.n * Real.sqrt pb.n * dnorm pb.n pb.G y ^ 2 + 4 * (dnorm pb.n pb.G y + 1))) := by
  obtain ⟨ys, h1, hi⟩ := C37_no_fault cs h
  rw [hx] at h1
  cases h1
  have hgy := hG.grad_zero hy
  have hGd : ∀ i < pb.n, 0 ≤ (pb.G i i).val := fun i hi => hG.m0.le.trans (hG.low i hi)
  have hz : numWant o pb (usedAs o pb as xs) (· != .inactive) = 0 := by
    unfold numWant
    rw [List.countP_eq_zero]
    intro i hi
    rw [hw i (List.mem_range.1 hi)]
    decide
  obtain ⟨_, f2, f3, f4⟩ := hG.factor
  have hp := xsolve_first hi ha hz hr hit
  have hmain : Real.sqrt lam * |xs'.s.f.val - objVal pb.n pb.G pb.a y| ≤
        44 * (pb.n : ℝ) ^ 2 * ((pb.n + 2) * u F) * dnorm pb.n pb.G y ^ 2
          + tiny pb.n pb.G m * (3 * pb.n * Real.sqrt pb.n * dnorm pb.n pb.G y ^ 2 + 4 * (dnorm pb.n pb.G y + 1)) := by
    rcases Nat.eq_zero_or_pos pb.n with h0 | hn
    · have hp0 := hp
      rw [h0] at hp0
      rw [(objVal_min hgy).1, (first_value_zero hp0).2, h0]
      have hη := eta_pos (F := F)
      have : 0 ≤ tiny 0 pb.G m := by unfold tiny; simp; exact hη.le
      simp [dnorm]
      exact this
    · exact hG.first_value hn ht f2 f3 f4 hp hf hff hgy
  refine ⟨hmain, ?_⟩
  have hl := hG.lam_pos
  have hd : lam * dnorm pb.n pb.G y ^ 2 ≤ 2 * |objVal pb.n pb.G pb.a y| := by
    rw [dnorm_sq hGd]
    refine (hG.margin y).trans ?_
    have := neg_le_abs (objVal pb.n pb.G pb.a y)
    have e := (objVal_min hgy).2
    linarith
  have hu := u_pos (F := F)
  have k1 := mul_le_mul_of_nonneg_left hmain hl.le
  have k2 := mul_le_mul_of_nonneg_left hd (show 0 ≤ 44 * (pb.n : ℝ) ^ 2 * ((pb.n + 2) * u F) by positivity)
  linarith

/-- **C87, without constraint and with no assumption on what is computed.** -/
theorem C87_warm_unconstrained (hF : F.Std) (cs : List (XCall (Fl F) (Fl F))) (h : ∀ c ∈ cs, c.Admissible) {o : Opts (Fl F)} (hit : 0 < o.maxIter)
    {pb : Pb (Fl F) (Fl F)} {as : List Status} (ha : ArgOk o pb as) (hm : pb.m = 0) (hb : pb.useBnd = false) {α : ℝ} (hG : SafeHessian F pb.n pb.G m lam)
    (hg : SafeGradient F pb.n pb.G pb.a m lam α) (ht : 30 * pb.n * tiny pb.n pb.G m ≤ 1) :
    ∃ xs xs' y, xcalls cs (XState.empty : XState (Fl F)) = .ok xs ∧ xsolve o pb as xs = .ok (.success, xs') ∧ IsMin pb.n pb.G pb.a y ∧ xs'.s.f.Finite ∧
      Real.sqrt lam * |xs'.s.f.val - objVal pb.n pb.G pb.a y| ≤
        44 * (pb.n : ℝ) ^ 2 * ((pb.n + 2) * u F) * dnorm pb.n pb.G y ^ 2
          + tiny pb.n pb.G m * (3 * pb.n * Real.sqrt pb.n * dnorm pb.n pb.G y ^ 2 + 4 * (dnorm pb.n pb.G y + 1)) ∧
      lam * (Real.sqrt lam * |xs'.s.f.val - objVal pb.n pb.G pb.a y|) ≤
        88 * (pb.n : ℝ) ^ 2 * ((pb.n + 2) * u F) * |objVal pb.n pb.G pb.a y|
          + lam * (tiny pb.n pb.G m * (3 * pb.n * Real.sqrt pb.n * dnorm pb.n pb.G y ^ 2 + 4 * (dnorm pb.n pb.G y + 1))) := by
  obtain ⟨xs, xs', y, h1, h2, h3, h4, h5, _⟩ := C86_warm_solved hF cs h hit ha hm hb hG hg ht
  obtain ⟨ys, hy1, hy⟩ := C37_no_fault cs h
  rw [h1] at hy1
  cases hy1
  have hnb : pb.nb = 0 := by simp [Pb.nb, hb]
  have hz : numWant o pb (usedAs o pb as xs) (· != .inactive) = 0 := by unfold numWant; rw [hm, hnb]; rfl
  have hp := xsolve_first hy ha hz h2 h3
  have hff : xs'.s.f.Finite := by
    rcases Nat.eq_zero_or_pos pb.n with h0 | hn
    · rw [h0] at hp
      exact (first_value_zero hp).1
    obtain ⟨L, hL, hfin⟩ := hG.chol
    obtain ⟨g1, _, g3⟩ := chol_close hL hfin
    have r : Ready F pb.n pb.G L pb.a m lam α := ⟨hG, hg, g3, g1, hfin, hn⟩
    rw [hL] at hp
    exact (r.first_fin hF hp).2
  exact ⟨xs, xs', y, h1, h2, h5, hff, C87_warm_objective cs h ha h1 (fun i hi => by omega) hG ht h2 h3 h4 hff h5⟩

/-- Hypotheses of C87, for `double` and any size up to `2^22`; the minimum is negative. -/
theorem C87_hypotheses_met {n : ℕ} (h0 : 0 < n) (hn : n ≤ 2 ^ 22) : ∃ (G : ℕ → ℕ → Fl binary64) (a : ℕ → Fl binary64),
    SafeHessian binary64 n G 1 (1 / 2) ∧ 30 * n * tiny n G 1 ≤ 1 ∧ SafeGradient binary64 n G a 1 (1 / 2) 1 ∧ ∃ y, IsMin n G a y ∧ objVal n G a y < 0 := by
  obtain ⟨G, a, h1, h2, h3⟩ := C82_hypotheses_met h0 hn
  exact ⟨G, a, h1, binary64_tiny h1, h2, h3⟩

end Ieee
end JrlQp
