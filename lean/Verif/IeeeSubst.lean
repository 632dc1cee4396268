import Verif.PropsIeeeCholOk

/-!
# Rounding errors of the computation of the unconstrained minimum
-/

namespace JrlQp

open NumOps Finset

section generic

variable {K B : Type} [Zero K] [One K] [Add K] [Sub K] [Neg K] [Mul K] [Div K] [NumOps K B] [SumOps K]

theorem fwdSub_above (L : Nat → Nat → K) (b : Nat → K) (k : Nat) {i : Nat} (hi : k ≤ i) : fwdSub L b k i = b i := by
  induction k with
  | zero => rfl
  | succ k ih =>
    simp only [fwdSub, upd]
    rw [if_neg (by omega), ih (by omega)]

theorem fwdSub_below (L : Nat → Nat → K) (b : Nat → K) {i k : Nat} (hi : i < k) : fwdSub L b k i = fwdSub L b (i + 1) i := by
  induction k with
  | zero => omega
  | succ k ih =>
    rcases Nat.lt_or_ge i k with h | h
    · rw [← ih h]
      simp only [fwdSub, upd]
      rw [if_neg (by omega)]
    · obtain rfl : i = k := by omega
      rfl

/-- Equation of the forward substitution. -/
theorem fwdSub_eqn (L : Nat → Nat → K) (b : Nat → K) {i k : Nat} (hi : i < k) :
    fwdSub L b k i = esub (.fwd i) (b i) (fun j => L i j * fwdSub L b k j) i / L i i := by
  have h1 : esub (.fwd i) (b i) (fun j => L i j * fwdSub L b k j) i = esub (.fwd i) (b i) (fun j => L i j * fwdSub L b i j) i :=
    esub_congr rfl fun j hj => by rw [fwdSub_below L b (show j < k by omega), fwdSub_below L b hj]
  rw [h1, fwdSub_below L b hi, fwdSub]
  simp only [upd, if_true]
  rw [fwdSub_above L b i le_rfl]

theorem backSubK_above (U : Nat → Nat → K) (n : Nat) (b : Nat → K) (k : Nat) {i : Nat} (hi : i + k < n) : backSubK U n b k i = b i := by
  induction k with
  | zero => rfl
  | succ k ih =>
    simp only [backSubK, upd]
    rw [if_neg (by omega), ih (by omega)]

theorem backSubK_below (U : Nat → Nat → K) (n : Nat) (b : Nat → K) {i k : Nat} (hk : k ≤ n) (hi : i < n) (hik : n ≤ i + k) :
    backSubK U n b k i = backSubK U n b (n - i) i := by
  induction k with
  | zero => omega
  | succ k ih =>
    rcases Nat.lt_or_ge (i + k) n with h | h
    · rw [show k + 1 = n - i by omega]
    · rw [← ih (by omega) h]
      simp only [backSubK, upd]
      rw [if_neg (by omega)]

/-- Equation of the backward substitution. -/
theorem backSub_eqn (U : Nat → Nat → K) (n : Nat) (b : Nat → K) {i : Nat} (hi : i < n) :
    backSub U n b i = esub (.bwd n i) (b i) (fun j => U i (i + 1 + j) * backSub U n b (i + 1 + j)) (n - 1 - i) / U i i := by
  have h1 : esub (.bwd n i) (b i) (fun j => U i (i + 1 + j) * backSub U n b (i + 1 + j)) (n - 1 - i) =
      esub (.bwd n i) (b i) (fun j => U i (i + 1 + j) * backSubK U n b (n - 1 - i) (i + 1 + j)) (n - 1 - i) :=
    esub_congr rfl fun j hj => by
      unfold backSub
      rw [backSubK_below U n b le_rfl (show i + 1 + j < n by omega) (by omega),
        backSubK_below U n b (show n - 1 - i ≤ n by omega) (show i + 1 + j < n by omega) (by omega)]
  rw [h1]
  unfold backSub
  rw [backSubK_below U n b le_rfl hi (by omega), show n - i = (n - 1 - i) + 1 by omega, backSubK]
  simp only [upd]
  rw [show n - 1 - (n - 1 - i) = i by omega, if_pos rfl, backSubK_above U n b (n - 1 - i) (by omega)]

theorem loop_it_ge {o : Opts K} {pb : Pb K B} (fuel : Nat) : ∀ {s : State K} {sc : SC} {skip} {t s'},
    loop o pb fuel s sc skip = .ok (t, s') → s.it ≤ s'.it := by
  induction fuel with
  | zero => intro s sc skip t s' h; simp only [loop] at h; cases h; exact le_rfl
  | succ fuel ih =>
    intro s sc skip t s' h
    simp only [loop] at h
    cases hr : iterate o pb s sc skip with
    | error e => simp [hr] at h
    | ok r =>
      have hi := iterate_it hr
      rw [hr] at h
      cases r with
      | done t1 s1 =>
        simp only [Except.ok.injEq, Prod.mk.injEq] at h
        obtain ⟨rfl, rfl⟩ := h
        exact hi.2.ge
      | cont s1 sc1 k1 =>
        simp only at h hi
        have := ih h
        simp only at this
        omega

/-- A call which returns SUCCESS without an iteration, on a problem without equality, returns the point and the value computed first. -/
theorem solve_first_both {o : Opts K} {pb : Pb K B} {s s' : State K} (hs : Inv s) (hne : numEq pb = 0)
    (h : solve o pb s = .ok (.success, s')) (hit : s'.it = 0) :
    (∀ i < pb.n, s'.x i = unconstrMin pb.n s'.G pb.a i) ∧ s'.f = half * esum (.objective pb.n) (fun i => pb.a i * s'.x i) pb.n := by
  have hd := preInit_dim (o := o) (resize_dim_pb hs pb)
  unfold solve dualSolve at h
  generalize preInit o (resize s _ _ _) = p at h hd
  have hterm : ∀ {t s t' s'}, terminate o t s = .ok (t', s') → s' = s ∧ t' = t := by
    intro t s t' s' h
    cases t <;> simp only [terminate] at h <;> (try split_ifs at h) <;> cases h <;> exact ⟨rfl, rfl⟩
  cases hin : init_ o pb p with
  | error e => rw [hin] at h; cases h
  | ok r =>
    obtain ⟨t0, s0⟩ := r
    rw [hin] at h
    simp only [] at h
    by_cases ht : t0 ≠ .success
    · rw [if_pos ht] at h
      exact absurd (hterm h).2.symm ht
    rw [if_neg ht] at h
    have ht := not_not.1 ht
    have h0 : (∀ i < pb.n, s0.x i = unconstrMin pb.n s0.G pb.a i) ∧ s0.f = half * esum (.objective pb.n) (fun i => pb.a i * s0.x i) pb.n := by
      rw [← hd.nbVar]
      unfold init_ at hin
      rw [if_pos (by simp [hd.nbVar])] at hin
      simp only [] at hin
      by_cases hc : (chol p.nbVar pb.G p.nbVar).2.isSome = true
      · rw [if_pos hc] at hin
        cases hin; cases ht
      · rw [if_neg hc] at hin
        split_ifs at hin
        generalize (chol p.nbVar pb.G p.nbVar).1 = L at hin ⊢
        unfold initActiveSet at hin
        have hl : eqList pb (initPoint o pb { p with G := L }).A = [] :=
          List.length_eq_zero_iff.1 ((eqList_length hd.nbCstr hd.nbBnd).trans hne)
        rw [hl] at hin
        split_ifs at hin
        simp only [addInitials, Except.ok.injEq, Prod.mk.injEq] at hin
        obtain ⟨_, rfl⟩ := hin
        refine ⟨?_, rfl⟩
        intro i hi
        show wr p.nbVar (unconstrMin p.nbVar L pb.a) p.x i = unconstrMin p.nbVar L pb.a i
        rw [wr, if_pos hi]
    cases hl : loop o pb (o.maxIter - s0.it) s0 ⟨0, .inactive⟩ false with
    | error e => rw [hl] at h; cases h
    | ok r =>
      obtain ⟨u1, w1⟩ := r
      rw [hl] at h
      obtain ⟨rfl, e2⟩ := hterm h
      cases hm : o.maxIter - s0.it with
      | zero => rw [hm] at hl; simp only [loop] at hl; cases hl; cases e2
      | succ fuel =>
        rw [hm] at hl
        simp only [loop] at hl
        cases hr : iterate o pb s0 ⟨0, .inactive⟩ false with
        | error e => rw [hr] at hl; cases hl
        | ok r =>
          rw [hr] at hl
          cases r with
          | cont s1 sc1 k1 =>
            simp only [] at hl
            have := iterate_it hr
            simp only at this
            rcases loop_it _ hl with ⟨h1, _⟩ | ⟨_, h2⟩
            · rw [← e2] at h1; cases h1
            · have h3 := loop_it_ge _ hl
              simp only at h3
              omega
          | done t1 s1 =>
            simp only [Except.ok.injEq, Prod.mk.injEq] at hl
            obtain ⟨h1, rfl⟩ := hl
            have h1 : t1 = .success := h1.trans e2.symm
            subst h1
            unfold iterate at hr
            rw [if_neg (by simp)] at hr
            by_cases c1 : selectOk pb s0 = true
            swap
            · rw [if_neg c1] at hr; cases hr
            rw [if_pos c1] at hr
            simp only [] at hr
            by_cases c2 : (select pb s0.nbVar s0.A s0.x).status = .inactive
            · rw [if_pos c2] at hr
              cases hr
              exact h0
            · rw [if_neg c2] at hr
              exfalso
              revert hr
              unfold iterBody
              simp only []
              repeat' split
              all_goals intro hr; cases hr

theorem solve_first {o : Opts K} {pb : Pb K B} {s s' : State K} (hs : Inv s) (hne : numEq pb = 0)
    (h : solve o pb s = .ok (.success, s')) (hit : s'.it = 0) :
    ∀ i < pb.n, s'.x i = unconstrMin pb.n s'.G pb.a i := (solve_first_both hs hne h hit).1

end generic

/-- Residual of two triangular solves with backward errors, in real arithmetic. -/
theorem resid_bound {n : Nat} {M : Nat → Nat → ℝ} {a y z τ : Nat → ℝ} {ε : ℝ} (hε : 0 ≤ ε)
    (hf : ∀ i < n, |a i - ∑ l ∈ range n, M i l * y l| ≤ ε * (∑ l ∈ range n, |M i l| * |y l|) + τ i)
    (hb : ∀ l < n, |y l - ∑ j ∈ range n, M j l * z j| ≤ ε * (∑ j ∈ range n, |M j l| * |z j|) + τ l) :
    ∀ i < n, |a i - ∑ j ∈ range n, (∑ l ∈ range n, M i l * M j l) * z j| ≤
      (2 * ε + ε ^ 2) * (∑ j ∈ range n, (∑ l ∈ range n, |M i l| * |M j l|) * |z j|) + τ i + (1 + ε) * ∑ l ∈ range n, |M i l| * τ l := by
  intro i hi
  have hy : ∀ l < n, |y l| ≤ (1 + ε) * (∑ j ∈ range n, |M j l| * |z j|) + τ l := by
    intro l hl
    have h1 := hb l hl
    have h2 : |∑ j ∈ range n, M j l * z j| ≤ ∑ j ∈ range n, |M j l| * |z j| := by
      refine (abs_sum_le_sum_abs _ _).trans (le_of_eq ?_)
      exact sum_congr rfl fun j _ => abs_mul _ _
    have h3 := abs_add_le (y l - ∑ j ∈ range n, M j l * z j) (∑ j ∈ range n, M j l * z j)
    rw [sub_add_cancel] at h3
    linarith
  have e1 : ∑ j ∈ range n, (∑ l ∈ range n, M i l * M j l) * z j = ∑ l ∈ range n, M i l * ∑ j ∈ range n, M j l * z j := by
    simp only [sum_mul, mul_sum]
    rw [sum_comm]
    exact sum_congr rfl fun _ _ => sum_congr rfl fun _ _ => by ring
  have e2 : ∑ j ∈ range n, (∑ l ∈ range n, |M i l| * |M j l|) * |z j| = ∑ l ∈ range n, |M i l| * ∑ j ∈ range n, |M j l| * |z j| := by
    simp only [sum_mul, mul_sum]
    rw [sum_comm]
    exact sum_congr rfl fun _ _ => sum_congr rfl fun _ _ => by ring
  rw [e1, e2]
  have e3 : a i - ∑ l ∈ range n, M i l * ∑ j ∈ range n, M j l * z j =
      (a i - ∑ l ∈ range n, M i l * y l) + ∑ l ∈ range n, M i l * (y l - ∑ j ∈ range n, M j l * z j) := by
    simp only [mul_sub, sum_sub_distrib]; ring
  rw [e3]
  refine (abs_add_le _ _).trans ?_
  have h1 : |∑ l ∈ range n, M i l * (y l - ∑ j ∈ range n, M j l * z j)| ≤
      ε * (∑ l ∈ range n, |M i l| * ∑ j ∈ range n, |M j l| * |z j|) + ∑ l ∈ range n, |M i l| * τ l := by
    refine (abs_sum_le_sum_abs _ _).trans ?_
    rw [mul_sum, ← sum_add_distrib]
    refine sum_le_sum fun l hl => ?_
    rw [abs_mul]
    have := mul_le_mul_of_nonneg_left (hb l (mem_range.1 hl)) (abs_nonneg (M i l))
    linarith
  have h2 : ∑ l ∈ range n, |M i l| * |y l| ≤
      (1 + ε) * (∑ l ∈ range n, |M i l| * ∑ j ∈ range n, |M j l| * |z j|) + ∑ l ∈ range n, |M i l| * τ l := by
    rw [mul_sum, ← sum_add_distrib]
    refine sum_le_sum fun l hl => ?_
    have := mul_le_mul_of_nonneg_left (hy l (mem_range.1 hl)) (abs_nonneg (M i l))
    linarith
  have h3 := hf i hi
  have h4 := mul_le_mul_of_nonneg_left h2 hε
  nlinarith

namespace Ieee

variable {F : Fmt}

/-- Weaker form of `esub_div_err` with the constants of the size `n`. -/
theorem div_bound (st : Site) (c x : Nat → Fl F) (y s : Fl F) {k n : ℕ} (hk : k ≤ n) (hs : s.Finite)
    (h : (esub st y (fun i => c i * x i) k / s).Finite) :
    y.Finite ∧
    |y.val - ((∑ i ∈ range k, (c i).val * (x i).val) + s.val * (esub st y (fun i => c i * x i) k / s).val)|
      ≤ relErr F n * ((∑ i ∈ range k, |(c i).val| * |(x i).val|) + |s.val| * |(esub st y (fun i => c i * x i) k / s).val|)
        + (1 + relErr F n) * eta F * (n + |s.val|) := by
  obtain ⟨h1, _, _, h4⟩ := esub_div_err st c x y s k hs h
  refine ⟨h1, ?_⟩
  rw [← sub_sub]
  refine h4.trans ?_
  generalize (esub st y (fun i => c i * x i) k / s).val = w
  have hq := one_le_qf (F := F)
  have h5 : qf F ^ (k + 2) ≤ qf F ^ (n + 2) := pow_le_pow_right₀ hq (by omega)
  have h6 : qf F ^ k ≤ qf F ^ (n + 2) := pow_le_pow_right₀ hq (by omega)
  have e : 1 + relErr F n = qf F ^ (n + 2) := by unfold relErr; ring
  have he := eta_pos (F := F)
  rw [e]
  have h7 : (0 : ℝ) ≤ (∑ i ∈ range k, |(c i).val| * |(x i).val|) + |s.val| * |w| :=
    add_nonneg (sum_nonneg fun i _ => by positivity) (by positivity)
  have h8 : (qf F ^ (k + 2) - 1) * ((∑ i ∈ range k, |(c i).val| * |(x i).val|) + |s.val| * |w|) ≤
      relErr F n * ((∑ i ∈ range k, |(c i).val| * |(x i).val|) + |s.val| * |w|) :=
    mul_le_mul_of_nonneg_right (by unfold relErr; linarith) h7
  have h9 : (k : ℝ) * eta F * qf F ^ k ≤ n * eta F * qf F ^ (n + 2) := by
    have : (k : ℝ) ≤ n := by exact_mod_cast hk
    gcongr
  have h10 : qf F ^ (k + 2) * eta F * |s.val| ≤ qf F ^ (n + 2) * eta F * |s.val| := by gcongr
  linarith

theorem lowVal_row {n i : ℕ} (hi : i < n) (L : Nat → Nat → Fl F) (φ : ℝ → ℝ) (hφ : φ 0 = 0) (v : ℕ → ℝ) :
    ∑ l ∈ range n, φ (lowVal L i l) * v l = (∑ l ∈ range i, φ (L i l).val * v l) + φ (L i i).val * v i := by
  rw [sum_cut (show i + 1 ≤ n by omega) (fun l => φ (lowVal L i l) * v l)
    (fun l hl _ => by simp only [lowVal]; rw [if_neg (by omega), hφ, zero_mul]), sum_range_succ]
  congr 1
  · refine sum_congr rfl fun l hl => ?_
    have := mem_range.1 hl
    rw [lowVal, if_pos (by omega)]
  · rw [lowVal, if_pos le_rfl]

theorem lowVal_col {n i : ℕ} (hi : i < n) (L : Nat → Nat → Fl F) (φ : ℝ → ℝ) (hφ : φ 0 = 0) (v : ℕ → ℝ) :
    ∑ j ∈ range n, φ (lowVal L j i) * v j =
      (∑ k ∈ range (n - 1 - i), φ (L (i + 1 + k) i).val * v (i + 1 + k)) + φ (L i i).val * v i := by
  have hn : n = i + 1 + (n - 1 - i) := by omega
  conv_lhs => rw [hn]
  rw [sum_range_add, sum_range_succ]
  have h0 : ∑ j ∈ range i, φ (lowVal L j i) * v j = 0 := sum_eq_zero fun j hj => by
    have := mem_range.1 hj
    rw [lowVal, if_neg (by omega), hφ, zero_mul]
  rw [h0, zero_add, add_comm]
  congr 1
  · refine sum_congr rfl fun l hl => ?_
    rw [lowVal, if_pos (by omega)]
  · rw [lowVal, if_pos le_rfl]

/-- Half of the smallest positive number times `n + |Lᵢᵢ|`, up to the relative error. -/
noncomputable def tau (n : ℕ) (L : Nat → Nat → Fl F) (i : ℕ) : ℝ := (1 + relErr F n) * eta F * (n + |(L i i).val|)

theorem fwdSub_err {n : ℕ} {L : Nat → Nat → Fl F} {b : Nat → Fl F} {i : ℕ} (hi : i < n) (hL : (L i i).Finite)
    (h : (fwdSub L b n i).Finite) :
    (b i).Finite ∧ |(b i).val - ∑ l ∈ range n, lowVal L i l * (fwdSub L b n l).val| ≤
      relErr F n * (∑ l ∈ range n, |lowVal L i l| * |(fwdSub L b n l).val|) + tau n L i := by
  have e := fwdSub_eqn L b hi
  rw [e] at h
  obtain ⟨h1, h2⟩ := div_bound (.fwd i) (fun j => L i j) (fwdSub L b n) (b i) (L i i) hi.le hL h
  rw [← e] at h2
  refine ⟨h1, ?_⟩
  have g1 := lowVal_row hi L id rfl (fun l => (fwdSub L b n l).val)
  have g2 := lowVal_row hi L (fun t => |t|) abs_zero (fun l => |(fwdSub L b n l).val|)
  simp only [id] at g1
  rw [g1, g2]
  exact h2

theorem backSub_err {n : ℕ} {L : Nat → Nat → Fl F} {b : Nat → Fl F} {i : ℕ} (hi : i < n) (hL : (L i i).Finite)
    (h : (backSub (fun i j => L j i) n b i).Finite) :
    (b i).Finite ∧ |(b i).val - ∑ j ∈ range n, lowVal L j i * (backSub (fun i j => L j i) n b j).val| ≤
      relErr F n * (∑ j ∈ range n, |lowVal L j i| * |(backSub (fun i j => L j i) n b j).val|) + tau n L i := by
  have e := backSub_eqn (fun i j => L j i) n b hi
  rw [e] at h
  obtain ⟨h1, h2⟩ := div_bound (.bwd n i) (fun j => L (i + 1 + j) i) (fun j => backSub (fun i j => L j i) n b (i + 1 + j)) (b i) (L i i)
    (show n - 1 - i ≤ n by omega) hL h
  rw [← e] at h2
  refine ⟨h1, ?_⟩
  have g1 := lowVal_col hi L id rfl (fun l => (backSub (fun i j => L j i) n b l).val)
  have g2 := lowVal_col hi L (fun t => |t|) abs_zero (fun l => |(backSub (fun i j => L j i) n b l).val|)
  simp only [id] at g1
  rw [g1, g2]
  exact h2

theorem neg_fin_iff {a : Fl F} (h : (-a).Finite) : a.Finite ∧ a.val = -(-a).val := by
  obtain ⟨h1, h2⟩ := neg_finite h
  exact ⟨h1, by rw [h2, neg_neg]⟩

/-- Residual of the computed minimum, with the matrix `L Lᵀ`. -/
theorem unconstrMin_err {n : ℕ} {L : Nat → Nat → Fl F} {a : Nat → Fl F} (hL : ∀ i < n, (L i i).Finite)
    (h : ∀ i < n, (unconstrMin n L a i).Finite) {i : ℕ} (hi : i < n) :
    (a i).Finite ∧ |(a i).val + ∑ j ∈ range n, gram n L i j * (unconstrMin n L a j).val| ≤
      (2 * relErr F n + relErr F n ^ 2) * (∑ j ∈ range n, (∑ l ∈ range n, |lowVal L i l| * |lowVal L j l|) * |(unconstrMin n L a j).val|)
        + tau n L i + (1 + relErr F n) * ∑ l ∈ range n, |lowVal L i l| * tau n L l := by
  have hz : ∀ j < n, (backSub (fun i j => L j i) n (fwdSub L a n) j).Finite ∧
      (backSub (fun i j => L j i) n (fwdSub L a n) j).val = -(unconstrMin n L a j).val := fun j hj => neg_fin_iff (h j hj)
  have hb := fun j (hj : j < n) => backSub_err (b := fwdSub L a n) hj (hL j hj) (hz j hj).1
  have hf := fun j (hj : j < n) => fwdSub_err (b := a) hj (hL j hj) (hb j hj).1
  have hr := resid_bound (relErr_nonneg (F := F) (n := n)) (fun j hj => (hf j hj).2) (fun j hj => (hb j hj).2) i hi
  refine ⟨(hf i hi).1, ?_⟩
  have e1 : ∑ j ∈ range n, (∑ l ∈ range n, lowVal L i l * lowVal L j l) * (backSub (fun i j => L j i) n (fwdSub L a n) j).val =
      -∑ j ∈ range n, gram n L i j * (unconstrMin n L a j).val := by
    rw [← sum_neg_distrib]
    refine sum_congr rfl fun j hj => ?_
    rw [(hz j (mem_range.1 hj)).2, mul_neg]; rfl
  have e2 : ∑ j ∈ range n, (∑ l ∈ range n, |lowVal L i l| * |lowVal L j l|) * |(backSub (fun i j => L j i) n (fwdSub L a n) j).val| =
      ∑ j ∈ range n, (∑ l ∈ range n, |lowVal L i l| * |lowVal L j l|) * |(unconstrMin n L a j).val| :=
    sum_congr rfl fun j hj => by rw [(hz j (mem_range.1 hj)).2, abs_neg]
  rw [e1, e2, sub_neg_eq_add] at hr
  exact hr

end Ieee
end JrlQp
