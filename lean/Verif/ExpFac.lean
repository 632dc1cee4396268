import Verif.ExpActive
import Verif.PropsOrtho
import Mathlib.Algebra.BigOperators.Field

/-!
# Factorisation of the initial active set of the experimental solver, in exact arithmetic
-/

namespace JrlQp

open NumOps Finset Spec

/-! ## Householder reflectors -/

theorem applyHouse_real {len : Nat} (hl : 0 < len) (ess : Nat → ℝ) (tau : ℝ) (v : Nat → ℝ) (i : Nat) :
    applyHouse len ess tau v i = if i < len then
      v i - tau * (v 0 + ∑ k ∈ range (len - 1), ess k * v (k + 1)) * (if i = 0 then 1 else ess (i - 1)) else v i := by
  rw [applyHouse_eq hl, houseOne_full, sum_col hl]
  have e : ∑ k ∈ range (len - 1), (if k + 1 = 0 then 1 else ess (k + 1 - 1)) * v (k + 1)
      = ∑ k ∈ range (len - 1), ess k * v (k + 1) := by
    apply sum_congr rfl; intro k _; simp
  simp [add_comm]

theorem applyHouse_congr {len : Nat} (hl : 0 < len) {ess ess' : Nat → ℝ} (tau : ℝ) {v v' : Nat → ℝ}
    (he : ∀ i < len - 1, ess i = ess' i) (hv : ∀ i < len, v i = v' i) {i : Nat} (hi : i < len) :
    applyHouse len ess tau v i = applyHouse len ess' tau v' i := by
  rw [applyHouse_real hl, applyHouse_real hl, if_pos hi, if_pos hi, hv i hi, hv 0 hl]
  have : ∑ k ∈ range (len - 1), ess k * v (k + 1) = ∑ k ∈ range (len - 1), ess' k * v' (k + 1) := by
    apply sum_congr rfl
    intro k hk
    have := mem_range.1 hk
    rw [he k this, hv (k + 1) (by omega)]
  rw [this]
  by_cases h0 : i = 0
  · simp [h0]
  · rw [if_neg h0, if_neg h0, he (i - 1) (by omega)]

theorem mkHouse_wf {len : Nat} (v : Nat → ℝ) :
    (mkHouse len v).tau * ((mkHouse len v).tau * (1 + ∑ k ∈ range (len - 1), (mkHouse len v).ess k ^ 2) - 2) = 0 := by
  unfold mkHouse
  simp only [esum_eq]
  by_cases h0 : leb (∑ i ∈ range (len - 1), v (i + 1) * v (i + 1)) (0 : ℝ) = true
  · rw [if_pos h0]; simp
  · rw [if_neg h0]
    simp only [leb, decide_eq_true_eq, not_le] at h0
    set t2 := ∑ i ∈ range (len - 1), v (i + 1) * v (i + 1) with ht2
    have hb : NumOps.sqrt (v 0 * v 0 + t2) * NumOps.sqrt (v 0 * v 0 + t2) = v 0 * v 0 + t2 :=
      Real.mul_self_sqrt (by nlinarith [mul_self_nonneg (v 0)])
    have hbpos : 0 < (NumOps.sqrt (v 0 * v 0 + t2) : ℝ) := Real.sqrt_pos.2 (by nlinarith [mul_self_nonneg (v 0)])
    generalize (NumOps.sqrt (v 0 * v 0 + t2) : ℝ) = b at hb hbpos
    obtain ⟨beta, hbeta⟩ : ∃ beta : ℝ, beta = if leb 0 (v 0) = true then -b else b := ⟨_, rfl⟩
    rw [← hbeta]
    have hbb : beta * beta = v 0 * v 0 + t2 := by
      rw [← hb, hbeta]; split_ifs <;> ring
    have hne : beta ≠ 0 := by
      rw [hbeta]; split_ifs <;> linarith
    have hd : v 0 - beta ≠ 0 := by
      intro hc
      have : v 0 = beta := by linarith
      rw [← this] at hbb
      linarith
    have hs : ∑ k ∈ range (len - 1), (v (k + 1) / (v 0 - beta)) ^ 2 = t2 / (v 0 - beta) ^ 2 := by
      rw [ht2, Finset.sum_div]
      apply sum_congr rfl; intro k _; rw [div_pow]; ring
    simp only
    rw [hs]
    have ht : t2 = beta * beta - v 0 * v 0 := by linarith
    rw [ht]
    field_simp
    ring

theorem mkHouse_apply {len : Nat} (hl : 0 < len) (v : Nat → ℝ) {i : Nat} (hi : i < len) :
    applyHouse len (mkHouse len v).ess (mkHouse len v).tau v i = if i = 0 then (mkHouse len v).beta else 0 := by
  rw [applyHouse_real hl, if_pos hi]
  unfold mkHouse
  simp only [esum_eq]
  by_cases h0 : leb (∑ i ∈ range (len - 1), v (i + 1) * v (i + 1)) (0 : ℝ) = true
  · rw [if_pos h0]
    simp only [leb, decide_eq_true_eq] at h0
    have hz : ∑ i ∈ range (len - 1), v (i + 1) * v (i + 1) = 0 :=
      le_antisymm h0 (sum_nonneg fun i _ => mul_self_nonneg _)
    have := (sum_eq_zero_iff_of_nonneg (fun i _ => mul_self_nonneg (v (i + 1)))).1 hz
    by_cases hi0 : i = 0
    · simp [hi0]
    · have := this (i - 1) (mem_range.2 (by omega))
      rw [show i - 1 + 1 = i by omega] at this
      simp [hi0, mul_self_eq_zero.1 this]
  · rw [if_neg h0]
    simp only [leb, decide_eq_true_eq, not_le] at h0
    set t2 := ∑ i ∈ range (len - 1), v (i + 1) * v (i + 1) with ht2
    have hb : NumOps.sqrt (v 0 * v 0 + t2) * NumOps.sqrt (v 0 * v 0 + t2) = v 0 * v 0 + t2 :=
      Real.mul_self_sqrt (by nlinarith [mul_self_nonneg (v 0)])
    have hbpos : 0 < (NumOps.sqrt (v 0 * v 0 + t2) : ℝ) := Real.sqrt_pos.2 (by nlinarith [mul_self_nonneg (v 0)])
    generalize (NumOps.sqrt (v 0 * v 0 + t2) : ℝ) = b at hb hbpos
    obtain ⟨beta, hbeta⟩ : ∃ beta : ℝ, beta = if leb 0 (v 0) = true then -b else b := ⟨_, rfl⟩
    rw [← hbeta]
    have hbb : beta * beta = v 0 * v 0 + t2 := by
      rw [← hb, hbeta]; split_ifs <;> ring
    have hne : beta ≠ 0 := by
      rw [hbeta]; split_ifs <;> linarith
    have hd : v 0 - beta ≠ 0 := by
      intro hc
      have : v 0 = beta := by linarith
      rw [← this] at hbb
      linarith
    have hs : ∑ k ∈ range (len - 1), v (k + 1) / (v 0 - beta) * v (k + 1) = t2 / (v 0 - beta) := by
      rw [ht2, Finset.sum_div]
      apply sum_congr rfl; intro k _; ring
    simp only
    rw [hs]
    have hk : (beta - v 0) / beta * (v 0 + t2 / (v 0 - beta)) = v 0 - beta := by
      have ht : t2 = beta * beta - v 0 * v 0 := by linarith
      rw [ht]
      field_simp
      ring
    rw [hk]
    by_cases hi0 : i = 0
    · simp [hi0]
    · rw [if_neg hi0, if_neg hi0, show i - 1 + 1 = i by omega, mul_div_cancel₀ _ hd, sub_self]

theorem applyHouse_iso {len : Nat} (hl : 0 < len) (v : Nat → ℝ) :
    Iso len (applyHouse len (mkHouse len v).ess (mkHouse len v).tau) (applyHouse len (mkHouse len v).ess (mkHouse len v).tau) := by
  have e : applyHouse len (mkHouse len v).ess (mkHouse len v).tau = houseOne len (mkHouse len v).ess (mkHouse len v).tau 0 len :=
    funext fun w => applyHouse_eq hl _ _ w
  rw [e]
  exact houseOne_iso hl (mkHouse_wf v)

/-- Linearity: applying the reflector to each row then multiplying. -/
theorem applyHouse_sum {len : Nat} (hl : 0 < len) (ess : Nat → ℝ) (tau : ℝ) (n : Nat) (V : Nat → Nat → ℝ) (w : Nat → ℝ) (i : Nat) :
    ∑ a ∈ range n, applyHouse len ess tau (V a) i * w a = applyHouse len ess tau (fun j => ∑ a ∈ range n, V a j * w a) i := by
  rw [applyHouse_real hl]
  by_cases hi : i < len
  · rw [if_pos hi]
    have e : ∀ a ∈ range n, applyHouse len ess tau (V a) i * w a = V a i * w a
        - tau * ((V a 0 * w a) + ∑ k ∈ range (len - 1), ess k * (V a (k + 1) * w a)) * (if i = 0 then 1 else ess (i - 1)) := by
      intro a _
      rw [applyHouse_real hl, if_pos hi]
      have : ∑ k ∈ range (len - 1), ess k * (V a (k + 1) * w a) = (∑ k ∈ range (len - 1), ess k * V a (k + 1)) * w a := by
        rw [Finset.sum_mul]; apply sum_congr rfl; intro k _; ring
      rw [this]; ring
    rw [sum_congr rfl e, sum_sub_distrib]
    congr 1
    rw [← Finset.sum_mul, ← Finset.mul_sum, sum_add_distrib, sum_comm]
    congr 3
    apply sum_congr rfl; intro k _
    rw [Finset.mul_sum]
  · rw [if_neg hi]
    apply sum_congr rfl; intro a _
    rw [applyHouse_real hl, if_neg hi]

/-! ## The QR factorisation -/

/-- The reflector of step `k`. -/
noncomputable def qrH (n q : Nat) (M : Nat → Nat → ℝ) (k : Nat) : House ℝ :=
  mkHouse (n - k) (fun i => (qr n q M k).1 (k + i) k)

/-- Columns are not modified after their own step, nor are the coefficients. -/
theorem qr_stable (n q : Nat) (M : Nat → Nat → ℝ) (k j : Nat) (i : Nat) :
    (qr n q M (k + 1 + j)).1 i k = (qr n q M (k + 1)).1 i k ∧ (qr n q M (k + 1 + j)).2 k = (qr n q M (k + 1)).2 k := by
  induction j with
  | zero => exact ⟨rfl, rfl⟩
  | succ j ih =>
    rw [← ih.1, ← ih.2, show k + 1 + (j + 1) = (k + 1 + j) + 1 by omega, qr]
    simp only [qrStep, upd]
    refine ⟨?_, by rw [if_neg (show ¬ k = k + 1 + j by omega)]⟩
    split_ifs <;> first | rfl | omega

theorem qr_ess (n q : Nat) (M : Nat → Nat → ℝ) {k p : Nat} (hk : k < p) :
    (∀ i < n - k - 1, (qr n q M p).1 (k + 1 + i) k = (qrH n q M k).ess i) ∧ (qr n q M p).2 k = (qrH n q M k).tau := by
  obtain ⟨j, rfl⟩ : ∃ j, p = k + 1 + j := ⟨p - (k + 1), by omega⟩
  constructor
  · intro i hi
    rw [(qr_stable n q M k j _).1, qr]
    simp only [qrStep]
    rw [if_pos (by omega), if_true, if_neg (by omega)]
    rw [show k + 1 + i - k - 1 = i by omega]
    rfl
  · rw [(qr_stable n q M k j 0).2, qr]
    simp [qrStep, upd, qrH]

/-- Rows of `J` after `k` reflectors. -/
theorem applyQ_row (n q : Nat) (M J : Nat → Nat → ℝ) {k p : Nat} (hk : k < p) (hkn : k < n) {r c : Nat} (hr : r < n) (hc : c < n) :
    applyQ n (qr n q M p).1 (qr n q M p).2 J (k + 1) r c
      = segApply k (applyHouse (n - k) (qrH n q M k).ess (qrH n q M k).tau)
          (fun c => applyQ n (qr n q M p).1 (qr n q M p).2 J k r c) c := by
  obtain ⟨h1, h2⟩ := qr_ess n q M hk
  rw [applyQ, segApply]
  beta_reduce
  by_cases hkc : k ≤ c
  · rw [if_pos ⟨hr, hkc, hc⟩, if_pos hkc, h2]
    exact applyHouse_congr (by omega) _ (fun i hi => h1 i (by omega)) (fun _ _ => rfl) (by omega)
  · rw [if_neg (by omega), if_neg hkc]

/-- The invariant of the factorisation. -/
theorem qr_inv {n q : Nat} (hq : q ≤ n) {G N M J : Nat → Nat → ℝ}
    (hinv : ∀ a < n, ∀ b < n, ∑ c ∈ range n, G a c * outer n J c b = kd a b)
    (hM : ∀ j < q, ∀ i < n, tmul n J (N j) i = M i j) (k : Nat) (hk : k ≤ q) :
    (∀ a < n, ∀ b < n, ∑ c ∈ range n, G a c * outer n (applyQ n (qr n q M q).1 (qr n q M q).2 J k) c b = kd a b) ∧
    ∀ j < q, ∀ i < n, tmul n (applyQ n (qr n q M q).1 (qr n q M q).2 J k) (N j) i
      = if j < k ∧ j < i then 0 else (qr n q M k).1 i j := by
  induction k with
  | zero =>
    refine ⟨hinv, fun j hj i hi => ?_⟩
    rw [if_neg (by omega)]
    exact hM j hj i hi
  | succ k ih =>
    obtain ⟨ih1, ih2⟩ := ih (by omega)
    have hkn : k < n := by omega
    have hrow := fun r (hr : r < n) c (hc : c < n) => applyQ_row n q M J (p := q) (by omega) hkn hr hc
    have hiso : Iso (n - k) (applyHouse (n - k) (qrH n q M k).ess (qrH n q M k).tau)
      (applyHouse (n - k) (qrH n q M k).ess (qrH n q M k).tau) := applyHouse_iso (by omega) _
    have hiso' := hiso.seg k
    rw [Nat.add_sub_cancel' hkn.le] at hiso'
    generalize hJ' : applyQ n (qr n q M q).1 (qr n q M q).2 J (k + 1) = J' at *
    generalize hJk : applyQ n (qr n q M q).1 (qr n q M q).2 J k = Jk at *
    constructor
    · refine Fac.congr_outer ih1 ?_
      intro a ha b hb
      unfold outer
      rw [← hiso'.dot (Jk a) (Jk b)]
      apply sum_congr rfl
      intro c hc
      have hc := mem_range.1 hc
      rw [hrow a ha c hc, hrow b hb c hc]
    · intro j hj i hi
      -- the product with the normal
      have ht : tmul n J' (N j) i = segApply k (applyHouse (n - k) (qrH n q M k).ess (qrH n q M k).tau) (tmul n Jk (N j)) i := by
        unfold tmul segApply
        by_cases hki : k ≤ i
        · rw [if_pos hki, ← applyHouse_sum (by omega)]
          apply sum_congr rfl
          intro a ha
          rw [hrow a (mem_range.1 ha) i hi, segApply, if_pos hki]
        · rw [if_neg hki]
          apply sum_congr rfl
          intro a ha
          rw [hrow a (mem_range.1 ha) i hi, segApply, if_neg hki]
      rw [ht, segApply]
      by_cases hki : k ≤ i
      · rw [if_pos hki]
        rcases Nat.lt_trichotomy j k with hjk | hjk | hjk
        · rw [if_pos (by omega), hiso.zero]
          · rw [ih2 j hj _ (by omega), if_pos (by omega)]
          · intro l hl
            rw [ih2 j hj _ (by omega), if_pos (by omega)]
        · subst hjk
          have hc : applyHouse (n - j) (qrH n q M j).ess (qrH n q M j).tau (fun l => tmul n Jk (N j) (j + l)) (i - j)
              = applyHouse (n - j) (qrH n q M j).ess (qrH n q M j).tau (fun l => (qr n q M j).1 (j + l) j) (i - j) := by
            refine applyHouse_congr (by omega) _ (fun _ _ => rfl) ?_ (by omega)
            intro l hl
            rw [ih2 j hj _ (by omega), if_neg (by omega)]
          rw [hc]
          unfold qrH
          rw [mkHouse_apply (by omega) _ (by omega)]
          by_cases hij : i = j
          · subst hij
            rw [if_pos (by omega), if_neg (by omega), qr]
            simp only [qrStep]
            rw [if_pos (by omega), if_true, if_true]
          · rw [if_neg (by omega), if_pos (by omega)]
        · rw [if_neg (by omega), qr]
          simp only [qrStep]
          rw [if_pos (by omega), if_neg (by omega), if_pos (by omega)]
          refine applyHouse_congr (by omega) _ (fun _ _ => rfl) ?_ (by omega)
          intro l hl
          rw [ih2 j hj _ (by omega), if_neg (by omega)]
      · rw [if_neg hki, ih2 j hj i hi, qr]
        simp only [qrStep]
        rw [if_neg (show ¬ (i < n ∧ k ≤ i) by omega)]
        by_cases h1 : j < k ∧ j < i
        · rw [if_pos h1, if_pos (by omega)]
        · rw [if_neg h1, if_neg (by omega)]

/-! ## `L⁻ᵀ` -/

theorem invLt_spec {n : Nat} {L : Nat → Nat → ℝ} (hne : ∀ i < n, L i i ≠ 0) :
    ∀ i < n, ∀ j < n, ∑ k ∈ range n, low L k i * invLt n L k j = kd i j := by
  intro i hi j hj
  have := backSub_spec (fun i j => L j i) n (fun k => if k = j then 1 else 0) hne i hi
  rw [kd, ← this]
  rfl

/-- `Jᵀ w = L⁻¹ w` for `J = L⁻ᵀ`. -/
theorem tmul_invLt {n : Nat} {L : Nat → Nat → ℝ} (hne : ∀ i < n, L i i ≠ 0) (w : Nat → ℝ) (i : Nat) (hi : i < n) :
    tmul n (invLt n L) w i = fwdSub L w n i := by
  have h2 := fwdSub_spec' L w n hne
  have h1 := invLt_spec hne
  unfold tmul
  have e : ∀ a ∈ range n, invLt n L a i * w a = ∑ j ∈ range n, (low L a j * invLt n L a i) * fwdSub L w n j := by
    intro a ha
    rw [← h2 a (mem_range.1 ha), Finset.mul_sum]
    apply sum_congr rfl; intro j _
    unfold low; ring
  rw [sum_congr rfl e, sum_comm]
  have e2 : ∀ j ∈ range n, ∑ a ∈ range n, (low L a j * invLt n L a i) * fwdSub L w n j = kd i j * fwdSub L w n j := by
    intro j hj
    rw [← Finset.sum_mul, h1 j (mem_range.1 hj) i hi, kd, kd]
    simp [eq_comm]
  rw [sum_congr rfl e2, sum_kd hi]

theorem invLt_outer {n : Nat} {L : Nat → Nat → ℝ} {G : Nat → Nat → ℝ} (hne : ∀ i < n, L i i ≠ 0)
    (hG : ∀ i < n, ∀ j < n, G i j = ∑ l ∈ range n, low L i l * low L j l) :
    ∀ a < n, ∀ b < n, ∑ c ∈ range n, G a c * outer n (invLt n L) c b = kd a b := by
  have hJ1 := invLt_spec hne
  have hJ2 : ∀ i < n, ∀ j < n, ∑ k ∈ range n, invLt n L i k * low L j k = kd i j :=
    inv_comm (A := fun i k => low L k i) (M := invLt n L) hJ1
  intro a ha b hb
  have e : ∀ c ∈ range n, G a c * outer n (invLt n L) c b
      = ∑ l ∈ range n, ∑ i ∈ range n, low L a l * invLt n L b i * (low L c l * invLt n L c i) := by
    intro c hc
    rw [hG a ha c (mem_range.1 hc), outer, Finset.sum_mul]
    apply sum_congr rfl; intro l _
    rw [Finset.mul_sum]
    apply sum_congr rfl; intro i _; ring
  rw [sum_congr rfl e, sum_comm]
  have e2 : ∀ l ∈ range n, ∑ c ∈ range n, ∑ i ∈ range n,
      low L a l * invLt n L b i * (low L c l * invLt n L c i) = invLt n L b l * low L a l := by
    intro l hl
    have hl := mem_range.1 hl
    rw [sum_comm]
    have : ∀ i ∈ range n, ∑ c ∈ range n, low L a l * invLt n L b i * (low L c l * invLt n L c i)
        = kd l i * (low L a l * invLt n L b i) := by
      intro i hi
      rw [← Finset.mul_sum, hJ1 l hl i (mem_range.1 hi)]; ring
    rw [sum_congr rfl this, sum_kd hl]; ring
  rw [sum_congr rfl e2, hJ2 b hb a ha, kd, kd]
  simp [eq_comm]

/-! ## Linear independence -/

/-- Specification: the `q` vectors `N 0, …, N (q-1)` of size `n` are linearly independent. -/
def LinIndep (n q : Nat) (N : Nat → Nat → ℝ) : Prop :=
  ∀ c : Nat → ℝ, (∀ a < n, ∑ k ∈ range q, c k * N k a = 0) → ∀ k < q, c k = 0

/-- Independent normals give an invertible `R`. -/
theorem FacT.diag {n q : Nat} {G N J R : Nat → Nat → ℝ} (h : FacT n q G N J R) (hq : q ≤ n) (hi : LinIndep n q N) :
    ∀ k < q, R k k ≠ 0 := by
  intro k
  induction k using Nat.strong_induction_on with
  | _ k ih =>
    intro hk hc
    -- solve R c = column k with the first k columns
    have hd : ∀ i < k, R i i ≠ 0 := fun i h1 => ih i h1 (by omega)
    have hs := backSub_spec R k (fun i => R i k) hd
    generalize backSub R k (fun i => R i k) = c at hs
    have hzero : ∀ a < n, ∑ j ∈ range q, (if j < k then -c j else if j = k then 1 else 0) * N j a = 0 := by
      obtain ⟨w, hw⟩ : ∃ w : Nat → ℝ, w = fun a => ∑ j ∈ range q, (if j < k then -c j else if j = k then 1 else 0) * N j a := ⟨_, rfl⟩
      have ht : ∀ i < n, tmul n J w i = 0 := by
        intro i hin
        have e1 : tmul n J w i = ∑ j ∈ range q, (if j < k then -c j else if j = k then 1 else 0) * tmul n J (N j) i := by
          unfold tmul
          rw [hw]
          simp only [Finset.mul_sum]
          rw [sum_comm]
          apply sum_congr rfl; intro j _
          apply sum_congr rfl; intro a _; ring
        have e2 : ∀ j ∈ range q, (if j < k then -c j else if j = k then 1 else 0) * tmul n J (N j) i
            = (if j < k then -c j else if j = k then 1 else 0) * (if i ≤ j then R i j else 0) := by
          intro j hj
          rw [h.tri j (mem_range.1 hj) i hin]
        rw [e1, sum_congr rfl e2]
        rw [sum_cut (c := k + 1) (by omega) _ (fun j h1 _ => by rw [if_neg (by omega), if_neg (by omega), zero_mul]),
          sum_range_succ]
        simp only [lt_irrefl, if_false, if_true, one_mul]
        have e3 : ∑ x ∈ range k, (if x < k then -c x else if x = k then 1 else 0) * (if i ≤ x then R i x else 0)
            = -∑ x ∈ range k, (if i ≤ x then R i x else 0) * c x := by
          rw [← sum_neg_distrib]
          apply sum_congr rfl; intro x hx
          rw [if_pos (mem_range.1 hx)]; ring
        rw [e3]
        rcases Nat.lt_trichotomy i k with hik | hik | hik
        · rw [hs i hik, if_pos (by omega)]; ring
        · subst hik
          rw [if_pos le_rfl, hc, add_zero, neg_eq_zero]
          apply sum_eq_zero; intro x hx
          rw [if_neg (by have := mem_range.1 hx; omega), zero_mul]
        · rw [if_neg (by omega), add_zero, neg_eq_zero]
          apply sum_eq_zero; intro x hx
          rw [if_neg (by have := mem_range.1 hx; omega), zero_mul]
      intro a ha
      have := Fac.expand h.inv w a ha
      rw [hw] at this
      rw [← hw] at this
      have hz : ∑ c ∈ range n, G a c * ∑ i ∈ range n, J c i * tmul n J w i = 0 := by
        apply sum_eq_zero; intro c _
        rw [sum_eq_zero, mul_zero]
        intro i hi
        rw [ht i (mem_range.1 hi), mul_zero]
      rw [hz] at this
      rw [hw] at this
      exact this.symm
    have := hi _ hzero k hk
    simp at this

/-- Conversely an invertible `R` means that the normals are independent. -/
theorem Fac.indep {n q : Nat} {G N J R : Nat → Nat → ℝ} (h : Fac n q G N J R) (hq : q ≤ n) : LinIndep n q N := by
  intro c hc k hk
  -- Jᵀ N c = 0, last coefficient first
  have ht : ∀ i < n, ∑ j ∈ range q, c j * (if i ≤ j then R i j else 0) = 0 := by
    intro i hi
    have : tmul n J (fun a => ∑ k ∈ range q, c k * N k a) i = ∑ j ∈ range q, c j * tmul n J (N j) i := by
      unfold tmul
      simp only [Finset.mul_sum]
      rw [sum_comm]
      apply sum_congr rfl; intro j _
      apply sum_congr rfl; intro a _; ring
    have h0 : tmul n J (fun a => ∑ k ∈ range q, c k * N k a) i = 0 := by
      unfold tmul
      apply sum_eq_zero; intro a ha
      beta_reduce
      rw [hc a (mem_range.1 ha), mul_zero]
    rw [h0] at this
    refine Eq.trans ?_ this.symm
    apply sum_congr rfl; intro j hj
    rw [h.tri j (mem_range.1 hj) i hi]
  have key : ∀ m, ∀ k, q - m ≤ k → k < q → c k = 0 := by
    intro m
    induction m with
    | zero => intro k h1 h2; omega
    | succ m ih =>
      intro k h1 h2
      by_cases h3 : q - m ≤ k
      · exact ih k h3 h2
      · have := ht k (by omega)
        rw [sum_eq_single k] at this
        · rw [if_pos le_rfl] at this
          exact (mul_eq_zero.1 this).resolve_right (h.diag k h2)
        · intro j hj hjk
          have := mem_range.1 hj
          by_cases hlt : k ≤ j
          · rw [ih j (by omega) this, zero_mul]
          · rw [if_neg hlt, mul_zero]
        · intro hh; exact absurd (mem_range.2 h2) hh
  exact key q k (by omega) hk

end JrlQp
