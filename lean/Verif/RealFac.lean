import Verif.RealLin
import Verif.Solver

/-!
# The incremental factorisation in exact arithmetic

`J` and `R` satisfy `G J Jᵀ = 1`, `Jᵀ N = [R; 0]`, `R` upper triangular with a non-zero diagonal, and the Givens updates
of `addConstraint` and `removeConstraint` keep this.
-/

namespace JrlQp

open NumOps Finset

/-! ### Givens rotations -/

theorem makeGivens_spec (p q : ℝ) :
    (makeGivens p q).c * (makeGivens p q).c + (makeGivens p q).s * (makeGivens p q).s = 1 ∧
    (makeGivens p q).c * p - (makeGivens p q).s * q = (makeGivens p q).r ∧
    (makeGivens p q).s * p + (makeGivens p q).c * q = 0 := by
  unfold makeGivens
  by_cases hq : q = 0
  · rw [if_pos (by simpa using hq)]
    subst hq
    by_cases hp : p < 0
    · simp only [ltb_real, hp, if_true, NumOps.abs, abs_of_neg hp]; norm_num
    · simp only [ltb_real, hp, if_false, NumOps.abs, abs_of_nonneg (not_lt.1 hp)]; norm_num
  · rw [if_neg (by simpa using hq)]
    by_cases hp : p = 0
    · rw [if_pos (by simpa using hp)]
      subst hp
      by_cases hq' : q < 0
      · simp only [ltb_real, hq', if_true, NumOps.abs, abs_of_neg hq']; norm_num
      · simp only [ltb_real, hq', if_false, NumOps.abs, abs_of_nonneg (not_lt.1 hq')]; norm_num
    · rw [if_neg (by simpa using hp)]
      have key : ∀ t : ℝ, ∀ b : Bool, ∃ u : ℝ, (if b then -Real.sqrt (1 + t * t) else Real.sqrt (1 + t * t)) = u ∧
          u ≠ 0 ∧ u * u = 1 + t * t := by
        intro t b
        have hpos : 0 < 1 + t * t := by nlinarith [mul_self_nonneg t]
        have h1 := Real.sqrt_pos.2 hpos
        have h2 := Real.mul_self_sqrt hpos.le
        cases b
        · exact ⟨_, rfl, by simpa using h1.ne', by simpa using h2⟩
        · exact ⟨_, rfl, by simpa using h1.ne', by simpa using h2⟩
      by_cases hpq : ltb (NumOps.abs q : ℝ) (NumOps.abs p) = true
      · rw [if_pos hpq]
        simp only []
        obtain ⟨u, hu, hu0, huu⟩ := key (q / p) (ltb p 0)
        have hu' : (if ltb p 0 = true then -NumOps.sqrt (1 + q / p * (q / p)) else NumOps.sqrt (1 + q / p * (q / p))) = u :=
          hu
        rw [hu']
        have huu' : u * u * (p * p) = p * p + q * q := by rw [huu]; field_simp
        refine ⟨?_, ?_, ?_⟩
        · field_simp
          nlinarith [huu']
        · field_simp
          nlinarith [huu']
        · field_simp
          ring
      · rw [if_neg hpq]
        simp only []
        obtain ⟨u, hu, hu0, huu⟩ := key (p / q) (ltb q 0)
        have hu' : (if ltb q 0 = true then -NumOps.sqrt (1 + p / q * (p / q)) else NumOps.sqrt (1 + p / q * (p / q))) = u :=
          hu
        rw [hu']
        have huu' : u * u * (q * q) = p * p + q * q := by rw [huu]; field_simp; ring
        refine ⟨?_, ?_, ?_⟩
        · field_simp
          nlinarith [huu']
        · field_simp
          nlinarith [huu']
        · field_simp
          ring

theorem isId_real (g : Givens ℝ) (h : g.isId = true) : g.c = 1 ∧ g.s = 0 := by
  simpa [Givens.isId] using h

theorem rotCols_eq (n : Nat) (J : Nat → Nat → ℝ) (i : Nat) (g : Givens ℝ) (r c : Nat) (hr : r < n) :
    rotCols n J i g r c = if c = i then g.c * J r i - g.s * J r (i + 1)
      else if c = i + 1 then g.s * J r i + g.c * J r (i + 1) else J r c := by
  unfold rotCols
  by_cases h : g.isId = true
  · rw [if_pos h]
    obtain ⟨h1, h2⟩ := isId_real g h
    rw [h1, h2]
    split_ifs with h3 h4
    · subst h3; ring
    · subst h4; ring
    · rfl
  · rw [if_neg h]
    simp only [hr, if_true]

theorem rotRows_eq (lo hi : Nat) (R : Nat → Nat → ℝ) (i : Nat) (g : Givens ℝ) (r c : Nat) :
    rotRows lo hi R i g r c = if lo ≤ c ∧ c < hi then
      (if r = i then g.c * R i c - g.s * R (i + 1) c
      else if r = i + 1 then g.s * R i c + g.c * R (i + 1) c else R r c) else R r c := by
  unfold rotRows
  by_cases h : g.isId = true
  · rw [if_pos h]
    obtain ⟨h1, h2⟩ := isId_real g h
    rw [h1, h2]
    split_ifs with h0 h3 h4
    · subst h3; ring
    · subst h4; ring
    · rfl
    · rfl
  · rw [if_neg h]

/-- `(Jᵀ w)_j`. -/
def tmul (n : Nat) (J : Nat → Nat → ℝ) (w : Nat → ℝ) (j : Nat) : ℝ := ∑ a ∈ range n, J a j * w a

/-- `(J Jᵀ)_{ab}`. -/
def outer (n : Nat) (J : Nat → Nat → ℝ) (a b : Nat) : ℝ := ∑ i ∈ range n, J a i * J b i

theorem tmul_rot (n : Nat) (J : Nat → Nat → ℝ) (i : Nat) (g : Givens ℝ) (w : Nat → ℝ) (j : Nat) :
    tmul n (rotCols n J i g) w j = if j = i then g.c * tmul n J w i - g.s * tmul n J w (i + 1)
      else if j = i + 1 then g.s * tmul n J w i + g.c * tmul n J w (i + 1) else tmul n J w j := by
  have : tmul n (rotCols n J i g) w j = ∑ a ∈ range n, (if j = i then g.c * J a i - g.s * J a (i + 1)
      else if j = i + 1 then g.s * J a i + g.c * J a (i + 1) else J a j) * w a := by
    apply sum_congr rfl
    intro a ha
    rw [rotCols_eq _ _ _ _ _ _ (mem_range.1 ha)]
  rw [this]
  split_ifs
  · simp only [tmul, Finset.mul_sum, ← sum_sub_distrib]
    apply sum_congr rfl; intro a _; ring
  · simp only [tmul, Finset.mul_sum, ← sum_add_distrib]
    apply sum_congr rfl; intro a _; ring
  · rfl

theorem outer_rot (n : Nat) (J : Nat → Nat → ℝ) (i : Nat) (g : Givens ℝ) (hg : g.c * g.c + g.s * g.s = 1)
    (hi : i + 1 < n) (a b : Nat) (ha : a < n) (hb : b < n) : outer n (rotCols n J i g) a b = outer n J a b := by
  unfold outer
  have hi1 : i + 1 ∈ range n := mem_range.2 hi
  have hi0 : i ∈ (range n).erase (i + 1) := mem_erase.2 ⟨by omega, mem_range.2 (by omega)⟩
  rw [← add_sum_erase _ _ hi1, ← add_sum_erase _ _ hi0, ← add_sum_erase (range n) (fun k => J a k * J b k) hi1,
    ← add_sum_erase ((range n).erase (i + 1)) (fun k => J a k * J b k) hi0]
  have hrest : ∑ x ∈ ((range n).erase (i + 1)).erase i, rotCols n J i g a x * rotCols n J i g b x
      = ∑ x ∈ ((range n).erase (i + 1)).erase i, J a x * J b x := by
    apply sum_congr rfl
    intro x hx
    rw [mem_erase, mem_erase] at hx
    rw [rotCols_eq _ _ _ _ _ _ ha, rotCols_eq _ _ _ _ _ _ hb, if_neg hx.1, if_neg hx.2.1, if_neg hx.1, if_neg hx.2.1]
  rw [hrest]
  have e1 : ∀ r < n, rotCols n J i g r i = g.c * J r i - g.s * J r (i + 1) := fun r hr => by
    rw [rotCols_eq _ _ _ _ _ _ hr, if_pos rfl]
  have e2 : ∀ r < n, rotCols n J i g r (i + 1) = g.s * J r i + g.c * J r (i + 1) := fun r hr => by
    rw [rotCols_eq _ _ _ _ _ _ hr, if_neg (by omega), if_pos rfl]
  rw [e1 a ha, e1 b hb, e2 a ha, e2 b hb]
  have : (g.s * J a i + g.c * J a (i + 1)) * (g.s * J b i + g.c * J b (i + 1))
      + (g.c * J a i - g.s * J a (i + 1)) * (g.c * J b i - g.s * J b (i + 1))
      = (g.c * g.c + g.s * g.s) * (J a (i + 1) * J b (i + 1) + J a i * J b i) := by ring
  rw [← add_assoc, ← add_assoc, this, hg, one_mul]

/-- `‖Jᵀ w‖² = wᵀ (J Jᵀ) w`. -/
theorem tmul_sq (n : Nat) (J : Nat → Nat → ℝ) (w : Nat → ℝ) :
    ∑ j ∈ range n, tmul n J w j * tmul n J w j
      = ∑ a ∈ range n, ∑ b ∈ range n, w a * outer n J a b * w b := by
  rw [quad_factor (F := J) (M := outer n J) (fun _ _ _ _ => rfl)]
  rfl

/-! ### The invariant -/

/-- The factorisation without the invertibility of `R`. -/
structure FacT (n q : Nat) (G N J R : Nat → Nat → ℝ) : Prop where
  /-- `G J Jᵀ = 1` -/
  inv : ∀ a < n, ∀ b < n, ∑ c ∈ range n, G a c * outer n J c b = kd a b
  /-- `Jᵀ N = [R; 0]` -/
  tri : ∀ k < q, ∀ i < n, tmul n J (N k) i = if i ≤ k then R i k else 0

/-- The factorisation invariant for the `q` normals `N 0 .. N (q-1)`. -/
structure Fac (n q : Nat) (G N J R : Nat → Nat → ℝ) : Prop where
  /-- `G J Jᵀ = 1` -/
  inv : ∀ a < n, ∀ b < n, ∑ c ∈ range n, G a c * outer n J c b = kd a b
  /-- `Jᵀ N = [R; 0]` -/
  tri : ∀ k < q, ∀ i < n, tmul n J (N k) i = if i ≤ k then R i k else 0
  /-- `R` is invertible -/
  diag : ∀ k < q, R k k ≠ 0

variable {n q : Nat} {G N J R : Nat → Nat → ℝ}

theorem Fac.toT (h : Fac n q G N J R) : FacT n q G N J R := ⟨h.inv, h.tri⟩

theorem Fac.congr_outer (h : ∀ a < n, ∀ b < n, ∑ c ∈ range n, G a c * outer n J c b = kd a b) {J' : Nat → Nat → ℝ}
    (ho : ∀ a < n, ∀ b < n, outer n J' a b = outer n J a b) :
    ∀ a < n, ∀ b < n, ∑ c ∈ range n, G a c * outer n J' c b = kd a b := by
  intro a ha b hb
  rw [← h a ha b hb]
  apply sum_congr rfl
  intro c hc
  rw [ho c (mem_range.1 hc) b hb]

/-- `JᵀGJ = 1`. -/
theorem FacT.jgj (h : FacT n q G N J R) (i : Nat) (hi : i < n) (j : Nat) (hj : j < n) :
    ∑ a ∈ range n, ∑ b ∈ range n, J a i * G a b * J b j = kd i j := by
  have h1 : ∀ a < n, ∀ b < n, ∑ k ∈ range n, (∑ c ∈ range n, G a c * J c k) * J b k = kd a b := by
    intro a ha b hb
    rw [← h.inv a ha b hb]
    have : ∀ c ∈ range n, G a c * outer n J c b = ∑ k ∈ range n, G a c * J c k * J b k := by
      intro c _
      rw [outer, Finset.mul_sum]
      apply sum_congr rfl; intro k _; ring
    rw [sum_congr rfl this, sum_comm]
    apply sum_congr rfl; intro k _; rw [Finset.sum_mul]
  have h2 := inv_comm (A := fun a k => ∑ c ∈ range n, G a c * J c k) (M := fun k b => J b k) h1 i hi j hj
  rw [← h2]
  apply sum_congr rfl; intro a _
  rw [Finset.mul_sum]
  apply sum_congr rfl; intro b _; ring

theorem Fac.jgj (h : Fac n q G N J R) (i : Nat) (hi : i < n) (j : Nat) (hj : j < n) :
    ∑ a ∈ range n, ∑ b ∈ range n, J a i * G a b * J b j = kd i j := h.toT.jgj i hi j hj

/-- Any vector `w` equals `G J (Jᵀ w)`. -/
theorem Fac.expand (h : ∀ a < n, ∀ b < n, ∑ c ∈ range n, G a c * outer n J c b = kd a b) (w : Nat → ℝ) (a : Nat)
    (ha : a < n) :
    ∑ c ∈ range n, G a c * ∑ i ∈ range n, J c i * tmul n J w i = w a := by
  have e : ∀ c ∈ range n, G a c * ∑ i ∈ range n, J c i * tmul n J w i
      = ∑ b ∈ range n, G a c * outer n J c b * w b := by
    intro c _
    have : ∑ i ∈ range n, J c i * tmul n J w i = ∑ b ∈ range n, outer n J c b * w b := by
      calc _ = ∑ i ∈ range n, ∑ b ∈ range n, J c i * J b i * w b := by
            apply sum_congr rfl; intro i _
            rw [tmul, Finset.mul_sum]; apply sum_congr rfl; intro b _; ring
        _ = ∑ b ∈ range n, ∑ i ∈ range n, J c i * J b i * w b := sum_comm
        _ = _ := by
            apply sum_congr rfl; intro b _; rw [outer, Finset.sum_mul]
    rw [this, Finset.mul_sum]
    apply sum_congr rfl; intro b _; ring
  rw [sum_congr rfl e, sum_comm]
  rw [← sum_kd ha w]
  apply sum_congr rfl
  intro b hb
  rw [← h a ha b (mem_range.1 hb), Finset.sum_mul]

/-! ### Adding a constraint -/

theorem addRots_spec (dbg : Bool) (n : Nat) (d : Nat → ℝ) (J : Nat → Nat → ℝ) (w : Nat → ℝ)
    (hd : ∀ j < n, d j = tmul n J w j) (k : Nat) (hk : k + 1 ≤ n) :
    (∀ v, ∀ j, j + k + 1 < n → tmul n (addRots dbg n d J k).2 v j = tmul n J v j) ∧
    (∀ j, j + k + 1 ≤ n → (addRots dbg n d J k).1 j = tmul n (addRots dbg n d J k).2 w j) ∧
    (∀ j, n < j + k + 1 → j < n → tmul n (addRots dbg n d J k).2 w j = 0) ∧
    (∀ v p, p + k + 1 ≤ n → (∀ j, p ≤ j → j < n → tmul n J v j = 0) →
      ∀ j, p ≤ j → j < n → tmul n (addRots dbg n d J k).2 v j = 0) ∧
    (∀ a < n, ∀ b < n, outer n (addRots dbg n d J k).2 a b = outer n J a b) := by
  induction k with
  | zero =>
    refine ⟨fun _ _ _ => rfl, fun j hj => hd j (by omega), fun j h1 h2 => by omega, fun v p _ h => h,
      fun _ _ _ _ => rfl⟩
  | succ k ih =>
    obtain ⟨h1, h2, h3, h4, h5⟩ := ih (by omega)
    simp only [addRots]
    rcases hP : addRots dbg n d J k with ⟨d', J'⟩
    rw [hP] at h1 h2 h3 h4 h5
    simp only at h1 h2 h3 h4 h5
    set i := n - 2 - k with hi
    have hi1 : i + 1 + k + 1 = n := by omega
    obtain ⟨g1, g2, g3⟩ := makeGivens_spec (d' i) (d' (i + 1))
    simp only [addRot]
    generalize hg : makeGivens (d' i) (d' (i + 1)) = g at g1 g2 g3
    have hdi : d' i = tmul n J' w i := h2 i (by omega)
    have hdi1 : d' (i + 1) = tmul n J' w (i + 1) := h2 (i + 1) (by omega)
    rw [hdi, hdi1] at g2 g3
    refine ⟨?_, ?_, ?_, ?_, ?_⟩
    · intro v j hj
      rw [tmul_rot, if_neg (by omega), if_neg (by omega)]
      exact h1 v j (by omega)
    · intro j hj
      have hdd : (if dbg = true then upd (upd d' i g.r) (i + 1) 0 else upd d' i g.r) j = upd d' i g.r j := by
        split_ifs
        · rw [upd, if_neg (by omega)]
        · rfl
      rw [hdd, tmul_rot]
      by_cases he : j = i
      · rw [upd, if_pos he, if_pos he, g2]
      · rw [upd, if_neg he, if_neg he, if_neg (by omega)]
        exact h2 j (by omega)
    · intro j hj hjn
      rw [tmul_rot, if_neg (by omega)]
      by_cases he : j = i + 1
      · rw [if_pos he, g3]
      · rw [if_neg he]
        exact h3 j (by omega) hjn
    · intro v p hp hz j hpj hjn
      have hz' := h4 v p (by omega) hz
      rw [tmul_rot, hz' i (by omega) (by omega), hz' (i + 1) (by omega) (by omega)]
      split_ifs
      · ring
      · ring
      · exact hz' j hpj hjn
    · intro a ha b hb
      rw [outer_rot n J' i g g1 (by omega) a b ha hb]
      exact h5 a ha b hb

/-- Adding the normal `w` keeps the factorisation. -/
theorem FacT.add (h : FacT n q G N J R) (hq : q < n) (dbg : Bool) (d : Nat → ℝ) (w : Nat → ℝ)
    (hd : ∀ j < n, d j = tmul n J w j) {N' : Nat → Nat → ℝ}
    (hN : ∀ k < q, ∀ a < n, N' k a = N k a) (hNq : ∀ a < n, N' q a = w a) :
    FacT n (q + 1) G N' (addRots dbg n d J (n - (q + 1))).2
      (fun i j => if j = q ∧ i < q + 1 then (addRots dbg n d J (n - (q + 1))).1 i else R i j) := by
  obtain ⟨h1, h2, h3, h4, h5⟩ := addRots_spec dbg n d J w hd (n - (q + 1)) (by omega)
  generalize hP : addRots dbg n d J (n - (q + 1)) = P at *
  have htc : ∀ (J : Nat → Nat → ℝ) (v v' : Nat → ℝ) i, (∀ a < n, v a = v' a) → tmul n J v i = tmul n J v' i := by
    intro J v v' i hv
    apply sum_congr rfl; intro a ha; rw [hv a (mem_range.1 ha)]
  refine ⟨Fac.congr_outer h.inv h5, ?_⟩
  · intro k hk i hi
    by_cases hkq : k = q
    · subst hkq
      rw [htc _ _ _ _ hNq]
      by_cases hik : i ≤ k
      · rw [if_pos hik, if_pos ⟨rfl, by omega⟩, h2 i (by omega)]
      · rw [if_neg hik]
        exact h3 i (by omega) hi
    · have hk' : k < q := by omega
      rw [htc _ _ _ _ (hN k hk'), if_neg (show ¬ (k = q ∧ i < q + 1) from fun e => hkq e.1)]
      have ht := h.tri k hk'
      by_cases hiq : i < q
      · rw [h1 _ _ (by omega)]; exact ht i hi
      · rw [if_neg (by omega)]
        refine h4 (N k) q (by omega) ?_ i (by omega) hi
        intro j hj hjn
        rw [ht j hjn, if_neg (by omega)]

/-- Adding the normal `w` with `(Jᵀw)` not in the span of the first `q` columns keeps the invariant. -/
theorem Fac.add (h : Fac n q G N J R) (hq : q < n) (dbg : Bool) (d : Nat → ℝ) (w : Nat → ℝ)
    (hd : ∀ j < n, d j = tmul n J w j) (hz : ∃ j, q ≤ j ∧ j < n ∧ d j ≠ 0) {N' : Nat → Nat → ℝ}
    (hN : ∀ k < q, ∀ a < n, N' k a = N k a) (hNq : ∀ a < n, N' q a = w a) :
    Fac n (q + 1) G N' (addRots dbg n d J (n - (q + 1))).2
      (fun i j => if j = q ∧ i < q + 1 then (addRots dbg n d J (n - (q + 1))).1 i else R i j) := by
  have hT := h.toT.add hq dbg d w hd hN hNq
  obtain ⟨h1, h2, h3, h4, h5⟩ := addRots_spec dbg n d J w hd (n - (q + 1)) (by omega)
  generalize hP : addRots dbg n d J (n - (q + 1)) = P at *
  refine ⟨hT.inv, hT.tri, ?_⟩

  · intro k hk
    by_cases hkq : k = q
    · subst hkq
      simp only [true_and]
      rw [if_pos (by omega)]
      intro h0
      rw [h2 k (by omega)] at h0
      -- the tails of Jᵀw have the same norm before and after
      have hs := tmul_sq n P.2 w
      have hs' := tmul_sq n J w
      have : ∑ a ∈ range n, ∑ b ∈ range n, w a * outer n P.2 a b * w b
          = ∑ a ∈ range n, ∑ b ∈ range n, w a * outer n J a b * w b := by
        apply sum_congr rfl; intro a ha; apply sum_congr rfl; intro b hb
        rw [h5 a (mem_range.1 ha) b (mem_range.1 hb)]
      rw [this, ← hs'] at hs
      have e1 : ∑ j ∈ range n, tmul n P.2 w j * tmul n P.2 w j = ∑ j ∈ range k, tmul n J w j * tmul n J w j := by
        rw [sum_cut hq.le]
        · apply sum_congr rfl; intro j hj
          have := mem_range.1 hj
          rw [h1 w j (by omega)]
        · intro i hi hin
          by_cases he : i = k
          · rw [he, h0, mul_zero]
          · rw [h3 i (by omega) hin, mul_zero]
      rw [e1] at hs
      obtain ⟨j, hj1, hj2, hj3⟩ := hz
      have e2 : ∑ j ∈ range n, tmul n J w j * tmul n J w j
          = ∑ j ∈ range k, tmul n J w j * tmul n J w j
            + ∑ j ∈ range n \ range k, tmul n J w j * tmul n J w j := by
        rw [add_comm, sum_sdiff (range_subset_range.2 hq.le)]
      rw [e2] at hs
      have hz0 : ∑ j ∈ range n \ range k, tmul n J w j * tmul n J w j = 0 := by linarith
      have := (sum_eq_zero_iff_of_nonneg (fun j _ => mul_self_nonneg (tmul n J w j))).1 hz0 j (by simp; omega)
      exact hj3 (by rw [hd j hj2]; exact mul_self_eq_zero.1 this)
    · rw [if_neg (fun e => hkq e.1)]
      exact h.diag k (by omega)

/-! ### Removing a constraint -/

/-- Loop invariant of `removeConstraint_` after the iterations `l, ..., i-1`; `N` are the normals after the removal. -/
structure RemInv (D : Prop) (n q i : Nat) (N J R : Nat → Nat → ℝ) : Prop where
  done : ∀ k < i, k < q → ∀ r < n, tmul n J (N k) r = if r ≤ k then R r k else 0
  todo : ∀ k, i ≤ k → k < q → ∀ r < n, tmul n J (N k) r = if r ≤ k + 1 then R r (k + 1) else 0
  diagDone : D → ∀ k < i, k < q → R k k ≠ 0
  diagTodo : D → ∀ k, i ≤ k → k < q → R (k + 1) (k + 1) ≠ 0

theorem RemInv.step {D : Prop} {i : Nat} (h : RemInv D n q i N J R) (hi : i < q) (hq : q < n) (dbg : Bool) :
    RemInv D n q (i + 1) N (remRot dbg n q (R, J) i).2 (remRot dbg n q (R, J) i).1 ∧
    ∀ a < n, ∀ b < n, outer n (remRot dbg n q (R, J) i).2 a b = outer n J a b := by
  unfold remRot
  simp only []
  have hR0a : (if i + 1 = i ∧ i < i then R i (i + 1) else R i (i + 1)) = R i (i + 1) := by split_ifs <;> rfl
  have hR0b : (if i + 1 = i ∧ i + 1 < i then R (i + 1) (i + 1) else R (i + 1) (i + 1)) = R (i + 1) (i + 1) := by
    split_ifs <;> rfl
  rw [hR0a, hR0b]
  obtain ⟨g1, g2, g3⟩ := makeGivens_spec (R i (i + 1)) (R (i + 1) (i + 1))
  generalize hg : makeGivens (R i (i + 1)) (R (i + 1) (i + 1)) = g at g1 g2 g3
  have hout := fun a ha b hb => outer_rot n J i g g1 (by omega) a b ha hb
  refine ⟨?_, hout⟩
  -- the value of R after the step
  have hRv : ∀ r c, c ≠ i → (c, r) ≠ (i + 1, i + 1) →
      rotRows (i + 2) (q + 1)
        (if dbg = true then upd2 (upd2 (fun r c => if c = i ∧ r < i then R r (i + 1) else R r c) i i g.r) (i + 1) (i + 1) 0
          else upd2 (fun r c => if c = i ∧ r < i then R r (i + 1) else R r c) i i g.r) i g r c
      = if i + 2 ≤ c ∧ c < q + 1 then
          (if r = i then g.c * R i c - g.s * R (i + 1) c
          else if r = i + 1 then g.s * R i c + g.c * R (i + 1) c else R r c) else R r c := by
    intro r c hc hne
    have hM : ∀ r c, c ≠ i → (c, r) ≠ (i + 1, i + 1) →
        (if dbg = true then upd2 (upd2 (fun r c => if c = i ∧ r < i then R r (i + 1) else R r c) i i g.r) (i + 1) (i + 1) 0
          else upd2 (fun r c => if c = i ∧ r < i then R r (i + 1) else R r c) i i g.r) r c = R r c := by
      intro r c hc hne
      have hb : upd2 (fun r c => if c = i ∧ r < i then R r (i + 1) else R r c) i i g.r r c = R r c := by
        rw [upd2, if_neg (fun e => hc e.2), if_neg (fun e => hc e.1)]
      split_ifs
      · rw [upd2, if_neg (fun e => hne (by rw [e.1, e.2])), hb]
      · exact hb
    rw [rotRows_eq]
    by_cases hcr : i + 2 ≤ c ∧ c < q + 1
    · rw [if_pos hcr, if_pos hcr, hM i c hc (by intro e; simp at e), hM (i + 1) c hc (by
        intro e; simp only [Prod.mk.injEq] at e; omega), hM r c hc hne]
    · rw [if_neg hcr, if_neg hcr, hM r c hc hne]
  have hRi : ∀ r, rotRows (i + 2) (q + 1)
        (if dbg = true then upd2 (upd2 (fun r c => if c = i ∧ r < i then R r (i + 1) else R r c) i i g.r) (i + 1) (i + 1) 0
          else upd2 (fun r c => if c = i ∧ r < i then R r (i + 1) else R r c) i i g.r) i g r i
      = if r = i then g.r else if r < i then R r (i + 1) else R r i := by
    intro r
    rw [rotRows_eq, if_neg (by omega)]
    have hb : upd2 (fun r c => if c = i ∧ r < i then R r (i + 1) else R r c) i i g.r r i
        = if r = i then g.r else if r < i then R r (i + 1) else R r i := by
      simp [upd2]
    split_ifs with hd h1 h2 h3 h4
    · rw [upd2, if_neg (by omega), hb, if_pos h1]
    · rw [upd2, if_neg (by omega), hb, if_neg h1, if_pos h2]
    · rw [upd2, if_neg (by omega), hb, if_neg h1, if_neg h2]
    · rw [hb, if_pos h3]
    · rw [hb, if_neg h3, if_pos h4]
    · rw [hb, if_neg h3, if_neg h4]
  generalize hRR : rotRows (i + 2) (q + 1)
        (if dbg = true then upd2 (upd2 (fun r c => if c = i ∧ r < i then R r (i + 1) else R r c) i i g.r) (i + 1) (i + 1) 0
          else upd2 (fun r c => if c = i ∧ r < i then R r (i + 1) else R r c) i i g.r) i g = R' at hRv hRi ⊢
  refine ⟨?_, ?_, ?_, ?_⟩
  · intro k hk hkq r hr
    by_cases he : k = i
    · subst he
      have ht := h.todo k le_rfl hkq
      have t0 : tmul n J (N k) k = R k (k + 1) := by rw [ht k (by omega), if_pos (by omega)]
      have t1 : tmul n J (N k) (k + 1) = R (k + 1) (k + 1) := by rw [ht (k + 1) (by omega), if_pos le_rfl]
      rw [tmul_rot, t0, t1, ht r hr, g2, g3, hRi]
      by_cases e1 : r = k
      · rw [if_pos e1, if_pos e1.le, if_pos e1]
      · rw [if_neg e1]
        by_cases e2 : r = k + 1
        · rw [if_pos e2, if_neg (by omega)]
        · rw [if_neg e2, if_neg e1]
          by_cases e3 : r < k
          · rw [if_pos (by omega), if_pos (by omega), if_pos e3]
          · rw [if_neg (by omega), if_neg (by omega)]
    · have ht := h.done k (by omega) hkq
      have t0 : tmul n J (N k) i = 0 := by rw [ht i (by omega), if_neg (by omega)]
      have t1 : tmul n J (N k) (i + 1) = 0 := by rw [ht (i + 1) (by omega), if_neg (by omega)]
      rw [tmul_rot, t0, t1, ht r hr]
      rw [hRv r k he (by intro e; simp only [Prod.mk.injEq] at e; omega),
        if_neg (show ¬ (i + 2 ≤ k ∧ k < q + 1) by omega)]
      by_cases e1 : r = i
      · rw [if_pos e1, if_neg (by omega)]; ring
      · rw [if_neg e1]
        by_cases e2 : r = i + 1
        · rw [if_pos e2, if_neg (by omega)]; ring
        · rw [if_neg e2]
  · intro k hk hkq r hr
    have ht := h.todo k (by omega) hkq
    have t0 : tmul n J (N k) i = R i (k + 1) := by rw [ht i (by omega), if_pos (by omega)]
    have t1 : tmul n J (N k) (i + 1) = R (i + 1) (k + 1) := by rw [ht (i + 1) (by omega), if_pos (by omega)]
    rw [tmul_rot, t0, t1, ht r hr]
    rw [hRv r (k + 1) (by omega) (by intro e; simp only [Prod.mk.injEq] at e; omega),
      if_pos (show i + 2 ≤ k + 1 ∧ k + 1 < q + 1 by omega)]
    by_cases e1 : r = i
    · rw [if_pos e1, if_pos (by omega), if_pos e1]
    · rw [if_neg e1]
      by_cases e2 : r = i + 1
      · rw [if_pos e2, if_pos (by omega), if_neg e1, if_pos e2]
      · rw [if_neg e2, if_neg e1, if_neg e2]
  · intro hD k hk hkq
    by_cases he : k = i
    · subst he
      rw [hRi, if_pos rfl]
      intro h0
      have hd := h.diagTodo hD k le_rfl hkq
      rw [h0] at g2
      have e1 : g.c * (g.c * R k (k + 1) - g.s * R (k + 1) (k + 1)) + g.s * (g.s * R k (k + 1) + g.c * R (k + 1) (k + 1)) = 0 := by
        rw [g2, g3]; ring
      have e2 : g.c * (g.s * R k (k + 1) + g.c * R (k + 1) (k + 1)) - g.s * (g.c * R k (k + 1) - g.s * R (k + 1) (k + 1)) = 0 := by
        rw [g2, g3]; ring
      have e3 : (g.c * g.c + g.s * g.s) * R (k + 1) (k + 1) = 0 := by linarith
      rw [g1, one_mul] at e3
      exact hd e3
    · rw [hRv k k he (by intro e; simp only [Prod.mk.injEq] at e; omega), if_neg (by omega)]
      exact h.diagDone hD k (by omega) hkq
  · intro hD k hk hkq
    rw [hRv (k + 1) (k + 1) (by omega) (by intro e; simp only [Prod.mk.injEq] at e; omega), if_pos (by omega), if_neg (by omega), if_neg (by omega)]
    exact h.diagTodo hD k (by omega) hkq

theorem remRots_spec {D : Prop} {l : Nat} (dbg : Bool) (h : RemInv D n q l N J R) (hq : q < n) (k : Nat) (hk : l + k ≤ q) :
    RemInv D n q (l + k) N (remRots dbg n q l R J k).2 (remRots dbg n q l R J k).1 ∧
    ∀ a < n, ∀ b < n, outer n (remRots dbg n q l R J k).2 a b = outer n J a b := by
  induction k with
  | zero => exact ⟨h, fun _ _ _ _ => rfl⟩
  | succ k ih =>
    obtain ⟨h1, h2⟩ := ih (by omega)
    simp only [remRots]
    rcases hP : remRots dbg n q l R J k with ⟨R', J'⟩
    rw [hP] at h1 h2
    obtain ⟨h3, h4⟩ := h1.step (by omega) hq dbg
    exact ⟨h3, fun a ha b hb => by rw [h4 a ha b hb]; exact h2 a ha b hb⟩

/-- Removing the `l`-th normal keeps the factorisation. -/
theorem FacT.remove (h : FacT n (q + 1) G N J R) (hq : q < n) (l : Nat) (hl : l ≤ q) (dbg : Bool) {N' : Nat → Nat → ℝ}
    (hN : ∀ k < q, ∀ a < n, N' k a = N (if k < l then k else k + 1) a) :
    FacT n q G N' (remRots dbg n q l R J (q - l)).2 (remRots dbg n q l R J (q - l)).1 := by
  have htc : ∀ (J : Nat → Nat → ℝ) (v v' : Nat → ℝ) i, (∀ a < n, v a = v' a) → tmul n J v i = tmul n J v' i := by
    intro J v v' i hv
    apply sum_congr rfl; intro a ha; rw [hv a (mem_range.1 ha)]
  have h0 : RemInv False n q l N' J R := by
    refine ⟨?_, ?_, ?_, ?_⟩
    · intro k hk hkq r hr
      rw [htc _ _ _ _ (hN k hkq), if_pos hk]
      exact h.tri k (by omega) r hr
    · intro k hk hkq r hr
      rw [htc _ _ _ _ (hN k hkq), if_neg (by omega)]
      exact h.tri (k + 1) (by omega) r hr
    · exact False.elim
    · exact False.elim
  obtain ⟨h1, h2⟩ := remRots_spec dbg h0 hq (q - l) (by omega)
  rw [show l + (q - l) = q by omega] at h1
  exact ⟨Fac.congr_outer h.inv h2, fun k hk => h1.done k hk hk⟩

/-- Removing the `l`-th normal keeps the invariant. -/
theorem Fac.remove (h : Fac n (q + 1) G N J R) (hq : q < n) (l : Nat) (hl : l ≤ q) (dbg : Bool) {N' : Nat → Nat → ℝ}
    (hN : ∀ k < q, ∀ a < n, N' k a = N (if k < l then k else k + 1) a) :
    Fac n q G N' (remRots dbg n q l R J (q - l)).2 (remRots dbg n q l R J (q - l)).1 := by
  have htc : ∀ (J : Nat → Nat → ℝ) (v v' : Nat → ℝ) i, (∀ a < n, v a = v' a) → tmul n J v i = tmul n J v' i := by
    intro J v v' i hv
    apply sum_congr rfl; intro a ha; rw [hv a (mem_range.1 ha)]
  have h0 : RemInv True n q l N' J R := by
    refine ⟨?_, ?_, ?_, ?_⟩
    · intro k hk hkq r hr
      rw [htc _ _ _ _ (hN k hkq), if_pos hk]
      exact h.tri k (by omega) r hr
    · intro k hk hkq r hr
      rw [htc _ _ _ _ (hN k hkq), if_neg (by omega)]
      exact h.tri (k + 1) (by omega) r hr
    · intro _ k _ hkq; exact h.diag k (by omega)
    · intro _ k _ hkq; exact h.diag (k + 1) (by omega)
  obtain ⟨h1, h2⟩ := remRots_spec dbg h0 hq (q - l) (by omega)
  rw [show l + (q - l) = q by omega] at h1
  exact ⟨Fac.congr_outer h.inv h2, fun k hk => h1.done k hk hk, fun k hk => h1.diagDone trivial k hk hk⟩

end JrlQp
