import Verif.InvErrObj
import Verif.PropsIeeeObj

/-!
# C86: the warm-started solver on a problem without active constraint, in IEEE arithmetic
-/

namespace JrlQp

open NumOps Finset

section generic

variable {K B : Type} [Zero K] [One K] [Add K] [Sub K] [Neg K] [Mul K] [Div K] [NumOps K B] [SumOps K]

/-- A loop which ends on SUCCESS without an iteration leaves the state as it was. -/
theorem loop_first {o : Opts K} {pb : Pb K B} {fuel : Nat} {s0 s' : State K} (h : loop o pb fuel s0 ⟨0, .inactive⟩ false = .ok (.success, s'))
    (hit : s'.it = s0.it) : s' = s0 := by
  cases fuel with
  | zero => simp only [loop] at h; cases h
  | succ fuel =>
    simp only [loop] at h
    cases hr : iterate o pb s0 ⟨0, .inactive⟩ false with
    | error e => rw [hr] at h; cases h
    | ok r =>
      rw [hr] at h
      cases r with
      | cont s1 sc1 k1 =>
        simp only [] at h
        have := iterate_it hr
        simp only at this
        have h3 := loop_it_ge _ h
        simp only at h3
        omega
      | done t1 s1 =>
        simp only [Except.ok.injEq, Prod.mk.injEq] at h
        obtain ⟨rfl, rfl⟩ := h
        unfold iterate at hr
        rw [if_neg (by simp)] at hr
        by_cases c1 : selectOk pb s0 = true
        swap
        · rw [if_neg c1] at hr; cases hr
        rw [if_pos c1] at hr
        simp only [] at hr
        by_cases c2 : (select pb s0.nbVar s0.A s0.x).status = .inactive
        · rw [if_pos c2] at hr
          cases hr
          rfl
        · rw [if_neg c2] at hr
          exfalso
          revert hr
          unfold iterBody
          simp only []
          repeat' split
          all_goals intro hr; cases hr

/-- The point computed first when no constraint is active: `-J (Jᵀ a)`, and the value, minus half of the squared norm of `Jᵀ a`. -/
def FirstPoint (n : Nat) (L : Nat → Nat → K) (a x : Nat → K) (f : K) : Prop :=
  ∃ (J z : Nat → Nat → K) (w : Nat → K), (∀ i < n, ∀ j < n, J i j = invLt n L i j) ∧
    (∀ i < n, x i = esum (.init 1 i) (z i) 0 - esum (.init 2 i) (fun k => J i k * esum (.init 0 k) (fun c => J c k * a c) n) n) ∧
    f = esum (.init 3 0) w 0 - half * esum (.init 4 0)
      (fun k => esum (.init 0 k) (fun c => J c k * a c) n * esum (.init 0 k) (fun c => J c k * a c) n) n

theorem xstart_first {o : Opts K} {pb : Pb K B} {xs : XState K} {A : ActiveSet} (hn : xs.s.nbVar = pb.n) (hA : A.q = 0) :
    FirstPoint pb.n (chol pb.n pb.G pb.n).1 pb.a (xstart o pb xs A).s.x (xstart o pb xs A).s.f := by
  have hd : (initData o pb (xpre o pb xs A)).s.nbVar = pb.n := hn
  have hq : (initData o pb (xpre o pb xs A)).s.A.q = 0 := hA
  refine ⟨(initData o pb (xpre o pb xs A)).s.J, fun i k => (initData o pb (xpre o pb xs A)).s.J i k *
    fwdSub (fun i j => (initData o pb (xpre o pb xs A)).s.R j i) (initData o pb (xpre o pb xs A)).bact 0 k,
    fun k => fwdSub (fun i j => (initData o pb (xpre o pb xs A)).s.R j i) (initData o pb (xpre o pb xs A)).bact 0 k *
      (half * fwdSub (fun i j => (initData o pb (xpre o pb xs A)).s.R j i) (initData o pb (xpre o pb xs A)).bact 0 k +
        esum (.init 0 k) (fun c => (initData o pb (xpre o pb xs A)).s.J c k * pb.a c) pb.n), fun i hi j hj => ?_, fun i hi => ?_, ?_⟩
  · have hn' : (xpre o pb xs A).s.nbVar = pb.n := hn
    have hq' : (xpre o pb xs A).s.A.q = 0 := hA
    unfold initData
    simp only []
    rw [hn', hq', if_pos ⟨hi, hj⟩]
    rfl
  · unfold xstart initPoints
    simp only []
    rw [hd, hq, wr, if_pos hi]
    simp only [Nat.zero_add, Nat.sub_zero]
  · unfold xstart initPoints
    simp only []
    rw [hd, hq]
    simp only [Nat.zero_add, Nat.sub_zero]

/-- A call of the warm-started solver without active constraint at the start, which returns SUCCESS without an iteration. -/
theorem xsolve_first {o : Opts K} {pb : Pb K B} {as : List Status} {xs xs' : XState K} (hs : XInv xs) (ha : ArgOk o pb as)
    (hw : numWant o pb (usedAs o pb as xs) (· != .inactive) = 0) (h : xsolve o pb as xs = .ok (.success, xs')) (hit : xs'.s.it = 0) :
    FirstPoint pb.n (chol pb.n pb.G pb.n).1 pb.a xs'.s.x xs'.s.f := by
  have hd : XDim pb (xsolveStart o pb as xs) := xsolveStart_dim hs
  rcases xsolve_cases hs ha with ⟨h1, h2⟩ | ⟨_, _, xs1, h1, h2⟩ | ⟨_, A, xs1, h1, _, h3, _, h5⟩
  · rcases h2 with ⟨_, h2⟩ | ⟨_, _, _, h2⟩ <;> rw [h] at h2 <;> cases h2
  · rw [h] at h2; cases h2
  · have hq : A.q = 0 := by rw [h1.q, hw]; exact Nat.zero_min _
    have h6 : dropPos o (xstart o pb (xsolveStart o pb as xs) A) = none := by
      unfold dropPos
      have : (xstart o pb (xsolveStart o pb as xs) A).s.A.q = 0 := hq
      rw [this]; rfl
    rw [hq, dropLoop, h6] at h3
    simp only [Option.isNone_none, if_true, Except.ok.injEq] at h3
    subst h3
    rw [h] at h5
    have hterm : ∀ {t s t' s'}, terminate o t s = .ok (t', s') → s' = s ∧ t' = t := by
      intro t s t' s' h
      cases t <;> simp only [terminate] at h <;> (try split_ifs at h) <;> cases h <;> exact ⟨rfl, rfl⟩
    cases hl : loop o pb (o.maxIter - (xstart o pb (xsolveStart o pb as xs) A).s.it) (xstart o pb (xsolveStart o pb as xs) A).s ⟨0, .inactive⟩ false with
    | error e => rw [hl] at h5; cases h5
    | ok r =>
      obtain ⟨t, s'⟩ := r
      rw [hl] at h5
      simp only [] at h5
      cases ht : terminate o t s' with
      | error e => rw [ht] at h5; cases h5
      | ok r =>
        obtain ⟨t', s''⟩ := r
        obtain ⟨rfl, rfl⟩ := hterm ht
        rw [ht] at h5
        simp only [Except.ok.injEq, Prod.mk.injEq] at h5
        obtain ⟨rfl, rfl⟩ := h5
        have h7 := loop_it_ge _ hl
        have h8 : s''.it = 0 := hit
        have := loop_first hl (by omega)
        show FirstPoint pb.n _ pb.a s''.x s''.f
        rw [this]
        exact xstart_first hd.dim.nbVar hq

/-- Without constraint and with a Hessian accepted by the factorisation, the warm-started `solve` returns SUCCESS without an iteration. -/
theorem xsolve_unconstrained {o : Opts K} {pb : Pb K B} {as : List Status} {xs : XState K} (hs : XInv xs) (ha : ArgOk o pb as) (hm : pb.m = 0)
    (hb : pb.nb = 0) (hc : cholOk pb) (hit : 0 < o.maxIter) : ∃ xs', xsolve o pb as xs = .ok (.success, xs') ∧ xs'.s.it = 0 := by
  have hz : ∀ P, numWant o pb (usedAs o pb as xs) P = 0 := fun P => by unfold numWant; rw [hm, hb]; rfl
  rcases xsolve_cases hs ha with ⟨h1, _⟩ | ⟨_, h1, _⟩ | ⟨_, A, xs1, h1, h2, h3, _, h5⟩
  · rw [hz] at h1; omega
  · exact absurd hc h1
  · have hq : A.q = 0 := by rw [h1.q, hz]; exact Nat.zero_min _
    have h6 : dropPos o (xstart o pb (xsolveStart o pb as xs) A) = none := by
      unfold dropPos
      have : (xstart o pb (xsolveStart o pb as xs) A).s.A.q = 0 := hq
      rw [this]; rfl
    rw [hq, dropLoop, h6] at h3
    simp only [Option.isNone_none, if_true, Except.ok.injEq] at h3
    subst h3
    have h0 : (xstart o pb (xsolveStart o pb as xs) A).s.it = 0 := rfl
    generalize xstart o pb (xsolveStart o pb as xs) A = xs0 at *
    have hk : o.maxIter - xs0.s.it = (o.maxIter - 1) + 1 := by rw [h0]; omega
    have hsel : (select pb xs0.s.nbVar xs0.s.A xs0.s.x).status = .inactive := by
      have b1 : xs0.s.A.nbCstr = 0 := h2.good.dim.nbCstr.trans hm
      have b2 : xs0.s.A.nbBnd = 0 := h2.good.dim.nbBnd.trans hb
      unfold select
      rw [b1, b2]
      simp
    have : iterate o pb xs0.s ⟨0, .inactive⟩ false = .ok (.done .success xs0.s) := by
      unfold iterate
      simp only [Bool.false_eq_true, if_false]
      rw [if_pos h2.good.selectOk, if_pos hsel]
    rw [hk, loop, this] at h5
    exact ⟨xs0, h5, h0⟩

end generic

namespace Ieee

variable {F : Fmt} {n : ℕ} {G L : ℕ → ℕ → Fl F} {m lam : ℝ}

theorem tiny_ge (hm : 0 < m) : eta F * ∑ l ∈ range n, (n + Real.sqrt (G l l).val) ≤ tiny n G m := by
  unfold tiny
  refine mul_le_mul_of_nonneg_left ?_ eta_pos.le
  have : 0 ≤ (n : ℝ) / Real.sqrt m := by positivity
  linarith

/-- Scalar product, with the constants of the size `n`. -/
theorem dot_rel (h : SafeHessian F n G m lam) (hn : 0 < n) (st : Site) (c x : ℕ → Fl F) (hf : (esum st (fun i => c i * x i) n).Finite) :
    |(esum st (fun i => c i * x i) n).val - ∑ i ∈ range n, (c i).val * (x i).val| ≤
      relErr F n * (∑ i ∈ range n, |(c i).val| * |(x i).val|) + (1 + relErr F n) * eta F * n := by
  refine (dot_err st c x n hf).2.trans ?_
  have h1 := one_add_u_pow_le h hn (k := n + 1) (by omega)
  have h2 := one_add_u_pow_le h hn (k := n) (by omega)
  have h0 : 0 ≤ ∑ i ∈ range n, |(c i).val| * |(x i).val| := sum_nonneg fun i _ => by positivity
  unfold dotErr
  have h3 := mul_le_mul_of_nonneg_right h1 h0
  have h4 := mul_le_mul_of_nonneg_left h2 (show 0 ≤ n * eta F from mul_nonneg (Nat.cast_nonneg n) eta_pos.le)
  linarith

/-- Opposite of a scalar product, computed as a difference with an empty sum. -/
theorem neg_dot_rel (h : SafeHessian F n G m lam) (hn : 0 < n) (st st' : Site) (z c x : ℕ → Fl F)
    (hf : (esum st' z 0 - esum st (fun i => c i * x i) n).Finite) :
    (∀ i < n, (c i).Finite ∧ (x i).Finite) ∧
    |(esum st' z 0 - esum st (fun i => c i * x i) n).val + ∑ i ∈ range n, (c i).val * (x i).val| ≤
      relErr F n * (∑ i ∈ range n, |(c i).val| * |(x i).val|) + (1 + relErr F n) * eta F * n := by
  obtain ⟨_, h1, h2⟩ := sub_err hf
  obtain ⟨h3, h4⟩ := dot_err st c x n h1
  refine ⟨h3, ?_⟩
  have hz : (esum st' z 0 : Fl F).val = 0 := by
    have hp := F.order_perm st' 0
    have : (esum st' z 0 : Fl F) = 0 := tree_nil (List.perm_nil.1 (by simpa using hp)) z
    rw [this]; exact val_zero _
  rw [hz, zero_sub] at h2
  have hu := u_pos (F := F)
  have h5 : |∑ i ∈ range n, (c i).val * (x i).val| ≤ ∑ i ∈ range n, |(c i).val| * |(x i).val| :=
    (abs_sum_le_sum_abs _ _).trans (le_of_eq (sum_congr rfl fun i _ => abs_mul _ _))
  have k1 := one_add_u_pow_le h hn (k := n + 2) le_rfl
  have k2 := one_add_u_pow_le h hn (k := n + 1) (by omega)
  have hη := eta_pos (F := F)
  have hS : 0 ≤ ∑ i ∈ range n, |(c i).val| * |(x i).val| := (abs_nonneg _).trans h5
  generalize (esum st' z 0 - esum st (fun i => c i * x i) n : Fl F).val = W at *
  generalize (esum st (fun i => c i * x i) n : Fl F).val = V at *
  generalize ∑ i ∈ range n, (c i).val * (x i).val = P at *
  generalize ∑ i ∈ range n, |(c i).val| * |(x i).val| = S at *
  have h6 : |V| ≤ S + dotErr F n S := by
    have := abs_add_le (V - P) P
    rw [sub_add_cancel] at this
    linarith
  rw [abs_neg] at h2
  have h7 : |W + P| ≤ |W - -V| + |V - P| := by
    have := abs_add_le (W - -V) (-(V - P))
    rw [abs_neg] at this
    refine le_trans (le_of_eq ?_) this
    congr 1; ring
  have h8 := mul_le_mul_of_nonneg_left h6 hu.le
  have e : (1 + u F) * dotErr F n S + u F * S = ((1 + u F) ^ (n + 2) - 1) * S + n * eta F * (1 + u F) ^ (n + 1) := by
    unfold dotErr; ring
  have h9 := mul_le_mul_of_nonneg_right k1 hS
  have h10 := mul_le_mul_of_nonneg_left k2 (show 0 ≤ n * eta F from mul_nonneg (Nat.cast_nonneg n) hη.le)
  linarith

theorem en_eq_dnorm (hG : ∀ i < n, 0 ≤ (G i i).val) (v : ℕ → ℝ) : en n (fun i => Real.sqrt (G i i).val * v i) = dnorm n G v := by
  unfold en dnorm
  congr 1
  exact sum_congr rfl fun i hi => by rw [mul_pow, Real.sq_sqrt (hG i (mem_range.1 hi))]

theorem warm_num {lam ε T κ N r u' Y X t SR : ℝ} (hN : 1 ≤ N) (hr : r ≤ N) (hr0 : 0 ≤ r) (hY : 0 ≤ Y) (ht : 0 ≤ t) (hε : ε ≤ 2 * u')
    (hT : T ≤ 63 / 50 * t) (hκ : κ * N ≤ 13 / 12 * t) (hκ0 : 0 ≤ κ) (hSR : κ * SR ≤ 63 / 50 * (N * t))
    (h : lam * X ≤ 21 * ε * N * r * Y + 4 * N * T * Y + 2 * (κ * r) + 5 / 4 * (κ * SR)) :
    lam * X ≤ 42 * N * r * u' * Y + 6 * N * t * (Y + 1) := by
  have h1 : ε * (N * r * Y) ≤ 2 * u' * (N * r * Y) := mul_le_mul_of_nonneg_right hε (by positivity)
  have h2 : T * (N * Y) ≤ 63 / 50 * t * (N * Y) := mul_le_mul_of_nonneg_right hT (by positivity)
  have h3 : κ * r ≤ κ * N := mul_le_mul_of_nonneg_left hr hκ0
  have h4 : t ≤ N * t := le_mul_of_one_le_left ht hN
  have h5 : 0 ≤ N * t * Y := by positivity
  linarith

/-- The point `-J (Jᵀ a)` computed with the factor of a Hessian positive definite beyond the rounding errors. -/
theorem SafeHessian.first_run (h : SafeHessian F n G m lam) (hn : 0 < n) (ht : 30 * n * tiny n G m ≤ 1) (hL : ∀ i < n, (L i i).Finite)
    (hd : ∀ i < n, 0 < (L i i).val) (hc : Close n G (gram n L)) {a x : ℕ → Fl F} {J z : ℕ → ℕ → Fl F} (hJ : ∀ i < n, ∀ j < n, J i j = invLt n L i j)
    (hp : ∀ i < n, x i = esum (.init 1 i) (z i) 0 - esum (.init 2 i) (fun k => J i k * esum (.init 0 k) (fun c => J c k * a c) n) n)
    (hx : ∀ i < n, (x i).Finite) {y : ℕ → ℝ} (hy : ∀ i < n, (a i).val + ∑ j ∈ range n, hessVal G i j * y j = 0) :
    InvRun n (lowVal L) (fun i j => (J i j).val) (hessVal G) (fun i => Real.sqrt (G i i).val) (fun i => Real.sqrt (gram n L i i))
      (fun i => (a i).val) (fun k => (esum (.init 0 k) (fun c => J c k * a c) n : Fl F).val) (fun i => (x i).val) y (tau n L) (relErr F n)
      ((1 + relErr F n) * eta F * n) (∑ i ∈ range n, tau n L i) lam ∧ (∑ i ∈ range n, tau n L i ≤ 63 / 50 * tiny n G m) ∧
    (1 + relErr F n) * eta F * n * n ≤ 13 / 12 * tiny n G m ∧
    (1 + relErr F n) * eta F * n * ∑ i ∈ range n, Real.sqrt (gram n L i i) ≤ 63 / 50 * (n * tiny n G m) ∧ 0 ≤ tiny n G m := by
  have hG : ∀ i < n, 0 ≤ (G i i).val := fun i hi => h.m0.le.trans (h.low i hi)
  have hε1 := (h.wellPosed hn).err_le hn
  have hε0 := relErr_nonneg (F := F) (n := n)
  have hη := eta_pos (F := F)
  have hn1 : (1 : ℝ) ≤ n := by exact_mod_cast hn
  have htg := tiny_ge (F := F) (n := n) (G := G) h.m0
  have hRd : ∀ i < n, Real.sqrt (gram n L i i) ≤ 29 / 25 * Real.sqrt (G i i).val := fun i hi => by
    refine two_thirds (Real.sqrt_nonneg _) ?_
    rw [Real.sq_sqrt (hG i hi)]
    exact (h.diag (H := gram n L) (fun i _ => gram_diag_nonneg L) hc hi).1
  have hrow := fun i (hi : i < n) => neg_dot_rel h hn (.init 2 i) (.init 1 i) (z i) (J i) (fun k => esum (.init 0 k) (fun c => J c k * a c) n)
    (by rw [← hp i hi]; exact hx i hi)
  have hαf : ∀ k < n, (esum (.init 0 k) (fun c => J c k * a c) n : Fl F).Finite := fun k hk => ((hrow 0 hn).1 k hk).2
  have hJf : ∀ i < n, ∀ j < n, (J i j).Finite := fun i hi j hj => ((hrow i hi).1 j hj).1
  have hT : ∑ i ∈ range n, tau n L i ≤ 63 / 50 * tiny n G m := by
    refine le_trans ?_ (mul_le_mul_of_nonneg_left htg (by norm_num))
    rw [← mul_assoc, mul_sum]
    refine sum_le_sum fun i hi => ?_
    have hi := mem_range.1 hi
    unfold tau
    have h1 := (diag_le_sqrt hi L).trans (hRd i hi)
    have h2 : (n : ℝ) + |(L i i).val| ≤ 29 / 25 * (n + Real.sqrt (G i i).val) := by linarith
    have h3 : (1 + relErr F n) * eta F ≤ 13 / 12 * eta F := mul_le_mul_of_nonneg_right (by linarith) hη.le
    have h0 : 0 ≤ (n : ℝ) + |(L i i).val| := by positivity
    have h4 := mul_le_mul h3 h2 h0 (by positivity)
    have h5 : 0 ≤ eta F * (n + Real.sqrt (G i i).val) := by positivity
    linarith
  have ht0 : 0 ≤ tiny n G m := le_trans (mul_nonneg hη.le (sum_nonneg fun i _ => by positivity)) htg
  have run : InvRun n (lowVal L) (fun i j => (J i j).val) (hessVal G) (fun i => Real.sqrt (G i i).val) (fun i => Real.sqrt (gram n L i i))
      (fun i => (a i).val) (fun k => (esum (.init 0 k) (fun c => J c k * a c) n : Fl F).val) (fun i => (x i).val) y (tau n L) (relErr F n)
      ((1 + relErr F n) * eta F * n) (∑ i ∈ range n, tau n L i) lam := by
    have tri := h.triLow hn hc hd
    refine ⟨hn, h.lam_pos, (h.wellPosed hn).lam_le hn, hε0, by positivity, (h.wellPosed hn).lam.le, tri.margin, fun i _ => Real.sqrt_nonneg _,
      fun i _ => Real.sqrt_nonneg _, fun i hi => ?_, hRd, fun i _ => ?_, le_rfl, ?_, fun i hi j hj => ?_, fun j hj => ?_, fun i hi => ?_,
      fun i hi j hj => h.off_le hi hj, fun i hi j hj => h.entry hc hi hj, hy⟩
    · rw [Real.sq_sqrt (gram_diag_nonneg L)]
      exact sum_congr rfl fun l _ => pow_two _
    · unfold tau; positivity
    · have := mul_le_mul_of_nonneg_left hT (show (0 : ℝ) ≤ n by linarith)
      linarith
    · have e := backSub_err (b := fun k => if k = j then (1 : Fl F) else 0) hi (hL i hi) (by
        have := hJf i hi j hj
        rw [hJ i hi j hj] at this
        exact this)
      have e2 := e.2
      have e3 : ((if i = j then (1 : Fl F) else 0)).val = if i = j then 1 else 0 := by
        split_ifs
        · exact one_val
        · exact val_zero _
      rw [e3] at e2
      have e4 : ∀ k ∈ range n, backSub (fun i j => L j i) n (fun k => if k = j then (1 : Fl F) else 0) k = J k j := fun k hk =>
        (hJ k (mem_range.1 hk) j hj).symm
      rw [sum_congr rfl fun k hk => by rw [e4 k hk], sum_congr (f := fun k => |lowVal L k i| * |(backSub (fun i j => L j i) n (fun k => if k = j then (1 : Fl F) else 0) k).val|)
        rfl fun k hk => by rw [e4 k hk]] at e2
      exact e2
    · exact dot_rel h hn _ (fun c => J c j) a (hαf j hj)
    · show |(x i).val + _| ≤ _
      rw [hp i hi]
      exact (hrow i hi).2
  have hκN : (1 + relErr F n) * eta F * n * n ≤ 13 / 12 * tiny n G m := by
    refine le_trans ?_ (mul_le_mul_of_nonneg_left htg (by norm_num))
    have h1 : (n : ℝ) * n ≤ ∑ l ∈ range n, (n + Real.sqrt (G l l).val) := by
      rw [sum_add_distrib, sum_const, card_range, nsmul_eq_mul]
      have : 0 ≤ ∑ l ∈ range n, Real.sqrt (G l l).val := sum_nonneg fun i _ => Real.sqrt_nonneg _
      linarith
    have h3 : (1 + relErr F n) * eta F ≤ 13 / 12 * eta F := mul_le_mul_of_nonneg_right (by linarith) hη.le
    have h4 := mul_le_mul h3 h1 (by positivity) (by positivity)
    linarith
  have hSR : (1 + relErr F n) * eta F * n * ∑ i ∈ range n, Real.sqrt (gram n L i i) ≤ 63 / 50 * (n * tiny n G m) := by
    have h1 : ∑ i ∈ range n, Real.sqrt (gram n L i i) ≤ 29 / 25 * ∑ l ∈ range n, (n + Real.sqrt (G l l).val) := by
      rw [mul_sum]
      refine sum_le_sum fun i hi => ?_
      have := hRd i (mem_range.1 hi)
      linarith
    have h3 : (1 + relErr F n) * eta F ≤ 13 / 12 * eta F := mul_le_mul_of_nonneg_right (by linarith) hη.le
    have h4 := mul_le_mul h3 h1 (sum_nonneg fun i _ => Real.sqrt_nonneg _) (by positivity)
    have h5 := mul_le_mul_of_nonneg_left htg (show (0 : ℝ) ≤ n by linarith)
    have h6 := mul_le_mul_of_nonneg_left h4 (show (0 : ℝ) ≤ n by linarith)
    have h7 : 0 ≤ (n : ℝ) * (eta F * ∑ l ∈ range n, (n + Real.sqrt (G l l).val)) :=
      mul_nonneg (by linarith) (mul_nonneg hη.le (sum_nonneg fun i _ => by positivity))
    linarith
  exact ⟨run, hT, hκN, hSR, ht0⟩

/-- Accuracy of the point. -/
theorem SafeHessian.first_error (h : SafeHessian F n G m lam) (hn : 0 < n) (ht : 30 * n * tiny n G m ≤ 1) (hL : ∀ i < n, (L i i).Finite)
    (hd : ∀ i < n, 0 < (L i i).val) (hc : Close n G (gram n L)) {a x : ℕ → Fl F} {f : Fl F} (hp : FirstPoint n L a x f) (hx : ∀ i < n, (x i).Finite) {y : ℕ → ℝ}
    (hy : ∀ i < n, (a i).val + ∑ j ∈ range n, hessVal G i j * y j = 0) :
    lam * dnorm n G (fun i => (x i).val - y i) ≤
      42 * n * Real.sqrt n * ((n + 2) * u F) * dnorm n G y + 6 * n * tiny n G m * (dnorm n G y + 1) := by
  obtain ⟨J, z, w, hJ, hp, _⟩ := hp
  obtain ⟨run, hT, hκN, hSR, ht0⟩ := h.first_run hn ht hL hd hc hJ hp hx hy
  have hG : ∀ i < n, 0 ≤ (G i i).val := fun i hi => h.m0.le.trans (h.low i hi)
  have hη := eta_pos (F := F)
  have hε0 := relErr_nonneg (F := F) (n := n)
  have hn1 : (1 : ℝ) ≤ n := by exact_mod_cast hn
  have key := run.error
  rw [en_eq_dnorm hG, en_eq_dnorm hG] at key
  have hrN : Real.sqrt n ≤ n := Real.sqrt_le_iff.2 ⟨by linarith, by nlinarith⟩
  exact warm_num hn1 hrN (Real.sqrt_nonneg _) (dnorm_nonneg y) ht0 (h.rel_le hn) hT hκN (by positivity) hSR key

/-- The factor of a Hessian positive definite beyond the rounding errors. -/
theorem SafeHessian.factor (h : SafeHessian F n G m lam) :
    (JrlQp.chol n G n).2 = none ∧ (∀ i < n, ((JrlQp.chol n G n).1 i i).Finite) ∧ (∀ i < n, 0 < ((JrlQp.chol n G n).1 i i).val) ∧ Close n G (gram n (JrlQp.chol n G n).1) := by
  obtain ⟨L, hL, hfin⟩ := h.chol
  obtain ⟨g1, _, g3⟩ := chol_close hL hfin
  rw [hL]
  exact ⟨rfl, fun i hi => hfin i hi i le_rfl, g1, g3⟩

/-- **C86.** After any history of the warm-started solver, on a problem none of whose constraints is active at the start (no equality and no
constraint asked for by the warm start), with any inequality constraints: if `solve` returns SUCCESS without an iteration and its solution is finite,
the solution is within rounding errors of the exact unconstrained minimiser. -/
theorem C86_warm_accuracy (cs : List (XCall (Fl F) (Fl F))) (h : ∀ c ∈ cs, c.Admissible) {o : Opts (Fl F)} {pb : Pb (Fl F) (Fl F)} {as : List Status}
    (ha : ArgOk o pb as) {xs : XState (Fl F)} (hx : xcalls cs (XState.empty : XState (Fl F)) = .ok xs)
    (hw : ∀ i < pb.m + pb.nb, want o pb (usedAs o pb as xs) i = .inactive) (hG : SafeHessian F pb.n pb.G m lam)
    (ht : 30 * pb.n * tiny pb.n pb.G m ≤ 1) {xs'} (hr : xsolve o pb as xs = .ok (.success, xs')) (hit : xs'.s.it = 0)
    (hf : ∀ i < pb.n, (xs'.s.x i).Finite) :
    ∃ y, IsMin pb.n pb.G pb.a y ∧ lam * dnorm pb.n pb.G (fun i => (xs'.s.x i).val - y i) ≤
      42 * pb.n * Real.sqrt pb.n * ((pb.n + 2) * u F) * dnorm pb.n pb.G y + 6 * pb.n * tiny pb.n pb.G m * (dnorm pb.n pb.G y + 1) := by
  obtain ⟨ys, h1, hy⟩ := C37_no_fault cs h
  rw [hx] at h1
  cases h1
  obtain ⟨y, hy1, hy2⟩ := hG.exists_isMin pb.a
  refine ⟨y, hy1, ?_⟩
  rcases Nat.eq_zero_or_pos pb.n with h0 | hn
  · simp [h0, dnorm]
  have hz : numWant o pb (usedAs o pb as xs) (· != .inactive) = 0 := by
    unfold numWant
    rw [List.countP_eq_zero]
    intro i hi
    rw [hw i (List.mem_range.1 hi)]
    decide
  obtain ⟨_, f2, f3, f4⟩ := hG.factor
  exact hG.first_error hn ht f2 f3 f4 (xsolve_first hy ha hz hr hit) hf hy2

/-- **C86, without constraint.** After any history, on a problem without constraint the warm-started solver returns SUCCESS without an iteration;
if the solution is finite it is within rounding errors of the exact minimiser. -/
theorem C86_warm_unconstrained (cs : List (XCall (Fl F) (Fl F))) (h : ∀ c ∈ cs, c.Admissible) {o : Opts (Fl F)} (hit : 0 < o.maxIter)
    {pb : Pb (Fl F) (Fl F)} {as : List Status} (ha : ArgOk o pb as) (hm : pb.m = 0) (hb : pb.useBnd = false) (hG : SafeHessian F pb.n pb.G m lam)
    (ht : 30 * pb.n * tiny pb.n pb.G m ≤ 1) :
    ∃ xs xs' y, xcalls cs (XState.empty : XState (Fl F)) = .ok xs ∧ xsolve o pb as xs = .ok (.success, xs') ∧ xs'.s.it = 0 ∧
      IsMin pb.n pb.G pb.a y ∧ ((∀ i < pb.n, (xs'.s.x i).Finite) → lam * dnorm pb.n pb.G (fun i => (xs'.s.x i).val - y i) ≤
        42 * pb.n * Real.sqrt pb.n * ((pb.n + 2) * u F) * dnorm pb.n pb.G y + 6 * pb.n * tiny pb.n pb.G m * (dnorm pb.n pb.G y + 1)) := by
  obtain ⟨xs, h1, hy⟩ := C37_no_fault cs h
  obtain ⟨L, hL, _⟩ := hG.chol
  have hc : cholOk pb := by unfold cholOk; rw [hL]
  have hnb : pb.nb = 0 := by simp [Pb.nb, hb]
  obtain ⟨xs', h2, h3⟩ := xsolve_unconstrained hy ha hm hnb hc hit
  obtain ⟨y, hy1, _⟩ := hG.exists_isMin pb.a
  refine ⟨xs, xs', y, h1, h2, h3, hy1, fun hf => ?_⟩
  obtain ⟨z, hz1, hz2⟩ := C86_warm_accuracy cs h ha h1 (fun i hi => by omega) hG ht h2 h3 hf
  have e : ∀ i < pb.n, z i = y i := by
    by_contra hne
    push Not at hne
    have a1 := hy1 z hne
    have a2 := hz1 y (by obtain ⟨i, hi, hne⟩ := hne; exact ⟨i, hi, hne.symm⟩)
    linarith
  have e1 : dnorm pb.n pb.G y = dnorm pb.n pb.G z := by
    unfold dnorm
    rw [sum_congr rfl fun i hi => by rw [← e i (mem_range.1 hi)]]
  have e2 : dnorm pb.n pb.G (fun i => (xs'.s.x i).val - y i) = dnorm pb.n pb.G (fun i => (xs'.s.x i).val - z i) := by
    unfold dnorm
    rw [sum_congr rfl fun i hi => by rw [show (fun i => (xs'.s.x i).val - y i) i = (xs'.s.x i).val - z i by simp only [e i (mem_range.1 hi)]]]
  rw [e1, e2]
  exact hz2

/-! ## No overflow -/

/-- A scalar product of size `n` which does not overflow. -/
theorem SafeHessian.dot_fin (h : SafeHessian F n G m lam) (hn : 0 < n) (st : Site) (c x : ℕ → Fl F) (hf : ∀ i < n, (c i).Finite ∧ (x i).Finite) {S : ℝ}
    (hS : ∑ i ∈ range n, |(c i).val| * |(x i).val| ≤ S) (hS2 : S ≤ top F / 2) :
    (esum st (fun i => c i * x i) n).Finite ∧ |(esum st (fun i => c i * x i) n).val| ≤ 13 / 12 * (S + 1 / 48) := by
  have hw := h.wellPosed hn
  have hS0 : 0 ≤ ∑ i ∈ range n, |(c i).val| * |(x i).val| := sum_nonneg fun i _ => by positivity
  have hp := F.order_perm st n
  have he := eta_pos (F := F)
  have hu := u_pos (F := F)
  have hε0 := relErr_nonneg (F := F) (n := n)
  have hnη : (n : ℝ) * eta F ≤ 1 / 48 := by
    have h5 := hw.eta_n hn
    have h7 : (n : ℝ) * eta F ≤ (n + 2) * eta F := mul_le_mul_of_nonneg_right (by linarith) he.le
    have : 0 ≤ relErr F n * (eta F * (n + 2)) := by positivity
    nlinarith
  have h1 : (1 + u F) ^ (n + 1) ≤ 13 / 12 := by
    have := one_add_u_pow_le h hn (k := n + 1) (by omega)
    have := hw.err_le hn
    linarith
  have hmag : sumMag F n (∑ i ∈ range n, |(c i).val| * |(x i).val|) ≤ 13 / 12 * (S + 1 / 48) := by
    unfold sumMag
    exact mul_le_mul h1 (by linarith) (by positivity) (by norm_num)
  have e : ((F.order st n).leaves.map fun i => |(c i).val| * |(x i).val|).sum = ∑ i ∈ range n, |(c i).val| * |(x i).val| := by
    rw [(hp.map _).sum_eq, sum_range_list]
  have hlen : (F.order st n).leaves.length = n := by rw [hp.length_eq, List.length_range]
  have hfin : ((F.order st n).eval fun i => c i * x i).Finite := by
    refine tree_fin c x (F.order st n) (fun i hi => hf i (List.mem_range.1 (hp.subset hi))) ?_
    rw [e, hlen]
    have := two_le_top (F := F)
    linarith
  refine ⟨hfin, ?_⟩
  have h2 := tree_val_le c x (F.order st n) hfin
  rw [e, hlen] at h2
  exact h2.trans hmag

/-- Numbers for the products. -/
theorem first_sizes {α P s K : ℝ} (hα : 1 ≤ α) (hP : 1 ≤ P) (hs0 : 0 < s) (hs : s ≤ 1) (hK : 1 ≤ K) (h : 25 * α * P ^ 3 ≤ s * K) :
    6 * (α * P ^ 2) ≤ K ^ 2 / 2 ∧ 13 / 12 * (6 * (α * P ^ 2) + 1 / 48) ≤ 7 * (α * P ^ 2) ∧
      ∀ {S : ℝ}, s * S ≤ 42 * (α * P ^ 4) → S ≤ 42 / 625 * K ^ 2 := by
  have hP2 : 1 ≤ P ^ 2 := one_le_pow₀ hP
  have hαP : 1 ≤ α * P ^ 2 := by nlinarith
  have hsK : s * K ≤ K := by nlinarith
  have h23 : α * P ^ 2 ≤ α * P ^ 3 := by
    have e : α * P ^ 3 = α * P ^ 2 * P := by ring
    rw [e]; nlinarith
  have hKK : K ≤ K ^ 2 := by nlinarith
  refine ⟨by linarith, by linarith, fun {S} hS => ?_⟩
  have hPK : P ≤ K / 25 := by
    have h3 : P ≤ P ^ 3 := le_self_pow₀ hP (by norm_num)
    have h4 : P ^ 3 ≤ α * P ^ 3 := le_mul_of_one_le_left (by positivity) hα
    linarith
  have h5 : s * S ≤ s * (42 / 625 * K ^ 2) := by
    have e : 42 * (α * P ^ 4) = 42 / 25 * (P * (25 * α * P ^ 3)) := by ring
    rw [e] at hS
    have h6 := mul_le_mul_of_nonneg_left h (show 0 ≤ P by linarith)
    have h7 := mul_le_mul_of_nonneg_left hPK (show 0 ≤ s * K by positivity)
    have e2 : s * (42 / 625 * K ^ 2) = 42 / 25 * (s * K * (K / 25)) := by ring
    rw [e2]
    have e3 : P * (s * K) = s * K * P := by ring
    linarith
  exact le_of_mul_le_mul_left h5 hs0

/-- The point computed first is finite. -/
theorem Ready.first_fin {a x : ℕ → Fl F} {f : Fl F} {α : ℝ} (r : Ready F n G L a m lam α) (hF : F.Std) (hp : FirstPoint n L a x f) :
    (∀ i < n, (x i).Finite) ∧ f.Finite := by
  obtain ⟨J, z, w, hJ, hp, hv⟩ := hp
  obtain ⟨hP, hlP, hPe⟩ := r.P1
  obtain ⟨hK, hK2⟩ := Ready.K1 (F := F)
  have hl := r.h.lam_pos
  have hα := r.hg.one_le
  have hP3 : 0 ≤ (n / lam) ^ 3 := by positivity
  have hG : ∀ i < n, 0 ≤ (G i i).val := fun i hi => r.h.m0.le.trans (r.h.low i hi)
  have hsm0 : 0 < Real.sqrt m := Real.sqrt_pos.2 r.h.m0
  have hsm1 : Real.sqrt m ≤ 1 := Real.sqrt_le_one.2 r.h.m1
  have r0 : Ready F n G L (fun _ => 0) m lam 1 := ⟨r.h, ⟨fun _ _ => trivial, le_rfl, fun i _ => by
    rw [show (0 : Fl F).val = 0 from val_zero _, abs_zero, one_mul]; exact Real.sqrt_nonneg _, by
    refine le_trans ?_ r.hg.range
    have := mul_le_mul_of_nonneg_right hα hP3
    linarith⟩, r.hc, r.hd, r.hf, r.hn⟩
  obtain ⟨q1, q2, q3⟩ := first_sizes hα hP hsm0 hsm1 hK r.hg.range
  rw [hK2] at q1 q3
  have hbf : ∀ j, ∀ i < n, ((fun k => if k = j then (1 : Fl F) else 0) i).Finite := fun j i _ => by
    dsimp only
    split_ifs <;> exact trivial
  have hbn : ∀ j, Real.sqrt (∑ l ∈ range n, ((fun k => if k = j then (1 : Fl F) else 0) l).val ^ 2) ≤ 2 * (n / lam * 1) := fun j => by
    have e : ∀ l ∈ range n, ((fun k => if k = j then (1 : Fl F) else 0) l).val ^ 2 = if l = j then 1 else 0 := fun l _ => by
      dsimp only
      split_ifs
      · rw [one_val]; norm_num
      · rw [show (0 : Fl F).val = 0 from val_zero _]; norm_num
    rw [sum_congr rfl e, sum_ite_eq']
    refine (Real.sqrt_le_one.2 ?_).trans (by linarith)
    split_ifs <;> norm_num
  have hJf : ∀ i < n, ∀ j < n, (J i j).Finite := fun i hi j hj => by
    rw [hJ i hi j hj]
    exact r0.bwd_fin hF (hbf j) (hbn j) (n - i) i (by omega) (by omega)
  have hC : ∀ j < n, lam * dnorm n G (fun i => (J i j).val) ≤ 6 * (n / lam) := fun j hj => by
    have := r0.bwd_norm hF (hbn j) (k := 0) (by omega) (fun i _ hi => by
      have := hJf i hi j hj
      rw [hJ i hi j hj] at this
      exact this)
    rw [mul_one] at this
    refine le_trans (le_of_eq ?_) this
    unfold dnorm
    congr 2
    refine sum_congr rfl fun i hi => ?_
    dsimp only
    rw [hJ i (mem_range.1 hi) j hj, if_pos (Nat.zero_le i)]
    rfl
  have hsn : Real.sqrt n ≤ n := by
    have hn1 : (1 : ℝ) ≤ n := by exact_mod_cast r.hn
    exact Real.sqrt_le_iff.2 ⟨by linarith, by nlinarith⟩
  have hd : ∀ k < n, (esum (.init 0 k) (fun c => J c k * a c) n : Fl F).Finite ∧ |(esum (.init 0 k) (fun c => J c k * a c) n : Fl F).val| ≤ 7 * (α * (n / lam) ^ 2) := fun k hk => by
    have h1 : ∑ c ∈ range n, |(J c k).val| * |(a c).val| ≤ 6 * (α * (n / lam) ^ 2) := by
      have h2 : ∑ c ∈ range n, |(J c k).val| * |(a c).val| ≤ α * ∑ c ∈ range n, Real.sqrt (G c c).val * |(J c k).val| := by
        rw [mul_sum]
        refine sum_le_sum fun c hc => ?_
        have := mul_le_mul_of_nonneg_left (r.hg.bound c (mem_range.1 hc)) (abs_nonneg (J c k).val)
        linarith
      have h3 := sum_le_dnorm hG (fun c => (J c k).val)
      have hC := hC k hk
      have h0 := dnorm_nonneg (n := n) (G := G) (fun c => (J c k).val)
      generalize dnorm n G (fun c => (J c k).val) = C at *
      have h4 := mul_le_mul_of_nonneg_right hsn h0
      have h5 := mul_le_mul_of_nonneg_left hC (show 0 ≤ n / lam by linarith)
      have e : n / lam * (lam * C) = (lam * (n / lam)) * C := by ring
      rw [e, hPe] at h5
      have h6 := mul_le_mul_of_nonneg_left (h3.trans (h4.trans h5)) (show 0 ≤ α by linarith)
      have e2 : α * (n / lam * (6 * (n / lam))) = 6 * (α * (n / lam) ^ 2) := by ring
      linarith
    obtain ⟨h2, h3⟩ := r.h.dot_fin r.hn (.init 0 k) (fun c => J c k) a (fun i hi => ⟨hJf i hi k hk, r.hg.fin i hi⟩) h1 q1
    exact ⟨h2, h3.trans q2⟩
  have h9 := two_le_top (F := F)
  have hu13 := (r.h.wellPosed r.hn).u_le r.hn
  refine ⟨fun i hi => ?_, ?_⟩
  swap
  · rw [hv]
    have h1 : ∑ k ∈ range n, |(esum (.init 0 k) (fun c => J c k * a c) n : Fl F).val| * |(esum (.init 0 k) (fun c => J c k * a c) n : Fl F).val| ≤ 49 / 625 * top F := by
      have h2 : ∀ k ∈ range n, |(esum (.init 0 k) (fun c => J c k * a c) n : Fl F).val| * |(esum (.init 0 k) (fun c => J c k * a c) n : Fl F).val| ≤
          (7 * (α * (n / lam) ^ 2)) * (7 * (α * (n / lam) ^ 2)) := fun k hk =>
        mul_le_mul (hd k (mem_range.1 hk)).2 (hd k (mem_range.1 hk)).2 (abs_nonneg _) (by positivity)
      refine (sum_le_sum h2).trans ?_
      rw [sum_const, card_range, nsmul_eq_mul]
      have hr := r.hg.range
      have hl1 := (r.h.wellPosed r.hn).lam_le r.hn
      have hnP : (n : ℝ) ≤ n / lam := by rw [le_div_iff₀ hl]; exact mul_le_of_le_one_right (Nat.cast_nonneg n) hl1
      have hn2 : (n : ℝ) ≤ (n / lam) ^ 2 := hnP.trans (le_self_pow₀ hP (by norm_num))
      have h3 : 25 * α * (n / lam) ^ 3 ≤ Real.sqrt (top F) :=
        hr.trans (mul_le_of_le_one_left (Real.sqrt_nonneg _) hsm1)
      have h4 := pow_le_pow_left₀ (by positivity) h3 2
      rw [hK2] at h4
      have h5 := mul_le_mul_of_nonneg_right hn2 (show 0 ≤ (7 * (α * (n / lam) ^ 2)) * (7 * (α * (n / lam) ^ 2)) by positivity)
      have e : (n / lam) ^ 2 * ((7 * (α * (n / lam) ^ 2)) * (7 * (α * (n / lam) ^ 2))) = 49 / 625 * (25 * α * (n / lam) ^ 3) ^ 2 := by ring
      rw [e] at h5
      linarith
    obtain ⟨h2, h3⟩ := r.h.dot_fin r.hn (.init 4 0) (fun k => esum (.init 0 k) (fun c => J c k * a c) n)
      (fun k => esum (.init 0 k) (fun c => J c k * a c) n) (fun k hk => ⟨(hd k hk).1, (hd k hk).1⟩) h1 (by linarith)
    have hz : (esum (.init 3 0) w 0 : Fl F) = 0 := by
      have hp := F.order_perm (.init 3 0) 0
      exact tree_nil (List.perm_nil.1 (by simpa using hp)) w
    rw [hz]
    generalize (esum (.init 4 0) (fun k => esum (.init 0 k) (fun c => J c k * a c) n * esum (.init 0 k) (fun c => J c k * a c) n) n : Fl F) = V at *
    have hη := eta_le (F := F)
    have e1 : |(half : Fl F).val * V.val| = 1 / 2 * |V.val| := by
      rw [half_val.1, abs_mul, abs_of_pos (by norm_num : (0 : ℝ) < 1 / 2)]
    have b1 := mul_le_mul hu13 (show 1 / 2 * |V.val| ≤ 1 / 2 * (13 / 12 * (49 / 625 * top F + 1 / 48)) by linarith) (by positivity) (by norm_num)
    have hfin : ((half : Fl F) * V).Finite := by
      apply mul_fin half_val.2 h2
      rw [e1]
      linarith
    refine sub_fin trivial hfin ?_
    rw [show (0 : Fl F).val = 0 from val_zero _, zero_sub, abs_neg]
    obtain ⟨_, _, h4⟩ := mul_err hfin
    rw [e1] at h4
    have h5 := abs_add_le (((half : Fl F) * V).val - (half : Fl F).val * V.val) ((half : Fl F).val * V.val)
    rw [sub_add_cancel, e1] at h5
    have h6 : |((half : Fl F) * V).val| ≤ 1 / 4 * top F := by linarith
    have b2 := mul_le_mul hu13 h6 (abs_nonneg _) (by norm_num)
    linarith
  rw [hp i hi]
  have h1 : ∑ k ∈ range n, |(J i k).val| * |(esum (.init 0 k) (fun c => J c k * a c) n : Fl F).val| ≤ 42 / 625 * top F := by
    apply q3
    rw [mul_sum]
    have h2 : ∀ k ∈ range n, Real.sqrt m * (|(J i k).val| * |(esum (.init 0 k) (fun c => J c k * a c) n : Fl F).val|) ≤ 6 * (n / lam) / lam * (7 * (α * (n / lam) ^ 2)) :=
      fun k hk => by
      have hk := mem_range.1 hk
      have h3 : Real.sqrt m * |(J i k).val| ≤ 6 * (n / lam) / lam := by
        rw [le_div_iff₀ hl, mul_comm]
        refine le_trans (mul_le_mul_of_nonneg_left ?_ hl.le) (hC k hk)
        have h4 : Real.sqrt m * |(J i k).val| ≤ Real.sqrt (G i i).val * |(J i k).val| :=
          mul_le_mul_of_nonneg_right (Real.sqrt_le_sqrt (r.h.low i hi)) (abs_nonneg _)
        refine h4.trans ?_
        unfold dnorm
        refine Real.le_sqrt_of_sq_le ?_
        rw [mul_pow, Real.sq_sqrt (hG i hi), sq_abs]
        exact single_le_sum (f := fun l => (G l l).val * (J l k).val ^ 2) (fun l hl => mul_nonneg (hG l (mem_range.1 hl)) (sq_nonneg _)) (mem_range.2 hi)
      rw [← mul_assoc]
      exact mul_le_mul h3 (hd k hk).2 (abs_nonneg _) (by positivity)
    refine (sum_le_sum h2).trans (le_of_eq ?_)
    rw [sum_const, card_range, nsmul_eq_mul]
    have e : (n : ℝ) * (6 * (n / lam) / lam * (7 * (α * (n / lam) ^ 2))) = 42 * (α * (n / lam) ^ 4) := by ring
    exact e
  obtain ⟨h2, h3⟩ := r.h.dot_fin r.hn (.init 2 i) (J i) (fun k => esum (.init 0 k) (fun c => J c k * a c) n) (fun k hk => ⟨hJf i hi k hk, (hd k hk).1⟩) h1
    (by linarith)
  have hz : (esum (.init 1 i) (z i) 0 : Fl F) = 0 := by
    have hp := F.order_perm (.init 1 i) 0
    exact tree_nil (List.perm_nil.1 (by simpa using hp)) (z i)
  rw [hz]
  refine sub_fin trivial h2 ?_
  rw [show (0 : Fl F).val = 0 from val_zero _, zero_sub, abs_neg]
  have h5 := mul_le_mul hu13 h3 (abs_nonneg _) (by norm_num)
  linarith

/-- **C86, without constraint and with no assumption on what is computed.** In a standard format, after any history, on a problem without constraint
whose Hessian is positive definite beyond the rounding errors and whose gradient is not too large, the warm-started `solve` returns SUCCESS without an
iteration, the solution is finite and within rounding errors of the exact minimiser. -/
theorem C86_warm_solved (hF : F.Std) (cs : List (XCall (Fl F) (Fl F))) (h : ∀ c ∈ cs, c.Admissible) {o : Opts (Fl F)} (hit : 0 < o.maxIter)
    {pb : Pb (Fl F) (Fl F)} {as : List Status} (ha : ArgOk o pb as) (hm : pb.m = 0) (hb : pb.useBnd = false) {α : ℝ} (hG : SafeHessian F pb.n pb.G m lam)
    (hg : SafeGradient F pb.n pb.G pb.a m lam α) (ht : 30 * pb.n * tiny pb.n pb.G m ≤ 1) :
    ∃ xs xs' y, xcalls cs (XState.empty : XState (Fl F)) = .ok xs ∧ xsolve o pb as xs = .ok (.success, xs') ∧ xs'.s.it = 0 ∧
      (∀ i < pb.n, (xs'.s.x i).Finite) ∧ IsMin pb.n pb.G pb.a y ∧ lam * dnorm pb.n pb.G (fun i => (xs'.s.x i).val - y i) ≤
        42 * pb.n * Real.sqrt pb.n * ((pb.n + 2) * u F) * dnorm pb.n pb.G y + 6 * pb.n * tiny pb.n pb.G m * (dnorm pb.n pb.G y + 1) := by
  obtain ⟨xs, xs', y, h1, h2, h3, h4, h5⟩ := C86_warm_unconstrained cs h hit ha hm hb hG ht
  have hx : ∀ i < pb.n, (xs'.s.x i).Finite := by
    rcases Nat.eq_zero_or_pos pb.n with h0 | hn
    · intro i hi; omega
    obtain ⟨ys, hy1, hy⟩ := C37_no_fault cs h
    rw [h1] at hy1
    cases hy1
    have hnb : pb.nb = 0 := by simp [Pb.nb, hb]
    have hz : numWant o pb (usedAs o pb as xs) (· != .inactive) = 0 := by unfold numWant; rw [hm, hnb]; rfl
    obtain ⟨L, hL, hfin⟩ := hG.chol
    obtain ⟨g1, _, g3⟩ := chol_close hL hfin
    have r : Ready F pb.n pb.G L pb.a m lam α := ⟨hG, hg, g3, g1, hfin, hn⟩
    have hp := xsolve_first hy ha hz h2 h3
    rw [hL] at hp
    exact (r.first_fin hF hp).1
  exact ⟨xs, xs', y, h1, h2, h3, hx, h4, h5 hx⟩

/-- For `double` the condition on underflow follows from the others. -/
theorem binary64_tiny {n : ℕ} {G : ℕ → ℕ → Fl binary64} (h : SafeHessian binary64 n G m lam) : 30 * n * tiny n G m ≤ 1 := by
  rcases Nat.eq_zero_or_pos n with rfl | hn
  · simp
  have h1 : u binary64 = 2 ^ (-53 : ℤ) := by norm_num [u, binary64]
  have h2 : eta binary64 = 2 ^ (-1075 : ℤ) := by norm_num [eta, binary64]
  have hn0 : (0 : ℝ) ≤ n := Nat.cast_nonneg n
  have hN : (n : ℝ) ≤ 2 ^ 25 := by
    have a1 := h.lam
    have a2 := (h.wellPosed hn).lam_le hn
    rw [h1] at a1
    by_contra hc
    push Not at hc
    have a3 : (2 : ℝ) ^ 25 * 2 ^ 25 ≤ n * (n + 2) := by nlinarith
    have a4 := mul_le_mul_of_nonneg_right a3 (two_zpow_pos (-53)).le
    have a5 : (24 : ℝ) * (2 ^ 25 * 2 ^ 25 * 2 ^ (-53 : ℤ)) = 3 := by norm_num
    linarith
  have hu := h.under
  rw [h1, h2] at hu
  have hm : (2 : ℝ) ^ (-1020 : ℤ) ≤ m := by
    have e : (8 : ℝ) * 2 ^ (-1075 : ℤ) = 2 ^ (-53 : ℤ) * 2 ^ (-1019 : ℤ) := by
      rw [show (8 : ℝ) = 2 ^ (3 : ℤ) by norm_num, ← zpow_add₀ (by norm_num), ← zpow_add₀ (by norm_num)]
      norm_num
    rw [e] at hu
    have := le_of_mul_le_mul_left hu (two_zpow_pos (-53))
    exact le_trans (zpow_le_zpow_right₀ (by norm_num) (by norm_num)) this
  have hsm : (2 : ℝ) ^ (-510 : ℤ) ≤ Real.sqrt m := by
    refine Real.le_sqrt_of_sq_le ?_
    rw [← zpow_natCast, ← zpow_mul]
    exact le_trans (zpow_le_zpow_right₀ (by norm_num) (by norm_num)) hm
  have hd : (n : ℝ) / Real.sqrt m ≤ 2 ^ 25 * 2 ^ (512 : ℤ) := by
    rw [div_le_iff₀ (lt_of_lt_of_le (two_zpow_pos _) hsm)]
    have e : (2 : ℝ) ^ 25 * 2 ^ (512 : ℤ) * 2 ^ (-510 : ℤ) = 2 ^ 25 * 2 ^ (2 : ℤ) := by
      rw [mul_assoc, ← zpow_add₀ (by norm_num)]; norm_num
    have := mul_le_mul_of_nonneg_left hsm (mul_nonneg (by norm_num) (two_zpow_pos _).le : (0 : ℝ) ≤ 2 ^ 25 * 2 ^ (512 : ℤ))
    rw [e] at this
    refine le_trans (le_trans hN ?_) this
    norm_num
  have hg : ∀ l ∈ range n, (n + Real.sqrt (G l l).val : ℝ) ≤ 2 ^ 25 + 2 ^ (512 : ℤ) := fun l hl => by
    have a1 := h.high l (mem_range.1 hl)
    have a2 : Real.sqrt (G l l).val ≤ 2 ^ (512 : ℤ) := by
      refine Real.sqrt_le_iff.2 ⟨(two_zpow_pos _).le, a1.trans ?_⟩
      rw [← zpow_natCast, ← zpow_mul]
      exact zpow_le_zpow_right₀ (by norm_num) (by norm_num [binary64])
    linarith
  have hs := sum_le_sum hg
  rw [sum_const, card_range, nsmul_eq_mul] at hs
  have hs2 : (n : ℝ) * (2 ^ 25 + 2 ^ (512 : ℤ)) ≤ 2 ^ 25 * (2 ^ 25 + 2 ^ (512 : ℤ)) := mul_le_mul_of_nonneg_right hN (add_nonneg (by norm_num) (two_zpow_pos _).le)
  have hp : (1 : ℝ) ≤ 2 ^ (512 : ℤ) := one_le_zpow₀ (by norm_num) (by norm_num)
  have hb : (n / Real.sqrt m + 1 + ∑ l ∈ range n, (n + Real.sqrt (G l l).val) : ℝ) ≤ 2 ^ 51 * 2 ^ (512 : ℤ) := by
    refine le_trans (add_le_add (add_le_add hd le_rfl) (hs.trans hs2)) ?_
    generalize (2 : ℝ) ^ (512 : ℤ) = T at hp ⊢
    norm_num
    linarith
  have hnn : 0 ≤ (n / Real.sqrt m + 1 + ∑ l ∈ range n, (n + Real.sqrt (G l l).val) : ℝ) := by positivity
  unfold tiny
  rw [h2]
  have a1 := mul_le_mul_of_nonneg_left hb (two_zpow_pos (-1075)).le
  have a0 : 0 ≤ (2 : ℝ) ^ (-1075 : ℤ) * (n / Real.sqrt m + 1 + ∑ l ∈ range n, (n + Real.sqrt (G l l).val)) := mul_nonneg (two_zpow_pos _).le hnn
  have a2 := mul_le_mul (show (30 : ℝ) * n ≤ 30 * 2 ^ 25 by linarith) a1 a0 (by positivity)
  refine a2.trans ?_
  have e : (30 : ℝ) * 2 ^ 25 * (2 ^ (-1075 : ℤ) * (2 ^ 51 * 2 ^ (512 : ℤ))) = 30 * 2 ^ 76 * 2 ^ (-563 : ℤ) := by
    rw [show (2 : ℝ) ^ (-563 : ℤ) = 2 ^ (-1075 : ℤ) * 2 ^ (512 : ℤ) by rw [← zpow_add₀ (by norm_num)]; norm_num]
    ring
  rw [e]
  have : (2 : ℝ) ^ (-563 : ℤ) ≤ 2 ^ (-100 : ℤ) := zpow_le_zpow_right₀ (by norm_num) (by norm_num)
  refine (mul_le_mul_of_nonneg_left this (by norm_num)).trans ?_
  norm_num

/-- Hypotheses of C86, for `double` and any size up to `2^22`: the matrix with ones on the diagonal and one half elsewhere, gradient one half. -/
theorem C86_hypotheses_met {n : ℕ} (hn : n ≤ 2 ^ 22) : ∃ (G : ℕ → ℕ → Fl binary64) (a : ℕ → Fl binary64),
    SafeHessian binary64 n G 1 (1 / 2) ∧ 30 * n * tiny n G 1 ≤ 1 ∧ SafeGradient binary64 n G a 1 (1 / 2) 1 ∧ binary64.Std ∧
      (∀ i j, i ≠ j → (G i j).val = 1 / 2) ∧ ∀ i, (a i).val = 1 / 2 := by
  obtain ⟨G, a, h1, h2, h3, h4⟩ := C81_hypotheses_met hn
  exact ⟨G, a, h1, binary64_tiny h1, h2, binary64_std, h3, h4⟩

end Ieee

end JrlQp
