import Verif.IeeeChol
import Verif.PropsIeee
import Verif.PropsSim
import Verif.PropsExpLower

/-!
# C78, C79: what the factorisation of the Hessian and the unconstrained minimum are worth in IEEE arithmetic

The specification uses real numbers only: a symmetric positive definite matrix `H` close to the matrix given by the user, with an
explicit bound. `u` is the unit roundoff, `η` half of the smallest positive number, `q = 1 / (1 - u)`.
-/

namespace JrlQp

open NumOps

section generic

variable {K B : Type} [Zero K] [One K] [Add K] [Sub K] [Neg K] [Mul K] [Div K] [NumOps K B] [SumOps K]

/-- After `solve`, the lower triangle of the user's matrix is the factor, and NON_POS_HESSIAN is the verdict of the factorisation. -/
theorem solve_chol {o : Opts K} {pb : Pb K B} {s s' : State K} (hs : Inv s) {t} (h : solve o pb s = .ok (t, s')) :
    s'.G = (chol pb.n pb.G pb.n).1 ∧ (t = .nonPosHessian ↔ ¬ cholOk pb) := by
  have hd := preInit_dim (o := o) (resize_dim_pb hs pb)
  unfold solve dualSolve at h
  generalize preInit o (resize s _ _ _) = p at h hd
  cases hin : init_ o pb p with
  | error e => rw [hin] at h; cases h
  | ok r =>
    obtain ⟨t0, s0⟩ := r
    have hg0 := init_G hin
    rw [hd.nbVar] at hg0
    rw [hin] at h
    simp only [] at h
    have hterm : ∀ {t s t' s'}, terminate o t s = .ok (t', s') → s' = s ∧ t' = t := by
      intro t s t' s' h
      cases t <;> simp only [terminate] at h <;> (try split_ifs at h) <;> cases h <;> exact ⟨rfl, rfl⟩
    have hnp : (t0 = .success ∧ cholOk pb) ∨ (t0 = .nonPosHessian ∧ ¬ cholOk pb) := by
      unfold init_ at hin
      rw [if_pos (by simp [hd.nbVar])] at hin
      simp only [] at hin
      unfold cholOk
      rw [hd.nbVar] at hin
      by_cases hc : (chol pb.n pb.G pb.n).2.isSome = true
      · rw [if_pos hc] at hin
        cases hin
        exact Or.inr ⟨rfl, fun h1 => by rw [h1] at hc; cases hc⟩
      · rw [if_neg hc] at hin
        split_ifs at hin
        split at hin
        · cases hin
        · cases hin; exact Or.inl ⟨rfl, by simpa using hc⟩
    rcases hnp with ⟨ht, hc⟩ | ⟨ht, hc⟩
    · rw [if_neg (by simpa using ht)] at h
      cases hl : loop o pb (o.maxIter - s0.it) s0 ⟨0, .inactive⟩ false with
      | error e => rw [hl] at h; cases h
      | ok r =>
        obtain ⟨u1, w1⟩ := r
        rw [hl] at h
        obtain ⟨e1, e2⟩ := hterm h
        refine ⟨by rw [e1, loop_keepG _ hl, hg0], ?_⟩
        have := loop_it _ hl
        rw [e2]
        constructor
        · intro hh; rw [hh] at this; simp at this
        · intro hh; exact absurd hc hh
    · rw [if_pos (by rw [ht]; simp)] at h
      obtain ⟨e1, e2⟩ := hterm h
      exact ⟨by rw [e1, hg0], by rw [e2, ht]; simp [hc]⟩

/-- The same for the warm-started solver, unless the problem is reported overconstrained (the matrix is then left alone). -/
theorem xsolve_chol {o : Opts K} {pb : Pb K B} {as : List Status} {xs xs' : XState K} (hs : XInv xs) (ha : ArgOk o pb as) {t}
    (h : xsolve o pb as xs = .ok (t, xs')) (hne : t ≠ .overconstrainedProblem) :
    xs'.s.G = (chol pb.n pb.G pb.n).1 ∧ (t = .nonPosHessian ↔ ¬ cholOk pb) := by
  have hd := xsolveStart_dim (as := as) (o := o) (pb := pb) hs
  have eq := xsolve_eq (o := o) (pb := pb) (as := as) (xs := xs) ⟨ha.len, ha.opt⟩
  rw [h] at eq
  have hterm : ∀ {t s t' s'}, terminate o t s = .ok (t', s') → s' = s ∧ t' = t := by
    intro t s t' s' h
    cases t <;> simp only [terminate] at h <;> (try split_ifs at h) <;> cases h <;> exact ⟨rfl, rfl⟩
  cases hin : xinit o pb (xsolveStart o pb as xs) with
  | error e => rw [hin] at eq; cases eq
  | ok r0 =>
    obtain ⟨t0, xs0⟩ := r0
    rw [hin] at eq
    simp only [] at eq
    have hg0 := xinit_keepG hin
    rw [hd.dim.nbVar] at hg0
    have hnp : t0 = .overconstrainedProblem ∨ (t0 = .success ∧ cholOk pb) ∨ (t0 = .nonPosHessian ∧ ¬ cholOk pb) := by
      have hover := hg0
      unfold xinit at hin
      simp only [] at hin
      split at hin
      swap
      · cases hin
      cases hp : processInitial o pb (xsolveStart o pb as xs).s.nbVar (xsolveStart o pb as xs).as (xsolveStart o pb as xs).s.A with
      | error e => rw [hp] at hin; cases hin
      | ok r =>
        obtain ⟨t2, A⟩ := r
        rw [hp] at hin
        simp only [] at hin
        split at hin
        · rename_i hne
          cases hin
          left
          unfold processInitial at hp
          simp only [] at hp
          repeat' split at hp
          all_goals first
            | (cases hp; done)
            | (cases hp; rfl)
            | (cases hp; exact absurd rfl hne)
        · right
          unfold cholOk
          rw [hd.dim.nbVar] at hin
          by_cases hc : (chol pb.n pb.G pb.n).2.isSome = true
          · rw [if_pos hc] at hin
            cases hin
            exact Or.inr ⟨rfl, fun h1 => by rw [h1] at hc; cases hc⟩
          · rw [if_neg hc] at hin
            repeat' split at hin
            all_goals first
              | (cases hin; done)
              | (cases hin; exact Or.inl ⟨rfl, by simpa using hc⟩)
    rcases hnp with ht | ⟨ht, hc⟩ | ⟨ht, hc⟩
    · subst ht
      rw [if_pos (by simp)] at eq
      cases hte : terminate o .overconstrainedProblem xs0.s with
      | error e => rw [hte] at eq; cases eq
      | ok r2 =>
        rw [hte] at eq
        obtain ⟨_, e2⟩ := hterm hte
        cases eq
        exact absurd e2 hne
    · rw [if_neg (by simpa using ht)] at eq
      cases hl : loop o pb (o.maxIter - xs0.s.it) xs0.s ⟨0, .inactive⟩ false with
      | error e => rw [hl] at eq; cases eq
      | ok r1 =>
        obtain ⟨u1, w1⟩ := r1
        rw [hl] at eq
        simp only [] at eq
        cases hte : terminate o u1 w1 with
        | error e => rw [hte] at eq; cases eq
        | ok r2 =>
          rw [hte] at eq
          obtain ⟨e1, e2⟩ := hterm hte
          cases eq
          have hg := hg0.resolve_left (by rw [ht]; simp)
          refine ⟨by show r2.2.G = _; rw [e1, loop_keepG _ hl, hg], ?_⟩
          have := loop_it _ hl
          rw [e2]
          constructor
          · intro hh; rw [hh] at this; simp at this
          · intro hh; exact absurd hc hh
    · rw [if_pos (by rw [ht]; simp)] at eq
      cases hte : terminate o t0 xs0.s with
      | error e => rw [hte] at eq; cases eq
      | ok r2 =>
        rw [hte] at eq
        obtain ⟨e1, e2⟩ := hterm hte
        cases eq
        have hg := hg0.resolve_left (by rw [ht]; simp)
        exact ⟨by show r2.2.G = _; rw [e1, hg], by rw [e2, ht]; simp [hc]⟩

end generic

open Finset

/-- A product `L Lᵀ` with a positive diagonal is positive definite. -/
theorem posDef_low {n : Nat} {L H : Nat → Nat → ℝ} (h1 : ∀ i < n, 0 < L i i)
    (h2 : ∀ i < n, ∀ j < n, ∑ l ∈ range n, low L i l * low L j l = H i j) : PosDefN n H := by
  intro v ⟨i, hi, hv⟩
  rw [quad_factor h2 v]
  have hnn : ∀ l ∈ range n, 0 ≤ (∑ i ∈ range n, low L i l * v i) * (∑ i ∈ range n, low L i l * v i) :=
    fun l _ => mul_self_nonneg _
  rcases (sum_nonneg hnn).lt_or_eq with hlt | heq
  · exact hlt
  · exfalso
    have hz := (sum_eq_zero_iff_of_nonneg hnn).1 heq.symm
    refine hv (upper_ker (U := fun i j => L j i) (fun i hi => (h1 i hi).ne') ?_ i hi)
    intro l hl
    have := mul_self_eq_zero.1 (hz l (mem_range.2 hl))
    simpa only [low] using this

theorem low_sum {n i j : Nat} {L : Nat → Nat → ℝ} (hj : j < n) (hji : j ≤ i) :
    ∑ l ∈ range n, low L i l * low L j l = ∑ l ∈ range (j + 1), L i l * L j l := by
  rw [sum_cut (show j + 1 ≤ n by omega) (fun l => low L i l * low L j l)
    (fun l hl _ => by simp only [low]; rw [if_neg (show ¬ l ≤ j by omega), mul_zero])]
  apply sum_congr rfl
  intro l hl
  have := mem_range.1 hl
  rw [low, low, if_pos (by omega), if_pos (by omega)]

namespace Ieee

variable {F : Fmt}

/-- Values of the lower triangle of a matrix of numbers, zero above. -/
noncomputable def lowVal (L : Nat → Nat → Fl F) (i j : Nat) : ℝ := if j ≤ i then (L i j).val else 0

/-- `L Lᵀ` for the lower triangle of `L`, in real arithmetic. -/
noncomputable def gram (n : Nat) (L : Nat → Nat → Fl F) (i j : Nat) : ℝ := ∑ l ∈ range n, lowVal L i l * lowVal L j l

/-- The usual bound `γ = N u / (1 - N u)` with `N = n + 2`. -/
theorem relErr_le {n : Nat} (h : (n + 2) * u F < 1) : relErr F n ≤ (n + 2) * u F / (1 - (n + 2) * u F) := by
  have hu := u_le_half (F := F)
  have hu0 := u_pos (F := F)
  have hb : 1 + ((n + 2 : ℕ) : ℝ) * (-u F) ≤ (1 + -u F) ^ (n + 2) := one_add_mul_le_pow (by linarith) _
  push_cast at hb
  have hm : qf F ^ (n + 2) * (1 - u F) ^ (n + 2) = 1 := by rw [← mul_pow, qf_mul, one_pow]
  have hq : 0 < qf F ^ (n + 2) := pow_pos (by linarith [one_le_qf (F := F)]) _
  unfold relErr
  rw [le_div_iff₀ (by linarith)]
  have h0 : 1 - ((n : ℝ) + 2) * u F ≤ (1 - u F) ^ (n + 2) := by
    have e : (1 - u F) = (1 + -u F) := by ring
    rw [e]; linarith
  have h1 := mul_le_mul_of_nonneg_left h0 hq.le
  rw [hm] at h1
  nlinarith

theorem lowVal_eq (L : Nat → Nat → Fl F) : lowVal L = low (fun i j => (L i j).val) := rfl

theorem gram_comm (n : Nat) (L : Nat → Nat → Fl F) (i j : Nat) : gram n L i j = gram n L j i :=
  sum_congr rfl fun l _ => mul_comm _ _

theorem gram_diag {n i : Nat} (L : Nat → Nat → Fl F) : gram n L i i = ∑ l ∈ range n, lowVal L i l ^ 2 :=
  sum_congr rfl fun l _ => (pow_two _).symm

theorem gram_diag_nonneg {n i : Nat} (L : Nat → Nat → Fl F) : 0 ≤ gram n L i i := by
  rw [gram_diag]; exact sum_nonneg fun l _ => by positivity

/-- Cauchy-Schwarz for the rows of the factor. -/
theorem gram_abs {n i j : Nat} (L : Nat → Nat → Fl F) :
    ∑ l ∈ range n, |lowVal L i l| * |lowVal L j l| ≤ Real.sqrt (gram n L i i) * Real.sqrt (gram n L j j) := by
  refine (Real.sum_mul_le_sqrt_mul_sqrt _ _ _).trans (le_of_eq ?_)
  simp only [sq_abs, gram_diag]

theorem diag_le_sqrt {n i : Nat} (hi : i < n) (L : Nat → Nat → Fl F) : |(L i i).val| ≤ Real.sqrt (gram n L i i) := by
  apply Real.abs_le_sqrt
  rw [gram_diag]
  have := single_le_sum (f := fun l => lowVal L i l ^ 2) (fun l _ => by positivity) (mem_range.2 hi)
  simpa [lowVal] using this

/-- `H` is within the rounding errors of a factorisation of the `n x n` matrix stored in `G`: entry `(i, j)` differs by at most
`ε √(Hᵢᵢ Hⱼⱼ) + (1 + ε) η (n + 2 √Hⱼⱼ + η)`, with `ε = q^(n+2) - 1`. -/
def Close (n : Nat) (G : Nat → Nat → Fl F) (H : Nat → Nat → ℝ) : Prop :=
  ∀ i < n, ∀ j ≤ i, (G i j).Finite ∧
    |H i j - (G i j).val| ≤ relErr F n * Real.sqrt (H i i * H j j) + (1 + relErr F n) * eta F * (n + 2 * Real.sqrt (H j j) + eta F)

theorem chol_close {n : Nat} {M L : Nat → Nat → Fl F} (h : chol n M n = (L, none)) (hfin : ∀ i < n, ∀ j ≤ i, (L i j).Finite) :
    (∀ i < n, 0 < (L i i).val) ∧ PosDefN n (gram n L) ∧ Close n M (gram n L) := by
  obtain ⟨_, h2, h3⟩ := chol_fl_inv n M n le_rfl n le_rfl L h (fun j _ i hji hi => hfin i hi j hji)
  refine ⟨h2, posDef_low h2 (fun i _ j _ => by rfl), fun i hi j hji => ?_⟩
  have hjn : j < n := by omega
  obtain ⟨h4, h5⟩ := h3 j hjn i hji hi
  refine ⟨h4, ?_⟩
  have e1 : gram n L i j = ∑ l ∈ range (j + 1), (L i l).val * (L j l).val :=
    low_sum (L := fun i j => (L i j).val) hjn hji
  have e2 : ∑ l ∈ range (j + 1), |(L i l).val| * |(L j l).val| ≤ Real.sqrt (gram n L i i * gram n L j j) := by
    rw [Real.sqrt_mul (gram_diag_nonneg L)]
    refine le_trans (le_of_eq ?_) (gram_abs L)
    have : ∀ a b, |lowVal L a b| = low (fun i j => |(L i j).val|) a b := by
      intro a b
      unfold lowVal low
      split_ifs <;> simp
    simp only [this]
    exact (low_sum (L := fun i j => |(L i j).val|) hjn hji).symm
  rw [e1, abs_sub_comm]
  refine h5.trans ?_
  unfold cholBound
  have hd := diag_le_sqrt hjn L
  rw [abs_of_pos (h2 j hjn)] at hd
  have he := eta_pos (F := F)
  have hr := relErr_nonneg (F := F) (n := n)
  have : qf F ^ (n + 2) = 1 + relErr F n := by unfold relErr; ring
  rw [this]
  have a := mul_le_mul_of_nonneg_left e2 hr
  have b := mul_le_mul_of_nonneg_left hd (show 0 ≤ (1 + relErr F n) * eta F by positivity)
  nlinarith

/-- **C78, base solver.** After any history, if `solve` does not return NON_POS_HESSIAN and leaves finite numbers in the lower triangle of
the user's matrix, then that triangle `L` has a positive diagonal and `L Lᵀ` is a positive definite matrix within the rounding errors of
the matrix given by the user. -/
theorem C78_accepted_hessian (cs : List (Call (Fl F) (Fl F))) (h : ∀ c ∈ cs, CallOk c) {o : Opts (Fl F)} {pb : Pb (Fl F) (Fl F)} {s : State (Fl F)}
    (hs : calls cs (State.empty : State (Fl F)) = .ok s) {t s'} (hr : solve o pb s = .ok (t, s')) (ht : t ≠ .nonPosHessian)
    (hfin : ∀ i < pb.n, ∀ j ≤ i, (s'.G i j).Finite) :
    (∀ i < pb.n, 0 < (s'.G i i).val) ∧ PosDefN pb.n (gram pb.n s'.G) ∧ Close pb.n pb.G (gram pb.n s'.G) := by
  obtain ⟨s1, h1, hi⟩ := calls_inv cs h
  rw [hs] at h1
  cases h1
  obtain ⟨h2, h3⟩ := solve_chol hi hr
  have hc : cholOk pb := by by_contra hc; exact ht (h3.2 hc)
  exact chol_close (Prod.ext h2.symm hc) hfin

/-- **C78, warm-started solver.** -/
theorem C78_warm_accepted_hessian (cs : List (XCall (Fl F) (Fl F))) (h : ∀ c ∈ cs, c.Admissible) {o : Opts (Fl F)} {pb : Pb (Fl F) (Fl F)}
    {as : List Status} (ha : ArgOk o pb as) {xs : XState (Fl F)} (hx : xcalls cs (XState.empty : XState (Fl F)) = .ok xs) {t xs'}
    (hr : xsolve o pb as xs = .ok (t, xs')) (ht : t ≠ .nonPosHessian) (ht' : t ≠ .overconstrainedProblem)
    (hfin : ∀ i < pb.n, ∀ j ≤ i, (xs'.s.G i j).Finite) :
    (∀ i < pb.n, 0 < (xs'.s.G i i).val) ∧ PosDefN pb.n (gram pb.n xs'.s.G) ∧ Close pb.n pb.G (gram pb.n xs'.s.G) := by
  obtain ⟨ys, h1, h2⟩ := C37_no_fault cs h
  rw [hx] at h1
  cases h1
  obtain ⟨h2, h3⟩ := xsolve_chol h2 ha hr ht'
  have hc : cholOk pb := by by_contra hc; exact ht (h3.2 hc)
  exact chol_close (Prod.ext h2.symm hc) hfin

end Ieee
end JrlQp
