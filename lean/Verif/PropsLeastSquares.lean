import Verif.PropsAdaptorsGI

/-!
# C100: solving a least-squares problem, from its description to the answer
-/

namespace JrlQp

open NumOps Finset Spec

/-! ### Specification -/

/-- A separated least-squares problem with matrices and vectors of consistent sizes, a matrix `A` of full column rank, linearly independent
equality constraints and no fixed variable. -/
structure SepLs.Std (ls : SepLs) : Prop where
  ok : ls.cstr.WellFormed
  square : ls.cost.A.cols = ls.cstr.nvar
  proper : ∀ i < ls.cstr.xl.size, ls.cstr.xl.at' i ≠ ⊤ ∧ ls.cstr.xu.at' i ≠ ⊥
  noFixed : ∀ i < ls.cstr.xl.size, ls.cstr.xl.at' i ≠ ls.cstr.xu.at' i
  rank : ∀ v : Nat → ℝ, (∀ k < ls.cost.A.rows, ∑ j ∈ range ls.cost.A.cols, ls.cost.A.at' k j * v j = 0) → ∀ j < ls.cost.A.cols, v j = 0
  indep : ∀ c : Nat → ℝ, (∀ k < ls.cstr.nvar, ∑ i ∈ range ls.cstr.f.size, c i * ls.cstr.E.rowAt ls.cstr.tr i k = 0) →
    ∀ i < ls.cstr.f.size, c i = 0

/-! ### Proofs -/

theorem ofLs_posDef (ls : LsCost) (n : Nat) (hn : ls.A.cols = n)
    (hr : ∀ v : Nat → ℝ, (∀ k < ls.A.rows, ∑ j ∈ range ls.A.cols, ls.A.at' k j * v j = 0) → ∀ j < ls.A.cols, v j = 0) :
    (Matrix.of fun i j : Fin n => (QpCost.ofLs ls).G.at' i j).PosDef := by
  subst hn
  have hsl : symLow (QpCost.ofLs ls).G.at' = (QpCost.ofLs ls).G.at' := by
    funext i j
    unfold symLow
    split
    · rfl
    · show sumTo _ _ = sumTo _ _
      congr 1
      funext k
      ring
  rw [← hsl]
  refine (posDefN_iff ls.A.cols _).1 fun v ⟨i, hi, hv⟩ => ?_
  rw [hsl, ofLs_quad]
  refine lt_of_le_of_ne (sum_nonneg fun k _ => sq_nonneg _) fun h0 => hv (hr v (fun k hk => ?_) i hi)
  exact pow_eq_zero_iff (two_ne_zero) |>.1 ((sum_eq_zero_iff_of_nonneg fun k _ => sq_nonneg _).1 h0.symm k (mem_range.2 hk))

theorem SepLs.Std.std {ls : SepLs} (h : ls.Std) : (SepQp.ofSepLs ls).Std := by
  have hok : (SepQp.ofSepLs ls).Ok := ⟨h.ok, h.square⟩
  refine ⟨hok, h.proper, ⟨h.square, h.square⟩, ?_, ofLs_posDef ls.cost _ h.square h.rank, h.noFixed, ?_⟩
  · show SymMx ls.cstr.nvar (QpCost.ofLs ls.cost).G
    rw [← h.square]; exact (C33_ls_convex ls.cost).1
  · intro c hc
    rw [hok.me_f] at hc ⊢
    exact h.indep c hc

/-- **C100.** A least-squares problem of full column rank with separated constraints (independent equalities, no fixed variable), converted to
a quadratic program, then to the format of the solver: with small thresholds and enough iterations, after any legal history, `solve` returns
`SUCCESS` if some point satisfies the constraints, and then its solution is the one minimiser of `½ ‖A x - b‖²` over them, the minimum being
`objectiveValue() + ½ ‖b‖²`; it returns `INFEASIBLE` otherwise. -/
theorem C100_least_squares (ls : SepLs) (h : ls.Std) :
    ∃ ε > 0, ∃ β : ℝ, ∀ o, Fine ε β (GIPb.of (SepQp.ofSepLs ls)).args o → ∀ t s', Solves o (GIPb.of (SepQp.ofSepLs ls)).args t s' →
      ((∃ y, ls.cstr.Holds y) ∧ t = .success ∧ IsMin ls.cstr.Holds ls.cost.value s'.x ∧
        ls.cost.value s'.x = s'.f + 1 / 2 * ∑ k ∈ range ls.cost.A.rows, ls.cost.b.at' k ^ 2 ∧
        ∀ y, IsMin ls.cstr.Holds ls.cost.value y → ∀ i < ls.cstr.nvar, y i = s'.x i) ∨
      ((¬ ∃ y, ls.cstr.Holds y) ∧ t = .infeasible) := by
  obtain ⟨ε, hε, β, hh⟩ := C65_gi_solves _ h.std
  refine ⟨ε, hε, β, fun o ho t s' hs => ?_⟩
  rcases hh o ho t s' hs with ⟨h1, h2, h3, h4, h5⟩ | h1
  · refine Or.inl ⟨h1, h2, ((C33_solutions _).2.2.1 ls).1 h3, ?_, fun y hy => h5 y (((C33_solutions y).2.2.1 ls).2 hy)⟩
    rw [C33_ls_objective]
    have e : (QpCost.ofLs ls.cost).value s'.x = s'.f + 0 := h4
    rw [e, add_zero]
  · exact Or.inr h1

/-- **C100, exact data.** When some point satisfying the constraints also satisfies `A x = b`, `solve` returns `SUCCESS` with that point. -/
theorem C100_recovery (ls : SepLs) (h : ls.Std) {x0 : Nat → ℝ} (h0 : ls.cstr.Holds x0)
    (hb : ∀ k < ls.cost.A.rows, ∑ j ∈ range ls.cost.A.cols, ls.cost.A.at' k j * x0 j = ls.cost.b.at' k) :
    ∃ ε > 0, ∃ β : ℝ, ∀ o, Fine ε β (GIPb.of (SepQp.ofSepLs ls)).args o → ∀ t s', Solves o (GIPb.of (SepQp.ofSepLs ls)).args t s' →
      t = .success ∧ ∀ i < ls.cstr.nvar, s'.x i = x0 i := by
  obtain ⟨ε, hε, β, hh⟩ := C100_least_squares ls h
  refine ⟨ε, hε, β, fun o ho t s' hs => ?_⟩
  rcases hh o ho t s' hs with ⟨_, h2, _, _, h5⟩ | h1
  · refine ⟨h2, fun i hi => (h5 x0 ⟨h0, fun y _ => ?_⟩ i hi).symm⟩
    have e : ls.cost.value x0 = 0 := by
      unfold LsCost.value
      rw [sum_eq_zero fun k hk => ?_, mul_zero]
      rw [hb k (mem_range.1 hk)]; ring
    rw [e]
    unfold LsCost.value
    exact mul_nonneg (by norm_num) (sum_nonneg fun k _ => sq_nonneg _)
  · exact absurd ⟨x0, h0⟩ h1.1

/-! ### Example -/

/-- Minimise `½ ((x - 2)² + (y - 1)² + (x + y)²)` subject to `x + y = 1`, `2x - y ≤ 3`, `-1 ≤ x`. -/
noncomputable def exSepLs (tr : Bool) (b : Nat → ℝ) : SepLs where
  cstr := (exSep tr).cstr
  cost := ⟨⟨3, 2, fun k j => if k = 2 then 1 else if k = j then 1 else 0⟩, ⟨3, b⟩⟩

/-- The hypotheses of the C100 theorems are met, for both storages and any right-hand side; for one of them, there is an exact solution. -/
theorem C100_hypotheses_met (tr : Bool) : (∀ b, (exSepLs tr b).Std ∧ ∃ y, (exSepLs tr b).cstr.Holds y) ∧
    ∃ b x0, (exSepLs tr b).cstr.Holds x0 ∧ ∀ k < (exSepLs tr b).cost.A.rows,
      ∑ j ∈ range (exSepLs tr b).cost.A.cols, (exSepLs tr b).cost.A.at' k j * x0 j = (exSepLs tr b).cost.b.at' k := by
  obtain ⟨hs, y, hy⟩ := C65_hypotheses_met tr
  refine ⟨fun b => ⟨⟨hs.ok.cstr, ?_, hs.proper, hs.noFixed, ?_, ?_⟩, y, hy⟩, fun k => if k = 2 then y 0 + y 1 else y k, y, hy, ?_⟩
  · cases tr <;> rfl
  · intro v hv j hj
    have h0 := hv 0 (by decide : 0 < 3)
    have h1 := hv 1 (by decide : 1 < 3)
    simp [exSepLs, sum_range_succ] at h0 h1
    have hj : j < 2 := hj
    interval_cases j
    · exact h0
    · exact h1
  · intro c hc
    have hi := hs.indep c
    rw [hs.ok.me_f] at hi
    exact hi hc
  · intro k hk
    have hk : k < 3 := hk
    interval_cases k <;> simp [exSepLs, sum_range_succ]

end JrlQp
