import Verif.ExactThreshold
import Verif.PropsKkt
import Mathlib.Data.Real.StarOrdered

/-!
# The solver and the KKT checker agree (C50)
-/

namespace JrlQp

open NumOps Finset Spec

/-- **C50.** In exact arithmetic: for a symmetric positive definite `G`, finite or infinite bounds that do not cross, equality constraints first
and linearly independent, and thresholds small (`tiny`) and large (`bigBnd`) enough, after any history of the solver: if the problem has a
feasible point and `maxIter` is large enough, `solve` returns `SUCCESS` and `testKKT` accepts `solution()` and `multipliers()` for all
non-negative tolerances, in debug and release builds; and whenever `solve` does not return `SUCCESS` and does not reach `maxIter`, `testKKT`
with zero tolerances rejects all pairs. -/
theorem C50_checker_accepts (n : Nat) {G : Mx} {a : Vx ℝ} {c : Feas} (ha : a.size = n) (hGs : G.rows = n ∧ G.cols = n)
    (hC : (c.tr = false ∧ c.C.rows = c.l.size ∧ c.C.cols = n) ∨ (c.tr = true ∧ c.C.rows = n ∧ c.C.cols = c.l.size))
    (hbu : c.u.size = c.l.size) (hxl : c.xl.size = 0 ∨ c.xl.size = n) (hxu : c.xu.size = c.xl.size)
    (hsym : SymMx n G) (hpd : (Matrix.of fun i j : Fin n => G.at' i j).PosDef)
    (hp : Proper (qpOf n G a c)) (hx : NotCrossed (qpOf n G a c)) {e : Nat} (he : EqFirst (qpOf n G a c) e) (hind : EqIndep (qpOf n G a c)) :
    ∃ ε > 0, ∃ β : ℝ, ∀ o : Opts ℝ, 0 ≤ o.tiny → o.tiny < ε → β < o.bigBnd → (n + 1) * (7 ^ (c.l.size + c.xl.size) + 1) ≤ o.maxIter →
      ∀ cs : List (Call ℝ EReal), (∀ c ∈ cs, c.Admissible) →
      ∃ s t s', calls cs (State.empty : State ℝ) = .ok s ∧ solve o (qpOf n G a c) s = .ok (t, s') ∧
        ((∃ y, Feasible (qpOf n G a c) y) → t = .success ∧ ∀ dbg τp τd, 0 ≤ τp → 0 ≤ τd →
          testKKT dbg ⟨n, s'.x⟩ ⟨c.l.size + c.xl.size, (multipliers s').u⟩ G a c τp τd = .ok true) ∧
        (t ≠ .success → ∀ dbg y v, testKKT dbg ⟨n, y⟩ ⟨c.l.size + c.xl.size, v⟩ G a c 0 0 = .ok false) := by
  have hdims : ∀ y v, KktDims ⟨n, y⟩ ⟨c.l.size + c.xl.size, v⟩ G a c := fun y v =>
    ⟨ha.symm, ⟨hGs.1.trans ha.symm, hGs.2.trans ha.symm⟩, ⟨rfl, hC, hbu, hxl, hxu⟩⟩
  have hnb : (qpOf n G a c).nb = c.xl.size := by
    show (if decide (c.xl.size ≠ 0) = true then n else 0) = _
    rcases hxl with h | h
    · rw [h]; simp
    · rw [h]; by_cases h0 : n = 0
      · simp [h0]
      · simp [h0]
  have hpd' : (Matrix.of fun i j : Fin (qpOf n G a c).n => hess (qpOf n G a c) i j).PosDef := by
    have e : (fun i j : Fin (qpOf n G a c).n => hess (qpOf n G a c) i j) = fun i j : Fin n => G.at' i j := by
      funext i j
      show (if (j : Nat) ≤ i then G.at' i j else G.at' j i) = _
      split_ifs
      · rfl
      · exact hsym _ j.2 _ i.2
    rw [e]; exact hpd
  obtain ⟨ε, hε, β, h⟩ := exists_thresholds hp hx hpd' he hind
  refine ⟨ε, hε, β, fun o h0 h1 h2 h3 cs hcs => ?_⟩
  obtain ⟨s, t, s', g1, g2, g3, g4, g5, g6, _⟩ := h o h0 h1 h2 cs hcs
  have hmax : t ≠ .maxIterReached := fun ht => by
    have h := g6 ht
    rw [hnb] at h
    change o.maxIter < (n + 1) * (7 ^ (c.l.size + c.xl.size) + 1) at h
    omega
  refine ⟨s, t, s', g1, g2, fun hf => ?_, fun hne dbg y v => ?_⟩
  · have ht : t = .success := by
      rcases g3 with h | h | h
      · exact h
      · exact absurd hf (g5 h)
      · exact absurd h hmax
    refine ⟨ht, fun dbg τp τd hτp hτd => ?_⟩
    exact C32_monotone (hdims _ _) hsym hx le_rfl le_rfl hτp hτd ((C32_zero_tolerance (hdims _ _) hsym hx).2 (g4 ht).2)
  · have ht : t = .infeasible := by
      rcases g3 with h | h | h
      · exact absurd h hne
      · exact h
      · exact absurd h hmax
    obtain ⟨b, hb⟩ := C32_answers (τp := 0) (τd := 0) (hdims y v)
    rw [hb dbg]
    cases b with
    | false => rfl
    | true =>
      exfalso
      exact g5 ht ⟨y, ((C32_zero_tolerance (hdims y v) hsym hx).1 (hb dbg)).feasible⟩

/-- `x + y = 1`, `0 ≤ x ≤ 2`, `0 ≤ y ≤ 2`. -/
noncomputable def pipeC : Feas := ⟨⟨1, 2, fun _ _ => 1⟩, ⟨1, fun _ => ((1 : ℝ) : EReal)⟩, ⟨1, fun _ => ((1 : ℝ) : EReal)⟩,
    ⟨2, fun _ => ((0 : ℝ) : EReal)⟩, ⟨2, fun _ => ((2 : ℝ) : EReal)⟩, false⟩

/-- `½(x² + y²) - x - 2y` subject to `pipeC`. -/
noncomputable def pipePb : Pb ℝ EReal := qpOf 2 ⟨2, 2, fun i j => if i = j then 1 else 0⟩ ⟨2, fun i => if i = 0 then -1 else -2⟩ pipeC

theorem pipe_first : EqFirst pipePb 1 := by
  refine ⟨by simp [pipePb, qpOf, pipeC], fun i hi => ?_⟩
  have hi : i < 3 := hi
  have h02 : ((0 : ℝ) : EReal) ≠ ((2 : ℝ) : EReal) := by
    intro h; rw [EReal.coe_eq_coe_iff] at h; norm_num at h
  have hb : ∀ j, 0 < j → isEqB pipePb j = false := by
    intro j hj
    unfold isEqB
    have hm : pipePb.m = 1 := rfl
    rw [if_neg (by rw [hm]; omega)]
    exact decide_eq_false h02
  have h0 : isEqB pipePb 0 = true := by
    unfold isEqB
    have hm : pipePb.m = 1 := rfl
    rw [if_pos (by rw [hm]; omega)]
    exact decide_eq_true rfl
  rcases Nat.eq_zero_or_pos i with rfl | h
  · simp [h0]
  · simp only [hb i h]; constructor
    · intro h; cases h
    · intro h; omega

theorem isEqB_of_idx {pb : Pb ℝ EReal} {i : Nat} (h : IsEqIdx pb i) : isEqB pb i = true := by
  unfold isEqB
  rcases h with ⟨h1, h2⟩ | ⟨h1, h2⟩
  · rw [if_pos h1, h2]; simp [bEq]
  · rw [if_neg (by omega), h2]; simp [bEq]

/-- The hypotheses of `C50_checker_accepts` are met, by a feasible problem with an equality constraint, bounds, and solution `(0, 1)`. -/
theorem C50_hypotheses_met : ∃ (o : Opts ℝ) (s' : State ℝ), 0 < o.tiny ∧ solve o pipePb State.empty = .ok (.success, s') ∧
    testKKT true ⟨2, s'.x⟩ ⟨3, (multipliers s').u⟩ ⟨2, 2, fun i j => if i = j then 1 else 0⟩ ⟨2, fun i => if i = 0 then -1 else -2⟩ pipeC
      0 0 = .ok true := by
  have h := C50_checker_accepts 2 (G := ⟨2, 2, fun i j => if i = j then 1 else 0⟩) (a := ⟨2, fun i => if i = 0 then -1 else -2⟩)
    (c := pipeC) rfl ⟨rfl, rfl⟩ (Or.inl ⟨rfl, rfl, rfl⟩) rfl (Or.inr rfl) rfl (fun i _ j _ => by simp [eq_comm])
    (by
      have e : (Matrix.of fun i j : Fin 2 => (if (i : Nat) = j then (1 : ℝ) else 0)) = 1 := by
        ext i j
        simp [Matrix.one_apply, Fin.ext_iff]
      show (Matrix.of fun i j : Fin 2 => (if (i : Nat) = j then (1 : ℝ) else 0)).PosDef
      rw [e]; exact Matrix.PosDef.one)
    ⟨fun _ _ => EReal.coe_ne_top _, fun _ _ => EReal.coe_ne_bot _, fun _ _ _ => EReal.coe_ne_top _, fun _ _ _ => EReal.coe_ne_bot _⟩
    ⟨fun _ _ => le_rfl, fun _ _ _ => by simp only [qpOf, pipeC]; exact_mod_cast zero_le_two⟩ (e := 1) pipe_first
    (by
      intro c hc hs i
      by_cases hi : i < 1
      · have : i = 0 := by omega
        subst this
        have h1 : ∀ j, 0 < j → c j = 0 := fun j hj => hc j fun hh => by
          have := (pipe_first.2 j hh.1).1 (isEqB_of_idx hh.2)
          omega
        have := hs 0 (by simp [qpOf])
        rw [Finset.sum_eq_single 0] at this
        · simpa [grad, qpOf, pipeC] using this
        · intro b _ hb
          rw [h1 b (by omega), zero_mul]
        · intro hn; simp [qpOf, pipeC] at hn
      · refine hc i fun hh => hi ?_
        exact (pipe_first.2 i hh.1).1 (isEqB_of_idx hh.2))
  obtain ⟨ε, hε, β, h⟩ := h
  obtain ⟨s, t, s', h1, h2, h3, _⟩ := h ⟨3 * (7 ^ 3 + 1), β + 1, false, ε / 2, false⟩ (half_pos hε).le (by simpa using half_lt_self hε)
    (by simp) le_rfl [] (by simp)
  cases h1
  obtain ⟨rfl, h4⟩ := h3 ⟨fun i => if i = 0 then 0 else 1, fun i hi => by
      simp [row, qpOf, pipeC, Finset.sum_range_succ], fun _ i hi => by
      simp only [qpOf, pipeC]
      constructor
      · split_ifs <;> exact_mod_cast (by norm_num)
      · split_ifs <;> exact_mod_cast (by norm_num)⟩
  exact ⟨_, s', half_pos hε, h2, h4 true 0 0 le_rfl le_rfl⟩

end JrlQp
