import Verif.Problems
import Verif.Spec
import Verif.ExactDual
import Verif.EvalKit
import Mathlib.Tactic.Positivity

/-!
# C32: the Karush-Kuhn-Tucker checker
-/

namespace JrlQp

open Finset Spec

/-! ### Specification -/

/-- The quadratic program `min ½ x'Gx + a'x s.t. l ≤ Cx ≤ u (or C'x), xl ≤ x ≤ xu` on which `testKKT` is called, with `n` variables. -/
def qpOf (n : Nat) (G : Mx) (a : Vx ℝ) (c : Feas) : Pb ℝ EReal where
  n := n
  m := c.l.size
  useBnd := decide (c.xl.size ≠ 0)
  G := G.at'
  a := a.at'
  C := fun k i => if c.tr then c.C.at' k i else c.C.at' i k
  bl := c.l.at'
  bu := c.u.at'
  xl := c.xl.at'
  xu := c.xu.at'

/-- `G` is symmetric, as the Hessian matrix of a quadratic function is. -/
def SymMx (n : Nat) (G : Mx) : Prop := ∀ i < n, ∀ j < n, G.at' i j = G.at' j i

/-- `x'Gx ≥ 0` for all `x`: the objective is convex. -/
def PsdMx (n : Nat) (G : Mx) : Prop := ∀ x : Nat → ℝ, 0 ≤ ∑ i ∈ range n, ∑ j ∈ range n, x i * G.at' i j * x j

/-! ### Lemmas -/

theorem foldl_max_le (f : Nat → ℝ) (τ : ℝ) : ∀ (l : List Nat) (b : ℝ),
    l.foldl (fun m i => max m (f i)) b ≤ τ ↔ b ≤ τ ∧ ∀ i ∈ l, f i ≤ τ := by
  intro l
  induction l with
  | nil => intro b; simp
  | cons a l ih => intro b; rw [List.foldl_cons, ih]; simp [and_assoc]

theorem normInf_le (v : Vx ℝ) (τ : ℝ) : normInf v ≤ τ ↔ 0 ≤ τ ∧ ∀ i < v.size, |v.at' i| ≤ τ := by
  rw [normInf, foldl_max_le]
  simp

theorem normInf_nonneg (v : Vx ℝ) : 0 ≤ normInf v := ((normInf_le v (normInf v)).1 le_rfl).1

theorem eabs_le (v : EReal) (τ : ℝ) : eabs v ≤ (τ : EReal) ↔ ((-τ : ℝ) : EReal) ≤ v ∧ v ≤ (τ : EReal) := by
  rw [eabs, max_le_iff, EReal.neg_le, EReal.coe_neg, and_comm]

theorem sub_le_iff (cx τ : ℝ) (b : EReal) : (cx : EReal) - b ≤ (τ : EReal) ↔ ((cx - τ : ℝ) : EReal) ≤ b := by
  induction b with
  | bot => simp [-EReal.coe_sub, -EReal.coe_add]
  | top => simp [-EReal.coe_sub, -EReal.coe_add]
  | coe r => rw [← EReal.coe_sub, EReal.coe_le_coe_iff, EReal.coe_le_coe_iff]; constructor <;> intro h <;> linarith

theorem le_sub_iff' (cx τ : ℝ) (b : EReal) : ((-τ : ℝ) : EReal) ≤ (cx : EReal) - b ↔ b ≤ ((cx + τ : ℝ) : EReal) := by
  induction b with
  | bot => simp [-EReal.coe_sub, -EReal.coe_add]
  | top => simp [-EReal.coe_sub, -EReal.coe_add]
  | coe r => rw [← EReal.coe_sub, EReal.coe_le_coe_iff, EReal.coe_le_coe_iff]; constructor <;> intro h <;> linarith

/-- The three cases of the test, with the infinite values resolved. -/
theorem check_iff (cx : ℝ) (bl bu : EReal) (u τx τu : ℝ) : checkKKTConstraint cx bl bu u τx τu = true ↔
    (((cx - τx : ℝ) : EReal) ≤ bl ∧ bl ≤ ((cx + τx : ℝ) : EReal) ∧ u ≤ -τu) ∨
    (bl ≤ ((cx + τx : ℝ) : EReal) ∧ ((cx - τx : ℝ) : EReal) ≤ bu ∧ |u| ≤ τu) ∨
    (((cx - τx : ℝ) : EReal) ≤ bu ∧ bu ≤ ((cx + τx : ℝ) : EReal) ∧ τu ≤ u) := by
  simp only [checkKKTConstraint, Bool.or_eq_true, Bool.and_eq_true, decide_eq_true_eq, eabs_le, sub_le_iff, le_sub_iff']
  tauto

theorem check_mono {cx : ℝ} {bl bu : EReal} (hb : bl ≤ bu) {u τx τu τx' τu' : ℝ} (h0 : 0 ≤ τx) (h0' : 0 ≤ τu) (h1 : τx ≤ τx')
    (h2 : τu ≤ τu') (h : checkKKTConstraint cx bl bu u τx τu = true) : checkKKTConstraint cx bl bu u τx' τu' = true := by
  rw [check_iff] at h ⊢
  have e1 : ((cx - τx' : ℝ) : EReal) ≤ ((cx - τx : ℝ) : EReal) := by rw [EReal.coe_le_coe_iff]; linarith
  have e2 : ((cx + τx : ℝ) : EReal) ≤ ((cx + τx' : ℝ) : EReal) := by rw [EReal.coe_le_coe_iff]; linarith
  rcases h with ⟨a, b, c⟩ | ⟨a, b, c⟩ | ⟨a, b, c⟩
  · by_cases hu : u ≤ -τu'
    · exact Or.inl ⟨e1.trans a, b.trans e2, hu⟩
    · exact Or.inr (Or.inl ⟨b.trans e2, (e1.trans a).trans hb, abs_le.2 ⟨by linarith, by linarith⟩⟩)
  · exact Or.inr (Or.inl ⟨a.trans e2, e1.trans b, c.trans h2⟩)
  · by_cases hu : τu' ≤ u
    · exact Or.inr (Or.inr ⟨e1.trans a, b.trans e2, hu⟩)
    · exact Or.inr (Or.inl ⟨(hb.trans b).trans e2, e1.trans a, abs_le.2 ⟨by linarith, by linarith⟩⟩)

theorem check_zero {cx : ℝ} {bl bu : EReal} (hb : bl ≤ bu) {u : ℝ} : checkKKTConstraint cx bl bu u 0 0 = true ↔
    (bl ≤ (cx : EReal) ∧ (cx : EReal) ≤ bu) ∧ (u < 0 → (cx : EReal) = bl) ∧ (0 < u → (cx : EReal) = bu) := by
  rw [check_iff]
  simp only [sub_zero, add_zero, neg_zero, abs_nonpos_iff]
  constructor
  · rintro (⟨a, b, c⟩ | ⟨a, b, c⟩ | ⟨a, b, c⟩)
    · exact ⟨⟨b, a.trans hb⟩, fun _ => le_antisymm a b, fun h => absurd h (not_lt.2 c)⟩
    · subst c; exact ⟨⟨a, b⟩, fun h => absurd h (lt_irrefl _), fun h => absurd h (lt_irrefl _)⟩
    · exact ⟨⟨hb.trans b, a⟩, fun h => absurd h (not_lt.2 c), fun _ => le_antisymm a b⟩
  · rintro ⟨⟨a, b⟩, h1, h2⟩
    rcases lt_trichotomy u 0 with h | h | h
    · exact Or.inl ⟨(h1 h).le, a, h.le⟩
    · exact Or.inr (Or.inl ⟨a, b, h⟩)
    · exact Or.inr (Or.inr ⟨b, (h2 h).ge, h.le⟩)

/-- What an accepted constraint satisfies, for any tolerances. -/
theorem check_sound {cx : ℝ} {bl bu : EReal} (hb : bl ≤ bu) {u τx τu : ℝ} (h : checkKKTConstraint cx bl bu u τx τu = true) :
    (bl ≤ ((cx + τx : ℝ) : EReal) ∧ ((cx - τx : ℝ) : EReal) ≤ bu) ∧ (u < -τu → ((cx - τx : ℝ) : EReal) ≤ bl ∨ τu ≤ u) ∧
      (τu < u → bu ≤ ((cx + τx : ℝ) : EReal) ∨ u ≤ -τu) := by
  rw [check_iff] at h
  rcases h with ⟨a, b, c⟩ | ⟨a, b, c⟩ | ⟨a, b, c⟩
  · exact ⟨⟨b, a.trans hb⟩, fun _ => Or.inl a, fun _ => Or.inr c⟩
  · exact ⟨⟨a, b⟩, fun h => absurd h (not_lt.2 (abs_le.1 c).1), fun h => absurd h (not_lt.2 (abs_le.1 c).2)⟩
  · exact ⟨⟨hb.trans b, a⟩, fun _ => Or.inr c, fun _ => Or.inl b⟩

section

variable {dbg : Bool} {x u : Vx ℝ} {G : Mx} {a : Vx ℝ} {c : Feas} {τp τd : ℝ}

theorem row_nrm (n : Nat) (y : Nat → ℝ) (i : Nat) :
    sumTo (fun k => c.nrm k i * y k) n = row (qpOf n G a c) y i := sumTo_eq _ _

/-- Acceptance by `testKKTFeasibility`. -/
theorem feas_iff (hd : FeasDims x u c) : testKKTFeasibility dbg x u c τp τd = .ok true ↔
    (∀ i < c.l.size, checkKKTConstraint (row (qpOf x.size G a c) x.at' i) (c.l.at' i) (c.u.at' i) (u.at' i)
      (τp * (1 + normInf x)) (τd * (1 + normInf u)) = true) ∧
    (c.xl.size ≠ 0 → ∀ i < x.size, checkKKTConstraint (x.at' i) (c.xl.at' i) (c.xu.at' i) (u.at' (c.l.size + i))
      (τp * (1 + normInf x)) (τd * (1 + normInf u)) = true) := by
  unfold testKKTFeasibility
  rw [if_pos hd]
  simp only [Except.ok.injEq, Bool.and_eq_true, List.all_eq_true, List.mem_range, row_nrm (G := G) (a := a)]
  refine and_congr Iff.rfl ⟨fun h _ i hi => ?_, fun h i hi => ?_⟩
  · refine h i ?_
    rcases hd.xl_size with h0 | h0 <;> omega
  · refine h (by omega) i ?_
    rcases hd.xl_size with h0 | h0 <;> omega

/-- Acceptance by `testKKTStationarity`. -/
theorem stat_iff (hd : KktDims x u G a c) (hG : SymMx x.size G) : testKKTStationarity dbg x u G a c τd = .ok true ↔
    0 ≤ τd * (1 + normInf u) ∧ ∀ k < x.size, |∑ b ∈ range x.size, hess (qpOf x.size G a c) k b * x.at' b + a.at' k
      + ∑ i ∈ range c.l.size, u.at' i * (qpOf x.size G a c).C k i
      + (if (qpOf x.size G a c).useBnd then u.at' (c.l.size + k) else 0)| ≤ τd * (1 + normInf u) := by
  unfold testKKTStationarity
  rw [if_pos hd]
  simp only [Except.ok.injEq, decide_eq_true_eq, normInf_le]
  refine and_congr Iff.rfl (forall₂_congr fun k hk => ?_)
  have e1 : sumTo (fun j => G.at' k j * x.at' j) x.size = ∑ b ∈ range x.size, hess (qpOf x.size G a c) k b * x.at' b := by
    rw [sumTo_eq]
    refine Finset.sum_congr rfl fun b hb => ?_
    rw [hess]
    split
    · rfl
    · rw [hG k hk b (mem_range.1 hb)]; rfl
  have e2 : sumTo (fun i => c.nrm k i * u.at' i) c.l.size = ∑ i ∈ range c.l.size, u.at' i * (qpOf x.size G a c).C k i := by
    rw [sumTo_eq]
    exact Finset.sum_congr rfl fun i _ => mul_comm _ _
  have e3 : (if (qpOf x.size G a c).useBnd then u.at' (c.l.size + k) else 0) = if c.xl.size ≠ 0 then u.at' (c.l.size + k) else 0 := by
    simp [qpOf]
  rw [e1, e2, e3, add_right_comm]

theorem testKKT_iff : testKKT dbg x u G a c τp τd = .ok true ↔
    testKKTStationarity dbg x u G a c τd = .ok true ∧ testKKTFeasibility dbg x u c τp τd = .ok true := by
  unfold testKKT
  cases testKKTStationarity dbg x u G a c τd with
  | error e => simp [bind, Except.bind]
  | ok b1 =>
    cases testKKTFeasibility dbg x u c τp τd with
    | error e => simp [bind, Except.bind]
    | ok b2 => simp [bind, Except.bind, pure, Except.pure]

/-- **C32, what each tolerance is for.** `testKKT` on a `QPProblem` accepts `(x, u)` iff the gradient of the Lagrangian is at most
`τd (1 + ‖u‖)` and each constraint and bound is in one of three cases: at its lower bound with a multiplier at most `-τd (1 + ‖u‖)`,
between its bounds with a multiplier at most `τd (1 + ‖u‖)` in absolute value, or at its upper bound with a multiplier at least
`τd (1 + ‖u‖)`, all bounds being tested up to `τp (1 + ‖x‖)`. -/
theorem C32_overload {qp : Qp} (hd : KktDims x u qp.cost.G qp.cost.a qp.cstr) (hG : SymMx x.size qp.cost.G) :
    testKKTqp dbg x u qp τp τd = .ok true ↔
      ∃ τx τu, τx = τp * (1 + normInf x) ∧ τu = τd * (1 + normInf u) ∧ 0 ≤ τu ∧
        (∀ k < x.size, |∑ b ∈ range x.size, hess (qpOf x.size qp.cost.G qp.cost.a qp.cstr) k b * x.at' b + qp.cost.a.at' k
          + ∑ i ∈ range qp.cstr.l.size, u.at' i * (qpOf x.size qp.cost.G qp.cost.a qp.cstr).C k i
          + (if (qpOf x.size qp.cost.G qp.cost.a qp.cstr).useBnd then u.at' (qp.cstr.l.size + k) else 0)| ≤ τu) ∧
        ∀ v lo up w, ((∃ i < qp.cstr.l.size, v = row (qpOf x.size qp.cost.G qp.cost.a qp.cstr) x.at' i ∧ lo = qp.cstr.l.at' i ∧ up = qp.cstr.u.at' i ∧
              w = u.at' i) ∨
            (qp.cstr.xl.size ≠ 0 ∧ ∃ i < x.size, v = x.at' i ∧ lo = qp.cstr.xl.at' i ∧ up = qp.cstr.xu.at' i ∧ w = u.at' (qp.cstr.l.size + i))) →
          (((v - τx : ℝ) : EReal) ≤ lo ∧ lo ≤ ((v + τx : ℝ) : EReal) ∧ w ≤ -τu) ∨
          (lo ≤ ((v + τx : ℝ) : EReal) ∧ ((v - τx : ℝ) : EReal) ≤ up ∧ |w| ≤ τu) ∨
          (((v - τx : ℝ) : EReal) ≤ up ∧ up ≤ ((v + τx : ℝ) : EReal) ∧ τu ≤ w) := by
  unfold testKKTqp
  rw [testKKT_iff, stat_iff hd hG, feas_iff (G := qp.cost.G) (a := qp.cost.a) hd.feas]
  simp only [check_iff]
  constructor
  · rintro ⟨⟨h0, h1⟩, h2, h3⟩
    refine ⟨_, _, rfl, rfl, h0, h1, ?_⟩
    rintro v lo up w (⟨i, hi, rfl, rfl, rfl, rfl⟩ | ⟨hb, i, hi, rfl, rfl, rfl, rfl⟩)
    · exact h2 i hi
    · exact h3 hb i hi
  · rintro ⟨τx, τu, rfl, rfl, h0, h1, h2⟩
    exact ⟨⟨h0, h1⟩, fun i hi => h2 _ _ _ _ (.inl ⟨i, hi, rfl, rfl, rfl, rfl⟩), fun hb i hi => h2 _ _ _ _ (.inr ⟨hb, i, hi, rfl, rfl, rfl, rfl⟩)⟩

/-- **C32, zero tolerances.** On a problem with consistent sizes, a symmetric matrix `G` and bounds that do not cross, `testKKT`
with zero tolerances accepts `(x, u)` iff it satisfies the Karush-Kuhn-Tucker conditions of the problem. -/
theorem C32_zero_tolerance (hd : KktDims x u G a c) (hG : SymMx x.size G) (hc : NotCrossed (qpOf x.size G a c)) :
    testKKT dbg x u G a c 0 0 = .ok true ↔ KKT (qpOf x.size G a c) x.at' u.at' := by
  rw [testKKT_iff, stat_iff hd hG, feas_iff (G := G) (a := a) hd.feas]
  simp only [zero_mul]
  constructor
  · rintro ⟨⟨_, h1⟩, h2, h3⟩
    have h2' := fun i (hi : i < c.l.size) => (check_zero (hc.gen i hi)).1 (h2 i hi)
    have h3' := fun (hb : (qpOf x.size G a c).useBnd = true) i (hi : i < x.size) =>
      (check_zero (hc.bnd hb i hi)).1 (h3 (by simpa [qpOf] using hb) i hi)
    exact ⟨⟨fun i hi => (h2' i hi).1, fun hb i hi => (h3' hb i hi).1⟩, fun k hk => abs_nonpos_iff.1 (h1 k hk),
      fun i hi => (h2' i hi).2.1, fun i hi => (h2' i hi).2.2, fun hb i hi => (h3' hb i hi).2.1, fun hb i hi => (h3' hb i hi).2.2⟩
  · intro h
    refine ⟨⟨le_rfl, fun k hk => abs_nonpos_iff.2 (h.stationary k hk)⟩, fun i hi => ?_, fun hb i hi => ?_⟩
    · exact (check_zero (hc.gen i hi)).2 ⟨h.feasible.gen i hi, h.lower i hi, h.upper i hi⟩
    · have hb' : (qpOf x.size G a c).useBnd = true := by simpa [qpOf] using hb
      exact (check_zero (hc.bnd hb' i hi)).2 ⟨h.feasible.bnd hb' i hi, h.lowerBnd hb' i hi, h.upperBnd hb' i hi⟩

/-- **C32, monotonicity.** A larger tolerance never rejects what a smaller one accepts. -/
theorem C32_monotone (hd : KktDims x u G a c) (hG : SymMx x.size G) (hc : NotCrossed (qpOf x.size G a c)) {τp' τd' : ℝ}
    (h0 : 0 ≤ τp) (h0' : 0 ≤ τd) (h1 : τp ≤ τp') (h2 : τd ≤ τd') (h : testKKT dbg x u G a c τp τd = .ok true) :
    testKKT dbg x u G a c τp' τd' = .ok true := by
  rw [testKKT_iff, stat_iff hd hG, feas_iff (G := G) (a := a) hd.feas] at h ⊢
  have nx := normInf_nonneg x
  have nu := normInf_nonneg u
  have e1 : τp * (1 + normInf x) ≤ τp' * (1 + normInf x) := mul_le_mul_of_nonneg_right h1 (by linarith)
  have e2 : τd * (1 + normInf u) ≤ τd' * (1 + normInf u) := mul_le_mul_of_nonneg_right h2 (by linarith)
  have e3 : 0 ≤ τp * (1 + normInf x) := by positivity
  have e4 : 0 ≤ τd * (1 + normInf u) := by positivity
  obtain ⟨⟨_, g1⟩, g2, g3⟩ := h
  refine ⟨⟨e4.trans e2, fun k hk => (g1 k hk).trans e2⟩, fun i hi => ?_, fun hb i hi => ?_⟩
  · exact check_mono (hc.gen i hi) e3 e4 e1 e2 (g2 i hi)
  · exact check_mono (hc.bnd (by simpa [qpOf] using hb) i hi) e3 e4 e1 e2 (g3 hb i hi)

/-- Contribution of an accepted constraint to the optimality gap. -/
theorem check_term {cx : ℝ} {bl bu : EReal} {w τx τu v : ℝ} (h0 : 0 ≤ τx) (h0' : 0 ≤ τu)
    (h : checkKKTConstraint cx bl bu w τx τu = true) (h1 : bl ≤ (v : EReal)) (h2 : (v : EReal) ≤ bu) :
    w * (v - cx) ≤ |w| * τx + τu * |v - cx| := by
  rw [check_iff] at h
  have hp : 0 ≤ τu * |v - cx| := by positivity
  have hq : 0 ≤ |w| * τx := by positivity
  rcases h with ⟨a, _, c⟩ | ⟨_, _, c⟩ | ⟨_, b, c⟩
  · have : cx - τx ≤ v := by rw [← EReal.coe_le_coe_iff]; exact a.trans h1
    rw [abs_of_nonpos (by linarith : w ≤ 0)] at hq ⊢
    nlinarith
  · have := le_abs_self (w * (v - cx))
    rw [abs_mul] at this
    have := mul_le_mul_of_nonneg_right c (abs_nonneg (v - cx))
    linarith
  · have : v ≤ cx + τx := by rw [← EReal.coe_le_coe_iff]; exact h2.trans b
    rw [abs_of_nonneg (by linarith : 0 ≤ w)] at hq ⊢
    nlinarith

/-- **C32, what acceptance means for any tolerances.** Write `τx = τp (1 + ‖x‖∞)` and `τu = τd (1 + ‖u‖∞)`. If `testKKT` accepts
`(x, u)` then no constraint nor bound is violated by more than `τx` and, if the objective is convex, no feasible point
improves the objective by more than a term proportional to the tolerances. -/
theorem C32_approximate (hd : KktDims x u G a c) (hG : SymMx x.size G) (hc : NotCrossed (qpOf x.size G a c))
    (h0 : 0 ≤ τp) (h0' : 0 ≤ τd) (h : testKKT dbg x u G a c τp τd = .ok true) :
    ∀ τx τu, τx = τp * (1 + normInf x) → τu = τd * (1 + normInf u) →
    (∀ i < c.l.size, c.l.at' i ≤ ((row (qpOf x.size G a c) x.at' i + τx : ℝ) : EReal) ∧
      ((row (qpOf x.size G a c) x.at' i - τx : ℝ) : EReal) ≤ c.u.at' i) ∧
    (c.xl.size ≠ 0 → ∀ i < x.size, c.xl.at' i ≤ ((x.at' i + τx : ℝ) : EReal) ∧ ((x.at' i - τx : ℝ) : EReal) ≤ c.xu.at' i) ∧
    (PsdMx x.size G → ∀ y, Feasible (qpOf x.size G a c) y →
      obj (qpOf x.size G a c) x.at' ≤ obj (qpOf x.size G a c) y + τu * ∑ k ∈ range x.size, |y k - x.at' k| +
        ∑ i ∈ range c.l.size, (|u.at' i| * τx + τu * |row (qpOf x.size G a c) y i - row (qpOf x.size G a c) x.at' i|) +
        if c.xl.size ≠ 0 then ∑ k ∈ range x.size, (|u.at' (c.l.size + k)| * τx + τu * |y k - x.at' k|) else 0) := by
  intro τx τu hτx hτu
  rw [testKKT_iff, stat_iff hd hG, feas_iff (G := G) (a := a) hd.feas, ← hτx, ← hτu] at h
  obtain ⟨⟨_, g1⟩, g2, g3⟩ := h
  have p1 : 0 ≤ τx := by have := normInf_nonneg x; rw [hτx]; positivity
  have p2 : 0 ≤ τu := by have := normInf_nonneg u; rw [hτu]; positivity
  refine ⟨fun i hi => (check_sound (hc.gen i hi) (g2 i hi)).1, fun hb i hi => ?_, fun hP y hy => ?_⟩
  · exact (check_sound (hc.bnd (by simpa [qpOf] using hb) i hi) (g3 hb i hi)).1
  obtain ⟨P, hPdef⟩ : ∃ P, P = qpOf x.size G a c := ⟨_, rfl⟩
  have hPn : P.n = x.size := by rw [hPdef]; rfl
  have hPm : P.m = c.l.size := by rw [hPdef]; rfl
  have hPa : P.a = a.at' := by rw [hPdef]; rfl
  have hPu : P.useBnd = decide (c.xl.size ≠ 0) := by rw [hPdef]; rfl
  have hPg : ∀ i < c.l.size, c.l.at' i ≤ ((row P y i : ℝ) : EReal) ∧ ((row P y i : ℝ) : EReal) ≤ c.u.at' i := by
    rw [hPdef]; exact hy.gen
  have hPb : c.xl.size ≠ 0 → ∀ i < x.size, c.xl.at' i ≤ ((y i : ℝ) : EReal) ∧ ((y i : ℝ) : EReal) ≤ c.xu.at' i :=
    fun hb => hy.bnd (by simpa [qpOf] using hb)
  have hpsd : ∀ v : Nat → ℝ, 0 ≤ ∑ i ∈ range P.n, ∑ j ∈ range P.n, v i * hess P i j * v j := by
    intro v
    rw [hPn]
    refine le_of_le_of_eq (hP v) (Finset.sum_congr rfl fun i hi => Finset.sum_congr rfl fun j hj => ?_)
    rw [hPdef, hess]
    split
    · rfl
    · rw [hG i (mem_range.1 hi) j (mem_range.1 hj)]; rfl
  rw [← hPdef] at g1 g2 ⊢
  rw [obj_expand P x.at' y]
  have hq := hpsd (fun i => y i - x.at' i)
  obtain ⟨r, hr⟩ : ∃ r : Nat → ℝ, r = fun k => ∑ b ∈ range x.size, hess P k b * x.at' b + a.at' k +
    ∑ i ∈ range c.l.size, u.at' i * P.C k i + (if P.useBnd then u.at' (c.l.size + k) else 0) := ⟨_, rfl⟩
  have hr' : ∀ k < x.size, |r k| ≤ τu := by rw [hr]; exact g1
  have hrow : ∀ i, row P y i - row P x.at' i = ∑ k ∈ range x.size, P.C k i * (y k - x.at' k) := by
    intro i
    rw [row, row, hPn, ← Finset.sum_sub_distrib]
    exact Finset.sum_congr rfl fun k _ => by ring
  have hgrad : ∑ k ∈ range P.n, (∑ b ∈ range P.n, hess P k b * x.at' b + P.a k) * (y k - x.at' k) =
      ∑ k ∈ range x.size, r k * (y k - x.at' k) - ∑ i ∈ range c.l.size, u.at' i * (row P y i - row P x.at' i)
        - ∑ k ∈ range x.size, (if P.useBnd then u.at' (c.l.size + k) else 0) * (y k - x.at' k) := by
    have e : ∑ i ∈ range c.l.size, u.at' i * (row P y i - row P x.at' i) =
        ∑ k ∈ range x.size, (∑ i ∈ range c.l.size, u.at' i * P.C k i) * (y k - x.at' k) := by
      simp only [hrow, Finset.mul_sum, Finset.sum_mul]
      rw [Finset.sum_comm]
      exact Finset.sum_congr rfl fun k _ => Finset.sum_congr rfl fun i _ => by ring
    rw [e, ← Finset.sum_sub_distrib, ← Finset.sum_sub_distrib, hPn, hPa, hr]
    exact Finset.sum_congr rfl fun k _ => by ring
  have t1 : -(τu * ∑ k ∈ range x.size, |y k - x.at' k|) ≤ ∑ k ∈ range x.size, r k * (y k - x.at' k) := by
    rw [Finset.mul_sum, ← Finset.sum_neg_distrib]
    refine Finset.sum_le_sum fun k hk => ?_
    have h1 := neg_abs_le (r k * (y k - x.at' k))
    rw [abs_mul] at h1
    have h2 := mul_le_mul_of_nonneg_right (hr' k (mem_range.1 hk)) (abs_nonneg (y k - x.at' k))
    linarith
  have t2 : ∑ i ∈ range c.l.size, u.at' i * (row P y i - row P x.at' i) ≤
      ∑ i ∈ range c.l.size, (|u.at' i| * τx + τu * |row P y i - row P x.at' i|) :=
    Finset.sum_le_sum fun i hi => check_term p1 p2 (g2 i (mem_range.1 hi)) (hPg i (mem_range.1 hi)).1 (hPg i (mem_range.1 hi)).2
  have t3 : ∑ k ∈ range x.size, (if P.useBnd then u.at' (c.l.size + k) else 0) * (y k - x.at' k) ≤
      if c.xl.size ≠ 0 then ∑ k ∈ range x.size, (|u.at' (c.l.size + k)| * τx + τu * |y k - x.at' k|) else 0 := by
    rw [hPu]
    by_cases hb : c.xl.size ≠ 0
    · rw [if_pos hb]
      refine Finset.sum_le_sum fun k hk => ?_
      rw [if_pos (by simpa using hb)]
      exact check_term p1 p2 (g3 hb k (mem_range.1 hk)) (hPb hb k (mem_range.1 hk)).1 (hPb hb k (mem_range.1 hk)).2
    · rw [if_neg hb]
      simp [hb]
  rw [hgrad]
  linarith

/-- **C32, optimality.** With zero tolerances, on a convex problem, an accepted point is a global optimum. -/
theorem C32_optimal (hd : KktDims x u G a c) (hG : SymMx x.size G) (hc : NotCrossed (qpOf x.size G a c)) (hP : PsdMx x.size G)
    (h : testKKT dbg x u G a c 0 0 = .ok true) : IsOptimal (qpOf x.size G a c) x.at' := by
  refine ⟨((C32_zero_tolerance hd hG hc).1 h).feasible, fun y hy => ?_⟩
  have := (C32_approximate hd hG hc le_rfl le_rfl h 0 0 (by simp) (by simp)).2.2 hP y hy
  simpa using this

/-- **C32, sizes.** With consistent sizes the checker always answers, and a debug build answers as a release build. -/
theorem C32_answers (hd : KktDims x u G a c) : ∃ b, ∀ dbg, testKKT dbg x u G a c τp τd = .ok b := by
  have : ∀ dbg, ∃ b, testKKT dbg x u G a c τp τd = .ok b := by
    intro dbg
    unfold testKKT testKKTStationarity testKKTFeasibility
    rw [if_pos hd, if_pos hd.feas]
    exact ⟨_, rfl⟩
  have heq : ∀ dbg, testKKT dbg x u G a c τp τd = testKKT false x u G a c τp τd := by
    intro dbg
    unfold testKKT testKKTStationarity testKKTFeasibility
    rw [if_pos hd, if_pos hd, if_pos hd.feas, if_pos hd.feas]
  obtain ⟨b, hb⟩ := this false
  exact ⟨b, fun dbg => (heq dbg).trans hb⟩

end

/-! ### The hypothesis on the bounds is needed -/

/-- One variable, no cost on it but `x`, one constraint `2 ≤ x ≤ 1`, no bounds. -/
noncomputable def crossedCstr : Feas := ⟨⟨1, 1, fun _ _ => 1⟩, ⟨1, fun _ => ((2 : ℝ) : EReal)⟩, ⟨1, fun _ => ((1 : ℝ) : EReal)⟩, ⟨0, fun _ => 0⟩,
  ⟨0, fun _ => 0⟩, false⟩

theorem crossed_dims (v w : ℝ) (G : Mx) (a : Vx ℝ) (hG : G.rows = 1 ∧ G.cols = 1) (ha : a.size = 1) :
    KktDims ⟨1, fun _ => v⟩ ⟨1, fun _ => w⟩ G a crossedCstr :=
  ⟨ha.symm, by rw [ha]; exact hG, ⟨rfl, Or.inl ⟨rfl, rfl, rfl⟩, rfl, Or.inl rfl, rfl⟩⟩

theorem crossed_feas (v w τp τd : ℝ) (dbg : Bool) : testKKTFeasibility dbg ⟨1, fun _ => v⟩ ⟨1, fun _ => w⟩ crossedCstr τp τd = .ok true ↔
    checkKKTConstraint v ((2 : ℝ) : EReal) ((1 : ℝ) : EReal) w (τp * (1 + |v|)) (τd * (1 + |w|)) = true := by
  have hd := crossed_dims v w ⟨1, 1, fun _ _ => 0⟩ ⟨1, fun _ => 0⟩ ⟨rfl, rfl⟩ rfl
  rw [feas_iff (G := ⟨1, 1, fun _ _ => 0⟩) (a := ⟨1, fun _ => 0⟩) hd.feas]
  have hn : ∀ z : ℝ, normInf ⟨1, fun _ => z⟩ = |z| := by intro z; simp [normInf]
  simp [crossedCstr, row, qpOf, hn]

/-- When bounds cross (which `wellFormed` would reject), the checker accepts an infeasible point, and a larger tolerance may
reject what a smaller one accepts. -/
theorem C32_crossed_false : ∃ (x u : Vx ℝ) (G : Mx) (a : Vx ℝ) (c : Feas), KktDims x u G a c ∧ SymMx x.size G ∧
    testKKT false x u G a c 0 0 = .ok true ∧ ¬ (∃ y, Feasible (qpOf x.size G a c) y) ∧
    testKKT false x u G a c 0 (3 / 4) = .ok false := by
  refine ⟨⟨1, fun _ => 2⟩, ⟨1, fun _ => -1⟩, ⟨1, 1, fun _ _ => 0⟩, ⟨1, fun _ => 1⟩, crossedCstr,
    crossed_dims 2 (-1) _ _ ⟨rfl, rfl⟩ rfl, fun _ _ _ _ => rfl, ?_, ?_, ?_⟩
  · rw [testKKT_iff, stat_iff (crossed_dims 2 (-1) _ _ ⟨rfl, rfl⟩ rfl) (fun _ _ _ _ => rfl), crossed_feas, check_iff]
    refine ⟨⟨by simp, fun k hk => ?_⟩, Or.inl ⟨?_, ?_, by norm_num⟩⟩
    · simp [hess, qpOf, crossedCstr]
    · rw [EReal.coe_le_coe_iff]; norm_num
    · rw [EReal.coe_le_coe_iff]; norm_num
  · rintro ⟨y, hy⟩
    have h := hy.gen 0 (by simp [qpOf, crossedCstr])
    have := h.1.trans h.2
    simp only [qpOf, crossedCstr] at this
    rw [EReal.coe_le_coe_iff] at this
    norm_num at this
  · obtain ⟨b, hb⟩ := C32_answers (τp := 0) (τd := 3 / 4)
      (crossed_dims 2 (-1) ⟨1, 1, fun _ _ => 0⟩ ⟨1, fun _ => 1⟩ ⟨rfl, rfl⟩ rfl)
    rw [hb false]
    cases b with
    | false => rfl
    | true =>
      exfalso
      have h := (testKKT_iff.1 (hb false)).2
      rw [crossed_feas, check_iff] at h
      simp only [EReal.coe_le_coe_iff] at h
      norm_num at h

/-- The hypotheses of the theorems above are met: `min ½(x²+y²) - x - 2y`, `x + y = 1`, `0 ≤ x ≤ 1`, `0 ≤ y ≤ 1`, at the optimum
`(0, 1)` with multipliers `(1, 0, 0)`. -/
example : ∃ (x u : Vx ℝ) (G : Mx) (a : Vx ℝ) (c : Feas), KktDims x u G a c ∧ SymMx x.size G ∧ PsdMx x.size G ∧
    NotCrossed (qpOf x.size G a c) ∧ x.size = 2 ∧ c.l.size = 1 ∧ c.xl.size = 2 ∧ testKKT true x u G a c 0 0 = .ok true := by
  obtain ⟨c, hc⟩ : ∃ c : Feas, c = ⟨⟨1, 2, fun _ _ => 1⟩, ⟨1, fun _ => ((1 : ℝ) : EReal)⟩, ⟨1, fun _ => ((1 : ℝ) : EReal)⟩,
    ⟨2, fun _ => ((0 : ℝ) : EReal)⟩, ⟨2, fun _ => ((1 : ℝ) : EReal)⟩, false⟩ := ⟨_, rfl⟩
  obtain ⟨x, hx⟩ : ∃ x : Vx ℝ, x = ⟨2, fun i => if i = 0 then 0 else 1⟩ := ⟨_, rfl⟩
  obtain ⟨u, hu⟩ : ∃ u : Vx ℝ, u = ⟨3, fun i => if i = 0 then 1 else 0⟩ := ⟨_, rfl⟩
  obtain ⟨G, hG⟩ : ∃ G : Mx, G = ⟨2, 2, fun i j => if i = j then 1 else 0⟩ := ⟨_, rfl⟩
  obtain ⟨a, ha⟩ : ∃ a : Vx ℝ, a = ⟨2, fun i => if i = 0 then -1 else -2⟩ := ⟨_, rfl⟩
  have hd : KktDims x u G a c := by
    subst hc hx hu hG ha
    exact ⟨rfl, ⟨rfl, rfl⟩, ⟨rfl, Or.inl ⟨rfl, rfl, rfl⟩, rfl, Or.inr rfl, rfl⟩⟩
  have hs : SymMx x.size G := by subst hG; intro i _ j _; simp [eq_comm]
  have hn : NotCrossed (qpOf x.size G a c) := by
    subst hc hx
    exact ⟨fun i _ => le_rfl, fun _ i _ => by simp only [qpOf]; exact_mod_cast zero_le_one⟩
  refine ⟨x, u, G, a, c, hd, hs, ?_, hn, by rw [hx], by rw [hc], by rw [hc], ?_⟩
  · subst hx hG
    intro v
    simp only [Finset.sum_range_succ, Finset.sum_range_zero]
    norm_num
    nlinarith [sq_nonneg (v 0), sq_nonneg (v 1)]
  · rw [C32_zero_tolerance hd hs hn]
    subst hc hx hu hG ha
    refine ⟨⟨fun i hi => ?_, fun _ i hi => ?_⟩, fun k hk => ?_, fun i hi h => ?_, fun i hi h => ?_, fun _ i hi h => ?_, fun _ i hi h => ?_⟩
    · simp [qpOf, row, Finset.sum_range_succ]
    · have : i = 0 ∨ i = 1 := by simp only [qpOf] at hi; omega
      rcases this with rfl | rfl <;> simp [qpOf]
    · have : k = 0 ∨ k = 1 := by simp only [qpOf] at hk; omega
      rcases this with rfl | rfl <;> simp [qpOf, hess, Finset.sum_range_succ]
      norm_num
    · simp only [] at h; split at h <;> norm_num at h
    · simp [qpOf, row, Finset.sum_range_succ]
    · simp [qpOf] at h
    · simp [qpOf] at h

end JrlQp
