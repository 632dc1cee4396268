import Verif.PropsAdaptors
import Verif.PropsMeta
import Verif.PropsPipeline
import Verif.PropsRandom

/-!
# C65 for the solver of this library; C66: generated problem → adaptor → solver → check of the benchmarks
-/

namespace JrlQp

open NumOps Finset Spec

/-! ### Specification -/

/-- A separated problem is strictly convex, with a square symmetric matrix, linearly independent equality constraints and no fixed variable. -/
structure SepQp.Std (pb : SepQp) : Prop where
  ok : pb.Ok
  proper : pb.ProperBounds
  square : pb.cost.G.rows = pb.cstr.nvar ∧ pb.cost.G.cols = pb.cstr.nvar
  sym : SymMx pb.cstr.nvar pb.cost.G
  posDef : (Matrix.of fun i j : Fin pb.cstr.nvar => pb.cost.G.at' i j).PosDef
  noFixed : ∀ i < pb.cstr.xl.size, pb.cstr.xl.at' i ≠ pb.cstr.xu.at' i
  indep : ∀ c : Nat → ℝ, (∀ k < pb.cstr.nvar, ∑ i ∈ range pb.me, c i * pb.cstr.E.rowAt pb.cstr.tr i k = 0) → ∀ i < pb.me, c i = 0

/-! ### Proofs -/

namespace SepQp.Ok
variable {pb : SepQp} (h : pb.Ok)
include h

theorem gi_m : (GIPb.of pb).args.m = pb.me + pb.mi := by
  unfold GIPb.of Qp.args SepQp.me SepQp.mi
  cases ht : pb.cstr.tr <;> simp [Qp.ofSepQp, Feas.ofSep, ht] <;> omega

theorem gi_C (k i : Nat) : (GIPb.of pb).args.C k i =
    if i < pb.me then pb.cstr.E.rowAt pb.cstr.tr i k else pb.cstr.C.rowAt pb.cstr.tr (i - pb.me) k := by
  unfold GIPb.of Qp.args SepQp.me Mx.rowAt
  cases ht : pb.cstr.tr <;> simp [Qp.ofSepQp, Feas.ofSep, ht]

omit h in
theorem gi_rest : (GIPb.of pb).args.n = pb.cost.G.rows ∧ (GIPb.of pb).args.G = pb.cost.G.at' ∧ (GIPb.of pb).args.a = pb.cost.a.at' ∧
    (GIPb.of pb).args.useBnd = decide (pb.cstr.xl.size ≠ 0) ∧ (GIPb.of pb).args.xl = pb.cstr.xl.at' ∧ (GIPb.of pb).args.xu = pb.cstr.xu.at' := by
  unfold GIPb.of Qp.args
  cases ht : pb.cstr.tr <;> simp [Qp.ofSepQp, Feas.ofSep, ht, QpCost.ofQp]

theorem gi_bl (i : Nat) : (GIPb.of pb).args.bl i = if i < pb.me then (pb.cstr.f.at' i : EReal) else pb.cstr.l.at' (i - pb.me) := by
  rw [h.me_f]
  unfold GIPb.of Qp.args
  cases ht : pb.cstr.tr <;> simp [Qp.ofSepQp, Feas.ofSep, ht]

theorem gi_bu (i : Nat) : (GIPb.of pb).args.bu i = if i < pb.me then (pb.cstr.f.at' i : EReal) else pb.cstr.u.at' (i - pb.me) := by
  rw [h.me_f]
  unfold GIPb.of Qp.args
  cases ht : pb.cstr.tr <;> simp [Qp.ofSepQp, Feas.ofSep, ht]

theorem gi_row (hn : pb.cost.G.rows = pb.cstr.nvar) (x : Nat → ℝ) (i : Nat) : Spec.row (GIPb.of pb).args x i =
    if i < pb.me then pb.cstr.E.val pb.cstr.tr pb.cost.a.size x i else pb.cstr.C.val pb.cstr.tr pb.cost.a.size x (i - pb.me) := by
  unfold Spec.row
  rw [gi_rest.1, hn, ← h.a]
  simp only [h.gi_C]
  split <;> rfl

end SepQp.Ok

/-- **C65, the solver of this library.** The arguments given to `solve` describe the separated problem: same variables, one constraint per
equality and then one per inequality, same feasible set, same objective up to the constant. -/
theorem C65_gi (pb : SepQp) (h : pb.Ok) (hn : pb.cost.G.rows = pb.cstr.nvar) :
    (GIPb.of pb).args.n = pb.cstr.nvar ∧ (GIPb.of pb).args.m = pb.me + pb.mi ∧ (∀ x, Feasible (GIPb.of pb).args x ↔ pb.cstr.Holds x) ∧
    (pb.cost.G.cols = pb.cstr.nvar → SymMx pb.cstr.nvar pb.cost.G → ∀ x, pb.cost.value x = obj (GIPb.of pb).args x + pb.cost.objCst) := by
  obtain ⟨e1, e2, e3, e4, e5, e6⟩ := SepQp.Ok.gi_rest (pb := pb)
  refine ⟨e1.trans hn, h.gi_m, fun x => ?_, fun hc hs x => ?_⟩
  · rw [h.holds_iff]
    have hg : (∀ i < (GIPb.of pb).args.m, (GIPb.of pb).args.bl i ≤ ((Spec.row (GIPb.of pb).args x i : ℝ) : EReal) ∧
        ((Spec.row (GIPb.of pb).args x i : ℝ) : EReal) ≤ (GIPb.of pb).args.bu i) ↔
        (∀ i < pb.me, pb.cstr.E.val pb.cstr.tr pb.cost.a.size x i = pb.cstr.f.at' i) ∧
        (∀ i < pb.mi, pb.cstr.l.at' i ≤ ((pb.cstr.C.val pb.cstr.tr pb.cost.a.size x i : ℝ) : EReal) ∧
          ((pb.cstr.C.val pb.cstr.tr pb.cost.a.size x i : ℝ) : EReal) ≤ pb.cstr.u.at' i) := by
      rw [h.gi_m, forall_split2]
      refine and_congr ?_ ?_ <;> refine forall₂_congr fun i hi => ?_
      · rw [h.gi_row hn, h.gi_bl, h.gi_bu, if_pos hi, if_pos hi, if_pos hi, ← le_antisymm_iff]
        norm_cast
        exact eq_comm
      · have hj : ¬ pb.me + i < pb.me := by omega
        rw [h.gi_row hn, h.gi_bl, h.gi_bu, if_neg hj, if_neg hj, if_neg hj, Nat.add_sub_cancel_left]
    have hb : ((GIPb.of pb).args.useBnd = true → ∀ i < (GIPb.of pb).args.n, (GIPb.of pb).args.xl i ≤ ((x i : ℝ) : EReal) ∧
        ((x i : ℝ) : EReal) ≤ (GIPb.of pb).args.xu i) ↔
        ∀ i < pb.cstr.xl.size, pb.cstr.xl.at' i ≤ ((x i : ℝ) : EReal) ∧ ((x i : ℝ) : EReal) ≤ pb.cstr.xu.at' i := by
      rw [e1, e4, e5, e6, hn, ← h.a]
      rcases h.bnd with h0 | h0
      · rw [h0]; simp
      · by_cases h1 : pb.cstr.xl.size = 0
        · rw [h1]; simp
        · rw [h0] at h1 ⊢; simp [h1]
    constructor
    · intro hf
      obtain ⟨g1, g2⟩ := hg.1 hf.gen
      have g3 := hb.1 hf.bnd
      exact ⟨g1, fun i hi => (g2 i hi).1, fun i hi => (g2 i hi).2, fun i hi => (g3 i hi).1, fun i hi => (g3 i hi).2⟩
    · rintro ⟨g1, g2, g3, g4, g5⟩
      exact ⟨hg.2 ⟨g1, fun i hi => ⟨g2 i hi, g3 i hi⟩⟩, hb.2 fun i hi => ⟨g4 i hi, g5 i hi⟩⟩
  · unfold QpCost.value obj
    rw [e1, hn, hc, h.a, e3]
    congr 3
    refine sum_congr rfl fun i hi => sum_congr rfl fun j hj => ?_
    unfold hess
    rw [e2]
    split
    · rfl
    · rw [hs i (mem_range.1 hi) j (mem_range.1 hj)]

theorem SepQp.Std.first {pb : SepQp} (h : pb.Std) : EqFirst (GIPb.of pb).args pb.me := by
  have hok := h.ok
  obtain ⟨e1, e2, e3, e4, e5, e6⟩ := SepQp.Ok.gi_rest (pb := pb)
  refine ⟨by rw [hok.gi_m]; omega, fun i hi => ?_⟩
  unfold isEqB
  rw [hok.gi_m] at hi ⊢
  by_cases h1 : i < pb.me
  · rw [if_pos (by omega), hok.gi_bl, hok.gi_bu, if_pos h1, if_pos h1]
    simp [h1]
  · by_cases h2 : i < pb.me + pb.mi
    · rw [if_pos h2, hok.gi_bl, hok.gi_bu, if_neg h1, if_neg h1]
      have := hok.lt (i := i - pb.me) (by rw [← hok.mi_l]; omega)
      simp only [bEq_real, h1, iff_false]
      exact this.ne
    · rw [if_neg h2, e5, e6]
      simp only [bEq_real, h1, iff_false]
      refine h.noFixed _ ?_
      unfold Pb.nb at hi
      rw [e4, e1, h.square.1, ← hok.a] at hi
      rcases hok.bnd with h0 | h0
      · rw [h0] at hi; simp at hi; omega
      · by_cases h3 : pb.cstr.xl.size = 0
        · rw [h3] at hi; simp at hi; omega
        · simp [h3] at hi; omega

/-- A standard separated problem becomes a standard problem of the solver. -/
theorem SepQp.Std.std {pb : SepQp} (h : pb.Std) : StdPb (GIPb.of pb).args := by
  have hok := h.ok
  obtain ⟨e1, e2, e3, e4, e5, e6⟩ := SepQp.Ok.gi_rest (pb := pb)
  have hbnd : (GIPb.of pb).args.useBnd = true → ∀ i < (GIPb.of pb).args.n, i < pb.cstr.xl.size := by
    intro hu i hi
    rw [e4] at hu
    have := hok.bnd
    rw [e1, h.square.1, ← hok.a] at hi
    simp at hu
    omega
  have hlt : ∀ i, ¬ i < pb.me → i < pb.me + pb.mi → pb.cstr.l.at' (i - pb.me) < pb.cstr.u.at' (i - pb.me) :=
    fun i h1 h2 => hok.lt (by rw [← hok.mi_l]; omega)
  have hfirst := h.first
  refine ⟨⟨?_, ?_, ?_, ?_⟩, ⟨?_, ?_⟩, ?_, ⟨pb.me, hfirst⟩, ?_⟩
  · intro i hi
    rw [hok.gi_m] at hi
    rw [hok.gi_bl]
    split
    · exact EReal.coe_ne_top _
    · rename_i hn
      exact (lt_of_lt_of_le (hlt i hn hi) le_top).ne
  · intro i hi
    rw [hok.gi_m] at hi
    rw [hok.gi_bu]
    split
    · exact EReal.coe_ne_bot _
    · rename_i hn
      exact (lt_of_le_of_lt bot_le (hlt i hn hi)).ne'
  · intro hu i hi; rw [e5]; exact (h.proper i (hbnd hu i hi)).1
  · intro hu i hi; rw [e6]; exact (h.proper i (hbnd hu i hi)).2
  · intro i hi
    rw [hok.gi_m] at hi
    rw [hok.gi_bl, hok.gi_bu]
    split
    · exact le_rfl
    · rename_i hn
      exact (hlt i hn hi).le
  · intro hu i hi; rw [e5, e6]; exact hok.cstr.b1.b6 i (hbnd hu i hi)
  · have hn : (GIPb.of pb).args.n = pb.cstr.nvar := e1.trans h.square.1
    have key : ∀ (n : Nat) (hn : n = pb.cstr.nvar), (Matrix.of fun i j : Fin n => hess (GIPb.of pb).args i j).PosDef := by
      rintro n rfl
      have e : (fun i j : Fin pb.cstr.nvar => hess (GIPb.of pb).args i j) = fun i j : Fin pb.cstr.nvar => pb.cost.G.at' i j := by
        funext i j
        unfold hess
        rw [e2]
        split
        · rfl
        · exact h.sym _ j.2 _ i.2
      rw [e]; exact h.posDef
    exact key _ hn
  · intro c hc hs
    have hz : ∀ i, ¬ i < pb.me → c i = 0 := by
      intro i hi
      refine hc i fun hh => hi ?_
      exact (hfirst.2 i hh.1).1 (isEqB_of_idx hh.2)
    have hin : ∀ i < pb.me, c i = 0 := by
      refine h.indep c fun k hk => ?_
      have := hs k (by rw [e1, h.square.1]; exact hk)
      rw [← sum_subset (s₁ := range pb.me)] at this
      · rw [← this]
        refine sum_congr rfl fun i hi => ?_
        have hi := mem_range.1 hi
        unfold grad
        rw [hok.gi_m, if_pos (by omega), hok.gi_C, if_pos hi]
      · intro i hi; rw [mem_range] at hi ⊢; have := hfirst.1; omega
      · intro i _ hi
        rw [hz i (fun h => hi (mem_range.2 h)), zero_mul]
    intro i
    by_cases hi : i < pb.me
    · exact hin i hi
    · exact hz i hi

/-- **C65, solving.** For a strictly convex separated problem with independent equalities, small thresholds and enough iterations: after any
legal history, `solve` on the converted problem returns `SUCCESS` with the minimiser of the separated problem if it has a feasible point, and
`INFEASIBLE` otherwise. -/
theorem C65_gi_solves (pb : SepQp) (h : pb.Std) :
    ∃ ε > 0, ∃ β : ℝ, ∀ o, Fine ε β (GIPb.of pb).args o → ∀ t s', Solves o (GIPb.of pb).args t s' →
      ((∃ y, pb.cstr.Holds y) ∧ t = .success ∧ IsMin pb.cstr.Holds pb.cost.value s'.x ∧ pb.cost.value s'.x = s'.f + pb.cost.objCst ∧
        ∀ y, IsMin pb.cstr.Holds pb.cost.value y → ∀ i < pb.cstr.nvar, y i = s'.x i) ∨
      ((¬ ∃ y, pb.cstr.Holds y) ∧ t = .infeasible) := by
  obtain ⟨c1, c2, c3, c4⟩ := C65_gi pb h.ok h.square.1
  have c4 := c4 h.square.2 h.sym
  obtain ⟨ε, hε, β, hh⟩ := h.std.answers
  refine ⟨ε, hε, β, fun o ho t s' hs => ?_⟩
  have a := hh o ho t s' hs
  have hmin : ∀ y, IsMin pb.cstr.Holds pb.cost.value y ↔ IsOptimal (GIPb.of pb).args y := by
    intro y
    unfold IsMin IsOptimal
    simp only [c3, c4, add_le_add_iff_right]
  simp only [← c3, hmin]
  rcases a.status with h1 | h1
  · have ho := a.optimal h1
    refine Or.inl ⟨⟨_, ho.1.1⟩, h1, ho.1, ?_, ?_⟩
    · rw [c4, a.value]
    · intro y hy i hi
      exact ho.2 y hy i (by rw [c1]; exact hi)
  · exact Or.inr ⟨a.infeasible h1, h1⟩

/-! ### C66: the check of the benchmarks -/

/-- `checkSolution`, benchmarks/Solvers.cpp:273-277 (also SolversWarmStart.cpp), with exact square root. -/
noncomputable def checkSolution (n : Nat) (x ref : Nat → ℝ) : Prop := Real.sqrt (∑ i ∈ range n, (x i - ref i) ^ 2) ≤ 1e-6

/-- None of the offsets drawn is zero (an event of probability one). -/
structure Draw2.Nonzero (d : Draw2) : Prop where
  rl : ∀ i, d.rl i ≠ 0
  ru : ∀ i, d.ru i ≠ 0
  r : ∀ i, d.r i ≠ 0
  rxl : ∀ i, d.rxl i ≠ 0

/-- The two sides of every generated constraint and bound are distinct and in order. -/
def RLS.Strict (ch : Charac) (p : RLS) : Prop :=
  (∀ i < ch.nIneq, p.l i < (p.u i : EReal)) ∧ (ch.bounds = true → ∀ i < ch.nVar, p.xl i < p.xu i)

theorem swap_lt_of {n i j k : Nat} (hi : i < n) (hj : j < n) (hk : k < n) : Equiv.swap i j k < n := by
  rcases Equiv.swap_apply_def i j k with h
  rw [h]; split_ifs <;> assumption

theorem RLS.Strict.swapRow {ch : Charac} {p : RLS} (h : p.Strict ch) (hl : ch.dbl = false → ∀ i, p.l i = ⊥) {i j : Nat}
    (hi : i < ch.nIneq) (hj : j < ch.nIneq) : (p.swapRow ch i j).Strict ch := by
  refine ⟨fun k hk => ?_, h.2⟩
  unfold RLS.swapRow
  dsimp only
  cases hd : ch.dbl
  · simp only [Bool.false_eq_true, if_false]
    rw [hl hd]; exact EReal.bot_lt_coe _
  · simp only [if_true]
    exact h.1 _ (swap_lt_of hi hj hk)

theorem RLS.Strict.swapCol {ch : Charac} {p : RLS} (h : p.Strict ch) {i j : Nat} (hi : i < ch.nVar) (hj : j < ch.nVar) :
    (p.swapCol i j).Strict ch := ⟨h.1, fun hb _ hk => h.2 hb _ (swap_lt_of hi hj hk)⟩

theorem shuffleRows_strict {ch : Charac} (jRow : Nat → Nat) (hj : ∀ i, jRow i ≤ i) : ∀ (m : Nat) (p : RLS), m ≤ ch.nIneq - 1 → p.Strict ch →
    (ch.dbl = false → ∀ i, p.l i = ⊥) → (shuffleRows ch jRow m p).Strict ch := by
  intro m
  induction m with
  | zero => exact fun p _ h _ => h
  | succ i ih =>
    intro p hm h hl
    refine ih _ (by omega) (h.swapRow hl (by omega) (by have := hj (i + 1); omega)) fun hd k => ?_
    unfold RLS.swapRow
    simp only [hd, Bool.false_eq_true, if_false]
    exact hl hd k

theorem shuffleCols_strict {ch : Charac} (jCol : Nat → Nat) (hj : ∀ i, jCol i ≤ i) : ∀ (m : Nat) (p : RLS), m ≤ ch.nVar - 1 → p.Strict ch →
    (shuffleCols jCol m p).Strict ch := by
  intro m
  induction m with
  | zero => exact fun p _ h => h
  | succ i ih =>
    intro p hm h
    exact ih _ (by omega) (h.swapCol (by omega) (by have := hj (i + 1); omega))

theorem genStep5_strict (ch : Charac) {d : Draw2} (h0 : d.Nonzero) (A Ca : Nat → Nat → ℝ) (mult : Nat → ℝ) (Cw : Nat → Nat → ℝ)
    (hw : ch.dbl = true → ∀ i, ch.nStrongIneq ≤ i → i < ch.nStrongIneq + ch.nWeakIneq → |d.ru i| < |d.rl i|) :
    (genStep5 ch d A Ca mult Cw).Strict ch := by
  refine ⟨fun i _ => ?_, fun _ i _ => ?_⟩
  · have a1 := abs_pos.2 (h0.rl i)
    have a2 := abs_pos.2 (h0.ru i)
    unfold genStep5
    cases hd : ch.dbl
    · simp only [Bool.false_eq_true, if_false]
      exact EReal.bot_lt_coe _
    · simp only [if_true, EReal.coe_lt_coe_iff]
      by_cases h1 : i < ch.nStrongIneq
      · simp only [if_pos h1]
        split_ifs <;> linarith
      · simp only [if_neg h1]
        by_cases h2 : i < ch.nStrongIneq + ch.nWeakIneq
        · have h3 := hw hd i (by omega) h2
          simp only [if_pos h2, if_pos h3]
          linarith
        · simp only [if_neg h2]
          linarith
  · have a1 := abs_pos.2 (h0.r i)
    have a2 := abs_pos.2 (h0.rxl i)
    have a3 := abs_nonneg (d.rxu i)
    have a4 := h0.r i
    unfold genStep5
    dsimp only
    split_ifs
    all_goals first | linarith | skip
    all_goals
      have : d.r i < 0 := lt_of_le_of_ne (not_lt.1 (by assumption)) a4
      linarith

/-- The generated problem has no crossing nor equal sides if no offset drawn is zero. -/
theorem randomProblem_strict {ch : Charac} {d1 : Draw1} {d2 : Draw2} (h0 : d2.Nonzero) (hr : ∀ i, d2.jRow i ≤ i) (hcol : ∀ i, d2.jCol i ≤ i)
    (hw : ch.dbl = true → ∀ i, ch.nStrongIneq ≤ i → i < ch.nStrongIneq + ch.nWeakIneq → |d2.ru i| < |d2.rl i|)
    {p : RLS} (hp : randomProblem ch d1 d2 = some p) : p.Strict ch := by
  unfold randomProblem at hp
  cases e1 : genStep1 ch d1 with
  | none => rw [e1] at hp; cases hp
  | some ACm =>
    obtain ⟨A, Ca, mult⟩ := ACm
    rw [e1] at hp
    simp only [Option.bind_some] at hp
    cases e2 : genWeak ch d2 (genStep2 ch Ca mult).1 (genStep2 ch Ca mult).2 with
    | none => rw [e2] at hp; cases hp
    | some Cw =>
      rw [e2] at hp
      simp only [Option.map_some, Option.some.injEq] at hp
      have g2 := shuffleRows_strict d2.jRow hr (ch.nIneq - 1) _ le_rfl
        (genStep5_strict ch h0 A (genStep2 ch Ca mult).1 (genStep2 ch Ca mult).2 Cw hw) (by
          intro hd i
          unfold genStep5
          simp only [hd, Bool.false_eq_true, if_false])
      rw [← hp]
      split_ifs with hb
      · exact shuffleCols_strict d2.jCol hcol _ _ le_rfl g2
      · exact g2

/-- **C66.** For any problem generated by `randomProblem` under the hypotheses of C44, if the objective matrix `A` has full column rank, the
equality constraints are independent and no offset drawn is zero, then, with small thresholds and enough iterations, the solver called as in
the benchmarks returns `SUCCESS` with the advertised solution, and the check passes. -/
theorem C66_random_end_to_end {ch : Charac} (hc : ch.Check) {d1 : Draw1} (h1 : Step1Ok ch d1) {d2 : Draw2} (hr : ∀ i, d2.jRow i ≤ i)
    (hcol : ∀ i, d2.jCol i ≤ i)
    (hw : ch.dbl = true → ∀ i, ch.nStrongIneq ≤ i → i < ch.nStrongIneq + ch.nWeakIneq → |d2.ru i| < |d2.rl i|)
    {p : RLS} (hp : randomProblem ch d1 d2 = some p)
    (hA : ∀ v : Nat → ℝ, (∀ k < ch.nObj, ∑ j ∈ range ch.nVar, p.A k j * v j = 0) → ∀ j < ch.nVar, v j = 0)
    (hE : ∀ c : Nat → ℝ, (∀ k < ch.nVar, ∑ i ∈ range ch.nEq, c i * p.E i k = 0) → ∀ i < ch.nEq, c i = 0)
    (h0 : d2.Nonzero) :
    ∃ ε > 0, ∃ β : ℝ, ∀ o, Fine ε β (GIPb.of (SepQp.ofSepLs (p.pb ch))).args o →
      ∀ t s', Solves o (GIPb.of (SepQp.ofSepLs (p.pb ch))).args t s' →
        t = .success ∧ (∀ i < ch.nVar, s'.x i = p.x i) ∧ checkSolution ch.nVar s'.x p.x := by
  have hmin := (C44_solution_partial hc h1 hr hcol hw hp).2
  obtain ⟨hlu, hx'⟩ := randomProblem_strict h0 hr hcol hw hp
  have hx : ∀ i < ch.nBounds, p.xl i < p.xu i := by
    intro i hi
    unfold Charac.nBounds at hi
    split_ifs at hi with hb
    · exact hx' hb i hi
    · omega
  set pb := SepQp.ofSepLs (p.pb ch) with hpb
  have hG : ∀ v : Nat → ℝ, ∑ i ∈ range ch.nVar, ∑ j ∈ range ch.nVar, v i * pb.cost.G.at' i j * v j =
      ∑ k ∈ range ch.nObj, (∑ j ∈ range ch.nVar, p.A k j * v j) ^ 2 := fun v => ofLs_quad (p.pb ch).cost v
  have hstd : pb.Std := by
    refine ⟨⟨⟨⟨rfl, rfl, rfl, ?_, ?_, ?_⟩, rfl, rfl⟩, rfl⟩, ?_, ⟨rfl, rfl⟩, (C33_ls_convex (p.pb ch).cost).1, ?_, ?_, ?_⟩
    · intro hne
      show ch.nBounds = ch.nVar
      change ch.nBounds ≠ 0 at hne
      unfold Charac.nBounds at hne ⊢
      split_ifs at hne ⊢
      · rfl
      · exact absurd rfl hne
    · exact hlu
    · intro i hi
      exact EReal.coe_le_coe_iff.2 (hx i hi).le
    · intro i hi
      exact ⟨EReal.coe_ne_top _, EReal.coe_ne_bot _⟩
    · have hsl : symLow pb.cost.G.at' = pb.cost.G.at' := by
        funext i j
        unfold symLow
        split
        · rfl
        · show sumTo _ _ = sumTo _ _
          congr 1
          funext k
          ring
      rw [← hsl]
      refine (posDefN_iff ch.nVar _).1 fun v ⟨i, hi, hv⟩ => ?_
      rw [hsl, hG]
      refine lt_of_le_of_ne (sum_nonneg fun k _ => sq_nonneg _) fun h0 => hv (hA v (fun k hk => ?_) i hi)
      exact pow_eq_zero_iff (two_ne_zero) |>.1 ((sum_eq_zero_iff_of_nonneg fun k _ => sq_nonneg _).1 h0.symm k (mem_range.2 hk))
    · intro i hi
      have := (hx i hi).ne
      exact fun h => this (EReal.coe_eq_coe_iff.1 h)
    · exact hE
  obtain ⟨ε, hε, β, hh⟩ := C65_gi_solves pb hstd
  refine ⟨ε, hε, β, fun o ho t s' hs => ?_⟩
  rcases hh o ho t s' hs with ⟨_, g1, g2, g3, g4⟩ | ⟨g1, _⟩
  · have hx' : ∀ i < ch.nVar, s'.x i = p.x i := fun i hi => (g4 p.x (((C33_solutions p.x).2.2.1 (p.pb ch)).2 hmin) i hi).symm
    refine ⟨g1, hx', ?_⟩
    unfold checkSolution
    rw [sum_eq_zero fun i hi => by rw [hx' i (mem_range.1 hi)]; ring]
    norm_num
  · exact absurd ⟨p.x, hmin.1⟩ g1

/-! ### Examples -/

/-- `½ x² + ½ y²` subject to `x + y = 1`, `2x - y ≤ 3`, `-1 ≤ x`, stored transposed or not. -/
noncomputable def exSep (tr : Bool) : SepQp where
  cstr := { C := if tr then ⟨2, 1, fun k _ => if k = 0 then 2 else -1⟩ else ⟨1, 2, fun _ k => if k = 0 then 2 else -1⟩
            l := ⟨1, fun _ => ⊥⟩, u := ⟨1, fun _ => ((3 : ℝ) : EReal)⟩
            xl := ⟨2, fun i => if i = 0 then ((-1 : ℝ) : EReal) else ⊥⟩, xu := ⟨2, fun _ => ⊤⟩, tr := tr
            E := if tr then ⟨2, 1, fun _ _ => 1⟩ else ⟨1, 2, fun _ _ => 1⟩, f := ⟨1, fun _ => 1⟩ }
  cost := ⟨⟨2, 2, fun i j => if i = j then 1 else 0⟩, ⟨2, fun _ => 0⟩, 0⟩

/-- The hypotheses of the C65 theorems are met, for both storages. -/
theorem C65_hypotheses_met (tr : Bool) : (exSep tr).Std ∧ ∃ y, (exSep tr).cstr.Holds y := by
  have hnv : (exSep tr).cstr.nvar = 2 := by cases tr <;> rfl
  have hme : (exSep tr).me = 1 := by cases tr <;> rfl
  refine ⟨⟨⟨⟨⟨rfl, ?_, rfl, ?_, ?_, ?_⟩, ?_, ?_⟩, hnv.symm⟩, ?_, ⟨hnv.symm, hnv.symm⟩, ?_, ?_, ?_, ?_⟩, ?_⟩
  · cases tr <;> simp [exSep]
  · intro _; cases tr <;> simp [exSep]
  · show ∀ i < 1, (⊥ : EReal) < ((3 : ℝ) : EReal)
    exact fun _ _ => EReal.bot_lt_coe _
  · intro i _; exact le_top
  · cases tr <;> simp [exSep]
  · cases tr <;> simp [exSep]
  · intro i _
    refine ⟨?_, top_ne_bot⟩
    show (if i = 0 then ((-1 : ℝ) : EReal) else ⊥) ≠ ⊤
    split
    · exact EReal.coe_ne_top _
    · exact bot_ne_top
  · intro i _ j _; simp [exSep, eq_comm]
  · rw [hnv]
    have e : (Matrix.of fun i j : Fin 2 => (exSep tr).cost.G.at' i j) = 1 := by
      ext i j
      simp [exSep, Matrix.one_apply, Fin.ext_iff]
    rw [e]; exact Matrix.PosDef.one
  · intro i _
    show (if i = 0 then ((-1 : ℝ) : EReal) else ⊥) ≠ ⊤
    split
    · exact EReal.coe_ne_top _
    · exact bot_ne_top
  · intro c h i hi
    rw [hme] at h hi
    have := h 0 (by rw [hnv]; omega)
    obtain rfl : i = 0 := by omega
    cases tr <;> simpa [exSep, Mx.rowAt] using this
  · refine ⟨fun i => if i = 0 then 1 else 0, ?_, ?_, ?_⟩
    · intro i hi
      rw [hnv]
      cases tr <;> simp [exSep, Mx.val, sum_range_succ]
    · intro i hi
      rw [hnv]
      refine ⟨bot_le, ?_⟩
      show ((_ : ℝ) : EReal) ≤ ((3 : ℝ) : EReal)
      rw [EReal.coe_le_coe_iff]
      cases tr <;> simp [exSep, Mx.val, sum_range_succ] <;> norm_num
    · intro i hi
      refine ⟨?_, le_top⟩
      show (if i = 0 then ((-1 : ℝ) : EReal) else ⊥) ≤ _
      split
      · rename_i h
        rw [EReal.coe_le_coe_iff]
        simp only [if_pos h]; norm_num
      · exact bot_le

/-- **C65 needs proper bounds for eigen-quadprog and eiquadprog**: a well formed problem, with the bounds `+∞ ≤ x ≤ +∞`, has no feasible
point, but all its bounds are dropped and every point is feasible for the two formats; QLD and LSSOL keep the contradiction. -/
theorem C65_bounds_dropped : ∃ pb : SepQp, pb.Ok ∧ (∀ x, ¬ pb.cstr.Holds x) ∧ (∀ x, (EigenQuadprogPb.of pb).Holds x) ∧
    (∀ x, (EiQuadprogPb.of pb).Holds x) ∧ (∀ x, ¬ (QLDPb.of pb).Holds pb.me x) ∧ ∀ x, ¬ (LssolPb.of pb).Holds x := by
  let pb : SepQp :=
    ⟨{ C := ⟨0, 1, fun _ _ => 0⟩, l := ⟨0, fun _ => 0⟩, u := ⟨0, fun _ => 0⟩, xl := ⟨1, fun _ => ⊤⟩, xu := ⟨1, fun _ => ⊤⟩, tr := false,
       E := ⟨0, 1, fun _ _ => 0⟩, f := ⟨0, fun _ => 0⟩ }, ⟨⟨1, 1, fun _ _ => 1⟩, ⟨1, fun _ => 0⟩, 0⟩⟩
  have hok : pb.Ok := by
    refine ⟨⟨⟨rfl, rfl, rfl, fun _ => rfl, ?_, fun _ _ => le_rfl⟩, rfl, rfl⟩, rfl⟩
    show ∀ i < 0, _
    exact fun i hi => absurd hi (by omega)
  have hno : ∀ x, ¬ pb.cstr.Holds x := fun x h => by
    have : (⊤ : EReal) ≤ ((x 0 : ℝ) : EReal) := (h.2.2 0 Nat.one_pos).1
    exact EReal.coe_ne_top _ (top_le_iff.1 this)
  have hf : ¬ hasFiniteElements pb.cstr.xl := by
    rintro (h | ⟨_, i, _, h⟩)
    · exact absurd h one_ne_zero
    · exact lt_irrefl _ h
  have hsz : (EigenQuadprogPb.of pb).bineq.size = 0 := by
    classical
    show (if hasFiniteElements pb.cstr.l then 0 else 0) + (if hasFiniteElements pb.cstr.u then 0 else 0) +
      (if hasFiniteElements pb.cstr.xl then pb.cstr.xl.size else 0) + (if hasFiniteElements pb.cstr.xl then pb.cstr.xl.size else 0) = 0
    simp only [if_neg hf, ite_self]
  refine ⟨pb, hok, hno, fun x => ⟨fun r hr => absurd hr (Nat.not_lt_zero r), fun r hr => ?_⟩,
    fun x => ⟨fun r hr => absurd hr (Nat.not_lt_zero r), fun r hr => ?_⟩, fun x h => hno x (((C65_qld pb hok).2.2.2 x).1 h), fun x h =>
    hno x (((C65_lssol pb hok).2.2.2.1 one_ne_zero x).1 h)⟩
  · rw [hsz] at hr; exact absurd hr (Nat.not_lt_zero r)
  · change r < (EigenQuadprogPb.of pb).bineq.size at hr
    rw [hsz] at hr; exact absurd hr (Nat.not_lt_zero r)

/-- **C65, the flag of `GIPb`.** The matrix of a `GIPb` is stored with the variables as rows even when `transposedMat` is false: read as a
`QPProblem`, it is another problem. -/
theorem C65_gi_flag : ∃ pb : SepQp, pb.Std ∧ (GIPb.of pb).cstr.tr = false ∧ ∃ x, pb.cstr.Holds x ∧ ¬ (GIPb.of pb).cstr.Holds x := by
  refine ⟨exSep false, (C65_hypotheses_met false).1, rfl, fun i => if i = 1 then 1 else 0, ⟨?_, ?_, ?_⟩, fun h => ?_⟩
  · intro i hi
    simp [exSep, Mx.val, Feas.nvar, sum_range_succ]
  · intro i hi
    refine ⟨bot_le, ?_⟩
    show ((_ : ℝ) : EReal) ≤ ((3 : ℝ) : EReal)
    rw [EReal.coe_le_coe_iff]
    simp [exSep, Mx.val, Feas.nvar, sum_range_succ]
    norm_num
  · intro i hi
    refine ⟨?_, le_top⟩
    show (if i = 0 then ((-1 : ℝ) : EReal) else ⊥) ≤ _
    split
    · rename_i h
      rw [EReal.coe_le_coe_iff]
      simp [h]
    · exact bot_le
  · have h1 := (h.1 0 (by decide)).2
    have h2 : ((GIPb.of (exSep false)).cstr.u.at' 0) = ((1 : ℝ) : EReal) := by simp [GIPb.of, Qp.ofSepQp, Feas.ofSep, exSep]
    have h3 : (GIPb.of (exSep false)).cstr.C.val (GIPb.of (exSep false)).cstr.tr (GIPb.of (exSep false)).cstr.nvar
        (fun i => if i = 1 then 1 else 0) 0 = 2 := by
      simp [GIPb.of, Qp.ofSepQp, Feas.ofSep, exSep, Mx.val, Feas.nvar, sum_range_succ]
    rw [h2, h3, EReal.coe_le_coe_iff] at h1
    norm_num at h1

/-- The hypotheses of `C66_random_end_to_end` are met by `min ½(x - 1)²  s.t.  x ≤ 0`, with solution `0` and multiplier `1`. -/
theorem C66_hypotheses_met : ∃ (ch : Charac) (d1 : Draw1) (d2 : Draw2) (p : RLS), ch.Check ∧ Step1Ok ch d1 ∧ (∀ i, d2.jRow i ≤ i) ∧
    (∀ i, d2.jCol i ≤ i) ∧ ch.dbl = false ∧ randomProblem ch d1 d2 = some p ∧ p.b 0 = 1 ∧ p.lamIneq 0 = 1 ∧
    (∀ v : Nat → ℝ, (∀ k < ch.nObj, ∑ j ∈ range ch.nVar, p.A k j * v j = 0) → ∀ j < ch.nVar, v j = 0) ∧
    (∀ c : Nat → ℝ, (∀ k < ch.nVar, ∑ i ∈ range ch.nEq, c i * p.E i k = 0) → ∀ i < ch.nEq, c i = 0) ∧ d2.Nonzero := by
  refine ⟨⟨1, 1, 0, 1, 1, 0, 1, 0, 0, 0, false, false, false⟩, onesDraw, onesDraw2 0 1 1, _, ?_, ?_, fun i => le_rfl, fun i => le_rfl, rfl, rfl,
    ?_, ?_, ?_, ?_, ?_⟩
  · constructor <;> simp
  · refine ⟨fun _ _ _ => ⟨fun i => Iff.rfl, ?_, ?_, ?_⟩, fun _ _ h => ?_⟩
    · intro j hj i hi
      have hj' : j < 1 := hj
      have hi' : i < 2 := hi
      interval_cases j <;> interval_cases i <;>
        norm_num [stackRows, setIdBottom, onesDraw, Charac.nstrong, Finset.sum_range_succ, -Finset.sum_boole]
    · intro k _; simp [onesDraw]
    · intro k h1 h2
      simp [Charac.nstrong] at h1 h2
      omega
    · simp [Charac.colsTot, Charac.nstrong] at h
  · simp [genStep5, genStep2, shuffleRows, onesDraw, onesDraw2, Charac.nstrong, Charac.colsTot, esub_real, sumTo, backSub, backSubK,
      show (Equiv.symm (1 : Equiv.Perm Nat)) = 1 from rfl, upd]
  · simp [genStep5, genStep2, shuffleRows, onesDraw, onesDraw2, Charac.nstrong, Charac.colsTot, esub_real, sumTo, backSub, backSubK,
      show (Equiv.symm (1 : Equiv.Perm Nat)) = 1 from rfl, upd]
  · intro v hv j hj
    have := hv 0 Nat.one_pos
    have hj : j < 1 := hj
    obtain rfl : j = 0 := by omega
    simpa [genStep5, genStep2, shuffleRows, onesDraw, onesDraw2, Charac.nstrong, Charac.colsTot] using this
  · intro c _ i hi
    exact absurd hi (Nat.not_lt_zero i)
  · exact ⟨fun i => one_ne_zero, fun i => one_ne_zero, fun i => one_ne_zero, fun i => one_ne_zero⟩

end JrlQp
