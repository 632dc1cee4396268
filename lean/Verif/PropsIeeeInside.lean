import Verif.PropsIeeeWarmObj

/-!
# C88: a minimum inside the constraints is returned at once, in IEEE arithmetic
-/

namespace JrlQp

open NumOps Finset

section generic

variable {K B : Type} [Zero K] [One K] [Add K] [Sub K] [Neg K] [Mul K] [Div K] [NumOps K B] [SumOps K]

/-- No constraint is found violated at `x`. -/
def AllIn (pb : Pb K B) (x : Nat → K) : Prop :=
  (∀ i < pb.m, NotOutside K (esum (.slack pb.n i) (fun a => pb.C a i * x a) pb.n) (pb.bl i) (pb.bu i)) ∧
  (pb.useBnd = true → ∀ i < pb.n, NotOutside K (x i) (pb.xl i) (pb.xu i))

theorem select_none {pb : Pb K B} {s : State K} (hd : Dim pb s) (h : AllIn pb s.x) : (select pb s.nbVar s.A s.x).status = .inactive := by
  have hg : ∀ l : List Nat, (∀ i ∈ l, i < pb.m) →
      l.foldl (selGen pb s.nbVar s.A s.x) ⟨bZero K, ⟨0, .inactive⟩⟩ = ⟨bZero K, ⟨0, .inactive⟩⟩ := by
    intro l
    induction l with
    | nil => intro _; rfl
    | cons i l ih =>
      intro hl
      obtain ⟨h1, h2⟩ := h.1 i (hl i (by simp))
      have e : selGen pb s.nbVar s.A s.x ⟨bZero K, ⟨0, .inactive⟩⟩ i = ⟨bZero K, ⟨0, .inactive⟩⟩ := by
        unfold selGen colDot
        rw [hd.nbVar]
        simp only [h1, h2, Bool.false_eq_true, if_false]
        split_ifs <;> rfl
      rw [List.foldl_cons, e]
      exact ih fun j hj => hl j (by simp [hj])
  have hb : ∀ l : List Nat, (∀ i ∈ l, i < pb.nb) →
      l.foldl (selBnd pb s.A s.x) ⟨bZero K, ⟨0, .inactive⟩⟩ = ⟨bZero K, ⟨0, .inactive⟩⟩ := by
    intro l
    induction l with
    | nil => intro _; rfl
    | cons i l ih =>
      intro hl
      have hi := hl i (by simp)
      have hu : pb.useBnd = true ∧ i < pb.n := by
        unfold Pb.nb at hi
        split_ifs at hi with hu
        · exact ⟨hu, hi⟩
        · omega
      obtain ⟨h1, h2⟩ := h.2 hu.1 i hu.2
      have e : selBnd pb s.A s.x ⟨bZero K, ⟨0, .inactive⟩⟩ i = ⟨bZero K, ⟨0, .inactive⟩⟩ := by
        unfold selBnd
        simp only [h1, h2, Bool.false_eq_true, if_false]
        split_ifs <;> rfl
      rw [List.foldl_cons, e]
      exact ih fun j hj => hl j (by simp [hj])
  unfold select
  dsimp only
  rw [hg _ (fun i hi => by rw [← hd.nbCstr]; exact List.mem_range.1 hi), hb _ (fun i hi => by rw [← hd.nbBnd]; exact List.mem_range.1 hi)]

/-- Without equality, if the unconstrained minimum computed is not found outside of a constraint, `solve` returns it at once. -/
theorem solve_inside {o : Opts K} {pb : Pb K B} {s : State K} (hs : Inv s) (hq : numEq pb = 0) (hc : cholOk pb) (hit : 0 < o.maxIter)
    (hx : ∀ x : Nat → K, (∀ i < pb.n, x i = unconstrMin pb.n (chol pb.n pb.G pb.n).1 pb.a i) → AllIn pb x) :
    ∃ s', solve o pb s = .ok (.success, s') ∧ s'.it = 0 := by
  have hd := preInit_dim (o := o) (resize_dim_pb hs pb)
  obtain ⟨t0, s0, h1, h2, h3⟩ := init_safe (o := o) hd (fun _ => by omega)
  have hboth : t0 = .success ∧ ∀ i < pb.n, s0.x i = unconstrMin pb.n (chol pb.n pb.G pb.n).1 pb.a i := by
    have hin := h1
    generalize preInit o (resize s _ _ _) = p at hin hd
    unfold init_ at hin
    rw [if_pos (by simp [hd.nbVar])] at hin
    simp only [] at hin
    rw [if_neg (by unfold cholOk at hc; rw [hd.nbVar, hc]; simp)] at hin
    split_ifs at hin
    rw [← hd.nbVar]
    generalize (chol p.nbVar pb.G p.nbVar).1 = L at hin ⊢
    unfold initActiveSet at hin
    have hl : eqList pb (initPoint o pb { p with G := L }).A = [] :=
      List.length_eq_zero_iff.1 ((eqList_length hd.nbCstr hd.nbBnd).trans hq)
    rw [hl] at hin
    split_ifs at hin
    simp only [addInitials, Except.ok.injEq, Prod.mk.injEq] at hin
    obtain ⟨rfl, rfl⟩ := hin
    refine ⟨rfl, fun i hi => ?_⟩
    show wr p.nbVar (unconstrMin p.nbVar L pb.a) p.x i = _
    rw [wr, if_pos hi]
  obtain ⟨rfl, hx0⟩ := hboth
  have h0 : s0.it = 0 := (init_it h1).1
  refine ⟨s0, ?_, h0⟩
  unfold solve dualSolve
  rw [h1]
  simp only [ne_eq, not_true_eq_false, if_false]
  have hk : o.maxIter - s0.it = (o.maxIter - 1) + 1 := by rw [h0]; omega
  have hsel := select_none h2 (hx s0.x hx0)
  have : iterate o pb s0 ⟨0, .inactive⟩ false = .ok (.done .success s0) := by
    unfold iterate
    simp only [Bool.false_eq_true, if_false]
    rw [if_pos (h3 rfl).selectOk, if_pos hsel]
  rw [hk, loop, this]
  rfl

/-- The same for the warm-started solver, when no constraint is active at the start. -/
theorem xsolve_inside {o : Opts K} {pb : Pb K B} {as : List Status} {xs : XState K} (hs : XInv xs) (ha : ArgOk o pb as)
    (hw : numWant o pb (usedAs o pb as xs) (· != .inactive) = 0) (hc : cholOk pb) (hit : 0 < o.maxIter)
    (hx : ∀ x f, FirstPoint pb.n (chol pb.n pb.G pb.n).1 pb.a x f → AllIn pb x) :
    ∃ xs', xsolve o pb as xs = .ok (.success, xs') ∧ xs'.s.it = 0 := by
  have hd : XDim pb (xsolveStart o pb as xs) := xsolveStart_dim hs
  rcases xsolve_cases hs ha with ⟨h1, _⟩ | ⟨_, h1, _⟩ | ⟨_, A, xs1, h1, h2, h3, _, h5⟩
  · exfalso
    have hle : numWant o pb (usedAs o pb as xs) (·.isEq) ≤ numWant o pb (usedAs o pb as xs) (· != .inactive) :=
      List.countP_mono_left fun i _ hi => by
        dsimp only at hi ⊢
        generalize want o pb (usedAs o pb as xs) i = w at hi ⊢
        revert hi
        cases w <;> decide
    omega
  · exact absurd hc h1
  · have hq : A.q = 0 := by rw [h1.q, hw]; exact Nat.zero_min _
    have h6 : dropPos o (xstart o pb (xsolveStart o pb as xs) A) = none := by
      unfold dropPos
      have : (xstart o pb (xsolveStart o pb as xs) A).s.A.q = 0 := hq
      rw [this]; rfl
    rw [hq, dropLoop, h6] at h3
    simp only [Option.isNone_none, if_true, Except.ok.injEq] at h3
    subst h3
    have hp := xstart_first (o := o) (A := A) (xs := xsolveStart o pb as xs) hd.dim.nbVar hq
    have hall := hx _ _ hp
    have h0 : (xstart o pb (xsolveStart o pb as xs) A).s.it = 0 := rfl
    generalize xstart o pb (xsolveStart o pb as xs) A = xs0 at *
    have hk : o.maxIter - xs0.s.it = (o.maxIter - 1) + 1 := by rw [h0]; omega
    have hsel := select_none h2.good.dim hall
    have : iterate o pb xs0.s ⟨0, .inactive⟩ false = .ok (.done .success xs0.s) := by
      unfold iterate
      simp only [Bool.false_eq_true, if_false]
      rw [if_pos h2.good.selectOk, if_pos hsel]
    rw [hk, loop, this] at h5
    exact ⟨xs0, h5, h0⟩

end generic

namespace Ieee

variable {F : Fmt}

/-- Size of the `i`-th constraint in the scale of the Hessian: `√(Σ C_ai² / G_aa)`. -/
noncomputable def cnorm (pb : Pb (Fl F) (Fl F)) (i : ℕ) : ℝ := Real.sqrt (∑ a ∈ range pb.n, (pb.C a i).val ^ 2 / (pb.G a a).val)

/-- Margin for the `i`-th constraint, when the point is known to within `e`: the error on the point and the rounding errors of the value. -/
noncomputable def cmargin (pb : Pb (Fl F) (Fl F)) (y : ℕ → ℝ) (e : ℝ) (i : ℕ) : ℝ :=
  cnorm pb i * (e + 2 * ((pb.n + 2) * u F) * (dnorm pb.n pb.G y + e)) + 2 * pb.n * eta F

/-- The point `y` satisfies all the constraints with a margin, when it is known to within `e`. -/
structure Inside (pb : Pb (Fl F) (Fl F)) (y : ℕ → ℝ) (e : ℝ) : Prop where
  fin : ∀ i < pb.m, ∀ a < pb.n, (pb.C a i).Finite
  size : ∀ i < pb.m, cnorm pb i * (dnorm pb.n pb.G y + e) ≤ 2 ^ F.emax
  low : ∀ i < pb.m, ∀ b, (pb.bl i).ext = some b → b ≤ ((∑ a ∈ range pb.n, (pb.C a i).val * y a - cmargin pb y e i : ℝ) : EReal)
  up : ∀ i < pb.m, ∀ b, (pb.bu i).ext = some b → ((∑ a ∈ range pb.n, (pb.C a i).val * y a + cmargin pb y e i : ℝ) : EReal) ≤ b
  lowB : pb.useBnd = true → ∀ i < pb.n, ∀ b, (pb.xl i).ext = some b → b ≤ ((y i - e / Real.sqrt (pb.G i i).val : ℝ) : EReal)
  upB : pb.useBnd = true → ∀ i < pb.n, ∀ b, (pb.xu i).ext = some b → ((y i + e / Real.sqrt (pb.G i i).val : ℝ) : EReal) ≤ b

theorem lt_of_ext {a b : Fl F} {v : ℝ} (ha : a.ext = some (v : EReal)) (h : ∀ w, b.ext = some w → w ≤ (v : EReal)) : Fl.lt a b = false := by
  unfold Fl.lt
  rw [ha]
  cases hb : b.ext with
  | none => rfl
  | some w => exact decide_eq_false (not_lt.2 (h w hb))

theorem lt_of_ext' {a b : Fl F} {v : ℝ} (ha : a.ext = some (v : EReal)) (h : ∀ w, b.ext = some w → (v : EReal) ≤ w) : Fl.lt b a = false := by
  unfold Fl.lt
  rw [ha]
  cases hb : b.ext with
  | none => rfl
  | some w => exact decide_eq_false (not_lt.2 (h w hb))

theorem Finite.ext_val {x : Fl F} (h : x.Finite) : x.ext = some ((x.val : ℝ) : EReal) := by
  obtain ⟨sg, m, rfl⟩ := (finite_iff _).1 h
  exact ext_fin _ _

/-- Cauchy-Schwarz inequality in the scale of the Hessian. -/
theorem row_le {pb : Pb (Fl F) (Fl F)} (hG : ∀ i < pb.n, 0 < (pb.G i i).val) (i : ℕ) (v : ℕ → ℝ) :
    ∑ a ∈ range pb.n, |(pb.C a i).val| * |v a| ≤ cnorm pb i * dnorm pb.n pb.G v := by
  have h := Real.sum_mul_le_sqrt_mul_sqrt (range pb.n) (fun a => |(pb.C a i).val| / Real.sqrt (pb.G a a).val) (fun a => Real.sqrt (pb.G a a).val * |v a|)
  refine le_trans (le_of_eq (sum_congr rfl fun a ha => ?_)) (h.trans (le_of_eq ?_))
  · have := (Real.sqrt_pos.2 (hG a (mem_range.1 ha))).ne'
    field_simp
  · unfold cnorm dnorm
    congr 2
    · refine sum_congr rfl fun a ha => ?_
      rw [div_pow, sq_abs, Real.sq_sqrt (hG a (mem_range.1 ha)).le]
    · refine sum_congr rfl fun a ha => ?_
      rw [mul_pow, sq_abs, Real.sq_sqrt (hG a (mem_range.1 ha)).le]

variable {m lam : ℝ}

/-- A finite point within `e` of a point inside the constraints is not found outside of them. -/
theorem Inside.allIn {pb : Pb (Fl F) (Fl F)} (hG : SafeHessian F pb.n pb.G m lam) {y : ℕ → ℝ} {e : ℝ} (hi : Inside pb y e) {x : ℕ → Fl F}
    (hx : ∀ i < pb.n, (x i).Finite) (he : dnorm pb.n pb.G (fun i => (x i).val - y i) ≤ e) : AllIn pb x := by
  have hG0 : ∀ i < pb.n, 0 < (pb.G i i).val := fun i hi => hG.m0.trans_le (hG.low i hi)
  refine ⟨fun i him => ?_, fun hb i hin => ?_⟩
  · have key : (esum (.slack pb.n i) (fun a => pb.C a i * x a) pb.n).Finite ∧
        |(esum (.slack pb.n i) (fun a => pb.C a i * x a) pb.n).val - ∑ a ∈ range pb.n, (pb.C a i).val * y a| ≤ cmargin pb y e i := by
      rcases Nat.eq_zero_or_pos pb.n with h0 | hn
      · have hz : (esum (.slack pb.n i) (fun a => pb.C a i * x a) pb.n : Fl F) = 0 := by
          rw [h0]
          have hp := F.order_perm (.slack 0 i) 0
          exact tree_nil (List.perm_nil.1 (by simpa using hp)) _
        rw [hz]
        refine ⟨trivial, ?_⟩
        rw [show (0 : Fl F).val = 0 from val_zero _]
        unfold cmargin cnorm
        rw [h0]
        simp
      have hc0 : 0 ≤ cnorm pb i := Real.sqrt_nonneg _
      have hd0 := dnorm_nonneg (n := pb.n) (G := pb.G) (fun i => (x i).val - y i)
      have hxn : dnorm pb.n pb.G (fun i => (x i).val) ≤ dnorm pb.n pb.G y + e :=
        (dnorm_sub (fun i hi => (hG0 i hi).le) (fun i => (x i).val) y).trans (by linarith)
      have hS : ∑ a ∈ range pb.n, |(pb.C a i).val| * |(x a).val| ≤ cnorm pb i * (dnorm pb.n pb.G y + e) :=
        (row_le hG0 i fun a => (x a).val).trans (mul_le_mul_of_nonneg_left hxn hc0)
      have htop : top F / 2 = 2 ^ F.emax := by
        unfold top
        rw [zpow_add₀ (by norm_num), zpow_one]; ring
      obtain ⟨h1, _⟩ := hG.dot_fin hn (.slack pb.n i) (fun a => pb.C a i) x (fun a ha => ⟨hi.fin i him a ha, hx a ha⟩) hS (by rw [htop]; exact hi.size i him)
      refine ⟨h1, ?_⟩
      have h2 := dot_rel hG hn (.slack pb.n i) (fun a => pb.C a i) x h1
      have h3 : |∑ a ∈ range pb.n, (pb.C a i).val * (x a).val - ∑ a ∈ range pb.n, (pb.C a i).val * y a| ≤ cnorm pb i * e := by
        rw [← sum_sub_distrib]
        refine (abs_sum_le_sum_abs _ _).trans (le_trans (le_of_eq (sum_congr rfl fun a _ => ?_))
          ((row_le hG0 i fun a => (x a).val - y a).trans (mul_le_mul_of_nonneg_left he hc0)))
        rw [← mul_sub, abs_mul]
      have hε := hG.rel_le hn
      have hε1 := (hG.wellPosed hn).err_le hn
      have hε0 := relErr_nonneg (F := F) (n := pb.n)
      have hη := eta_pos (F := F)
      have hS0 : 0 ≤ ∑ a ∈ range pb.n, |(pb.C a i).val| * |(x a).val| := sum_nonneg fun a _ => by positivity
      have h4 := mul_le_mul hε hS hS0 (hε0.trans hε)
      have h5 : (1 + relErr F pb.n) * eta F * pb.n ≤ 2 * pb.n * eta F := by
        have : (1 + relErr F pb.n) * (eta F * pb.n) ≤ 2 * (eta F * pb.n) := mul_le_mul_of_nonneg_right (by linarith) (by positivity)
        linarith
      have h6 := abs_sub_le (esum (.slack pb.n i) (fun a => pb.C a i * x a) pb.n : Fl F).val (∑ a ∈ range pb.n, (pb.C a i).val * (x a).val)
        (∑ a ∈ range pb.n, (pb.C a i).val * y a)
      unfold cmargin
      linarith
    obtain ⟨h1, h2⟩ := key
    obtain ⟨e1, e2⟩ := abs_le.1 h2
    rw [notOutside_iff]
    refine ⟨lt_of_ext (Finite.ext_val h1) fun w hw => (hi.low i him w hw).trans ?_, lt_of_ext' (Finite.ext_val h1) fun w hw => le_trans ?_ (hi.up i him w hw)⟩
    · rw [EReal.coe_le_coe_iff]; linarith
    · rw [EReal.coe_le_coe_iff]; linarith
  · have h1 := hx i hin
    have hs := Real.sqrt_pos.2 (hG0 i hin)
    have h2 : |(x i).val - y i| ≤ e / Real.sqrt (pb.G i i).val := by
      rw [le_div_iff₀ hs]
      refine le_trans ?_ he
      unfold dnorm
      refine Real.le_sqrt_of_sq_le ?_
      rw [mul_pow, Real.sq_sqrt (hG0 i hin).le, sq_abs, mul_comm]
      exact single_le_sum (f := fun l => (pb.G l l).val * ((x l).val - y l) ^ 2) (fun l hl => mul_nonneg (hG0 l (mem_range.1 hl)).le (sq_nonneg _)) (mem_range.2 hin)
    obtain ⟨e1, e2⟩ := abs_le.1 h2
    rw [notOutside_iff]
    refine ⟨lt_of_ext (Finite.ext_val h1) fun w hw => (hi.lowB hb i hin w hw).trans ?_, lt_of_ext' (Finite.ext_val h1) fun w hw => le_trans ?_ (hi.upB hb i hin w hw)⟩
    · rw [EReal.coe_le_coe_iff]; linarith
    · rw [EReal.coe_le_coe_iff]; linarith

/-- Distance of C81 between the point computed and the exact minimiser. -/
noncomputable def dist81 (pb : Pb (Fl F) (Fl F)) (m lam : ℝ) (y : ℕ → ℝ) : ℝ :=
  (48 * pb.n * (pb.n + 2) * u F * dnorm pb.n pb.G y + 9 * (Real.sqrt pb.n * tiny pb.n pb.G m)) / lam

/-- Distance of C86. -/
noncomputable def dist86 (pb : Pb (Fl F) (Fl F)) (m lam : ℝ) (y : ℕ → ℝ) : ℝ :=
  (42 * pb.n * Real.sqrt pb.n * ((pb.n + 2) * u F) * dnorm pb.n pb.G y + 6 * pb.n * tiny pb.n pb.G m * (dnorm pb.n pb.G y + 1)) / lam

theorem isMin_unique {n : ℕ} {G : ℕ → ℕ → Fl F} {a : ℕ → Fl F} {y z : ℕ → ℝ} (hy : IsMin n G a y) (hz : IsMin n G a z) : ∀ i < n, z i = y i := by
  by_contra hne
  push Not at hne
  have a1 := hy z hne
  have a2 := hz y (by obtain ⟨i, hi, hne⟩ := hne; exact ⟨i, hi, hne.symm⟩)
  linarith

theorem dnorm_congr {n : ℕ} {G : ℕ → ℕ → Fl F} {v w : ℕ → ℝ} (h : ∀ i < n, v i = w i) : dnorm n G v = dnorm n G w := by
  unfold dnorm
  rw [sum_congr rfl fun i hi => by rw [h i (mem_range.1 hi)]]

/-- The unconstrained minimum computed by the base solver. -/
theorem unconstr_close (hF : F.Std) {n : ℕ} {G : ℕ → ℕ → Fl F} {a : ℕ → Fl F} {α : ℝ} (hG : SafeHessian F n G m lam) (ha : SafeGradient F n G a m lam α)
    {y : ℕ → ℝ} (hy : IsMin n G a y) {x : ℕ → Fl F} (hx : ∀ i < n, x i = unconstrMin n (JrlQp.chol n G n).1 a i) :
    (∀ i < n, (x i).Finite) ∧ lam * dnorm n G (fun i => (x i).val - y i) ≤ 48 * n * (n + 2) * u F * dnorm n G y + 9 * (Real.sqrt n * tiny n G m) := by
  let pb0 : Pb (Fl F) (Fl F) := { n := n, m := 0, useBnd := false, G := G, a := a, C := fun _ _ => 0, bl := fun _ => 0, bu := fun _ => 0, xl := fun _ => 0, xu := fun _ => 0 }
  let o0 : Opts (Fl F) := { maxIter := 1, bigBnd := 0, warmStart := false, tiny := 0, dbg := false }
  obtain ⟨s, s', z, h1, h2, h3, h4, h5, h6⟩ := C81_unconstrained_solved hF [] (by simp) (o := o0) Nat.one_pos (pb := pb0) rfl rfl hG ha
  obtain ⟨s1, hs1, hi⟩ := calls_inv ([] : List (Call (Fl F) (Fl F))) (by simp)
  rw [h1] at hs1
  cases hs1
  have hq : numEq pb0 = 0 := by simp [numEq, pb0, Pb.nb]
  have hs := solve_first hi hq h2 h3
  rw [(solve_chol hi h2).1] at hs
  have e : ∀ i < n, x i = s'.x i := fun i hi => (hx i hi).trans (hs i hi).symm
  have ez := isMin_unique hy h5
  refine ⟨fun i hi => by rw [e i hi]; exact h4 i hi, ?_⟩
  rw [dnorm_congr (v := fun i => (x i).val - y i) (w := fun i => (s'.x i).val - z i) fun i hi => by simp only [e i hi, ez i hi],
    dnorm_congr (v := y) (w := z) fun i hi => (ez i hi).symm]
  exact h6

/-- **C88, base solver.** In a standard format, after any history: on a problem without equality constraint and fixed variable, whose Hessian and
gradient are as in C81 and whose exact unconstrained minimiser `y` satisfies all constraints and bounds with a margin, `solve` returns SUCCESS
without an iteration, and a finite point within rounding errors of `y`. -/
theorem C88_inside (hF : F.Std) (cs : List (Call (Fl F) (Fl F))) (h : ∀ c ∈ cs, CallOk c) {o : Opts (Fl F)} (hit : 0 < o.maxIter)
    {pb : Pb (Fl F) (Fl F)} (hq : numEq pb = 0) {α : ℝ} (hG : SafeHessian F pb.n pb.G m lam) (ha : SafeGradient F pb.n pb.G pb.a m lam α)
    {y : ℕ → ℝ} (hy : IsMin pb.n pb.G pb.a y) (hin : Inside pb y (dist81 pb m lam y)) :
    ∃ s s', calls cs (State.empty : State (Fl F)) = .ok s ∧ solve o pb s = .ok (.success, s') ∧ s'.it = 0 ∧
      (∀ i < pb.n, (s'.x i).Finite) ∧ dnorm pb.n pb.G (fun i => (s'.x i).val - y i) ≤ dist81 pb m lam y := by
  have hl := hG.lam_pos
  have key : ∀ x : ℕ → Fl F, (∀ i < pb.n, x i = unconstrMin pb.n (JrlQp.chol pb.n pb.G pb.n).1 pb.a i) →
      (∀ i < pb.n, (x i).Finite) ∧ dnorm pb.n pb.G (fun i => (x i).val - y i) ≤ dist81 pb m lam y := fun x hx => by
    obtain ⟨h1, h2⟩ := unconstr_close hF hG ha hy hx
    refine ⟨h1, ?_⟩
    unfold dist81
    rw [le_div_iff₀ hl, mul_comm]
    exact h2
  obtain ⟨s, hs, hi⟩ := calls_inv cs h
  obtain ⟨L, hL, _⟩ := hG.chol
  have hc : cholOk pb := by unfold cholOk; rw [hL]
  obtain ⟨s', h1, h2⟩ := solve_inside hi hq hc hit fun x hx => hin.allIn hG (key x hx).1 (key x hx).2
  have hx := solve_first hi hq h1 h2
  rw [(solve_chol hi h1).1] at hx
  exact ⟨s, s', hs, h1, h2, key _ hx⟩

/-- **C88, warm-started solver.** The same, when no constraint is active at the start (no equality, no constraint asked for by the warm start). -/
theorem C88_warm_inside (hF : F.Std) (cs : List (XCall (Fl F) (Fl F))) (h : ∀ c ∈ cs, c.Admissible) {o : Opts (Fl F)} (hit : 0 < o.maxIter)
    {pb : Pb (Fl F) (Fl F)} {as : List Status} (ha : ArgOk o pb as) {xs : XState (Fl F)} (hx : xcalls cs (XState.empty : XState (Fl F)) = .ok xs)
    (hw : ∀ i < pb.m + pb.nb, want o pb (usedAs o pb as xs) i = .inactive) {α : ℝ} (hG : SafeHessian F pb.n pb.G m lam)
    (hg : SafeGradient F pb.n pb.G pb.a m lam α) (ht : 30 * pb.n * tiny pb.n pb.G m ≤ 1) {y : ℕ → ℝ} (hy : IsMin pb.n pb.G pb.a y)
    (hin : Inside pb y (dist86 pb m lam y)) :
    ∃ xs', xsolve o pb as xs = .ok (.success, xs') ∧ xs'.s.it = 0 ∧
      (∀ i < pb.n, (xs'.s.x i).Finite) ∧ dnorm pb.n pb.G (fun i => (xs'.s.x i).val - y i) ≤ dist86 pb m lam y := by
  have hl := hG.lam_pos
  obtain ⟨L, hL, hfin⟩ := hG.chol
  have key : ∀ (x : ℕ → Fl F) (f : Fl F), FirstPoint pb.n (JrlQp.chol pb.n pb.G pb.n).1 pb.a x f →
      (∀ i < pb.n, (x i).Finite) ∧ dnorm pb.n pb.G (fun i => (x i).val - y i) ≤ dist86 pb m lam y := fun x f hp => by
    rcases Nat.eq_zero_or_pos pb.n with h0 | hn
    · refine ⟨fun i hi => by omega, ?_⟩
      simp [dnorm, dist86, h0]
    obtain ⟨g1, _, g3⟩ := chol_close hL hfin
    have r : Ready F pb.n pb.G L pb.a m lam α := ⟨hG, hg, g3, g1, hfin, hn⟩
    rw [hL] at hp
    have hxf := (r.first_fin hF hp).1
    refine ⟨hxf, ?_⟩
    unfold dist86
    rw [le_div_iff₀ hl, mul_comm]
    exact hG.first_error hn ht (fun i hi => hfin i hi i le_rfl) g1 g3 hp hxf (hG.grad_zero hy)
  obtain ⟨ys, h1, hi⟩ := C37_no_fault cs h
  rw [hx] at h1
  cases h1
  have hz : numWant o pb (usedAs o pb as xs) (· != .inactive) = 0 := by
    unfold numWant
    rw [List.countP_eq_zero]
    intro i hi
    rw [hw i (List.mem_range.1 hi)]
    decide
  have hc : cholOk pb := by unfold cholOk; rw [hL]
  obtain ⟨xs', h2, h3⟩ := xsolve_inside hi ha hz hc hit fun x f hp => hin.allIn hG (key x f hp).1 (key x f hp).2
  exact ⟨xs', h2, h3, key _ _ (xsolve_first hi ha hz h2 h3)⟩

/-- For `double`: two variables, Hessian with ones on the diagonal and one half elsewhere, gradient one half, so that the minimum is `(-1/3, -1/3)`;
bounds `-1 ≤ x ≤ 0` and one constraint `-1 ≤ x_0/2 + x_1/2 ≤ 0`. All the hypotheses of C88 hold, for both solvers. -/
theorem C88_hypotheses_met : ∃ (pb : Pb (Fl binary64) (Fl binary64)) (y : ℕ → ℝ), pb.n = 2 ∧ pb.m = 1 ∧ pb.useBnd = true ∧ numEq pb = 0 ∧
    SafeHessian binary64 pb.n pb.G 1 (1 / 2) ∧ SafeGradient binary64 pb.n pb.G pb.a 1 (1 / 2) 1 ∧ IsMin pb.n pb.G pb.a y ∧
    (∀ i < 2, y i = -1 / 3) ∧ (∀ i, (pb.xl i).val = -1 ∧ (pb.xu i).val = 0 ∧ (pb.bl i).val = -1 ∧ (pb.bu i).val = 0) ∧
    (∀ i a, (pb.C a i).val = 1 / 2) ∧ Inside pb y (dist81 pb 1 (1 / 2) y) ∧ Inside pb y (dist86 pb 1 (1 / 2) y) ∧ 30 * pb.n * tiny pb.n pb.G 1 ≤ 1 := by
  obtain ⟨G, hG, hg⟩ := C80_hypotheses_met (n := 2) (by norm_num)
  obtain ⟨x, hx, hv⟩ := exists_half
  have e1 : (1 : Fl binary64).val = 1 := one_val
  have e0 : (0 : Fl binary64).val = 0 := val_zero _
  have en : (-(1 : Fl binary64)).val = -1 := by rw [(neg_fin (a := (1 : Fl binary64)) trivial).2, e1]
  have h1e : ((-(1 : Fl binary64))).ext = some ((-1 : ℝ) : EReal) := by
    rw [Finite.ext_val (by trivial), en]
  have h0e : ((0 : Fl binary64)).ext = some ((0 : ℝ) : EReal) := by
    rw [Finite.ext_val (by trivial), e0]
  let pb : Pb (Fl binary64) (Fl binary64) :=
    { n := 2, m := 1, useBnd := true, G := G, a := fun _ => x, C := fun _ _ => x, bl := fun _ => -1, bu := fun _ => 0, xl := fun _ => -1, xu := fun _ => 0 }
  obtain ⟨y, hy, hz⟩ := hG.exists_isMin (fun _ => x)
  have hH : ∀ i j, hessVal G i j = if i = j then 1 else 1 / 2 := fun i j => by
    unfold hessVal
    rw [hg, hg]
    split_ifs <;> first | rfl | omega
  have y0 : y 0 = -1 / 3 ∧ y 1 = -1 / 3 := by
    have a0 := hz 0 (by norm_num)
    have a1 := hz 1 (by norm_num)
    simp only [hH, hv, sum_range_succ, range_zero, sum_empty] at a0 a1
    norm_num at a0 a1
    constructor <;> linarith
  have hyv : ∀ i < 2, y i = -1 / 3 := fun i hi => by
    interval_cases i
    · exact y0.1
    · exact y0.2
  have hd : dnorm 2 G y ≤ 1 / 2 := by
    unfold dnorm
    refine Real.sqrt_le_iff.2 ⟨by norm_num, ?_⟩
    simp only [sum_range_succ, range_zero, sum_empty, hg, y0.1, y0.2]
    norm_num
  have hd0 := dnorm_nonneg (n := 2) (G := G) y
  have hu : u binary64 = 2 ^ (-53 : ℤ) := by norm_num [u, binary64]
  have hη : eta binary64 ≤ 1 / 1000000 := by
    have h2 : eta binary64 = 2 ^ (-1075 : ℤ) := by norm_num [eta, binary64]
    rw [h2]
    refine le_trans (zpow_le_zpow_right₀ (by norm_num) (by norm_num : (-1075 : ℤ) ≤ -20)) (by norm_num)
  have hη0 := eta_pos (F := binary64)
  have ht : tiny 2 G 1 = 9 * eta binary64 := by
    unfold tiny
    simp only [sum_range_succ, range_zero, sum_empty, hg, if_true, Real.sqrt_one]
    push_cast
    ring
  have hs2 : Real.sqrt 2 ≤ 2 := Real.sqrt_le_iff.2 ⟨by norm_num, by norm_num⟩
  have hs0 := Real.sqrt_nonneg 2
  have d81 : dist81 pb 1 (1 / 2) y ≤ 1 / 100 ∧ 0 ≤ dist81 pb 1 (1 / 2) y := by
    show (48 * ((2 : ℕ) : ℝ) * ((2 : ℕ) + 2) * u binary64 * dnorm 2 G y + 9 * (Real.sqrt ((2 : ℕ) : ℝ) * tiny 2 G 1)) / (1 / 2) ≤ 1 / 100 ∧
      0 ≤ (48 * ((2 : ℕ) : ℝ) * ((2 : ℕ) + 2) * u binary64 * dnorm 2 G y + 9 * (Real.sqrt ((2 : ℕ) : ℝ) * tiny 2 G 1)) / (1 / 2)
    rw [ht, hu]
    push_cast
    generalize dnorm 2 G y = d at *
    generalize eta binary64 = t at *
    generalize Real.sqrt 2 = r at *
    refine ⟨?_, by positivity⟩
    have : r * (9 * t) ≤ 2 * (9 * (1 / 1000000)) := by gcongr
    rw [div_le_iff₀ (by norm_num)]
    norm_num at *
    linarith
  have d86 : dist86 pb 1 (1 / 2) y ≤ 1 / 100 ∧ 0 ≤ dist86 pb 1 (1 / 2) y := by
    show (42 * ((2 : ℕ) : ℝ) * Real.sqrt ((2 : ℕ) : ℝ) * (((2 : ℕ) + 2) * u binary64) * dnorm 2 G y + 6 * ((2 : ℕ) : ℝ) * tiny 2 G 1 * (dnorm 2 G y + 1)) / (1 / 2) ≤ 1 / 100 ∧
      0 ≤ (42 * ((2 : ℕ) : ℝ) * Real.sqrt ((2 : ℕ) : ℝ) * (((2 : ℕ) + 2) * u binary64) * dnorm 2 G y + 6 * ((2 : ℕ) : ℝ) * tiny 2 G 1 * (dnorm 2 G y + 1)) / (1 / 2)
    rw [ht, hu]
    push_cast
    generalize dnorm 2 G y = d at *
    generalize eta binary64 = t at *
    generalize Real.sqrt 2 = r at *
    refine ⟨?_, by positivity⟩
    have a1 : r * d ≤ 2 * (1 / 2) := by gcongr
    have a2 : t * (d + 1) ≤ (1 / 1000000) * (1 / 2 + 1) := by gcongr
    rw [div_le_iff₀ (by norm_num)]
    norm_num at *
    nlinarith
  have hc : ∀ i, cnorm pb i ≤ 1 ∧ 0 ≤ cnorm pb i := fun i => by
    refine ⟨?_, Real.sqrt_nonneg _⟩
    show Real.sqrt (∑ a ∈ range 2, x.val ^ 2 / (G a a).val) ≤ 1
    refine Real.sqrt_le_iff.2 ⟨by norm_num, ?_⟩
    simp only [sum_range_succ, range_zero, sum_empty, hg, hv]
    norm_num
  have hrow : ∀ i, ∑ a ∈ range pb.n, (pb.C a i).val * y a = -1 / 3 := fun i => by
    show ∑ a ∈ range 2, x.val * y a = -1 / 3
    simp only [sum_range_succ, range_zero, sum_empty, y0.1, y0.2, hv]
    norm_num
  have hm : ∀ i e, e ≤ 1 / 100 → 0 ≤ e → cmargin pb y e i ≤ 1 / 10 := fun i e h1 h2 => by
    show cnorm pb i * (e + 2 * ((((2 : ℕ) : ℝ) + 2) * u binary64) * (dnorm 2 G y + e)) + 2 * ((2 : ℕ) : ℝ) * eta binary64 ≤ 1 / 10
    obtain ⟨c1, c2⟩ := hc i
    rw [hu]
    push_cast
    generalize cnorm pb i = c at *
    generalize dnorm 2 G y = d at *
    generalize eta binary64 = t at *
    have h3 : e + 2 * ((2 + 2) * 2 ^ (-53 : ℤ)) * (d + e) ≤ 1 / 50 := by
      norm_num at *
      linarith
    have h4 : 0 ≤ e + 2 * ((2 + 2) * 2 ^ (-53 : ℤ)) * (d + e) := by positivity
    have h5 := mul_le_mul c1 h3 h4 (by norm_num)
    linarith
  have hin : ∀ e, e ≤ 1 / 100 → 0 ≤ e → Inside pb y e := fun e h1 h2 => by
    have hb : ∀ i < 2, e / Real.sqrt (G i i).val = e := fun i _ => by rw [hg, if_pos rfl, Real.sqrt_one, div_one]
    refine ⟨fun _ _ _ _ => hx, fun i _ => ?_, fun i _ b hb => ?_, fun i _ b hb => ?_, fun _ i hi b hb' => ?_, fun _ i hi b hb' => ?_⟩
    · obtain ⟨c1, c2⟩ := hc i
      have h3 : cnorm pb i * (dnorm 2 G y + e) ≤ 1 * (1 / 2 + 1 / 100) := mul_le_mul c1 (by linarith) (by linarith) (by norm_num)
      refine le_trans h3 (le_trans (by norm_num) (one_le_zpow₀ (by norm_num) (by norm_num [binary64]) : (1 : ℝ) ≤ 2 ^ binary64.emax))
    · have := hm i e h1 h2
      rw [show pb.bl i = -1 from rfl, h1e] at hb
      cases hb
      rw [EReal.coe_le_coe_iff, hrow]
      linarith
    · have := hm i e h1 h2
      rw [show pb.bu i = 0 from rfl, h0e] at hb
      cases hb
      rw [EReal.coe_le_coe_iff, hrow]
      linarith
    · rw [show pb.xl i = -1 from rfl, h1e] at hb'
      cases hb'
      rw [EReal.coe_le_coe_iff, show pb.G = G from rfl, hb i hi, hyv i hi]
      linarith
    · rw [show pb.xu i = 0 from rfl, h0e] at hb'
      cases hb'
      rw [EReal.coe_le_coe_iff, show pb.G = G from rfl, hb i hi, hyv i hi]
      linarith
  have hne : Fl.eq (-1 : Fl binary64) 0 = false := by
    unfold Fl.eq
    rw [h1e, h0e]
    simp
  refine ⟨pb, y, rfl, rfl, rfl, ?_, hG, half_gradient (by norm_num) hG hx hv, hy, hyv, fun i => ⟨en, e0, en, e0⟩, fun i a => hv,
    hin _ d81.1 d81.2, hin _ d86.1 d86.2, binary64_tiny hG⟩
  have hq : bEq (Fl binary64) (-1 : Fl binary64) (0 : Fl binary64) = false := hne
  simp [numEq, pb, Pb.nb, hq]

end Ieee

end JrlQp
