import Verif.IeeeErr
import Verif.PropsFloat
import Verif.PropsStructAny

/-!
# The solvers in IEEE-754 arithmetic

C55: the generic theorems (no fault, no influence of the history) apply to IEEE doubles.
C56: what SUCCESS guarantees in IEEE arithmetic: every constraint reported INACTIVE is satisfied up to the rounding errors of the
computation of its value, and every bound reported INACTIVE is satisfied exactly.
-/

set_option linter.unusedSectionVars false

namespace JrlQp
namespace Ieee

open NumOps

variable {F : Fmt}

/-- **C55, comparisons.** Comparisons with a NaN are false; two other numbers are in exactly one of the relations `<`, `==`, `>`;
`<=` is `<` or `==`. -/
theorem C55_compare (a b : Fl F) :
    (a = .nan ∨ b = .nan → ltb a b = false ∧ leb a b = false ∧ eqb a b = false) ∧
    (a ≠ .nan → b ≠ .nan → (ltb a b = true ∧ eqb a b = false ∧ ltb b a = false) ∨ (ltb a b = false ∧ eqb a b = true ∧ ltb b a = false) ∨
      (ltb a b = false ∧ eqb a b = false ∧ ltb b a = true)) ∧
    leb a b = (ltb a b || eqb a b) := by
  classical
  have hn : ∀ c : Fl F, c ≠ .nan → ∃ x, c.ext = some x := by
    intro c hc
    rcases c with _ | s | ⟨s, m⟩
    · exact absurd rfl hc
    · cases s <;> exact ⟨_, rfl⟩
    · cases s <;> exact ⟨_, rfl⟩
  have e1 : ∀ a b : Fl F, (ltb a b : Bool) = Fl.lt a b := fun _ _ => rfl
  have e2 : ∀ a b : Fl F, (leb a b : Bool) = Fl.le a b := fun _ _ => rfl
  have e3 : ∀ a b : Fl F, (eqb a b : Bool) = Fl.eq a b := fun _ _ => rfl
  have hnan : a = .nan ∨ b = .nan → Fl.lt a b = false ∧ Fl.le a b = false ∧ Fl.eq a b = false := by
    have h0 : (Fl.nan : Fl F).ext = none := rfl
    rintro (rfl | rfl)
    · simp [Fl.lt, Fl.le, Fl.eq, h0]
    · unfold Fl.lt Fl.le Fl.eq
      rw [h0]
      cases a.ext <;> simp
  simp only [e1, e2, e3]
  refine ⟨hnan, ?_, ?_⟩
  · intro ha hb
    obtain ⟨x, hx⟩ := hn a ha
    obtain ⟨y, hy⟩ := hn b hb
    simp only [Fl.lt, Fl.eq, hx, hy]
    rcases lt_trichotomy x y with h | h | h
    · exact .inl (by simp [h, h.ne, h.le])
    · exact .inr (.inl (by simp [h]))
    · exact .inr (.inr (by simp [h, h.ne', h.le]))
  · by_cases ha : a = .nan
    · rw [(hnan (.inl ha)).1, (hnan (.inl ha)).2.1, (hnan (.inl ha)).2.2]; rfl
    · by_cases hb : b = .nan
      · rw [(hnan (.inr hb)).1, (hnan (.inr hb)).2.1, (hnan (.inr hb)).2.2]; rfl
      · obtain ⟨x, hx⟩ := hn a ha
        obtain ⟨y, hy⟩ := hn b hb
        simp only [Fl.lt, Fl.le, Fl.eq, hx, hy, ← Bool.decide_or]
        congr 1
        exact propext le_iff_lt_or_eq

/-! ## C55 -/

/-- Calls on the base solver with IEEE data: sane options, and not more equality constraints than variables. -/
def CallOk : Call (Fl F) (Fl F) → Prop
  | .solve o pb => OptOk o ∧ numEq pb ≤ pb.n
  | _ => True

theorem CallOk.admissible {c : Call (Fl F) (Fl F)} (h : CallOk c) : c.Admissible := by
  cases c with
  | solve o pb => exact ⟨fpLaws h.1, fun _ => h.2⟩
  | _ => trivial

/-- **C55, base solver.** With IEEE numbers of any format, rounding errors, overflows and NaN included: no sequence of calls
accesses memory outside of the buffers, takes an impossible branch or fails an assertion, and what the last `solve` returns
does not depend on the earlier calls. -/
theorem C55_base (cs cs' : List (Call (Fl F) (Fl F))) (h : ∀ c ∈ cs, CallOk c) (h' : ∀ c ∈ cs', CallOk c) (o : Opts (Fl F)) (ho : OptOk o)
    (hw : o.warmStart = false) (pb : Pb (Fl F) (Fl F)) (hq : numEq pb ≤ pb.n) :
    ∃ s s' r r', calls cs (State.empty : State (Fl F)) = .ok s ∧ calls cs' (State.empty : State (Fl F)) = .ok s' ∧
      solve o pb s = .ok r ∧ solve o pb s' = .ok r' ∧ obs pb.n r = obs pb.n r' :=
  C13_history_independence cs cs' (fun c hc => (h c hc).admissible) (fun c hc => (h' c hc).admissible) o (fpLaws ho) hw pb (fun _ => hq)

/-- **C55, structured solver.** -/
theorem C55_structured (cs cs' : List (BCall (Fl F) (Fl F))) {o o' : Opts (Fl F)}
    (h : ∀ c ∈ cs, ∀ o pb as fr, c = .solve o pb as fr → OptOk o ∧ BArgOk o pb as)
    (h' : ∀ c ∈ cs', ∀ o pb as fr, c = .solve o pb as fr → OptOk o ∧ BArgOk o pb as) (hoo : OEq o o') (ho : OptOk o)
    {pb : BPb (Fl F) (Fl F)} {as as' : List Status} (ha : BArgOk o pb as) (ha' : BArgOk o' pb as') (fresh fresh' : Nat → Fl F) :
    ∃ bs bs' t b b', bcalls cs (BState.empty : BState (Fl F)) = .ok bs ∧ bcalls cs' (BState.empty : BState (Fl F)) = .ok bs' ∧
      bsolve o pb as fresh bs = .ok (t, b) ∧ bsolve o' pb as' fresh' bs' = .ok (t, b') ∧ obs pb.n (t, b.s) = obs pb.n (t, b'.s) := by
  have ha0 : ∀ {o : Opts (Fl F)}, OptOk o → Arith (Fl F) o := fun h => ⟨fpLaws h, _, nulLaws h⟩
  have key : ∀ cs : List (BCall (Fl F) (Fl F)), (∀ c ∈ cs, ∀ o pb as fr, c = .solve o pb as fr → OptOk o ∧ BArgOk o pb as) →
      ∀ c ∈ cs, c.Admissible := by
    intro cs h c hc
    cases c with
    | solve o pb as fr => exact ⟨ha0 (h _ hc o pb as fr rfl).1, (h _ hc o pb as fr rfl).2⟩
    | _ => trivial
  exact C54_history_independence cs cs' (key cs h) (key cs' h') hoo (ha0 ho) ha ha' fresh fresh'

/-- **C55, box solver.** -/
theorem C55_box (cs cs' : List (BoxCall (Fl F) (Fl F))) (h : ∀ b ∈ cs, b.Admissible) (h' : ∀ b ∈ cs', b.Admissible) {o : Opts (Fl F)}
    (ho : OptOk o) (n : Nat) (x0 c : Nat → Fl F) (bl inf : Fl F) (xl xu : Nat → Fl F) :
    ∃ s s' r r', boxCalls cs (State.empty : State (Fl F)) = .ok s ∧ boxCalls cs' (State.empty : State (Fl F)) = .ok s' ∧
      boxSolve o n x0 c bl inf xl xu s = .ok r ∧ boxSolve o n x0 c bl inf xl xu s' = .ok r' ∧ obs n r = obs n r' :=
  C39_box_history cs cs' h h' (fpLaws ho) (fpLaws ho) rfl rfl rfl n x0 c bl inf xl xu

/-- **C55, experimental solver.** -/
theorem C55_warm (cs cs' : List (XCall (Fl F) (Fl F))) (h : ∀ c ∈ cs, c.Admissible) (h' : ∀ c ∈ cs', c.Admissible) (o : Opts (Fl F))
    (ho : OptOk o) (hd : o.dbg = false) (pb : Pb (Fl F) (Fl F)) (as : List Status) (ha : ArgOk o pb as) (hex : o.warmStart = true → as ≠ []) :
    ∃ xs xs' r r', xcalls cs (XState.empty : XState (Fl F)) = .ok xs ∧ xcalls cs' (XState.empty : XState (Fl F)) = .ok xs' ∧
      xsolve o pb as xs = .ok r ∧ xsolve o pb as xs' = .ok r' ∧ xobs pb.n r = xobs pb.n r' :=
  C38_history_independence cs cs' h h' o pb as ⟨fpLaws ho, ha, Or.inl hd⟩ hex

/-- States reached by legal calls with IEEE data. -/
theorem calls_inv (cs : List (Call (Fl F) (Fl F))) (h : ∀ c ∈ cs, CallOk c) : ∃ s, calls cs (State.empty : State (Fl F)) = .ok s ∧ Inv s := by
  have key : ∀ (cs : List (Call (Fl F) (Fl F))) (s : State (Fl F)), Inv s → (∀ c ∈ cs, CallOk c) → ∃ s', calls cs s = .ok s' ∧ Inv s' := by
    intro cs
    induction cs with
    | nil => intro s h _; exact ⟨s, rfl, h⟩
    | cons c cs ih =>
      intro s hs hc
      obtain ⟨s1, h1, h2⟩ := call_safe hs c (hc c List.mem_cons_self).admissible
      obtain ⟨s2, h3, h4⟩ := ih s1 h2 (fun d hd => hc d (List.mem_cons_of_mem _ hd))
      exact ⟨s2, by simp only [calls, h1]; exact h3, h4⟩
  exact key cs _ inv_empty h

/-! ## C56 -/

/-- Exact value of the `i`-th constraint at the (floating-point) point `x`. -/
noncomputable def exactRow (pb : Pb (Fl F) (Fl F)) (x : Nat → Fl F) (i : Nat) : ℝ :=
  ∑ a ∈ Finset.range pb.n, (pb.C a i).val * (x a).val

/-- Rounding error of its computation: `((1+u)^(n+1) - 1) Σ|c_a||x_a| + n η (1+u)^n`. -/
noncomputable def rowErr (pb : Pb (Fl F) (Fl F)) (x : Nat → Fl F) (i : Nat) : ℝ :=
  dotErr F pb.n (∑ a ∈ Finset.range pb.n, |(pb.C a i).val| * |(x a).val|)

/-- Constraints reported `INACTIVE` are satisfied up to rounding errors, bounds reported `INACTIVE` are satisfied exactly. -/
def RoundedFeasible (pb : Pb (Fl F) (Fl F)) (A : ActiveSet) (x : Nat → Fl F) : Prop :=
  (∀ i < pb.m, A.statusAt i = .inactive → (esum (.slack pb.n i) (fun a => pb.C a i * x a) pb.n).Finite →
    (∀ b, (pb.bl i).ext = some b → b ≤ ((exactRow pb x i + rowErr pb x i : ℝ) : EReal)) ∧
    (∀ b, (pb.bu i).ext = some b → ((exactRow pb x i - rowErr pb x i : ℝ) : EReal) ≤ b)) ∧
  (pb.useBnd = true → ∀ i < pb.n, A.statusAt (pb.m + i) = .inactive → ∀ v, (x i).ext = some v →
    (∀ b, (pb.xl i).ext = some b → b ≤ v) ∧ (∀ b, (pb.xu i).ext = some b → v ≤ b))

theorem lt_false {a b : Fl F} (h : Fl.lt a b = false) {x y : EReal} (ha : a.ext = some x) (hb : b.ext = some y) : y ≤ x := by
  unfold Fl.lt at h
  rw [ha, hb] at h
  exact not_lt.1 (of_decide_eq_false h)

/-- "Not found outside" is an exact comparison of the computed value with the bounds. -/
theorem notOutside_iff (v l r : Fl F) : NotOutside (Fl F) v l r ↔ Fl.lt v l = false ∧ Fl.lt r v = false := by
  have h1 : bLt (Fl F) (slackLow v l) (bZero (Fl F)) = Fl.lt v l := sub_lt_zero v l
  have h2 : bLt (Fl F) (slackUp r v) (bZero (Fl F)) = Fl.lt r v := sub_lt_zero r v
  unfold NotOutside
  rw [h1, h2]

theorem NoViolation.rounded {pb : Pb (Fl F) (Fl F)} {A : ActiveSet} {x : Nat → Fl F} (h : NoViolation pb A x) : RoundedFeasible pb A x := by
  constructor
  · intro i hi hs hf
    obtain ⟨h1, h2⟩ := (notOutside_iff _ _ _).1 (h.1 i hi hs)
    obtain ⟨_, he⟩ := dot_err (.slack pb.n i) (fun a => pb.C a i) x pb.n hf
    obtain ⟨sg, m, hm⟩ := (finite_iff _).1 hf
    have hx : (esum (.slack pb.n i) (fun a => pb.C a i * x a) pb.n).ext =
        some (((esum (.slack pb.n i) (fun a => pb.C a i * x a) pb.n).val : ℝ) : EReal) := by
      rw [hm]; exact ext_fin _ _
    obtain ⟨e1, e2⟩ := abs_le.1 he
    constructor
    · intro b hb
      refine (lt_false h1 hx hb).trans ?_
      rw [EReal.coe_le_coe_iff]
      unfold exactRow rowErr
      linarith
    · intro b hb
      refine le_trans ?_ (lt_false h2 hb hx)
      rw [EReal.coe_le_coe_iff]
      unfold exactRow rowErr
      linarith
  · intro hb i hi hs v hv
    obtain ⟨h1, h2⟩ := (notOutside_iff _ _ _).1 (h.2 hb i hi hs)
    exact ⟨fun b hb => lt_false h1 hv hb, fun b hb => lt_false h2 hb hv⟩

/-- **C56, base solver.** After any history, SUCCESS means `RoundedFeasible`. -/
theorem C56_success (cs : List (Call (Fl F) (Fl F))) (h : ∀ c ∈ cs, CallOk c) {o : Opts (Fl F)} (ho : OptOk o) {pb : Pb (Fl F) (Fl F)}
    (hq : numEq pb ≤ pb.n) :
    ∃ s t s', calls cs (State.empty : State (Fl F)) = .ok s ∧ solve o pb s = .ok (t, s') ∧
      (t = .success → RoundedFeasible pb s'.A s'.x) := by
  obtain ⟨s, hs, hi⟩ := calls_inv cs h
  obtain ⟨t, s', h1, _⟩ := solve_safe (fpLaws ho) hi (pb := pb) (fun _ => hq)
  exact ⟨s, t, s', hs, h1, fun ht => NoViolation.rounded ((C49_success (fpLaws ho) hi (fun _ => hq) h1).1 ht)⟩

/-- **C56, experimental solver.** -/
theorem C56_warm_success (cs : List (XCall (Fl F) (Fl F))) (h : ∀ c ∈ cs, c.Admissible) {o : Opts (Fl F)} (ho : OptOk o)
    {pb : Pb (Fl F) (Fl F)} {as : List Status} (ha : ArgOk o pb as) {xs : XState (Fl F)}
    (hx : xcalls cs (XState.empty : XState (Fl F)) = .ok xs) {xs'} (hr : xsolve o pb as xs = .ok (.success, xs')) :
    RoundedFeasible pb xs'.s.A xs'.s.x := by
  obtain ⟨ys, h1, h2⟩ := C37_no_fault cs h
  rw [hx] at h1
  cases h1
  exact NoViolation.rounded ((C49_warm_success (fpLaws ho) h2 ha hr).1 rfl)

/-- **C56, box solver.** -/
theorem C56_box_success (cs : List (BoxCall (Fl F) (Fl F))) (h : ∀ b ∈ cs, b.Admissible) {o : Opts (Fl F)} (ho : OptOk o) {n : Nat}
    {x0 c : Nat → Fl F} {bl inf : Fl F} {xl xu : Nat → Fl F} :
    ∃ s t s', boxCalls cs (State.empty : State (Fl F)) = .ok s ∧ boxSolve o n x0 c bl inf xl xu s = .ok (t, s') ∧
      (t = .success → RoundedFeasible (boxPb n x0 c bl inf xl xu) s'.A s'.x) := by
  obtain ⟨s, hs, hi⟩ := boxCalls_safe cs _ inv_empty h
  obtain ⟨t, s', h1, _⟩ := boxSolve_safe (fpLaws ho) n x0 c bl inf xl xu hi
  exact ⟨s, t, s', hs, h1, fun ht => NoViolation.rounded ((C49_box_success (fpLaws ho) hi h1).1 ht)⟩

/-! ## The hypotheses are met -/

theorem ofReal_one (z : Bool) : (ofReal z 1 : Fl F) = 1 := by
  unfold ofReal
  have h : rnd F |(1 : ℝ)| = 1 := by rw [abs_one]; exact rnd_exact (by norm_num) rep_one
  rw [dif_pos (by rw [h]; exact one_lt_max), if_neg (by norm_num), decide_eq_false (by norm_num)]
  show Fl.fin false _ = Fl.fin false _
  congr 1
  exact Subtype.ext h

theorem one_val : (1 : Fl F).val = 1 := rfl

theorem one_sub_zero : (1 : Fl F) - 0 = 1 := by
  show ofReal _ ((1 : Fl F).val + (Fl.fin true m0 : Fl F).val) = 1
  rw [val_zero, one_val, add_zero]; exact ofReal_one _

theorem sqrt_one : Fl.sqrt (1 : Fl F) = 1 := by
  show ofReal false (Real.sqrt 1) = 1
  rw [Real.sqrt_one]; exact ofReal_one _

/-- A problem with one variable and one constraint `-1 <= x <= 1` that is inactive at the solution. -/
noncomputable def exPbF (F : Fmt) : Pb (Fl F) (Fl F) :=
  { n := 1, m := 1, useBnd := false, G := fun _ _ => 1, a := fun _ => 0, C := fun _ _ => 1, bl := fun _ => -1, bu := fun _ => 1,
    xl := fun _ => 0, xu := fun _ => 0 }

/-- The default options: 500 iterations, threshold `1e-14`, `bigBnd = 1e100`. -/
noncomputable def exOptsF (F : Fmt) : Opts (Fl F) :=
  { maxIter := 500, bigBnd := ofReal false (10 ^ 100), warmStart := false, tiny := ofReal false (1 / 10 ^ 14), dbg := false }

theorem ofReal_not_neg {x : ℝ} (hx : 0 ≤ x) : Fl.lt (ofReal false x : Fl F) 0 = false := by
  have e0 : (0 : Fl F).ext = some ((0 : ℝ) : EReal) := rfl
  have hs : (if x = 0 then false else decide (x < 0)) = false := by
    split_ifs
    · rfl
    · exact decide_eq_false (not_lt.2 hx)
  have := rnd_nonneg (F := F) (abs_nonneg x)
  unfold Fl.lt
  rw [e0]
  unfold ofReal
  rw [hs]
  split_ifs with h1
  · show decide (((rnd F |x| : ℝ) : EReal) < ((0 : ℝ) : EReal)) = false
    rw [decide_eq_false_iff_not, EReal.coe_lt_coe_iff]; linarith
  · show decide ((⊤ : EReal) < ((0 : ℝ) : EReal)) = false
    rw [decide_eq_false_iff_not]; exact not_lt.2 le_top

theorem ofReal_ne_nan (z : Bool) (x : ℝ) : (ofReal z x : Fl F) ≠ .nan := by
  unfold ofReal
  split_ifs <;> simp

theorem exOptsF_ok : OptOk (exOptsF F) := ⟨ofReal_ne_nan _ _, ofReal_not_neg (by positivity)⟩

theorem exPbF_numEq : numEq (exPbF F) ≤ (exPbF F).n := by
  have : numEq (exPbF F) = 0 := by
    have h1 : bEq (Fl F) ((exPbF F).bl 0) ((exPbF F).bu 0) = false := by
      show Fl.eq (-1) 1 = false
      unfold Fl.eq
      show decide (((-1 : ℝ) : EReal) = ((1 : ℝ) : EReal)) = false
      rw [decide_eq_false_iff_not, EReal.coe_eq_coe_iff]; norm_num
    unfold numEq
    simp [exPbF, Pb.nb, List.range_succ] at h1 ⊢
    exact h1
  rw [this]; exact Nat.zero_le _

theorem exPbF_chol : chol (exPbF F).n (exPbF F).G (exPbF F).n = (fun _ _ => 1, none) := by
  show chol 1 (fun _ _ => (1 : Fl F)) 1 = _
  have hx : ∀ st, esub st (1 : Fl F) (fun j => (1 : Fl F) * 1) 0 = 1 := fun st => esub_nil one_sub_zero st _
  have h1 : leb (1 : Fl F) 0 = false := by
    show decide (((1 : ℝ) : EReal) ≤ ((0 : ℝ) : EReal)) = false
    rw [decide_eq_false_iff_not, EReal.coe_le_coe_iff]; norm_num
  have hs : NumOps.sqrt (1 : Fl F) = 1 := sqrt_one
  have : cholCol 1 0 (fun _ _ => (1 : Fl F)) = some (fun _ _ => 1) := by
    unfold cholCol
    simp only [hx, h1, hs, Bool.false_eq_true, if_false]
    congr 1
    funext i j
    split_ifs with a b d
    · rfl
    · omega
    · rfl
    · rfl
  simp only [chol, this]

theorem one_div' (s : Bool) : (Fl.fin s m0 : Fl F) / 1 = .fin s m0 := by
  show Fl.div (.fin s m0) (.fin false ⟨1, rep_one, one_lt_max⟩) = _
  unfold Fl.div
  simp only []
  rw [if_neg (by norm_num), val_zero, zero_div, ofReal_zero]
  cases s <;> rfl

theorem zero_sub_zero : (0 : Fl F) - 0 = 0 := by
  show ofReal _ ((Fl.fin false m0 : Fl F).val + (Fl.fin true m0 : Fl F).val) = Fl.fin false m0
  rw [val_zero, val_zero, add_zero, ofReal_zero]; rfl

theorem exPbF_x : unconstrMin (exPbF F).n (fun _ _ => 1) (exPbF F).a 0 = .fin true m0 := by
  have h0 : fwdSub (fun _ _ => (1 : Fl F)) (fun _ => 0) 1 0 = 0 := by
    show (esub _ (0 : Fl F) _ 0) / 1 = 0
    rw [esub_nil zero_sub_zero]; exact one_div' false
  show -backSubK (fun _ _ => (1 : Fl F)) 1 (fwdSub (fun _ _ => 1) (fun _ => 0) 1) 1 0 = _
  show -((esub _ (fwdSub (fun _ _ => (1 : Fl F)) (fun _ => 0) 1 0) _ 0) / 1) = _
  rw [h0, esub_nil zero_sub_zero, show (0 : Fl F) / 1 = 0 from one_div' false]
  rfl

theorem exPbF_dot {x : Nat → Fl F} (hx : x 0 = .fin true m0) (st : Site) :
    ∃ s, esum st (fun a => (exPbF F).C a 0 * x a) 1 = .fin s m0 := by
  refine esum_zeros fun i hi => ⟨true, ?_⟩
  obtain rfl : i = 0 := by omega
  show 1 * x 0 = _
  rw [hx]
  show ofReal _ ((1 : Fl F).val * (Fl.fin true m0 : Fl F).val) = _
  rw [val_zero, mul_zero, ofReal_zero]; rfl

/-- The solver returns SUCCESS on this problem, the constraint is INACTIVE and its computed value is finite: the conclusion of
`C56_success` is not vacuous. -/
theorem C56_hypotheses_met : ∃ s', solve (exOptsF F) (exPbF F) (State.empty : State (Fl F)) = .ok (.success, s') ∧
    s'.A.statusAt 0 = .inactive ∧ (esum (.slack (exPbF F).n 0) (fun a => (exPbF F).C a 0 * s'.x a) (exPbF F).n).Finite ∧ OptOk (exOptsF F) ∧
    numEq (exPbF F) ≤ (exPbF F).n := by
  have hd := preInit_dim (o := exOptsF F) (resize_dim_pb (inv_empty (K := Fl F)) (exPbF F))
  obtain ⟨t0, s0, h1, h2, h3⟩ := init_safe (o := exOptsF F) hd (fun _ => exPbF_numEq)
  obtain ⟨t, s', h4, h5⟩ := solve_safe (fpLaws exOptsF_ok) (inv_empty (K := Fl F)) (pb := exPbF F) (fun _ => exPbF_numEq)
  have hn : (preInit (exOptsF F) (resize (State.empty : State (Fl F)) (exPbF F).n (exPbF F).m (exPbF F).useBnd)).nbVar = (exPbF F).n := hd.nbVar
  have e1 : bEq (Fl F) (-1) 1 = false := by
    show decide (((-1 : ℝ) : EReal) = ((1 : ℝ) : EReal)) = false
    rw [decide_eq_false_iff_not, EReal.coe_eq_coe_iff]; norm_num
  have hk : t0 = .success ∧ s0.x 0 = .fin true m0 ∧ s0.A.statusAt 0 = .inactive ∧ s0.A.nbBnd = 0 := by
    have hch : chol (preInit (exOptsF F) (resize (State.empty : State (Fl F)) (exPbF F).n (exPbF F).m (exPbF F).useBnd)).nbVar (exPbF F).G
        (preInit (exOptsF F) (resize (State.empty : State (Fl F)) (exPbF F).n (exPbF F).m (exPbF F).useBnd)).nbVar = (fun _ _ => 1, none) := by
      rw [hn]; exact exPbF_chol
    unfold init_ at h1
    rw [hch] at h1
    simp only [Option.isSome_none, Bool.false_eq_true, if_false] at h1
    split_ifs at h1 with a1 a2
    generalize hs1 : preInit (exOptsF F) (resize (State.empty : State (Fl F)) (exPbF F).n (exPbF F).m (exPbF F).useBnd) = s1 at *
    unfold initActiveSet at h1
    have hl : eqList (exPbF F) (initPoint (exOptsF F) (exPbF F) { s1 with G := fun _ _ => 1 }).A = [] := by
      have b1 : (initPoint (exOptsF F) (exPbF F) { s1 with G := fun _ _ => 1 }).A.nbCstr = 1 := hd.nbCstr
      have b2 : (initPoint (exOptsF F) (exPbF F) { s1 with G := fun _ _ => 1 }).A.nbBnd = 0 := hd.nbBnd
      unfold eqList
      rw [b1, b2]
      have : (fun i => bEq (Fl F) ((exPbF F).bl i) ((exPbF F).bu i)) = fun _ => false := funext fun _ => e1
      rw [this]
      simp
    rw [hl] at h1
    split_ifs at h1 with a3
    simp only [addInitials, Except.ok.injEq, Prod.mk.injEq] at h1
    obtain ⟨rfl, rfl⟩ := h1
    refine ⟨rfl, ?_, reset_statusAt _ _, hd.nbBnd⟩
    show wr s1.nbVar (unconstrMin s1.nbVar (fun _ _ => 1) (exPbF F).a) s1.x 0 = _
    rw [hn]
    exact exPbF_x
  obtain ⟨rfl, k2, k3, k4⟩ := hk
  obtain ⟨sg, hdot⟩ := exPbF_dot k2 (.slack 1 0)
  have ez : (Fl.fin sg m0 : Fl F).ext = some ((0 : ℝ) : EReal) := by rw [ext_fin, val_zero]
  have e2 : Fl.lt (.fin sg m0 : Fl F) (-1) = false := by
    unfold Fl.lt
    rw [ez]
    show decide (((0 : ℝ) : EReal) < ((-1 : ℝ) : EReal)) = false
    rw [decide_eq_false_iff_not, EReal.coe_lt_coe_iff]; norm_num
  have e3 : Fl.lt (1 : Fl F) (.fin sg m0) = false := by
    unfold Fl.lt
    rw [ez]
    show decide (((1 : ℝ) : EReal) < ((0 : ℝ) : EReal)) = false
    rw [decide_eq_false_iff_not, EReal.coe_lt_coe_iff]; norm_num
  have hsel : (select (exPbF F) s0.nbVar s0.A s0.x).status = .inactive := by
    have b1 : s0.A.nbCstr = 1 := h2.nbCstr
    have b2 : s0.nbVar = 1 := h2.nbVar
    have hc : colDot (exPbF F) 1 0 s0.x = .fin sg m0 := hdot
    have f1 : bLt (Fl F) (slackLow (.fin sg m0 : Fl F) ((exPbF F).bl 0)) (bZero (Fl F)) = false := (sub_lt_zero _ _).trans e2
    have f2 : bLt (Fl F) (slackUp ((exPbF F).bu 0) (.fin sg m0 : Fl F)) (bZero (Fl F)) = false := (sub_lt_zero _ _).trans e3
    unfold select
    rw [b1, b2, k4]
    show ((selGen (exPbF F) 1 s0.A s0.x ⟨bZero (Fl F), ⟨0, .inactive⟩⟩ 0).sc).status = .inactive
    unfold selGen
    simp only [hc, f1, f2, Bool.false_eq_true, if_false, ite_self]
  have hit : s0.it = 0 := (init_it h1).1
  refine ⟨s0, ?_, k3, ?_, exOptsF_ok, exPbF_numEq⟩
  · unfold solve dualSolve
    rw [h1]
    simp only [ne_eq, not_true_eq_false, if_false]
    have hk : (exOptsF F).maxIter - s0.it = 499 + 1 := by rw [hit]; rfl
    rw [hk]
    have hl : loop (exOptsF F) (exPbF F) (499 + 1) s0 ⟨0, .inactive⟩ false = .ok (.success, s0) := by
      rw [loop]
      have : iterate (exOptsF F) (exPbF F) s0 ⟨0, .inactive⟩ false = .ok (.done .success s0) := by
        unfold iterate
        simp only [Bool.false_eq_true, if_false]
        rw [if_pos (h3 rfl).selectOk, if_pos hsel]
      rw [this]
    rw [hl]; rfl
  · show (esum (.slack 1 0) (fun a => (exPbF F).C a 0 * s0.x a) 1).Finite
    rw [hdot]
    trivial

end Ieee
end JrlQp
