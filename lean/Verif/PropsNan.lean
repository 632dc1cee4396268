import Verif.PropsIeee
import Verif.Skip

/-!
# NaN in the data

C57: a NaN in the linear part of the objective is not reported: `solve` returns SUCCESS after zero iterations with a solution made of
NaN only (or NON_POS_HESSIAN if the Hessian is refused).
C58: an inequality constraint with a NaN in its normal, or with NaN bounds, is silently ignored.
-/

set_option linter.unusedSectionVars false

namespace JrlQp
namespace Ieee

open NumOps

variable {F : Fmt}

/-! ## Where NaN comes from -/

/-- **NaN in the model of the arithmetic** (IEEE 754, §7.2): for all operands, a result is NaN only if an operand is, or for `∞ - ∞`,
`0 * ∞`, `0 / 0`, `∞ / ∞` and the square root of a negative number (`ext`: value of an operand, none for NaN). -/
theorem nan_iff (a b : Fl F) :
    (a + b = .nan ↔ a = .nan ∨ b = .nan ∨ (a.ext = some ⊤ ∧ b.ext = some ⊥) ∨ (a.ext = some ⊥ ∧ b.ext = some ⊤)) ∧
    (a * b = .nan ↔ a = .nan ∨ b = .nan ∨ (a.ext = some 0 ∧ (b.ext = some ⊤ ∨ b.ext = some ⊥)) ∨
      ((a.ext = some ⊤ ∨ a.ext = some ⊥) ∧ b.ext = some 0)) ∧
    (a / b = .nan ↔ a = .nan ∨ b = .nan ∨ (a.ext = some 0 ∧ b.ext = some 0) ∨
      ((a.ext = some ⊤ ∨ a.ext = some ⊥) ∧ (b.ext = some ⊤ ∨ b.ext = some ⊥))) ∧
    (Fl.sqrt a = .nan ↔ a = .nan ∨ ∃ x < 0, a.ext = some x) := by
  have z : ∀ m : Mag F, (((m.1 : ℝ) : EReal) = 0 ↔ m.1 = 0) ∧ (((-m.1 : ℝ) : EReal) = 0 ↔ m.1 = 0) := by
    intro m
    rw [EReal.coe_eq_zero, EReal.coe_eq_zero, neg_eq_zero]
    exact ⟨Iff.rfl, Iff.rfl⟩
  refine ⟨?_, ?_, ?_, ?_⟩
  · show Fl.add a b = .nan ↔ _
    cases a with
    | nan => simp [Fl.add]
    | inf s => cases b with
      | nan => simp [Fl.add]
      | inf t => cases s <;> cases t <;> simp [Fl.add, Fl.ext]
      | fin t k => cases s <;> cases t <;> simp [Fl.add, Fl.ext]
    | fin s m => cases b with
      | nan => simp [Fl.add]
      | inf t => cases s <;> cases t <;> simp [Fl.add, Fl.ext]
      | fin t k => cases s <;> cases t <;> simp [Fl.add, Fl.ext, ofReal_ne_nan]
  · show Fl.mul a b = .nan ↔ _
    cases a with
    | nan => simp [Fl.mul]
    | inf s => cases b with
      | nan => simp [Fl.mul]
      | inf t => cases s <;> cases t <;> simp [Fl.mul, Fl.ext]
      | fin t k => cases s <;> cases t <;> simp only [Fl.mul, Fl.ext, Option.some.injEq, (z k).1, (z k).2] <;> split_ifs with h <;> simp [h]
    | fin s m => cases b with
      | nan => simp [Fl.mul]
      | inf t => cases s <;> cases t <;> simp only [Fl.mul, Fl.ext, Option.some.injEq, (z m).1, (z m).2] <;> split_ifs with h <;> simp [h]
      | fin t k => cases s <;> cases t <;> simp [Fl.mul, Fl.ext, ofReal_ne_nan]
  · show Fl.div a b = .nan ↔ _
    cases a with
    | nan => simp [Fl.div]
    | inf s => cases b with
      | nan => simp [Fl.div]
      | inf t => cases s <;> cases t <;> simp [Fl.div, Fl.ext]
      | fin t k => cases s <;> cases t <;> simp [Fl.div, Fl.ext]
    | fin s m => cases b with
      | nan => simp [Fl.div]
      | inf t => cases s <;> cases t <;> simp [Fl.div, Fl.ext]
      | fin t k =>
        cases s <;> cases t <;> simp only [Fl.div, Fl.ext, Option.some.injEq, (z k).1, (z k).2, (z m).1, (z m).2] <;> split_ifs with h h' <;>
          simp [ofReal_ne_nan, *]
  · cases a with
    | nan => simp [Fl.sqrt]
    | inf s => cases s
               · simp [Fl.sqrt, Fl.ext]
               · simp [Fl.sqrt, Fl.ext]
    | fin s m =>
      have hm : 0 ≤ m.1 := by obtain ⟨k, e, -, -, h⟩ := m.2.1; rw [h]; exact mul_nonneg (Nat.cast_nonneg _) (zpow_nonneg (by norm_num) _)
      cases s
      · simp [Fl.sqrt, Fl.ext, ofReal_ne_nan, hm]
      · simp only [Fl.sqrt]
        split_ifs with h
        · simp [Fl.ext, h]
        · have : -m.1 < 0 := by have := lt_of_le_of_ne hm (Ne.symm h); linarith
          simp only [true_iff]
          exact .inr ⟨_, EReal.coe_neg'.2 this, rfl⟩

/-! ## NaN is absorbing -/

theorem nan_add (a : Fl F) : (Fl.nan : Fl F) + a = .nan := by cases a <;> rfl
theorem add_nan (a : Fl F) : a + (Fl.nan : Fl F) = .nan := by cases a <;> rfl
theorem nan_sub (a : Fl F) : (Fl.nan : Fl F) - a = .nan := nan_add (Fl.neg a)
theorem sub_nan (a : Fl F) : a - (Fl.nan : Fl F) = .nan := add_nan a
theorem nan_mul (a : Fl F) : (Fl.nan : Fl F) * a = .nan := by cases a <;> rfl
theorem mul_nan (a : Fl F) : a * (Fl.nan : Fl F) = .nan := by cases a <;> rfl
theorem nan_div (a : Fl F) : (Fl.nan : Fl F) / a = .nan := by cases a <;> rfl
theorem neg_nan : -(Fl.nan : Fl F) = .nan := rfl

theorem lt_nan (a : Fl F) : Fl.lt a .nan = false := by unfold Fl.lt; cases a.ext <;> rfl
theorem nan_lt (a : Fl F) : Fl.lt .nan a = false := rfl

theorem tree_nan {f : Nat → Fl F} {t : SumTree} {j : Nat} (hj : j ∈ t.leaves) (h : f j = .nan) : t.eval f = .nan := by
  induction t with
  | zero => simp [SumTree.leaves] at hj
  | leaf i =>
    simp only [SumTree.leaves, List.mem_singleton] at hj
    subst hj; exact h
  | node l r ihl ihr =>
    rw [SumTree.eval]
    rcases List.mem_append.1 hj with hj | hj
    · rw [ihl hj, nan_add]
    · rw [ihr hj, add_nan]

theorem sum_nan {st : Site} {f : Nat → Fl F} {n j : Nat} (hj : j < n) (h : f j = .nan) : esum st f n = .nan :=
  tree_nan ((F.order_perm st n).symm.subset (List.mem_range.2 hj)) h

theorem foldl_nan {f : Nat → Fl F} (ts : List SumTree) : ts.foldl (fun acc t => acc - t.eval f) (Fl.nan : Fl F) = .nan := by
  induction ts with
  | nil => rfl
  | cons t ts ih => rw [List.foldl_cons, nan_sub, ih]

theorem nan_esub (st : Site) (f : Nat → Fl F) (n : Nat) : esub st (Fl.nan : Fl F) f n = .nan := foldl_nan _

theorem esub_nan {st : Site} {y : Fl F} {f : Nat → Fl F} {n j : Nat} (hj : j < n) (h : f j = .nan) : esub st y f n = .nan := by
  show (F.orderSub st n).foldl (fun acc t => acc - t.eval f) y = .nan
  have hm : j ∈ (F.orderSub st n).flatMap SumTree.leaves := (F.orderSub_perm st n).symm.subset (List.mem_range.2 hj)
  revert hm
  generalize F.orderSub st n = ts
  intro hm
  induction ts generalizing y with
  | nil => simp at hm
  | cons t ts ih =>
    rw [List.foldl_cons]
    rw [List.flatMap_cons, List.mem_append] at hm
    rcases hm with hm | hm
    · rw [tree_nan hm h, sub_nan, foldl_nan]
    · exact ih hm

/-! ## C57 -/

theorem fwdSub_nan (L : Nat → Nat → Fl F) (b : Nat → Fl F) {i : Nat} (hb : b i = .nan) (k : Nat) :
    (∀ j, k ≤ j → fwdSub L b k j = b j) ∧ ∀ j, i ≤ j → j < k → fwdSub L b k j = .nan := by
  induction k with
  | zero => exact ⟨fun j _ => rfl, fun j _ h => absurd h (Nat.not_lt_zero _)⟩
  | succ k ih =>
    obtain ⟨h1, h2⟩ := ih
    refine ⟨fun j hj => ?_, fun j hij hj => ?_⟩
    · show upd _ k _ j = _
      unfold upd
      rw [if_neg (by omega)]; exact h1 j (by omega)
    · show upd _ k _ j = _
      unfold upd
      by_cases hjk : j = k
      · subst hjk
        rw [if_pos rfl]
        rcases Nat.eq_or_lt_of_le hij with rfl | hij
        · rw [h1 i le_rfl, hb, nan_esub, nan_div]
        · rw [esub_nan hij (by rw [h2 i le_rfl hij, mul_nan]), nan_div]
      · rw [if_neg hjk]; exact h2 j hij (by omega)

theorem backSubK_nan (U : Nat → Nat → Fl F) {n : Nat} {b : Nat → Fl F} (hn : 0 < n) (hb : b (n - 1) = .nan) (k : Nat) (hk : k ≤ n) :
    (∀ j, j < n - k → backSubK U n b k j = b j) ∧ ∀ j, n - k ≤ j → j < n → backSubK U n b k j = .nan := by
  induction k with
  | zero => exact ⟨fun j _ => rfl, fun j h1 h2 => by omega⟩
  | succ k ih =>
    obtain ⟨h1, h2⟩ := ih (by omega)
    refine ⟨fun j hj => ?_, fun j hij hj => ?_⟩
    · show upd _ (n - 1 - k) _ j = _
      unfold upd
      rw [if_neg (by omega)]; exact h1 j (by omega)
    · show upd _ (n - 1 - k) _ j = _
      unfold upd
      by_cases hjk : j = n - 1 - k
      · subst hjk
        rw [if_pos rfl]
        rcases Nat.eq_zero_or_pos k with rfl | hk0
        · rw [h1 (n - 1 - 0) (by omega), Nat.sub_zero, hb, nan_esub, nan_div]
        · rw [esub_nan (j := k - 1) (by omega)
            (by rw [show n - 1 - k + 1 + (k - 1) = n - 1 by omega, h2 (n - 1) (by omega) (by omega), mul_nan]), nan_div]
      · rw [if_neg hjk]; exact h2 j (by omega) hj

theorem unconstrMin_nan (n : Nat) (L : Nat → Nat → Fl F) (a : Nat → Fl F) {i : Nat} (hi : i < n) (ha : a i = .nan) :
    ∀ j < n, unconstrMin n L a j = .nan := by
  intro j hj
  unfold unconstrMin backSub
  have h1 := (fwdSub_nan L a ha n).2 (n - 1) (by omega) (by omega)
  rw [(backSubK_nan (fun i j => L j i) (b := fwdSub L a n) (by omega) h1 n le_rfl).2 j (by omega) hj, neg_nan]

/-- Point and objective value made of NaN. -/
def AllNan (s : State (Fl F)) : Prop := (∀ i < s.nbVar, s.x i = .nan) ∧ s.f = .nan

theorem addInitial_nan {o : Opts (Fl F)} {pb : Pb (Fl F) (Fl F)} {s s' : State (Fl F)} {sc : SC} (h : AllNan s)
    (hs : addInitialConstraint o pb s sc = .ok s') : AllNan s' := by
  unfold addInitialConstraint at hs
  simp only [] at hs
  split_ifs at hs with h1 h2
  cases hs
  refine ⟨fun i hi => ?_, ?_⟩
  · have hi' : i < s.nbVar := hi
    show wr s.nbVar (fun i => s.x i + _ * _) s.x i = .nan
    unfold wr
    rw [if_pos hi']
    beta_reduce
    rw [h.1 i hi', nan_add]
  · show s.f + _ = .nan
    rw [h.2, nan_add]

theorem addInitials_nan {o : Opts (Fl F)} {pb : Pb (Fl F) (Fl F)} (l : List SC) : ∀ {s s' : State (Fl F)}, AllNan s →
    addInitials o pb l s = .ok s' → AllNan s' := by
  induction l with
  | nil => intro s s' h hs; cases hs; exact h
  | cons sc l ih =>
    intro s s' h hs
    rw [addInitials] at hs
    cases h1 : addInitialConstraint o pb s sc with
    | error e => rw [h1] at hs; cases hs
    | ok s1 => rw [h1] at hs; exact ih (addInitial_nan h h1) hs

theorem select_nan {pb : Pb (Fl F) (Fl F)} {n : Nat} {A : ActiveSet} {x : Nat → Fl F} (hn : 0 < n) (h : ∀ i < n, x i = .nan)
    (hb : A.nbBnd ≤ n) : (select pb n A x).status = .inactive := by
  have hc : ∀ i, colDot pb n i x = .nan := fun i => sum_nan hn (by rw [h 0 hn, mul_nan])
  have g : ∀ (acc : Sel (Fl F)) i, selGen pb n A x acc i = acc := by
    intro acc i
    unfold selGen
    simp only [hc]
    have e1 : bLt (Fl F) (slackLow (.nan : Fl F) (pb.bl i)) acc.smin = false := by
      show Fl.lt ((.nan : Fl F) - pb.bl i) acc.smin = false
      rw [nan_sub]; rfl
    have e2 : bLt (Fl F) (slackUp (pb.bu i) (.nan : Fl F)) acc.smin = false := by
      show Fl.lt (pb.bu i - (.nan : Fl F)) acc.smin = false
      rw [sub_nan]; rfl
    simp only [e1, e2, Bool.false_eq_true, if_false, ite_self]
  have k : ∀ (acc : Sel (Fl F)) i, i < n → selBnd pb A x acc i = acc := by
    intro acc i hi
    unfold selBnd
    have e1 : bLt (Fl F) (slackLow (x i) (pb.xl i)) acc.smin = false := by
      show Fl.lt (x i - pb.xl i) acc.smin = false
      rw [h i hi, nan_sub]; rfl
    have e2 : bLt (Fl F) (slackUp (pb.xu i) (x i)) acc.smin = false := by
      show Fl.lt (pb.xu i - x i) acc.smin = false
      rw [h i hi, sub_nan]; rfl
    simp only [e1, e2, Bool.false_eq_true, if_false, ite_self]
  have f1 : ∀ (l : List Nat) (acc : Sel (Fl F)), l.foldl (selGen pb n A x) acc = acc := by
    intro l
    induction l with
    | nil => intro acc; rfl
    | cons i l ih => intro acc; rw [List.foldl_cons, g, ih]
  have f2 : ∀ (l : List Nat) (acc : Sel (Fl F)), (∀ i ∈ l, i < n) → l.foldl (selBnd pb A x) acc = acc := by
    intro l
    induction l with
    | nil => intro acc _; rfl
    | cons i l ih =>
      intro acc hl
      rw [List.foldl_cons, k _ _ (hl i List.mem_cons_self), ih _ fun j hj => hl j (List.mem_cons_of_mem _ hj)]
  unfold select
  simp only []
  rw [f2 _ _ (fun i hi => lt_of_lt_of_le (List.mem_range.1 hi) hb), f1]

theorem init_nan {o : Opts (Fl F)} {pb : Pb (Fl F) (Fl F)} {s : State (Fl F)} (hd : Dim pb s) {i : Nat} (hi : i < pb.n)
    (ha : pb.a i = .nan) (hc : cholOk pb) {t s'} (h : init_ o pb s = .ok (t, s')) : t = .success ∧ AllNan s' := by
  unfold init_ at h
  simp only [] at h
  split_ifs at h with h1 h2 h3
  · exfalso
    rw [hd.nbVar] at h2
    rw [show (chol pb.n pb.G pb.n).2 = none from hc] at h2
    simp at h2
  · cases h4 : initActiveSet o pb (initPoint o pb { s with G := (chol s.nbVar pb.G s.nbVar).1 }) with
    | error e => rw [h4] at h; cases h
    | ok s1 =>
      rw [h4] at h
      simp only [Except.ok.injEq, Prod.mk.injEq] at h
      obtain ⟨rfl, rfl⟩ := h
      refine ⟨rfl, ?_⟩
      unfold initActiveSet at h4
      split_ifs at h4 with h5
      refine addInitials_nan _ ?_ h4
      have hx : ∀ j < s.nbVar, wr s.nbVar (unconstrMin s.nbVar (chol s.nbVar pb.G s.nbVar).1 pb.a) s.x j = .nan := by
        intro j hj
        unfold wr
        rw [if_pos hj]
        exact unconstrMin_nan _ _ _ (by rw [hd.nbVar]; exact hi) ha j hj
      refine ⟨hx, ?_⟩
      show half * esum _ (fun i => pb.a i * _) s.nbVar = .nan
      rw [sum_nan (j := i) (by rw [hd.nbVar]; exact hi) (by rw [ha, nan_mul]), mul_nan]

/-- **C57.** After any history: a NaN in the linear part of the objective is never reported as such. If the Hessian passes the Cholesky
factorisation and `maxIter > 0`, `solve` returns SUCCESS, with `iterations() = 0`, all entries of `solution()` and `objectiveValue()`
being NaN, whatever the constraints; and if it does not pass, NON_POS_HESSIAN. -/
theorem C57_nan_objective (cs : List (Call (Fl F) (Fl F))) (h : ∀ c ∈ cs, CallOk c) {o : Opts (Fl F)} (ho : OptOk o) (hm : 0 < o.maxIter)
    {pb : Pb (Fl F) (Fl F)} (hq : numEq pb ≤ pb.n) {i : Nat} (hi : i < pb.n) (ha : pb.a i = .nan) :
    ∃ s t s', calls cs (State.empty : State (Fl F)) = .ok s ∧ solve o pb s = .ok (t, s') ∧
      (cholOk pb → t = .success ∧ s'.it = 0 ∧ (∀ j < pb.n, s'.x j = .nan) ∧ s'.f = .nan) ∧ (¬ cholOk pb → t = .nonPosHessian) := by
  obtain ⟨s, hs, hinv⟩ := calls_inv cs h
  refine ⟨s, ?_⟩
  have hd := preInit_dim (o := o) (resize_dim_pb hinv pb)
  obtain ⟨t0, s0, h1, h2, h3⟩ := init_safe (o := o) hd (fun _ => hq)
  by_cases hc : cholOk pb
  · obtain ⟨ht, hn⟩ := init_nan hd hi ha hc h1
    subst ht
    have hit : s0.it = 0 := (init_it h1).1
    have hsel : (select pb s0.nbVar s0.A s0.x).status = .inactive := by
      refine select_nan (by rw [h2.nbVar]; omega) hn.1 ?_
      rw [h2.nbBnd, h2.nbVar]; unfold Pb.nb; split_ifs <;> omega
    refine ⟨.success, s0, hs, ?_, fun _ => ⟨rfl, hit, fun j hj => hn.1 j (by rw [h2.nbVar]; exact hj), hn.2⟩, fun h => absurd hc h⟩
    unfold solve dualSolve
    rw [h1]
    simp only [ne_eq, not_true_eq_false, if_false]
    obtain ⟨k, hk⟩ : ∃ k, o.maxIter - s0.it = k + 1 := ⟨o.maxIter - 1, by omega⟩
    rw [hk]
    have hl : loop o pb (k + 1) s0 ⟨0, .inactive⟩ false = .ok (.success, s0) := by
      rw [loop]
      have : iterate o pb s0 ⟨0, .inactive⟩ false = .ok (.done .success s0) := by
        unfold iterate
        simp only [Bool.false_eq_true, if_false]
        rw [if_pos (h3 rfl).selectOk, if_pos hsel]
      rw [this]
    rw [hl]; rfl
  · have h4 : t0 = .nonPosHessian := by
      unfold init_ at h1
      rw [if_pos (by simp [hd.nbVar])] at h1
      simp only [] at h1
      rw [if_pos (by rw [hd.nbVar]; exact Option.isSome_iff_ne_none.2 hc)] at h1
      cases h1; rfl
    subst h4
    refine ⟨.nonPosHessian, s0, hs, ?_, fun h => absurd h hc, fun _ => rfl⟩
    unfold solve dualSolve
    rw [h1]; rfl

/-! ## C58 -/

/-- The `p`-th constraint is not an equality and has a NaN in its normal, or has no usable bound (each one NaN or infinite on its
side). -/
def Blind (pb : Pb (Fl F) (Fl F)) (p : Nat) : Prop :=
  ((∃ a < pb.n, pb.C a p = .nan) ∧ Fl.eq (pb.bl p) (pb.bu p) = false) ∨
  ((pb.bl p = .nan ∨ pb.bl p = .inf true) ∧ (pb.bu p = .nan ∨ pb.bu p = .inf false))

theorem inf_lt (b : Fl F) : Fl.lt (.inf false) b = false := by
  unfold Fl.lt
  show (match some (⊤ : EReal), b.ext with | some x, some y => decide (x < y) | _, _ => false) = false
  cases b.ext with
  | none => rfl
  | some y => simp

theorem sub_neg_inf (a : Fl F) : a - (Fl.inf true : Fl F) = .nan ∨ a - (Fl.inf true : Fl F) = .inf false := by
  show Fl.add a (Fl.inf false) = _ ∨ Fl.add a (Fl.inf false) = _
  cases a with
  | nan => exact Or.inl rfl
  | inf s => cases s
             · exact Or.inr rfl
             · exact Or.inl rfl
  | fin s m => exact Or.inr rfl

theorem inf_sub (a : Fl F) : (Fl.inf false : Fl F) - a = .nan ∨ (Fl.inf false : Fl F) - a = .inf false := by
  show Fl.add (Fl.inf false) (Fl.neg a) = _ ∨ Fl.add (Fl.inf false) (Fl.neg a) = _
  cases a with
  | nan => exact Or.inl rfl
  | inf s => cases s
             · exact Or.inl rfl
             · exact Or.inr rfl
  | fin s m => exact Or.inr rfl

theorem Blind.never {pb : Pb (Fl F) (Fl F)} {p : Nat} (h : Blind pb p) : NeverSel pb p := by
  rcases h with ⟨⟨a, ha, hn⟩, hb⟩ | ⟨hl, hu⟩
  · have hc : ∀ x, colDot pb pb.n p x = .nan := fun x => sum_nan ha (by rw [hn, nan_mul])
    refine ⟨hb, fun x b => ?_, fun x b => ?_⟩
    · rw [hc]
      show Fl.lt (.nan - _) b = false
      rw [nan_sub]; rfl
    · rw [hc]
      show Fl.lt (_ - .nan) b = false
      rw [sub_nan]; rfl
  · refine ⟨?_, fun x b => ?_, fun x b => ?_⟩
    · show Fl.eq (pb.bl p) (pb.bu p) = false
      rcases hl with hl | hl <;> rcases hu with hu | hu <;> rw [hl, hu] <;> simp [Fl.eq, Fl.ext]
    · show Fl.lt (_ - pb.bl p) b = false
      rcases hl with hl | hl
      · rw [hl, sub_nan]; rfl
      · rw [hl]
        rcases sub_neg_inf (colDot pb pb.n p x) with e | e
        · rw [e]; rfl
        · rw [e]; exact inf_lt b
    · show Fl.lt (pb.bu p - _) b = false
      rcases hu with hu | hu
      · rw [hu, nan_sub]; rfl
      · rw [hu]
        rcases inf_sub (colDot pb pb.n p x) with e | e
        · rw [e]; rfl
        · rw [e]; exact inf_lt b

/-- **C58.** After any history: an inequality constraint with a NaN in its normal, or with NaN bounds, is silently ignored. The call
returns exactly what it returns when the constraint is replaced by one that is always satisfied (any normal, infinite bounds), and
(unless NON_POS_HESSIAN is returned) the constraint is reported INACTIVE. -/
theorem C58_nan_constraint (cs : List (Call (Fl F) (Fl F))) (h : ∀ c ∈ cs, CallOk c) {o : Opts (Fl F)} (ho : OptOk o)
    {pb : Pb (Fl F) (Fl F)} (hq : numEq pb ≤ pb.n) {p : Nat} (hp : p < pb.m) (hb : Blind pb p) (c : Nat → Fl F) :
    ∃ s t s', calls cs (State.empty : State (Fl F)) = .ok s ∧ solve o pb s = .ok (t, s') ∧
      solve o (pb.setCstr p c (.inf true) (.inf false)) s = .ok (t, s') ∧ (t ≠ .nonPosHessian → s'.A.statusAt p = .inactive) := by
  obtain ⟨s, hs, hinv⟩ := calls_inv cs h
  have hb' : Blind (pb.setCstr p c (.inf true) (.inf false)) p := Or.inr ⟨Or.inr (if_pos rfl), Or.inr (if_pos rfl)⟩
  obtain ⟨k1, k2⟩ := solve_set (fpLaws ho) hb.never hb'.never hp hinv (fun _ => hq)
  obtain ⟨t, s', h1, _⟩ := solve_safe (fpLaws ho) hinv (pb := pb) (fun _ => hq)
  exact ⟨s, t, s', hs, h1, by rw [k1, h1], k2 t s' h1⟩

/-- The hypotheses of C57 and C58 are met, with default options: a NaN in the objective of the example, resp. in its constraint. -/
theorem C57_hypotheses_met :
    (let pb : Pb (Fl F) (Fl F) := { exPbF F with a := fun _ => .nan }
     OptOk (exOptsF F) ∧ 0 < (exOptsF F).maxIter ∧ numEq pb ≤ pb.n ∧ 0 < pb.n ∧ pb.a 0 = .nan ∧ cholOk pb) ∧
    (let pb : Pb (Fl F) (Fl F) := { exPbF F with C := fun _ _ => .nan }
     numEq pb ≤ pb.n ∧ 0 < pb.m ∧ Blind pb 0) := by
  refine ⟨⟨exOptsF_ok, by show 0 < 500; norm_num, exPbF_numEq, Nat.one_pos, rfl, ?_⟩, exPbF_numEq, Nat.one_pos, Or.inl ⟨⟨0, Nat.one_pos, rfl⟩, ?_⟩⟩
  · show (chol (exPbF F).n (exPbF F).G (exPbF F).n).2 = none
    rw [exPbF_chol]
  · show decide (((-1 : ℝ) : EReal) = ((1 : ℝ) : EReal)) = false
    rw [decide_eq_false_iff_not, EReal.coe_eq_coe_iff]; norm_num

end Ieee
end JrlQp
