import Verif.PropsRandom

/-!
# C44: what the generated constraints are

The two shuffles of `randomProblem` are exchanges of constraints and of variables. Every order can come out, each from exactly one
sequence of draws; the active constraints are those announced by the characteristics.
-/

namespace JrlQp

open Finset

/-! ### The shuffles -/

/-- The permutation made by a shuffle with draws `j`. -/
def shufPerm (j : Nat → Nat) : Nat → Equiv.Perm Nat
  | 0 => 1
  | i + 1 => Equiv.swap (i + 1) (j (i + 1)) * shufPerm j i

theorem shufPerm_fix {j : Nat → Nat} (hj : ∀ i, j i ≤ i) : ∀ (m k : Nat), m < k → shufPerm j m k = k := by
  intro m
  induction m with
  | zero => intro k _; rfl
  | succ m ih =>
    intro k hk
    rw [shufPerm, Equiv.Perm.mul_apply, ih k (by omega)]
    have := hj (m + 1)
    exact Equiv.swap_apply_of_ne_of_ne (by omega) (by omega)

theorem shufPerm_congr {j j' : Nat → Nat} : ∀ (m : Nat), (∀ i ≤ m, 1 ≤ i → j i = j' i) → shufPerm j m = shufPerm j' m := by
  intro m
  induction m with
  | zero => intro _; rfl
  | succ m ih =>
    intro h
    rw [shufPerm, shufPerm, ih fun i hi => h i (by omega), h (m + 1) le_rfl (by omega)]

theorem perm_lt {σ : Equiv.Perm Nat} {n : Nat} (h : ∀ k, n ≤ k → σ k = k) (i : Nat) : σ i < n ↔ i < n := by
  constructor
  · intro h1
    by_contra h2
    rw [h i (by omega)] at h1
    omega
  · intro h1
    by_contra h2
    have := h (σ i) (by omega)
    have := σ.injective this
    omega

/-- Fisher-Yates: every permutation comes out. -/
theorem shufPerm_surj : ∀ (m : Nat) (σ : Equiv.Perm Nat), (∀ k, m < k → σ k = k) →
    ∃ j : Nat → Nat, (∀ i, j i ≤ i) ∧ shufPerm j m = σ := by
  intro m
  induction m with
  | zero =>
    intro σ h
    refine ⟨fun _ => 0, fun i => Nat.zero_le i, ?_⟩
    have h0 : σ 0 = 0 := by
      have := (perm_lt (n := 1) (fun k hk => h k (by omega)) 0).2 (by omega)
      omega
    refine Equiv.ext fun k => ?_
    rcases Nat.eq_zero_or_pos k with hk | hk
    · rw [hk, h0]; rfl
    · rw [h k hk]; rfl
  | succ m ih =>
    intro σ h
    have hl : σ (m + 1) ≤ m + 1 := by
      have := (perm_lt (n := m + 2) (fun k hk => h k (by omega)) (m + 1)).2 (by omega)
      omega
    obtain ⟨j, h1, h2⟩ := ih (Equiv.swap (m + 1) (σ (m + 1)) * σ) (by
      intro k hk
      rw [Equiv.Perm.mul_apply]
      rcases Nat.eq_or_lt_of_le (Nat.succ_le_of_lt hk) with hk' | hk'
      · rw [← hk']; exact Equiv.swap_apply_right _ _
      · have hk2 : m + 1 < k := hk'
        rw [h k hk2]
        exact Equiv.swap_apply_of_ne_of_ne (by omega) (by omega))
    refine ⟨fun i => if i = m + 1 then σ (m + 1) else j i, ?_, ?_⟩
    · intro i
      dsimp only
      split_ifs with hi
      · rw [hi]; exact hl
      · exact h1 i
    · rw [shufPerm, if_pos rfl, shufPerm_congr (j' := j) m (fun i hi _ => if_neg (by omega)), h2, ← mul_assoc, Equiv.swap_mul_self, one_mul]

/-- ... from one sequence of draws only. -/
theorem shufPerm_inj {j j' : Nat → Nat} (hj : ∀ i, j i ≤ i) (hj' : ∀ i, j' i ≤ i) : ∀ m, shufPerm j m = shufPerm j' m →
    ∀ i ≤ m, 1 ≤ i → j i = j' i := by
  intro m
  induction m with
  | zero => intro _ i hi hi'; omega
  | succ m ih =>
    intro h
    have e : j (m + 1) = j' (m + 1) := by
      have := congrArg (fun σ : Equiv.Perm Nat => σ (m + 1)) h
      simp only [shufPerm, Equiv.Perm.mul_apply] at this
      rw [shufPerm_fix hj m (m + 1) (by omega), shufPerm_fix hj' m (m + 1) (by omega), Equiv.swap_apply_left, Equiv.swap_apply_left] at this
      exact this
    have h' : shufPerm j m = shufPerm j' m := by
      rw [shufPerm, shufPerm, e] at h
      exact mul_left_cancel h
    intro i hi hi'
    rcases Nat.eq_or_lt_of_le hi with rfl | h2
    · exact e
    · exact ih h' i (by omega) hi'

/-- The problem whose constraint `i` is the constraint `σ i` of `p`. -/
def RLS.permRow (ch : Charac) (p : RLS) (σ : Equiv.Perm Nat) : RLS :=
  { p with C := fun k => p.C (σ k), u := fun k => p.u (σ k), lamIneq := fun k => p.lamIneq (σ k),
           l := if ch.dbl then fun k => p.l (σ k) else p.l }

/-- The problem whose variable `a` is the variable `τ a` of `p`. -/
def RLS.permCol (p : RLS) (τ : Equiv.Perm Nat) : RLS :=
  { p with A := fun k a => p.A k (τ a), C := fun k a => p.C k (τ a), E := fun k a => p.E k (τ a),
           xl := fun a => p.xl (τ a), xu := fun a => p.xu (τ a), lamBnd := fun a => p.lamBnd (τ a), x := fun a => p.x (τ a) }

theorem shuffleRows_eq (ch : Charac) (j : Nat → Nat) : ∀ (m : Nat) (p : RLS), shuffleRows ch j m p = p.permRow ch (shufPerm j m) := by
  intro m
  induction m with
  | zero => intro p; cases hd : ch.dbl <;> simp [shuffleRows, shufPerm, RLS.permRow, hd]
  | succ m ih =>
    intro p
    rw [shuffleRows, ih]
    cases hd : ch.dbl <;> simp [shufPerm, RLS.permRow, RLS.swapRow, hd, Equiv.Perm.mul_apply]

theorem shuffleCols_eq (j : Nat → Nat) : ∀ (m : Nat) (p : RLS), shuffleCols j m p = p.permCol (shufPerm j m) := by
  intro m
  induction m with
  | zero => intro p; rfl
  | succ m ih =>
    intro p
    rw [shuffleCols, ih]
    simp [shufPerm, RLS.permCol, RLS.swapCol, Equiv.Perm.mul_apply]

/-- **C44, the shuffles.** Any order of the `n` constraints (and of the `n` variables) is obtained, from one and only one sequence of
draws `j i ∈ {0, ..., i}`: with uniform and independent draws all the orders have the same probability. -/
theorem C44_shuffle (ch : Charac) (n : Nat) (σ : Equiv.Perm Nat) (hσ : ∀ k, n ≤ k → σ k = k) :
    (∃ j : Nat → Nat, (∀ i, j i ≤ i) ∧ (∀ p, shuffleRows ch j (n - 1) p = p.permRow ch σ) ∧ ∀ p, shuffleCols j (n - 1) p = p.permCol σ) ∧
    ∀ j j' : Nat → Nat, (∀ i, j i ≤ i) → (∀ i, j' i ≤ i) →
      ((∀ p, shuffleRows ch j (n - 1) p = p.permRow ch σ) → (∀ p, shuffleRows ch j' (n - 1) p = p.permRow ch σ) →
        ∀ i, 1 ≤ i → i < n → j i = j' i) ∧
      ((∀ p, shuffleCols j (n - 1) p = p.permCol σ) → (∀ p, shuffleCols j' (n - 1) p = p.permCol σ) →
        ∀ i, 1 ≤ i → i < n → j i = j' i) := by
  constructor
  · obtain ⟨j, h1, h2⟩ := shufPerm_surj (n - 1) σ (fun k hk => hσ k (by omega))
    exact ⟨j, h1, fun p => by rw [shuffleRows_eq, h2], fun p => by rw [shuffleCols_eq, h2]⟩
  · intro j j' hj hj'
    obtain ⟨p0, hp⟩ : ∃ p : RLS, (p.u = fun k : ℕ => (k : ℝ)) ∧ p.x = fun k : ℕ => (k : ℝ) :=
      ⟨⟨fun _ _ => 0, fun _ => 0, fun _ _ => 0, fun _ => 0, fun _ _ => 0, fun _ => 0, fun k : ℕ => (k : ℝ), fun _ => 0, fun _ => 0, fun k : ℕ => (k : ℝ),
        fun _ => 0, fun _ => 0, fun _ => 0⟩, rfl, rfl⟩
    constructor
    · intro h h' i h1 h2
      refine shufPerm_inj hj hj' (n - 1) (Equiv.ext fun k => ?_) i (by omega) h1
      have e := congrArg RLS.u ((h p0).trans (h' p0).symm)
      rw [shuffleRows_eq, shuffleRows_eq] at e
      have : p0.u _ = p0.u _ := congrFun e k
      rw [hp.1] at this
      exact Nat.cast_injective (R := ℝ) this
    · intro h h' i h1 h2
      refine shufPerm_inj hj hj' (n - 1) (Equiv.ext fun k => ?_) i (by omega) h1
      have e := congrArg RLS.x ((h p0).trans (h' p0).symm)
      rw [shuffleCols_eq, shuffleCols_eq] at e
      have : p0.x _ = p0.x _ := congrFun e k
      rw [hp.2] at this
      exact Nat.cast_injective (R := ℝ) this

/-- Reversing three constraints. -/
example : ∃ σ : Equiv.Perm Nat, (∀ k, 3 ≤ k → σ k = k) ∧ σ 0 = 2 ∧ σ 1 = 1 :=
  ⟨Equiv.swap 0 2, fun k hk => Equiv.swap_apply_of_ne_of_ne (by omega) (by omega), rfl, rfl⟩

/-! ### The constraints -/

theorem genWeak_span {ch : Charac} {d : Draw2} {Ca : Nat → Nat → ℝ} {mult : Nat → ℝ} {Cw : Nat → Nat → ℝ}
    (h : genWeak ch d Ca mult = some Cw) (i : Nat) : ∃ c : Nat → ℝ, ∀ j, Cw i j = ∑ k ∈ range ch.nstrong, c k * Ca k j := by
  unfold genWeak at h
  split_ifs at h with h1 h2
  · have := Option.some.inj h
    subst this
    refine ⟨fun _ => sumTo (fun k => |d.Qw i k| * cwSign (mult (ch.nObj + k))) ch.nstrong, fun j => ?_⟩
    rw [h2, Finset.sum_range_one]
  · have := Option.some.inj h
    subst this
    exact ⟨d.Qw i, fun j => sumTo_eq _ _⟩

/-- The bottom rows of `Ca` are the normals of the strongly active bounds. -/
theorem genStep_bnd {ch : Charac} {d : Draw1} {A Ca : Nat → Nat → ℝ} {mult : Nat → ℝ} (h : genStep1 ch d = some (A, Ca, mult))
    (h0 : ch.nObj ≠ 0) {k : Nat} (hk : k < ch.nStrongBnd) (j : Nat) :
    (genStep2 ch Ca mult).1 (ch.nEq + ch.nStrongIneq + k) j = if j = k then 1 else 0 := by
  have h1 : Ca (ch.nEq + ch.nStrongIneq + k) j = if j = k then 1 else 0 := by
    unfold genStep1 at h
    rw [if_neg h0, if_neg (by unfold Charac.nstrong; omega)] at h
    split_ifs at h
    · have := Option.some.inj h
      simp only [Prod.mk.injEq] at this
      rw [← this.2.1]; exact setIdBottom_bnd _ hk j
    · dsimp only at h
      split_ifs at h
      all_goals
        have := Option.some.inj h
        simp only [Prod.mk.injEq] at this
        rw [← this.2.1]; exact setIdBottom_bnd _ hk j
  unfold genStep2
  cases ch.dbl
  · simp only [Bool.false_eq_true, if_false]
    rw [if_neg (by omega)]; exact h1
  · simpa using h1

/-- Sum over the indices sent by `σ` below `m`. -/
theorem sum_perm_lt (σ : Equiv.Perm Nat) (n m : Nat) (hσ : ∀ i, σ i < n ↔ i < n) (hm : m ≤ n) (f : Nat → ℝ) :
    ∑ i ∈ range m, f i = ∑ i ∈ range n, if σ i < m then f (σ i) else 0 := by
  rw [sum_perm σ n hσ (fun i => if i < m then f i else 0)]
  rw [← Finset.sum_filter]
  refine Finset.sum_congr ?_ fun _ _ => rfl
  ext i
  simp only [mem_range, mem_filter]
  omega

/-- What the characteristics announce of the general constraints and of the bounds of the generated problem; the constraint `i` is
the one of rank `σ i` before the shuffle, the variable `a` that of rank `τ a`. -/
structure Announced (ch : Charac) (p : RLS) (σ τ : Equiv.Perm Nat) : Prop where
  rows : ∀ i, σ i < ch.nIneq ↔ i < ch.nIneq
  cols : ∀ i, τ i < ch.nVar ↔ i < ch.nVar
  active : ∀ i, σ i < ch.nStrongIneq + ch.nWeakIneq →
    p.l i = ((∑ a ∈ range ch.nVar, p.C i a * p.x a : ℝ) : EReal) ∨ p.u i = ∑ a ∈ range ch.nVar, p.C i a * p.x a
  zero : ∀ i, ch.nStrongIneq ≤ σ i → p.lamIneq i = 0
  activeBnd : ∀ a, τ a < ch.nStrongBnd + ch.nWeakBnd → p.xl a = p.x a ∨ p.xu a = p.x a
  zeroBnd : ∀ a, ch.nStrongBnd ≤ τ a → p.lamBnd a = 0
  weak : ∀ i, ch.nStrongIneq ≤ σ i → σ i < ch.nStrongIneq + ch.nWeakIneq → ∃ ce ci cb : Nat → ℝ, ∀ a < ch.nVar,
    p.C i a = ∑ k ∈ range ch.nEq, ce k * p.E k a + (∑ k ∈ range ch.nIneq, if σ k < ch.nStrongIneq then ci k * p.C k a else 0)
      + if τ a < ch.nStrongBnd then cb a else 0

theorem genStep5_announced {ch : Charac} (hc : ch.Check) (d : Draw2) {A Ca : Nat → Nat → ℝ} {mult : Nat → ℝ} {Cw : Nat → Nat → ℝ}
    (hid : ∀ k < ch.nStrongBnd, ∀ j, Ca (ch.nEq + ch.nStrongIneq + k) j = if j = k then 1 else 0)
    (hcw : ∀ i, ∃ c : Nat → ℝ, ∀ j, Cw i j = ∑ k ∈ range ch.nstrong, c k * Ca k j)
    (hw : ch.dbl = true → ∀ i, ch.nStrongIneq ≤ i → i < ch.nStrongIneq + ch.nWeakIneq → |d.ru i| < |d.rl i|) :
    Announced ch (genStep5 ch d A Ca mult Cw) 1 1 := by
  have hflip : ∀ i, ¬ (ch.nStrongIneq ≤ i ∧ i < ch.nStrongIneq + ch.nWeakIneq ∧ ch.dbl = true ∧ ¬ |d.ru i| < |d.rl i|) := by
    rintro i ⟨a1, a2, a3, a4⟩
    exact a4 (hw a3 i a1 a2)
  have hC : ∀ i j, (genStep5 ch d A Ca mult Cw).C i j = if i < ch.nStrongIneq then Ca (ch.nEq + i) j
      else if i < ch.nStrongIneq + ch.nWeakIneq then Cw (i - ch.nStrongIneq) j else d.Cin (i - (ch.nStrongIneq + ch.nWeakIneq)) j := by
    intro i j
    unfold genStep5
    dsimp only
    rw [if_neg (hflip i)]
  constructor
  · intro i; exact Iff.rfl
  · intro i; exact Iff.rfl
  · intro i hi
    have hi' : i < ch.nStrongIneq + ch.nWeakIneq := hi
    have e : (∑ a ∈ range ch.nVar, (genStep5 ch d A Ca mult Cw).C i a * (genStep5 ch d A Ca mult Cw).x a)
        = sumTo (fun j => (if i < ch.nStrongIneq then Ca (ch.nEq + i) j
          else if i < ch.nStrongIneq + ch.nWeakIneq then Cw (i - ch.nStrongIneq) j
          else d.Cin (i - (ch.nStrongIneq + ch.nWeakIneq)) j) * d.x j) ch.nVar := by
      rw [sumTo_eq]
      refine Finset.sum_congr rfl fun a _ => ?_
      rw [hC]; rfl
    rw [e]
    unfold genStep5
    dsimp only
    cases hd : ch.dbl
    · right
      simp only [Bool.false_eq_true, if_false]
      rw [if_pos hi']
    · simp only [if_true]
      by_cases h1 : i < ch.nStrongIneq
      · simp only [if_pos h1]
        split_ifs
        · right; rfl
        · left; rfl
      · right
        simp only [if_neg h1, if_pos hi']
        rw [if_pos (hw hd i (by omega) hi')]
  · intro i hi
    have hi' : ch.nStrongIneq ≤ i := hi
    unfold genStep5
    dsimp only
    rw [if_neg (by omega)]
  · intro a ha
    have ha' : a < ch.nStrongBnd + ch.nWeakBnd := ha
    unfold genStep5
    dsimp only
    by_cases h1 : a < ch.nStrongBnd
    · simp only [if_pos h1]
      split_ifs
      · right; rfl
      · left; rfl
    · simp only [if_neg h1, if_pos ha']
      split_ifs
      · right; rfl
      · left; rfl
  · intro a ha
    have ha' : ch.nStrongBnd ≤ a := ha
    unfold genStep5
    dsimp only
    rw [if_neg (by omega)]
  · intro i h1 h2
    have h1' : ch.nStrongIneq ≤ i := h1
    have h2' : i < ch.nStrongIneq + ch.nWeakIneq := h2
    obtain ⟨c, hcc⟩ := hcw (i - ch.nStrongIneq)
    refine ⟨c, fun k => c (ch.nEq + k), fun a => c (ch.nEq + ch.nStrongIneq + a), fun a _ => ?_⟩
    rw [hC, if_neg (by omega), if_pos h2', hcc]
    unfold Charac.nstrong
    rw [Finset.sum_range_add, Finset.sum_range_add]
    congr 1
    · congr 1
      rw [sum_perm_lt 1 ch.nIneq ch.nStrongIneq (fun _ => Iff.rfl) (by have := hc.c3; omega)]
      refine Finset.sum_congr rfl fun k _ => ?_
      by_cases hk : k < ch.nStrongIneq
      · rw [if_pos (show (1 : Equiv.Perm Nat) k < _ from hk), if_pos (show (1 : Equiv.Perm Nat) k < _ from hk), hC, if_pos hk]
        rfl
      · rw [if_neg (show ¬ (1 : Equiv.Perm Nat) k < _ from hk), if_neg (show ¬ (1 : Equiv.Perm Nat) k < _ from hk)]
    · by_cases ha : a < ch.nStrongBnd
      · rw [if_pos (show (1 : Equiv.Perm Nat) a < _ from ha), Finset.sum_eq_single a]
        · rw [hid a ha, if_pos rfl, mul_one]
        · intro k hk hka
          rw [hid k (mem_range.1 hk), if_neg (Ne.symm hka), mul_zero]
        · intro h; exact absurd (mem_range.2 ha) h
      · rw [if_neg (show ¬ (1 : Equiv.Perm Nat) a < _ from ha)]
        refine Finset.sum_eq_zero fun k hk => ?_
        have := mem_range.1 hk
        rw [hid k this, if_neg (by omega), mul_zero]

theorem Announced.permRow {ch : Charac} {p : RLS} (h : Announced ch p 1 1) (hl : ch.dbl = false → ∀ i j, p.l i = p.l j)
    {σ : Equiv.Perm Nat} (hσ : ∀ i, σ i < ch.nIneq ↔ i < ch.nIneq) : Announced ch (p.permRow ch σ) σ 1 := by
  constructor
  · exact hσ
  · exact h.cols
  · intro i hi
    rcases h.active (σ i) hi with h1 | h1
    · left
      refine Eq.trans ?_ h1
      unfold RLS.permRow
      cases hd : ch.dbl
      · exact hl hd _ _
      · rfl
    · right; exact h1
  · intro i hi; exact h.zero (σ i) hi
  · exact h.activeBnd
  · exact h.zeroBnd
  · intro i h1 h2
    obtain ⟨ce, ci, cb, hh⟩ := h.weak (σ i) h1 h2
    refine ⟨ce, fun k => ci (σ k), cb, fun a ha => ?_⟩
    refine (hh a ha).trans ?_
    rw [← sum_perm σ ch.nIneq hσ]
    rfl

theorem Announced.permCol {ch : Charac} {p : RLS} {σ : Equiv.Perm Nat} (h : Announced ch p σ 1) {τ : Equiv.Perm Nat}
    (hτ : ∀ i, τ i < ch.nVar ↔ i < ch.nVar) : Announced ch (p.permCol τ) σ τ := by
  constructor
  · exact h.rows
  · exact hτ
  · intro i hi
    have e : (∑ a ∈ range ch.nVar, (p.permCol τ).C i a * (p.permCol τ).x a) = ∑ a ∈ range ch.nVar, p.C i a * p.x a :=
      sum_perm τ ch.nVar hτ (fun a => p.C i a * p.x a)
    rw [e]
    exact h.active i hi
  · exact h.zero
  · intro a ha; exact h.activeBnd (τ a) ha
  · intro a ha; exact h.zeroBnd (τ a) ha
  · intro i h1 h2
    obtain ⟨ce, ci, cb, hh⟩ := h.weak i h1 h2
    exact ⟨ce, ci, fun a => cb (τ a), fun a ha => hh (τ a) ((hτ a).2 ha)⟩

/-- **C44, the announced constraints (partial).** Let the characteristics pass `check()`, let no weakly active double-sided constraint be
flipped. Then, up to the order of the constraints and of the variables, `nStrongActIneq` and `nWeakActIneq` general constraints and
`nStrongActBounds` and `nWeakActBounds` bounds of the generated problem are active at the announced solution; all but the strongly
active ones have a zero multiplier; the normals of the weakly active constraints are linear combinations of those of the equality
constraints, of the strongly active constraints and of the strongly active bounds. -/
theorem C44_announced_partial {ch : Charac} (hc : ch.Check) {d1 : Draw1} {d2 : Draw2} (hr : ∀ i, d2.jRow i ≤ i)
    (hcol : ∀ i, d2.jCol i ≤ i) (h0 : ch.nObj ≠ 0)
    (hw : ch.dbl = true → ∀ i, ch.nStrongIneq ≤ i → i < ch.nStrongIneq + ch.nWeakIneq → |d2.ru i| < |d2.rl i|)
    {p : RLS} (hp : randomProblem ch d1 d2 = some p) : ∃ σ τ : Equiv.Perm Nat, Announced ch p σ τ := by
  unfold randomProblem at hp
  cases e1 : genStep1 ch d1 with
  | none => rw [e1] at hp; cases hp
  | some ACm =>
    obtain ⟨A, Ca, mult⟩ := ACm
    rw [e1] at hp
    simp only [Option.bind_some] at hp
    cases e2 : genWeak ch d2 (genStep2 ch Ca mult).1 (genStep2 ch Ca mult).2 with
    | none => rw [e2] at hp; cases hp
    | some Cw =>
      rw [e2] at hp
      simp only [Option.map_some, Option.some.injEq] at hp
      have g1 := genStep5_announced (A := A) (mult := (genStep2 ch Ca mult).2) hc d2 (fun k hk j => genStep_bnd e1 h0 hk j) (genWeak_span e2) hw
      rw [shuffleRows_eq] at hp
      have hperm : ∀ (j : Nat → Nat) (n : Nat), (∀ i, j i ≤ i) → ∀ i, shufPerm j (n - 1) i < n ↔ i < n := by
        intro j n hj i
        rcases Nat.eq_zero_or_pos n with rfl | hn
        · omega
        · exact perm_lt (fun k hk => shufPerm_fix hj _ _ (by omega)) i
      have g2 := g1.permRow (by
        intro hd i j
        unfold genStep5
        simp only [hd, Bool.false_eq_true, if_false]) (hperm d2.jRow ch.nIneq hr)
      split_ifs at hp with hb
      · rw [shuffleCols_eq] at hp
        exact ⟨_, _, hp ▸ g2.permCol (hperm d2.jCol ch.nVar hcol)⟩
      · exact ⟨_, _, hp ▸ g2⟩

/-- The hypotheses are met by a problem with a strongly active and a weakly active constraint. -/
theorem C44_announced_met : ∃ (ch : Charac) (d1 : Draw1) (d2 : Draw2) (p : RLS), ch.Check ∧ (∀ i, d2.jRow i ≤ i) ∧
    (∀ i, d2.jCol i ≤ i) ∧ ch.nObj ≠ 0 ∧ ch.dbl = false ∧ ch.nStrongIneq = 1 ∧ ch.nWeakIneq = 1 ∧ randomProblem ch d1 d2 = some p := by
  refine ⟨⟨1, 1, 0, 2, 1, 0, 1, 1, 0, 0, false, false, false⟩, onesDraw, onesDraw2 0 1 1, _, ?_, fun i => le_rfl, fun i => le_rfl,
    by simp, rfl, rfl, rfl, rfl⟩
  constructor <;> simp

end JrlQp
