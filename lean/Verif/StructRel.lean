import Verif.StructInv

/-!
# The linear operations of the structured solver, in any arithmetic

The triangular solves by blocks and the products by a sequence of reflectors and rotations are built from
`+`, `-`, multiplication and division by coefficients of the factors. Whatever the arithmetic, they map vectors that are
related entry by entry to related vectors, for any relation stable by these operations. The relation "equal" gives
that these functions do not read outside of their range, the relation "both null" that null vectors have null images.
-/

set_option linter.unusedSectionVars false

namespace JrlQp

open NumOps

variable {K B : Type} [Zero K] [One K] [Add K] [Sub K] [Neg K] [Mul K] [Div K] [NumOps K B] [SumOps K]

/-- A relation between scalars stable by linear operations with equal coefficients. -/
structure LinRel (r : K → K → Prop) : Prop where
  zero : r 0 0
  add : ∀ {a b a' b'}, r a b → r a' b' → r (a + a') (b + b')
  sub : ∀ {a b a' b'}, r a b → r a' b' → r (a - a') (b - b')
  smul : ∀ (c : K) {a b}, r a b → r (c * a) (c * b)
  muls : ∀ (c : K) {a b}, r a b → r (a * c) (b * c)
  div : ∀ (c : K) {a b}, r a b → r (a / c) (b / c)

theorem LinRel.eq : LinRel (fun a b : K => a = b) :=
  ⟨rfl, fun h h' => by rw [h, h'], fun h h' => by rw [h, h'], fun _ _ _ h => by rw [h], fun _ _ _ h => by rw [h],
    fun _ _ _ h => by rw [h]⟩

/-- Vectors related on their first `n` entries. -/
def RelOn (r : K → K → Prop) (n : Nat) (v w : Nat → K) : Prop := ∀ i < n, r (v i) (w i)

variable {r : K → K → Prop}

theorem RelOn.mono {n n' : Nat} {v w : Nat → K} (h : RelOn r n v w) (hn : n' ≤ n) : RelOn r n' v w :=
  fun i hi => h i (lt_of_lt_of_le hi hn)

theorem RelOn.shift {n m lo : Nat} {v w : Nat → K} (h : RelOn r n v w) (hn : lo + m ≤ n) :
    RelOn r m (fun a => v (lo + a)) (fun a => w (lo + a)) := fun i hi => h (lo + i) (by omega)

theorem SumTree.eval_rel (hr : LinRel r) {f g : Nat → K} (t : SumTree) (h : ∀ i ∈ t.leaves, r (f i) (g i)) : r (t.eval f) (t.eval g) := by
  induction t with
  | zero => exact hr.zero
  | leaf i => exact h i (by simp [leaves])
  | node l r ihl ihr =>
    exact hr.add (ihl fun i hi => h i (List.mem_append_left _ hi)) (ihr fun i hi => h i (List.mem_append_right _ hi))

theorem esum_rel (hr : LinRel r) {s : Site} {f g : Nat → K} {n : Nat} (h : ∀ i < n, r (f i) (g i)) : r (esum s f n) (esum s g n) := by
  obtain ⟨t, ht, e⟩ := SumOps.esum_tree (K := K) s n
  rw [e, e]
  exact t.eval_rel hr fun i hi => h i (List.mem_range.1 (ht.subset hi))

theorem esub_rel (hr : LinRel r) {s : Site} {y y' : K} {f g : Nat → K} {n : Nat} (hy : r y y') (h : ∀ i < n, r (f i) (g i)) :
    r (esub s y f n) (esub s y' g n) := by
  obtain ⟨ts, ht, e⟩ := SumOps.esub_tree (K := K) s n
  have hm : ∀ t ∈ ts, ∀ i ∈ t.leaves, r (f i) (g i) := fun t h1 i h2 => h i (List.mem_range.1 (ht.subset (List.mem_flatMap.2 ⟨t, h1, h2⟩)))
  rw [e, e]
  clear e ht
  induction ts generalizing y y' with
  | nil => exact hy
  | cons t ts ih =>
    rw [List.foldl_cons, List.foldl_cons]
    exact ih (hr.sub hy (t.eval_rel hr (hm t (by simp)))) fun t' h' => hm t' (by simp [h'])

theorem RelOn.upd {n k : Nat} {v w : Nat → K} {a b : K} (h : RelOn r n v w) (hab : r a b) :
    RelOn r n (upd v k a) (upd w k b) := by
  intro i hi
  unfold JrlQp.upd
  split_ifs
  · exact hab
  · exact h i hi

theorem fwdSub_rel (hr : LinRel r) (L : Nat → Nat → K) {n : Nat} {b b' : Nat → K} (hb : RelOn r n b b') (k : Nat) (hk : k ≤ n) :
    RelOn r n (fwdSub L b k) (fwdSub L b' k) := by
  induction k with
  | zero => exact hb
  | succ k ih =>
    have h1 := ih (by omega)
    exact h1.upd (hr.div _ (esub_rel hr (h1 k (by omega)) ( fun j hj => hr.smul _ (h1 j (by omega)))))

theorem backSubK_rel (hr : LinRel r) {U U' : Nat → Nat → K} {n : Nat} (hU : ∀ i j, i ≤ j → j < n → U i j = U' i j)
    {b b' : Nat → K} (hb : RelOn r n b b') (k : Nat) (hk : k ≤ n) :
    RelOn r n (backSubK U n b k) (backSubK U' n b' k) := by
  induction k with
  | zero => exact hb
  | succ k ih =>
    have h1 := ih (by omega)
    refine h1.upd ?_
    rw [hU (n - 1 - k) (n - 1 - k) le_rfl (by omega)]
    refine hr.div _ (esub_rel hr (h1 _ (by omega)) (fun j hj => ?_))
    rw [hU (n - 1 - k) (n - 1 - k + 1 + j) (by omega) (by omega)]
    exact hr.smul _ (h1 _ (by omega))

theorem backSub_rel (hr : LinRel r) {U U' : Nat → Nat → K} {n : Nat} (hU : ∀ i j, i ≤ j → j < n → U i j = U' i j)
    {b b' : Nat → K} (hb : RelOn r n b b') : RelOn r n (backSub U n b) (backSub U' n b') := backSubK_rel hr hU hb n le_rfl

/-! ## Solves by blocks -/

theorem solveRows_rel (hr : LinRel r) (L : Nat → Nat → K) {N sh lo m : Nat} (hN : lo + m ≤ N) {M M' : Nat → K} (h : RelOn r N M M') :
    RelOn r N (solveRows L sh lo m M) (solveRows L sh lo m M') := by
  intro k hk
  unfold solveRows
  split_ifs with h1
  · exact fwdSub_rel hr _ (h.shift hN) m le_rfl _ (by omega)
  · exact h k hk

theorem solveRowsT_rel (hr : LinRel r) (L : Nat → Nat → K) {N lo m : Nat} (hN : lo + m ≤ N) {M M' : Nat → K} (h : RelOn r N M M') :
    RelOn r N (solveRowsT L lo m M) (solveRowsT L lo m M') := by
  intro k hk
  unfold solveRowsT
  split_ifs with h1
  · exact backSub_rel hr (fun _ _ _ _ => rfl) (h.shift hN) _ (by omega)
  · exact h k hk

theorem subProd_rel (hr : LinRel r) (S : Nat → Nat → K) {N nr nc lo l : Nat} (hN : l + nc ≤ N) {M M' : Nat → K} (h : RelOn r N M M') :
    RelOn r N (subProd nr nc S lo l M) (subProd nr nc S lo l M') := by
  intro k hk
  unfold subProd
  split_ifs with h1
  · exact esub_rel hr (h k hk) (fun c hc => hr.smul _ (h _ (by omega)))
  · exact h k hk

theorem off_mono {sz : Nat → Nat} {i j : Nat} (h : i ≤ j) : off sz i ≤ off sz j := by
  induction j with
  | zero => rw [Nat.le_zero.1 h]
  | succ j ih =>
    rcases Nat.lt_or_ge i (j + 1) with h1 | h1
    · have := ih (by omega); simp only [off]; omega
    · rw [Nat.le_antisymm h h1]

/-- Two states of the loops of the solves with a block tridiagonal factor that differ by the right-hand side only. -/
structure TriRel (r : K → K → Prop) (N : Nat) (st st' : TriSt K) : Prop where
  n : st.n = st'.n
  l : st.l = st'.l
  li : st.li = st'.li
  zero : st.zero = st'.zero
  M : RelOn r N st.M st'.M

theorem triLStep_rel (hr : LinRel r) (sz : Nat → Nat) (D S : Blocks K) (start : Nat) {N i : Nat} {st st' : TriSt K}
    (h : TriRel r N st st') (h1 : st.n + sz i ≤ N) (h2 : st.l + st.li ≤ N) :
    TriRel r N (triLStep sz D S start st i) (triLStep sz D S start st' i) := by
  obtain ⟨n, l, li, zero, M⟩ := st
  obtain ⟨n', l', li', zero', M'⟩ := st'
  obtain ⟨e1, e2, e3, e4, hM⟩ := h
  simp only at e1 e2 e3 e4 hM h1 h2
  subst e1 e2 e3 e4
  unfold triLStep
  simp only []
  by_cases h3 : start ≤ n + sz i
  · simp only [h3, if_true]
    cases zero with
    | true => exact ⟨rfl, rfl, rfl, rfl, solveRows_rel hr _ (by omega) hM⟩
    | false => exact ⟨rfl, rfl, rfl, rfl, solveRows_rel hr _ h1 (subProd_rel hr _ h2 hM)⟩
  · simp only [h3, if_false]
    exact ⟨rfl, rfl, rfl, rfl, hM⟩

theorem triLStep_n (sz : Nat → Nat) (D S : Blocks K) (start : Nat) (st : TriSt K) (i : Nat) :
    (triLStep sz D S start st i).n = st.n + sz i ∧ (triLStep sz D S start st i).l = st.n ∧
      (triLStep sz D S start st i).li = sz i := ⟨rfl, rfl, rfl⟩

theorem triLSolve_rel (hr : LinRel r) (b : Nat) (sz : Nat → Nat) (D S : Blocks K) (start : Nat) {M M' : Nat → K}
    (h : RelOn r (off sz b) M M') : RelOn r (off sz b) (triLSolve b sz D S M start) (triLSolve b sz D S M' start) := by
  have key : ∀ k ≤ b, TriRel r (off sz b) ((List.range k).foldl (triLStep sz D S start) ⟨0, 0, 0, true, M⟩)
      ((List.range k).foldl (triLStep sz D S start) ⟨0, 0, 0, true, M'⟩) ∧
      ((List.range k).foldl (triLStep sz D S start) ⟨0, 0, 0, true, M⟩).n = off sz k ∧
      ((List.range k).foldl (triLStep sz D S start) ⟨0, 0, 0, true, M⟩).l +
        ((List.range k).foldl (triLStep sz D S start) ⟨0, 0, 0, true, M⟩).li ≤ off sz b := by
    intro k hk
    induction k with
    | zero => exact ⟨⟨rfl, rfl, rfl, rfl, h⟩, rfl, Nat.zero_le _⟩
    | succ k ih =>
      obtain ⟨i1, i2, i3⟩ := ih (by omega)
      have h4 : off sz k + sz k ≤ off sz b := off_mono (sz := sz) hk
      rw [List.range_succ, List.foldl_append, List.foldl_append]
      simp only [List.foldl_cons, List.foldl_nil]
      refine ⟨triLStep_rel hr sz D S start i1 (by rw [i2]; exact h4) i3, ?_, ?_⟩
      · rw [(triLStep_n sz D S start _ k).1, i2]; rfl
      · rw [(triLStep_n sz D S start _ k).2.1, (triLStep_n sz D S start _ k).2.2, i2]; exact h4
  exact (key b le_rfl).1.M

theorem triLTStep_rel (hr : LinRel r) (sz : Nat → Nat) (D S : Blocks K) (stop : Nat) {N i : Nat} {st st' : TriSt K}
    (h : TriRel r N st st') (h1 : st.n ≤ N) (h2 : st.l ≤ N) (h3 : st.li ≤ st.l) (h4 : stop ≤ N) (h5 : sz i ≤ st.n) :
    TriRel r N (triLTStep sz D S stop st i) (triLTStep sz D S stop st' i) := by
  obtain ⟨n, l, li, zero, M⟩ := st
  obtain ⟨n', l', li', zero', M'⟩ := st'
  obtain ⟨e1, e2, e3, e4, hM⟩ := h
  simp only at e1 e2 e3 e4 hM h1 h2 h3 h5
  subst e1 e2 e3 e4
  unfold triLTStep
  simp only []
  by_cases h6 : n - sz i < stop
  · simp only [h6, if_true]
    cases zero with
    | true => exact ⟨rfl, rfl, rfl, rfl, solveRowsT_rel hr _ (by omega) hM⟩
    | false => exact ⟨rfl, rfl, rfl, rfl, solveRowsT_rel hr _ (by omega) (subProd_rel hr _ (by omega) hM)⟩
  · simp only [h6, if_false]
    exact ⟨rfl, rfl, rfl, rfl, hM⟩

theorem triLTStep_n (sz : Nat → Nat) (D S : Blocks K) (stop : Nat) (st : TriSt K) (i : Nat) :
    (triLTStep sz D S stop st i).n = st.n - sz i ∧ (triLTStep sz D S stop st i).l = st.n ∧
      (triLTStep sz D S stop st i).li = sz i := ⟨rfl, rfl, rfl⟩

theorem triLTFrom_rel (hr : LinRel r) (sz : Nat → Nat) (D S : Blocks K) (stop : Nat) {N : Nat} (h4 : stop ≤ N) (k : Nat) :
    ∀ {st st' : TriSt K}, TriRel r N st st' → st.n = off sz k → off sz k ≤ N → st.l ≤ N → st.li ≤ st.l →
      TriRel r N (triLTFrom sz D S stop k st) (triLTFrom sz D S stop k st') := by
  induction k with
  | zero => intro st st' h _ _ _ _; exact h
  | succ k ih =>
    intro st st' h h1 h2 h3 h5
    have e : off sz (k + 1) = off sz k + sz k := rfl
    refine ih (triLTStep_rel hr sz D S stop h (by omega) h3 h5 h4 (by omega)) ?_ (by omega) ?_ ?_
    · rw [(triLTStep_n sz D S stop st k).1]; omega
    · rw [(triLTStep_n sz D S stop st k).2.1]; omega
    · rw [(triLTStep_n sz D S stop st k).2.1, (triLTStep_n sz D S stop st k).2.2]; omega

theorem triLTSolve_rel (hr : LinRel r) (b : Nat) (sz : Nat → Nat) (D S : Blocks K) {M M' : Nat → K}
    (h : RelOn r (off sz b) M M') : RelOn r (off sz b) (triLTSolve b sz D S M none) (triLTSolve b sz D S M' none) :=
  (triLTFrom_rel hr sz D S (off sz b) le_rfl b (st := ⟨off sz b, 0, 0, true, M⟩) (st' := ⟨off sz b, 0, 0, true, M'⟩)
    ⟨rfl, rfl, rfl, rfl, h⟩ rfl le_rfl (Nat.zero_le _) le_rfl).M

/-- First row of the `k`-th block met by the solves with a block arrow factor. -/
def boff (up : Bool) (b : Nat) (sz : Nat → Nat) : Nat → Nat
  | 0 => 0
  | k + 1 => boff up b sz k + sz (arrowIdx up b k)

theorem boff_down (b : Nat) (sz : Nat → Nat) (k : Nat) : boff false b sz k = off sz k := by
  induction k with
  | zero => rfl
  | succ k ih => simp only [boff, off, ih, arrowIdx, Bool.false_eq_true, if_false]

theorem boff_up (b : Nat) (sz : Nat → Nat) (k : Nat) (hk : k ≤ b - 1) : boff true b sz k + sz 0 = off sz (k + 1) := by
  induction k with
  | zero => simp [boff, off]
  | succ k ih =>
    have h1 := ih (by omega)
    have h2 : (k + 1) % b = k + 1 := Nat.mod_eq_of_lt (by omega)
    have e : off sz (k + 1 + 1) = off sz (k + 1) + sz (k + 1) := rfl
    simp only [boff, arrowIdx, if_true, h2]
    omega

theorem boff_hub (up : Bool) {b : Nat} (hb : 0 < b) (sz : Nat → Nat) :
    boff up b sz (b - 1) + sz (arrowIdx up b (b - 1)) = off sz b := by
  cases up with
  | false =>
    rw [boff_down]
    have : b - 1 + 1 = b := by omega
    show off sz (b - 1 + 1) = off sz b
    rw [this]
  | true =>
    have h1 := boff_up b sz (b - 1) le_rfl
    have : b - 1 + 1 = b := by omega
    have h2 : arrowIdx true b (b - 1) = 0 := by simp [arrowIdx, this]
    rw [h2]; rw [this] at h1; exact h1

theorem boff_mono {up : Bool} {b : Nat} {sz : Nat → Nat} {i j : Nat} (h : i ≤ j) : boff up b sz i ≤ boff up b sz j := by
  induction j with
  | zero => rw [Nat.le_zero.1 h]
  | succ j ih =>
    rcases Nat.lt_or_ge i (j + 1) with h1 | h1
    · have := ih (by omega); simp only [boff]; omega
    · rw [Nat.le_antisymm h h1]

theorem arrowLK_rel (hr : LinRel r) (up : Bool) {b : Nat} (hb : 0 < b) (sz : Nat → Nat) (D S : Blocks K) (start stop : Nat)
    (hs : up = true → sz (b - 1) = sz 0) {M M' : Nat → K} (h : RelOn r (off sz b) M M') (k : Nat) (hk : k ≤ b - 1) :
    ∃ X X', arrowLK up b sz D S (off sz b) start stop M k = some (boff up b sz k, X) ∧
      arrowLK up b sz D S (off sz b) start stop M' k = some (boff up b sz k, X') ∧ RelOn r (off sz b) X X' := by
  induction k with
  | zero => exact ⟨M, M', rfl, rfl, h⟩
  | succ k ih =>
    obtain ⟨X, X', e, e', hX⟩ := ih (by omega)
    have h1 : boff up b sz k + sz (arrowIdx up b k) ≤ off sz b := by
      have h2 := boff_mono (up := up) (b := b) (sz := sz) hk
      have h3 := boff_hub up hb sz
      have h4 : boff up b sz (k + 1) = boff up b sz k + sz (arrowIdx up b k) := rfl
      omega
    have h5 : sz (b - 1) = sz (arrowIdx up b (b - 1)) := by
      cases up with
      | false => rfl
      | true =>
        have : b - 1 + 1 = b := by omega
        have h2 : arrowIdx true b (b - 1) = 0 := by simp [arrowIdx, this]
        rw [h2]; exact hs rfl
    simp only [arrowLK, e, e']
    by_cases h6 : sz (arrowIdx up b k) < start - boff up b sz k ∨ stop ≤ boff up b sz k
    · rw [if_pos h6, if_pos h6]
      exact ⟨X, X', rfl, rfl, hX⟩
    · rw [if_neg h6, if_neg h6, if_pos h5, if_pos h5]
      exact ⟨_, _, rfl, rfl, subProd_rel hr _ (by omega) (solveRows_rel hr _ (by omega) hX)⟩

theorem rotUp_rel {N n0 : Nat} (h0 : n0 ≤ N) {M M' : Nat → K} (h : RelOn r N M M') : RelOn r N (rotUp N n0 M) (rotUp N n0 M') := by
  intro k hk
  unfold rotUp
  split_ifs
  · exact h _ (by omega)
  · exact h _ (by omega)

theorem rotDown_rel {N n0 : Nat} (h0 : n0 ≤ N) {M M' : Nat → K} (h : RelOn r N M M') : RelOn r N (rotDown N n0 M) (rotDown N n0 M') := by
  intro k hk
  unfold rotDown
  split_ifs
  · exact h _ (by omega)
  · exact h _ (by omega)

theorem arrowLSolve_rel (hr : LinRel r) (up : Bool) {b : Nat} (hb : 0 < b) (sz : Nat → Nat) (D S : Blocks K) (start : Nat)
    (stop : Option Nat) (hs : up = true → sz (b - 1) = sz 0) {M M' : Nat → K} (h : RelOn r (off sz b) M M') :
    ∃ X X', arrowLSolve up b sz D S M start stop = some X ∧ arrowLSolve up b sz D S M' start stop = some X' ∧
      RelOn r (off sz b) X X' := by
  have h0 : sz 0 ≤ off sz b := by
    have := off_mono (sz := sz) (show 1 ≤ b from hb)
    simp only [off] at this; omega
  have key : ∀ (u : Bool), (u = true → sz (b - 1) = sz 0) → ∀ (st en : Nat) {M M' : Nat → K}, RelOn r (off sz b) M M' →
      ∃ X X', arrowLSolve_ u b sz D S (off sz b) st en M = some X ∧ arrowLSolve_ u b sz D S (off sz b) st en M' = some X' ∧
      RelOn r (off sz b) X X' := by
    intro u hu st en M M' hM
    obtain ⟨X, X', e, e', hX⟩ := arrowLK_rel hr u hb sz D S st en hu hM (b - 1) le_rfl
    unfold arrowLSolve_
    rw [e, e']
    exact ⟨_, _, rfl, rfl, solveRows_rel hr _ (le_of_eq (boff_hub u hb sz)) hX⟩
  unfold arrowLSolve
  cases up with
  | false => exact key false hs _ _ h
  | true => exact key true hs _ _ (rotUp_rel h0 h)

theorem arrowLTK_rel (hr : LinRel r) (up : Bool) {b : Nat} (hb : 0 < b) (sz : Nat → Nat) (D S : Blocks K) (start stop : Nat) (zero : Bool)
    {M M' : Nat → K} (h : RelOn r (off sz b) M M') (k : Nat) (hk : k ≤ b - 1) :
    (arrowLTK up b sz D S (off sz b) start stop zero M k).1 = boff up b sz k ∧
    (arrowLTK up b sz D S (off sz b) start stop zero M' k).1 = boff up b sz k ∧
    RelOn r (off sz b) (arrowLTK up b sz D S (off sz b) start stop zero M k).2 (arrowLTK up b sz D S (off sz b) start stop zero M' k).2 := by
  induction k with
  | zero => exact ⟨rfl, rfl, h⟩
  | succ k ih =>
    obtain ⟨e, e', hX⟩ := ih (by omega)
    have h3 := boff_hub up hb sz
    have h1 : boff up b sz k + sz (arrowIdx up b k) ≤ off sz b := by
      have h2 := boff_mono (up := up) (b := b) (sz := sz) hk
      have h4 : boff up b sz (k + 1) = boff up b sz k + sz (arrowIdx up b k) := rfl
      omega
    simp only [arrowLTK, e, e']
    have h7 : RelOn r (off sz b)
        (if zero = true then (arrowLTK up b sz D S (off sz b) start stop zero M k).2 else
          subProd (sz (arrowIdx up b k)) (sz (arrowIdx up b (b - 1))) (fun a c => trIf up (S k) c a) (boff up b sz k)
            (off sz b - sz (arrowIdx up b (b - 1))) (arrowLTK up b sz D S (off sz b) start stop zero M k).2)
        (if zero = true then (arrowLTK up b sz D S (off sz b) start stop zero M' k).2 else
          subProd (sz (arrowIdx up b k)) (sz (arrowIdx up b (b - 1))) (fun a c => trIf up (S k) c a) (boff up b sz k)
            (off sz b - sz (arrowIdx up b (b - 1))) (arrowLTK up b sz D S (off sz b) start stop zero M' k).2) := by
      split_ifs
      · exact hX
      · exact subProd_rel hr _ (by omega) hX
    by_cases h6 : zero = true ∧ boff up b sz k + sz (arrowIdx up b k) ≤ start
    · rw [if_pos h6, if_pos h6]
      exact ⟨rfl, rfl, hX⟩
    · rw [if_neg h6, if_neg h6]
      by_cases h8 : boff up b sz k ≤ stop
      · rw [if_pos h8, if_pos h8]
        by_cases h9 : boff up b sz k + sz (arrowIdx up b k) ≤ stop
        · rw [if_pos h9, if_pos h9]
          exact ⟨rfl, rfl, solveRowsT_rel hr _ h1 h7⟩
        · rw [if_neg h9, if_neg h9]
          exact ⟨rfl, rfl, solveRowsT_rel hr _ (by omega) h7⟩
      · rw [if_neg h8, if_neg h8]
        exact ⟨rfl, rfl, h7⟩

theorem arrowLTSolve_rel (hr : LinRel r) (up : Bool) {b : Nat} (hb : 0 < b) (sz : Nat → Nat) (D S : Blocks K)
    {M M' : Nat → K} (h : RelOn r (off sz b) M M') :
    RelOn r (off sz b) (arrowLTSolve up b sz D S M 0 none) (arrowLTSolve up b sz D S M' 0 none) := by
  have h0 : sz 0 ≤ off sz b := by
    have := off_mono (sz := sz) (show 1 ≤ b from hb)
    simp only [off] at this; omega
  have key : ∀ (u : Bool), RelOn r (off sz b) (arrowLTSolve_ u b sz D S (off sz b) 0 (off sz b) M)
      (arrowLTSolve_ u b sz D S (off sz b) 0 (off sz b) M') := by
    intro u
    have h3 := boff_hub u hb sz
    unfold arrowLTSolve_
    simp only []
    split_ifs
    · exact (arrowLTK_rel hr u hb sz D S 0 _ _ (solveRowsT_rel hr _ (by omega) h) (b - 1) le_rfl).2.2
    · exact (arrowLTK_rel hr u hb sz D S 0 _ _ h (b - 1) le_rfl).2.2
  unfold arrowLTSolve
  cases up with
  | false => exact key false
  | true => exact rotDown_rel h0 (key true)

/-! ## Sequences of reflectors and rotations -/

/-- Two lists of reflectors acting on the rows `j, …, n - 1` in the same way. -/
def houseEq (n : Nat) : Nat → List ((Nat → K) × K) → List ((Nat → K) × K) → Prop
  | _, [], [] => True
  | j, h :: t, h' :: t' => j < n ∧ (∀ k < n - j - 1, h.1 k = h'.1 k) ∧ h.2 = h'.2 ∧ houseEq n (j + 1) t t'
  | _, _, _ => False

/-- Two sequences acting on their `n` rows in the same way. -/
def Elem.Eqv : Elem K → Elem K → Prop
  | .house n hs, .house n' hs' => n = n' ∧ houseEq n 0 hs hs'
  | .givens n gs, .givens n' gs' => n = n' ∧ gs = gs' ∧ (gs = [] ∨ gs.length < n)
  | _, _ => False

/-- Two sequences of size `N` acting on `N` rows in the same way. -/
def OSeq.Eqv (N : Nat) : OSeq K → OSeq K → Prop
  | [], [] => True
  | h :: t, h' :: t' => h.1 = h'.1 ∧ h.1 + h.2.n ≤ N ∧ h.2.Eqv h'.2 ∧ OSeq.Eqv N t t'
  | _, _ => False

theorem Elem.Eqv.n_eq {e e' : Elem K} (h : e.Eqv e') : e.n = e'.n := by
  cases e <;> cases e' <;> first | exact h.1 | exact h.elim

theorem applyHouse_rel (hr : LinRel r) {n : Nat} (hn : 0 < n) {ess ess' : Nat → K} (tau : K) (he : ∀ k < n - 1, ess k = ess' k)
    {v w : Nat → K} (h : RelOn r n v w) : RelOn r n (applyHouse n ess tau v) (applyHouse n ess' tau w) := by
  intro i hi
  unfold applyHouse
  by_cases h1 : n = 1
  · rw [if_pos h1, if_pos h1]
    obtain rfl : i = 0 := by omega
    exact hr.muls _ (h 0 hn)
  · rw [if_neg h1, if_neg h1]
    by_cases h2 : eqb tau 0 = true
    · rw [if_pos h2, if_pos h2]; exact h i hi
    · rw [if_neg h2, if_neg h2]
      have ht : r (esum (Site.house n) (fun k => ess k * v (k + 1)) (n - 1) + v 0) (esum (Site.house n) (fun k => ess' k * w (k + 1)) (n - 1) + w 0) := by
        refine hr.add (esum_rel hr fun k hk => ?_) (h 0 hn)
        rw [he k hk]; exact hr.smul _ (h _ (by omega))
      split_ifs with h3
      · exact hr.sub (h 0 hn) (hr.smul _ ht)
      · rw [he (i - 1) (by omega)]
        exact hr.sub (h i hi) (hr.smul _ ht)

theorem segApply_rel {N o n : Nat} (hN : o + n ≤ N) {f g : (Nat → K) → Nat → K}
    (hfg : ∀ v w, RelOn r n v w → RelOn r n (f v) (g w))
    (hout : ∀ v, ∀ i, n ≤ i → f v i = v i) (hout' : ∀ v, ∀ i, n ≤ i → g v i = v i)
    {v w : Nat → K} (h : RelOn r N v w) : RelOn r N (segApply o f v) (segApply o g w) := by
  intro k hk
  unfold segApply
  split_ifs with h1
  · by_cases h2 : k - o < n
    · exact hfg _ _ (h.shift hN) _ h2
    · rw [hout _ _ (by omega), hout' _ _ (by omega)]
      have : o + (k - o) = k := by omega
      rw [this]; exact h k hk
  · exact h k hk

theorem applyHouse_out {n : Nat} (hn : 0 < n) (ess : Nat → K) (tau : K) (v : Nat → K) (i : Nat) (hi : n ≤ i) :
    applyHouse n ess tau v i = v i := by
  unfold applyHouse
  split_ifs with h1 h2
  · simp only []; rw [if_neg (by omega)]
  · rfl
  · simp only []; rw [if_neg (by omega), if_neg (by omega)]

theorem houseSeq_rel (hr : LinRel r) {n : Nat} (hs : List ((Nat → K) × K)) : ∀ {j : Nat} {hs' : List ((Nat → K) × K)} {v w : Nat → K},
    houseEq n j hs hs' → RelOn r n v w → RelOn r n (houseSeq n j hs v) (houseSeq n j hs' w) := by
  induction hs with
  | nil =>
    intro j hs' v w he h
    cases hs' with
    | nil => exact h
    | cons => exact he.elim
  | cons a t ih =>
    intro j hs' v w he h
    cases hs' with
    | nil => exact he.elim
    | cons a' t' =>
      obtain ⟨h1, h2, h3, h4⟩ := he
      simp only [houseSeq]
      refine segApply_rel (n := n - j) (by omega) (fun v w hvw => ?_) (fun v i hi => applyHouse_out (by omega) _ _ _ _ hi)
        (fun v i hi => applyHouse_out (by omega) _ _ _ _ hi) (ih h4 h)
      rw [h3]
      exact applyHouse_rel hr (by omega) _ (fun k hk => h2 k hk) hvw

theorem houseSeqT_rel (hr : LinRel r) {n : Nat} (hs : List ((Nat → K) × K)) : ∀ {j : Nat} {hs' : List ((Nat → K) × K)} {v w : Nat → K},
    houseEq n j hs hs' → RelOn r n v w → RelOn r n (houseSeqT n j hs v) (houseSeqT n j hs' w) := by
  induction hs with
  | nil =>
    intro j hs' v w he h
    cases hs' with
    | nil => exact h
    | cons => exact he.elim
  | cons a t ih =>
    intro j hs' v w he h
    cases hs' with
    | nil => exact he.elim
    | cons a' t' =>
      obtain ⟨h1, h2, h3, h4⟩ := he
      simp only [houseSeqT]
      refine ih h4 (segApply_rel (n := n - j) (by omega) (fun v w hvw => ?_) (fun v i hi => applyHouse_out (by omega) _ _ _ _ hi)
        (fun v i hi => applyHouse_out (by omega) _ _ _ _ hi) h)
      rw [h3]
      exact applyHouse_rel hr (by omega) _ (fun k hk => h2 k hk) hvw

theorem houseOne_rel (hr : LinRel r) {n : Nat} {ess ess' : Nat → K} (tau : K) (he : ∀ k < n - 1, ess k = ess' k)
    {v w : Nat → K} (h : RelOn r n v w) : RelOn r n (houseOne n ess tau 0 n v) (houseOne n ess' tau 0 n w) := by
  intro i hi
  unfold houseOne
  simp only []
  rw [if_pos hi, if_pos hi]
  have hc : ∀ i < n, (if i = 0 then (1 : K) else ess (i - 1)) = if i = 0 then 1 else ess' (i - 1) := by
    intro i hi
    split_ifs
    · rfl
    · exact he _ (by omega)
  rw [hc i hi]
  refine hr.sub (h i hi) (hr.muls _ (hr.smul _ (esum_rel hr fun k hk => ?_)))
  have : 0 + k = k := by omega
  rw [this, hc k hk]
  exact hr.smul _ (h k hk)

theorem givRot_rel (hr : LinRel r) {N i : Nat} (hi : i + 1 < N) (c s : K) {v w : Nat → K} (h : RelOn r N v w) :
    RelOn r N (givRot i c s v) (givRot i c s w) := by
  intro k hk
  unfold givRot
  split_ifs
  · exact h k hk
  · beta_reduce
    split_ifs
    · exact hr.add (hr.smul _ (h _ (by omega))) (hr.smul _ (h _ hi))
    · exact hr.add (hr.smul _ (h _ (by omega))) (hr.smul _ (h _ hi))
    · exact h k hk

theorem givSeq_rel (hr : LinRel r) {N : Nat} (gs : Nat → K × K) (k : Nat) : ∀ {v w : Nat → K}, (k = 0 ∨ k < N) → RelOn r N v w →
    RelOn r N (givSeq gs k v) (givSeq gs k w) := by
  induction k with
  | zero => intro v w _ h; exact h
  | succ k ih =>
    intro v w hk h
    exact ih (by omega) (givRot_rel hr (by omega) _ _ h)

theorem givSeqT_rel (hr : LinRel r) {N : Nat} (gs : Nat → K × K) {v w : Nat → K} (h : RelOn r N v w) (k : Nat) (hk : k = 0 ∨ k < N) :
    RelOn r N (givSeqT gs 0 v k) (givSeqT gs 0 w k) := by
  induction k with
  | zero => exact h
  | succ k ih => exact givRot_rel hr (by omega) _ _ (ih (by omega))

theorem givRot_out {N i : Nat} (hi : i + 1 < N) (c s : K) (v : Nat → K) (k : Nat) (hk : N ≤ k) : givRot i c s v k = v k := by
  unfold givRot
  split_ifs
  · rfl
  · beta_reduce
    rw [if_neg (by omega), if_neg (by omega)]

theorem givSeq_out {N : Nat} (gs : Nat → K × K) (m : Nat) : ∀ (v : Nat → K) (k : Nat), (m = 0 ∨ m < N) → N ≤ k → givSeq gs m v k = v k := by
  induction m with
  | zero => intro v k _ _; rfl
  | succ m ih =>
    intro v k hm hk
    simp only [givSeq]
    rw [ih _ _ (by omega) hk, givRot_out (by omega) _ _ _ _ hk]

theorem givSeqT_out {N : Nat} (gs : Nat → K × K) (v : Nat → K) (k : Nat) (hk : N ≤ k) (m : Nat) (hm : m = 0 ∨ m < N) :
    givSeqT gs 0 v m k = v k := by
  induction m with
  | zero => rfl
  | succ m ih => simp only [givSeqT]; rw [givRot_out (N := N) (by omega) _ _ _ _ hk, ih (by omega)]

theorem houseSeq_out {n : Nat} (hs : List ((Nat → K) × K)) : ∀ {j : Nat} {hs' : List ((Nat → K) × K)} {v : Nat → K} {i : Nat},
    houseEq n j hs hs' → n ≤ i → houseSeq n j hs v i = v i ∧ houseSeq n j hs' v i = v i ∧ houseSeqT n j hs v i = v i ∧
      houseSeqT n j hs' v i = v i := by
  induction hs with
  | nil =>
    intro j hs' v i he hi
    cases hs' with
    | nil => exact ⟨rfl, rfl, rfl, rfl⟩
    | cons => exact he.elim
  | cons a t ih =>
    intro j hs' v i he hi
    cases hs' with
    | nil => exact he.elim
    | cons a' t' =>
      obtain ⟨h1, h2, h3, h4⟩ := he
      have e : ∀ (ess : Nat → K) (tau : K) (u : Nat → K), segApply j (applyHouse (n - j) ess tau) u i = u i := by
        intro ess tau u
        unfold segApply
        rw [if_pos (by omega), applyHouse_out (by omega) _ _ _ _ (by omega)]
        have : j + (i - j) = i := by omega
        rw [this]
      simp only [houseSeq, houseSeqT]
      obtain ⟨k1, k2, _, _⟩ := ih (v := v) h4 hi
      refine ⟨by rw [e, k1], by rw [e, k2], ?_, ?_⟩
      · rw [(ih (v := segApply j (applyHouse (n - j) a.1 a.2) v) h4 hi).2.2.1, e]
      · rw [(ih (v := segApply j (applyHouse (n - j) a'.1 a'.2) v) h4 hi).2.2.2, e]

theorem houseOne_out (n : Nat) (ess : Nat → K) (tau : K) (v : Nat → K) (i : Nat) (hi : n ≤ i) : houseOne n ess tau 0 n v i = v i := by
  unfold houseOne
  simp only []
  rw [if_neg (by omega)]

theorem Elem.apply_out {e e' : Elem K} (h : e.Eqv e') (v : Nat → K) (i : Nat) (hi : e.n ≤ i) :
    e.apply 0 e.n v i = v i ∧ e'.apply 0 e.n v i = v i ∧ e.applyT 0 e.n v i = v i ∧ e'.applyT 0 e.n v i = v i := by
  cases e with
  | house n hs =>
    cases e' with
    | givens => exact h.elim
    | house n' hs' =>
      obtain ⟨rfl, h⟩ := h
      have hi' : n ≤ i := hi
      match hs, hs', h with
      | [], [], _ => exact ⟨rfl, rfl, rfl, rfl⟩
      | [a], [a'], _ =>
        exact ⟨houseOne_out _ _ _ _ _ hi', houseOne_out _ _ _ _ _ hi', houseOne_out _ _ _ _ _ hi', houseOne_out _ _ _ _ _ hi'⟩
      | a :: b :: t, a' :: b' :: t', h => exact houseSeq_out (a :: b :: t) h hi'
      | [_], _ :: _ :: _, h => exact h.2.2.2.elim
      | _ :: _ :: _, [_], h => exact h.2.2.2.elim
  | givens n gs =>
    cases e' with
    | house => exact h.elim
    | givens n' gs' =>
      obtain ⟨rfl, rfl, h⟩ := h
      have hi' : n ≤ i := hi
      have hl : gs.length = 0 ∨ gs.length < n := h.imp (fun e => by rw [e]; rfl) id
      have hm : min gs.length (0 + n) = 0 ∨ min gs.length (0 + n) < n := by omega
      exact ⟨givSeq_out _ _ _ _ hm hi', givSeq_out _ _ _ _ hm hi', givSeqT_out _ _ _ hi' _ hl, givSeqT_out _ _ _ hi' _ hl⟩

theorem Elem.apply_rel (hr : LinRel r) {e e' : Elem K} (h : e.Eqv e') {v w : Nat → K} (hv : RelOn r e.n v w) :
    RelOn r e.n (e.apply 0 e.n v) (e'.apply 0 e.n w) ∧ RelOn r e.n (e.applyT 0 e.n v) (e'.applyT 0 e.n w) := by
  cases e with
  | house n hs =>
    cases e' with
    | givens => exact h.elim
    | house n' hs' =>
      obtain ⟨rfl, h⟩ := h
      replace hv : RelOn r n v w := hv
      match hs, hs', h with
      | [], [], _ => exact ⟨hv, hv⟩
      | [a], [a'], h =>
        have h3 := h.2.2.1
        have k := houseOne_rel hr a.2 (ess := a.1) (ess' := a'.1) (fun k hk => h.2.1 k hk) hv
        exact ⟨by simp only [Elem.apply, Elem.n]; rw [← h3]; exact k, by simp only [Elem.applyT, Elem.n]; rw [← h3]; exact k⟩
      | a :: b :: t, a' :: b' :: t', h => exact ⟨houseSeq_rel hr (a :: b :: t) h hv, houseSeqT_rel hr (a :: b :: t) h hv⟩
      | [_], _ :: _ :: _, h => exact h.2.2.2.elim
      | _ :: _ :: _, [_], h => exact h.2.2.2.elim
  | givens n gs =>
    cases e' with
    | house => exact h.elim
    | givens n' gs' =>
      obtain ⟨rfl, rfl, h⟩ := h
      have hl : gs.length = 0 ∨ gs.length < n := h.imp (fun e => by rw [e]; rfl) id
      have hm : min gs.length (0 + n) = 0 ∨ min gs.length (0 + n) < n := by omega
      exact ⟨givSeq_rel hr _ _ hm hv, givSeqT_rel hr _ hv _ hl⟩

theorem OSeq.apply_rel (hr : LinRel r) {N : Nat} (Q : OSeq K) : ∀ {Q' : OSeq K} {v w : Nat → K}, OSeq.Eqv N Q Q' → RelOn r N v w →
    RelOn r N (Q.apply v) (OSeq.apply Q' w) ∧ RelOn r N (Q.applyT v) (OSeq.applyT Q' w) := by
  induction Q with
  | nil =>
    intro Q' v w h hv
    cases Q' with
    | nil => exact ⟨hv, hv⟩
    | cons => exact h.elim
  | cons a t ih =>
    intro Q' v w h hv
    cases Q' with
    | nil => exact h.elim
    | cons a' t' =>
      obtain ⟨h1, h2, h3, h4⟩ := h
      have hn := h3.n_eq
      simp only [OSeq.apply, OSeq.applyT]
      constructor
      · rw [← h1, ← hn]
        exact segApply_rel (n := a.2.n) h2 (fun v w hvw => (Elem.apply_rel hr h3 hvw).1) (fun v i hi => (Elem.apply_out h3 v i hi).1)
          (fun v i hi => (Elem.apply_out h3 v i hi).2.1) (ih h4 hv).1
      · rw [← h1, ← hn]
        exact (ih h4 (segApply_rel (n := a.2.n) h2 (fun v w hvw => (Elem.apply_rel hr h3 hvw).2) (fun v i hi => (Elem.apply_out h3 v i hi).2.2.1)
          (fun v i hi => (Elem.apply_out h3 v i hi).2.2.2) hv)).2

end JrlQp
