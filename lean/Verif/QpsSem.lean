import Verif.QpsRead
import Verif.RealLin

/-!
# What the reader builds

The problem built from what has been collected has the meaning of the description.
-/

namespace JrlQp.Qps

open Finset Classical

/-! ### Loops that write -/

theorem foldl_key {σ β J α : Type} [DecidableEq J] (P : σ → J → α) (f : σ → β → σ) (key : β → Option J) (g : β → α → α)
    (h : ∀ b e j, P (f b e) j = if key e = some j then g e (P b j) else P b j) :
    ∀ l : List β, (l.filterMap key).Nodup → ∀ b j,
      (∀ e ∈ l, key e = some j → P (l.foldl f b) j = g e (P b j)) ∧ ((∀ e ∈ l, key e ≠ some j) → P (l.foldl f b) j = P b j) := by
  intro l
  induction l with
  | nil => intro _ b j; exact ⟨(fun e he => by cases he), fun _ => rfl⟩
  | cons a l ih =>
    intro hn b j
    have hn' : (l.filterMap key).Nodup := by
      rw [List.filterMap_cons] at hn
      split at hn
      · exact hn
      · exact (List.nodup_cons.1 hn).2
    obtain ⟨h1, h2⟩ := ih hn' (f b a) j
    constructor
    · intro e he hk
      rw [List.foldl_cons]
      rcases List.mem_cons.1 he with rfl | he
      · rw [h2, h, if_pos hk]
        intro e' he' hk'
        rw [List.filterMap_cons, hk] at hn
        exact (List.nodup_cons.1 hn).1 (List.mem_filterMap.2 ⟨e', he', hk'⟩)
      · rw [h1 e he hk, h, if_neg]
        intro hk'
        rw [List.filterMap_cons, hk'] at hn
        exact (List.nodup_cons.1 hn).1 (List.mem_filterMap.2 ⟨e, he, hk⟩)
    · intro hne
      rw [List.foldl_cons, h2 (fun e he => hne e (List.mem_cons_of_mem _ he)), h, if_neg (hne a (List.mem_cons_self ..))]

/-- The sum of the values with a given key. -/
noncomputable def pick {β J : Type} [DecidableEq J] (key : β → J) (v : β → ℝ) (l : List β) (j : J) : ℝ := (l.map (fun e => if key e = j then v e else 0)).sum

theorem pick_not_mem {β J : Type} [DecidableEq J] {key : β → J} {v : β → ℝ} : ∀ {l : List β} {j : J}, j ∉ l.map key → pick key v l j = 0 := by
  intro l
  induction l with
  | nil => intros; rfl
  | cons a l ih =>
    intro j hj
    rw [List.map_cons, List.mem_cons, not_or] at hj
    have := ih hj.2
    unfold pick at this ⊢
    rw [List.map_cons, List.sum_cons, this, if_neg (Ne.symm hj.1), add_zero]

theorem fold_fill {σ β J : Type} [DecidableEq J] (P : σ → J → ℝ) (f : σ → β → σ) (key : β → J) (v : β → ℝ)
    (h : ∀ s e j, P (f s e) j = if key e = j then v e else P s j) :
    ∀ l : List β, (l.map key).Nodup → ∀ s j, P (l.foldl f s) j = if j ∈ l.map key then pick key v l j else P s j := by
  intro l
  induction l with
  | nil => intros; rfl
  | cons a l ih =>
    intro hn s j
    rw [List.map_cons, List.nodup_cons] at hn
    rw [List.foldl_cons, ih hn.2, h]
    have hp : pick key v (a :: l) j = (if key a = j then v a else 0) + pick key v l j := by
      unfold pick; rw [List.map_cons, List.sum_cons]
    rw [List.map_cons]
    by_cases h1 : j ∈ l.map key
    · rw [if_pos h1, if_pos (List.mem_cons_of_mem _ h1), hp, if_neg (fun hc : key a = j => hn.1 (hc ▸ h1)), zero_add]
    · rw [if_neg h1]
      by_cases h2 : key a = j
      · rw [if_pos h2, if_pos (h2 ▸ List.mem_cons_self ..), hp, if_pos h2, pick_not_mem h1, add_zero]
      · rw [if_neg h2, if_neg]
        rw [List.mem_cons, not_or]
        exact ⟨Ne.symm h2, h1⟩

theorem fillM_pick {l : List (Nat × Nat × ℝ)} (hn : (l.map (fun e => (e.1, e.2.1))).Nodup) (i j : Nat) :
    fillM l i j = pick (fun e => (e.1, e.2.1)) (fun e => e.2.2) l (i, j) := by
  have := fold_fill (fun (M : Nat → Nat → ℝ) (p : Nat × Nat) => M p.1 p.2) (fun M (e : Nat × Nat × ℝ) => upd2 M e.1 e.2.1 e.2.2)
    (fun e => (e.1, e.2.1)) (fun e => e.2.2) (by
      rintro s e ⟨a, b⟩
      simp only [upd2, Prod.mk.injEq]
      by_cases h : a = e.1 ∧ b = e.2.1
      · rw [if_pos h, if_pos ⟨h.1.symm, h.2.symm⟩]
      · rw [if_neg h, if_neg (fun h' => h ⟨h'.1.symm, h'.2.symm⟩)]) l hn (fun _ _ => 0) (i, j)
  refine this.trans ?_
  by_cases h : (i, j) ∈ l.map (fun e => (e.1, e.2.1))
  · rw [if_pos h]
  · rw [if_neg h, pick_not_mem h]

theorem fillV_pick {l : List (Nat × ℝ)} (hn : (l.map (·.1)).Nodup) (i : Nat) :
    fillV l i = pick (·.1) (·.2) l i := by
  have := fold_fill (fun (v : Nat → ℝ) p => v p) (fun v (e : Nat × ℝ) => upd v e.1 e.2)
    (·.1) (·.2) (by
      rintro s e a
      simp only [upd]
      by_cases h : a = e.1
      · rw [if_pos h, if_pos h.symm]
      · rw [if_neg h, if_neg (fun h' => h h'.symm)]) l hn (fun _ => 0) i
  refine this.trans ?_
  by_cases h : i ∈ l.map (·.1)
  · rw [if_pos h]
  · rw [if_neg h, pick_not_mem h]

/-! ### Sums over lists -/

theorem sum_list_swap {β : Type} (F : β → Nat → ℝ) (n : Nat) : ∀ l : List β,
    ∑ j ∈ range n, (l.map (fun e => F e j)).sum = (l.map (fun e => ∑ j ∈ range n, F e j)).sum := by
  intro l
  induction l with
  | nil => simp
  | cons a l ih => simp only [List.map_cons, List.sum_cons, Finset.sum_add_distrib, ih]

theorem list_sum_mul {β : Type} (F : β → ℝ) (c : ℝ) : ∀ l : List β, (l.map F).sum * c = (l.map (fun e => F e * c)).sum := by
  intro l
  induction l with
  | nil => simp
  | cons a l ih => simp only [List.map_cons, List.sum_cons, add_mul, ih]

theorem sum_filterMap {β γ : Type} (f : β → Option γ) (g : γ → ℝ) : ∀ l : List β,
    ((l.filterMap f).map g).sum = (l.map (fun e => (f e).elim 0 g)).sum := by
  intro l
  induction l with
  | nil => rfl
  | cons a l ih =>
    rw [List.filterMap_cons, List.map_cons, List.sum_cons]
    cases h : f a with
    | none => simp [ih]
    | some b => simp [ih]

theorem nodup_filterMap_key {β γ J J0 : Type} {l : List β} {f : β → Option γ} {key : γ → J} {k0 : β → J0} (h : (l.map k0).Nodup)
    (hinj : ∀ a ∈ l, ∀ a' ∈ l, ∀ b b', f a = some b → f a' = some b' → key b = key b' → k0 a = k0 a') : ((l.filterMap f).map key).Nodup := by
  unfold List.Nodup at h ⊢
  rw [List.pairwise_map] at h ⊢
  rw [List.pairwise_filterMap]
  refine h.imp_of_mem ?_
  intro a a' ha ha' hne b hb b' hb' hk
  exact hne (hinj a ha a' ha' b b' hb hb' hk)

theorem nodup_map_key {β γ J J0 : Type} {l : List β} {f : β → γ} {key : γ → J} {k0 : β → J0} (h : (l.map k0).Nodup)
    (hinj : ∀ a ∈ l, ∀ a' ∈ l, key (f a) = key (f a') → k0 a = k0 a') : ((l.map f).map key).Nodup := by
  unfold List.Nodup at h ⊢
  rw [List.pairwise_map] at h
  rw [List.map_map, List.pairwise_map]
  refine h.imp_of_mem ?_
  intro a a' ha ha' hne hk
  exact hne (hinj a ha a' ha' hk)

/-! ### Rows and columns -/

theorem firstsFrom_mem : ∀ {ks cs : List Word} {k}, k ∈ firstsFrom cs ks ↔ k ∈ cs ∨ k ∈ ks := by
  intro ks
  induction ks with
  | nil => intro cs k; simp [firstsFrom]
  | cons a ks ih =>
    intro cs k
    rw [firstsFrom, ih, List.mem_cons]
    by_cases h : a ∈ cs
    · rw [if_pos h]
      constructor
      · rintro (h' | h') <;> simp [h']
      · rintro (h' | rfl | h')
        · exact .inl h'
        · exact .inl h
        · exact .inr h'
    · rw [if_neg h, List.mem_append, List.mem_singleton]
      tauto

theorem firstsFrom_nodup : ∀ {ks cs : List Word}, cs.Nodup → (firstsFrom cs ks).Nodup := by
  intro ks
  induction ks with
  | nil => intro cs h; exact h
  | cons a ks ih =>
    intro cs h
    rw [firstsFrom]
    by_cases h' : a ∈ cs
    · rw [if_pos h']; exact ih h
    · rw [if_neg h']
      refine ih ?_
      rw [List.nodup_append]
      refine ⟨h, by simp, ?_⟩
      intro x hx y hy
      rw [List.mem_singleton] at hy
      subst hy
      rintro rfl
      exact h' hx

theorem vars_nodup (d : Desc) : d.vars.Nodup := firstsFrom_nodup List.nodup_nil

theorem mem_vars {d : Desc} {e} (h : e ∈ d.coef) : e.1 ∈ d.vars := firstsFrom_mem.2 (.inr (List.mem_map.2 ⟨e, h, rfl⟩))

theorem idx_inj {d : Desc} {a b : Word} (ha : a ∈ d.vars) (h : d.vars.idxOf a = d.vars.idxOf b) : a = b := (List.idxOf_inj ha).1 h

/-- The index of a constraint. -/
def rowKey (e : Word × Nat × RowT) : Option Nat := if e.2.2 = .N then none else some e.2.1

theorem numFrom_keys : ∀ (es : List (Word × RowT)) (k : Nat), (numFrom k es).filterMap rowKey = List.range' k (nbC es) := by
  intro es
  induction es with
  | nil => intro k; rfl
  | cons e es ih =>
    intro k
    obtain ⟨n, t⟩ := e
    rw [numFrom]
    by_cases ht : t = .N
    · rw [if_pos ht, List.filterMap_cons]
      simp only [rowKey, if_pos ht]
      rw [ih]
      unfold nbC
      rw [List.filter_cons_of_neg (by simpa using ht)]
    · rw [if_neg ht, List.filterMap_cons]
      simp only [rowKey, if_neg ht]
      rw [ih]
      unfold nbC
      rw [List.filter_cons_of_pos (by simpa using ht), List.length_cons, List.range'_succ]

theorem idx_lt {d : Desc} {n i t} (h : (n, i, t) ∈ numFrom 0 d.rows) (ht : t ≠ .N) : i < nbC d.rows := by
  have : i ∈ (numFrom 0 d.rows).filterMap rowKey := List.mem_filterMap.2 ⟨_, h, by simp [rowKey, ht]⟩
  rw [numFrom_keys, List.mem_range'] at this
  omega

theorem exists_idx {d : Desc} {i} (h : i < nbC d.rows) : ∃ n t, (n, i, t) ∈ numFrom 0 d.rows ∧ t ≠ .N := by
  have : i ∈ (numFrom 0 d.rows).filterMap rowKey := by
    rw [numFrom_keys, List.mem_range']
    exact ⟨i, h, by omega⟩
  obtain ⟨⟨n, i', t⟩, hm, hk⟩ := List.mem_filterMap.1 this
  simp only [rowKey] at hk
  split at hk
  · cases hk
  · rename_i ht
    injection hk with hk
    subst hk
    exact ⟨n, t, hm, ht⟩

theorem inj_of_filterMap {β J : Type} {key : β → Option J} : ∀ {l : List β}, (l.filterMap key).Nodup → ∀ a ∈ l, ∀ b ∈ l, ∀ j,
    key a = some j → key b = some j → a = b := by
  intro l
  induction l with
  | nil => intro _ a ha; cases ha
  | cons c l ih =>
    intro hn a ha b hb j hka hkb
    rw [List.filterMap_cons] at hn
    rcases List.mem_cons.1 ha with rfl | ha' <;> rcases List.mem_cons.1 hb with rfl | hb'
    · rfl
    · rw [hka] at hn
      exact absurd (List.mem_filterMap.2 ⟨b, hb', hkb⟩) (List.nodup_cons.1 hn).1
    · rw [hkb] at hn
      exact absurd (List.mem_filterMap.2 ⟨a, ha', hka⟩) (List.nodup_cons.1 hn).1
    · refine ih ?_ a ha' b hb' j hka hkb
      split at hn
      · exact hn
      · exact (List.nodup_cons.1 hn).2

theorem row_inj {d : Desc} {n i t n' t'} (h : (n, i, t) ∈ numFrom 0 d.rows) (ht : t ≠ .N) (h' : (n', i, t') ∈ numFrom 0 d.rows)
    (ht' : t' ≠ .N) : n = n' ∧ t = t' := by
  have hn : ((numFrom 0 d.rows).filterMap rowKey).Nodup := by rw [numFrom_keys]; exact List.nodup_range'
  have := inj_of_filterMap hn _ h _ h' i (by simp [rowKey, ht]) (by simp [rowKey, ht'])
  simp only [Prod.mk.injEq] at this
  exact ⟨this.1, this.2.2⟩

theorem mem_rows {d : Desc} {n i t} (h : (n, i, t) ∈ numFrom 0 d.rows) : (n, t) ∈ d.rows := by
  have := List.mem_map_of_mem (f := fun e : Word × Nat × RowT => (e.1, e.2.2)) h
  rwa [numFrom_names] at this

theorem row_unique {d : Desc} (hd : d.Ok) {n t t'} (h : (n, t) ∈ d.rows) (h' : (n, t') ∈ d.rows) : t = t' := by
  have := List.inj_on_of_nodup_map hd.names h h' rfl
  simpa using this

theorem row_isN {d : Desc} (hd : d.Ok) {n i t} (h : d.row n = some (i, t)) : (n, RowT.N) ∈ d.rows ↔ t = .N := by
  have hm := mem_rows (row_mem h)
  constructor
  · intro h'; exact row_unique hd hm h'
  · rintro rfl; exact hm

/-! ### Bounds on the constraints -/

/-- The two bounds of index `j`. -/
def Box.pr (b : Box) (j : Nat) : EReal × EReal := (b.l j, b.u j)

/-- The bounds given by a right hand side. -/
noncomputable def RowT.bnds (v : ℝ) : RowT → EReal × EReal
  | .E => (v, v)
  | .L => (⊥, v)
  | .G => (v, ⊤)
  | .N => (0, 0)

/-- The bounds changed by a range. -/
noncomputable def RowT.wider (v : ℝ) (p : EReal × EReal) : RowT → EReal × EReal
  | .E => if 0 ≤ v then (p.1, p.2 + (v : EReal)) else (p.1 + (v : EReal), p.2)
  | .L => (p.2 - ((|v| : ℝ) : EReal), p.2)
  | .G => (p.1, p.1 + ((|v| : ℝ) : EReal))
  | .N => p

theorem boxRow_pr (b : Box) (e : Word × Nat × RowT) (j : Nat) :
    (boxRow b e.2.1 e.2.2).pr j = if rowKey e = some j then e.2.2.bnds 0 else b.pr j := by
  obtain ⟨n, i, t⟩ := e
  by_cases h : i = j
  · subst h
    cases t <;> simp [boxRow, Box.pr, rowKey, RowT.bnds, upd]
  · have h' : ¬ j = i := fun hc => h hc.symm
    cases t <;> simp [boxRow, Box.pr, rowKey, upd, h, h']

/-- The index of the constraint of a right hand side or of a range. -/
def valKey (e : Nat × ℝ × RowT) : Option Nat := if e.2.2 = .N then none else some e.1

theorem boxRhs_pr (b : Box) (e : Nat × ℝ × RowT) (j : Nat) :
    (boxRhs b e.1 e.2.1 e.2.2).pr j = if valKey e = some j then e.2.2.bnds e.2.1 else b.pr j := by
  obtain ⟨i, v, t⟩ := e
  by_cases h : i = j
  · subst h
    cases t <;> simp [boxRhs, Box.pr, valKey, RowT.bnds, upd]
  · have h' : ¬ j = i := fun hc => h hc.symm
    cases t <;> simp [boxRhs, Box.pr, valKey, upd, h, h']

theorem boxRange_pr (b : Box) (e : Nat × ℝ × RowT) (j : Nat) :
    (boxRange b e.1 e.2.1 e.2.2).pr j = if valKey e = some j then e.2.2.wider e.2.1 (b.pr j) else b.pr j := by
  obtain ⟨i, v, t⟩ := e
  by_cases h : i = j
  · subst h
    cases t
    · simp only [boxRange, RowT.wider, valKey]
      split <;> simp [Box.pr, upd]
    all_goals simp [boxRange, Box.pr, valKey, RowT.wider, upd]
  · have h' : ¬ j = i := fun hc => h hc.symm
    cases t
    · simp only [boxRange, valKey]
      split <;> simp [Box.pr, upd, h, h']
    all_goals simp [boxRange, Box.pr, valKey, upd, h, h']

theorem entR_some {d : Desc} {e : Word × ℝ} {b} (h : entR d.row e = some b) :
    ∃ i t, (e.1, i, t) ∈ numFrom 0 d.rows ∧ t ≠ .N ∧ b = (i, e.2, t) := by
  unfold entR at h
  cases hr : d.row e.1 with
  | none => rw [hr] at h; cases h
  | some q =>
    rw [hr] at h
    simp only at h
    split at h
    · cases h
    · rename_i hq
      injection h with h
      exact ⟨q.1, q.2, row_mem hr, hq, h.symm⟩

theorem entR_nodup {d : Desc} {es : List (Word × ℝ)} (h : (es.map (·.1)).Nodup) : ((es.filterMap (entR d.row)).filterMap valKey).Nodup := by
  have : (es.filterMap (entR d.row)).filterMap valKey = (es.filterMap (entR d.row)).map (·.1) := by
    rw [← List.filterMap_eq_map]
    apply List.filterMap_congr
    intro b hb
    obtain ⟨e, _, he⟩ := List.mem_filterMap.1 hb
    obtain ⟨i, t, _, ht, rfl⟩ := entR_some he
    simp [valKey, ht]
  rw [this]
  refine nodup_filterMap_key (k0 := (·.1)) h ?_
  intro a _ a' _ b b' hb hb' hk
  obtain ⟨i, t, h1, ht, rfl⟩ := entR_some hb
  obtain ⟨i', t', h1', ht', rfl⟩ := entR_some hb'
  simp only at hk
  subst hk
  exact (row_inj h1 ht h1' ht').1

/-- What a range does to the bounds of a row. -/
noncomputable def Desc.bndsOf (d : Desc) (n : Word) (t : RowT) : EReal × EReal :=
  match d.rng.find? (fun e => e.1 = n) with
  | none => t.bnds (d.rhsOf n)
  | some e => t.wider e.2 (t.bnds (d.rhsOf n))

theorem val_loop {d : Desc} (hd : d.Ok) {es : List (Word × ℝ)} (hk : (es.map (·.1)).Nodup) {f : Box → Nat → ℝ → RowT → Box}
    {g : RowT → ℝ → EReal × EReal → EReal × EReal}
    (hf : ∀ (b : Box) (e : Nat × ℝ × RowT) j, (f b e.1 e.2.1 e.2.2).pr j = if valKey e = some j then g e.2.2 e.2.1 (b.pr j) else b.pr j)
    {n i t} (h : (n, i, t) ∈ numFrom 0 d.rows) (ht : t ≠ .N) (b : Box) :
    (((es.filterMap (entR d.row)).foldl (fun b e => f b e.1 e.2.1 e.2.2) b).pr i) =
      match es.find? (fun e => e.1 = n) with
      | none => b.pr i
      | some e => g t e.2 (b.pr i) := by
  have key := foldl_key Box.pr (fun b (e : Nat × ℝ × RowT) => f b e.1 e.2.1 e.2.2) valKey (fun e p => g e.2.2 e.2.1 p) hf
    (es.filterMap (entR d.row)) (entR_nodup hk) b i
  cases hfi : es.find? (fun e => e.1 = n) with
  | none =>
    simp only
    refine key.2 ?_
    intro e he hke
    obtain ⟨a, ha, hb⟩ := List.mem_filterMap.1 he
    obtain ⟨i', t', h1, ht', rfl⟩ := entR_some hb
    simp only [valKey, if_neg ht', Option.some.injEq] at hke
    subst hke
    have := (row_inj h ht h1 ht').1
    rw [List.find?_eq_none] at hfi
    exact hfi a ha (by simp [this])
  | some a =>
    simp only
    have hm := List.mem_of_find?_eq_some hfi
    have hn : a.1 = n := by simpa using List.find?_some hfi
    have he : entR d.row a = some (i, a.2, t) := by
      unfold entR
      rw [hn, row_of_mem hd h]
      simp only [if_neg ht]
    exact key.1 _ (List.mem_filterMap.2 ⟨a, hm, he⟩) (by simp [valKey, ht])

theorem cBox_pr {d : Desc} (hd : d.Ok) {r : Rd} (hr : Collected d r) {n i t} (h : (n, i, t) ∈ numFrom 0 d.rows) (ht : t ≠ .N) :
    r.cBox.pr i = d.bndsOf n t := by
  unfold Rd.cBox
  simp only
  rw [hr.rows, hr.bVal, hr.rVal]
  rw [val_loop hd hd.rngKeys (g := fun t v p => t.wider v p) boxRange_pr h ht]
  rw [val_loop hd hd.rhsKeys (g := fun t v _ => t.bnds v) boxRhs_pr h ht]
  have hk : ((numFrom 0 d.rows).filterMap rowKey).Nodup := by rw [numFrom_keys]; exact List.nodup_range'
  have h0 := (foldl_key Box.pr (fun b (e : Word × Nat × RowT) => boxRow b e.2.1 e.2.2) rowKey (fun e _ => e.2.2.bnds 0) boxRow_pr
    (numFrom 0 d.rows) hk ⟨fun _ => 0, fun _ => 0⟩ i).1 _ h (by simp [rowKey, ht])
  rw [h0]
  have : (match d.rhs.find? (fun e => e.1 = n) with
      | none => t.bnds 0
      | some e => t.bnds e.2) = t.bnds (d.rhsOf n) := by
    unfold Desc.rhsOf
    cases d.rhs.find? (fun e => e.1 = n) <;> rfl
  rw [this]
  rfl

theorem bnds_iff {d : Desc} {x : Word → ℝ} {n t} (ht : t ≠ .N) :
    ((d.bndsOf n t).1 ≤ ((d.act x n : ℝ) : EReal) ∧ ((d.act x n : ℝ) : EReal) ≤ (d.bndsOf n t).2) ↔ d.rowHolds x n t := by
  unfold Desc.bndsOf Desc.rowHolds
  generalize d.act x n = a
  generalize d.rhsOf n = b
  cases d.rng.find? (fun e => e.1 = n) with
  | none =>
    cases t
    · simp only [RowT.bnds, RowT.plain, EReal.coe_le_coe_iff]
      constructor
      · rintro ⟨h1, h2⟩; exact le_antisymm h2 h1
      · rintro rfl; exact ⟨le_rfl, le_rfl⟩
    · simp [RowT.bnds, RowT.plain]
    · simp [RowT.bnds, RowT.plain]
    · exact absurd rfl ht
  | some e =>
    cases t
    · simp only [RowT.bnds, RowT.wider, RowT.ranged]
      split
      · rw [← EReal.coe_add, EReal.coe_le_coe_iff, EReal.coe_le_coe_iff]
      · rw [← EReal.coe_add, EReal.coe_le_coe_iff, EReal.coe_le_coe_iff]
    · simp only [RowT.bnds, RowT.wider, RowT.ranged]
      rw [← EReal.coe_sub, EReal.coe_le_coe_iff, EReal.coe_le_coe_iff]
    · simp only [RowT.bnds, RowT.wider, RowT.ranged]
      rw [← EReal.coe_add, EReal.coe_le_coe_iff, EReal.coe_le_coe_iff]
    · exact absurd rfl ht

/-! ### Bounds on the variables -/

/-- A bound as an extended real. -/
noncomputable def lowOf : Option ℝ → EReal
  | none => ⊥
  | some v => (v : EReal)

noncomputable def upOf : Option ℝ → EReal
  | none => ⊤
  | some v => (v : EReal)

theorem xBox_fold {d : Desc} {c : Word} (hc : c ∈ d.vars) : ∀ (l : List (BndT × Word × ℝ)), (∀ e ∈ l, e.2.1 ∈ d.vars) →
    ∀ (b : Box) (lo up : Option ℝ), b.l (d.vars.idxOf c) = lowOf lo → b.u (d.vars.idxOf c) = upOf up →
    ((l.map (fun e => (d.vars.idxOf e.2.1, e.2.2, e.1))).foldl (fun b e => boxBnd b e.1 e.2.1 e.2.2) b).l (d.vars.idxOf c) =
        lowOf (((l.filter (fun e => e.2.1 = c)).filterMap lowerSide).getLastD lo) ∧
    ((l.map (fun e => (d.vars.idxOf e.2.1, e.2.2, e.1))).foldl (fun b e => boxBnd b e.1 e.2.1 e.2.2) b).u (d.vars.idxOf c) =
        upOf (((l.filter (fun e => e.2.1 = c)).filterMap upperSide).getLastD up) := by
  intro l
  induction l with
  | nil => intro _ b lo up h1 h2; exact ⟨h1, h2⟩
  | cons e l ih =>
    intro hm b lo up h1 h2
    have hm' : ∀ e ∈ l, e.2.1 ∈ d.vars := fun e he => hm e (List.mem_cons_of_mem _ he)
    obtain ⟨t, c', v⟩ := e
    rw [List.map_cons, List.foldl_cons]
    by_cases h : c' = c
    · subst h
      rw [List.filter_cons_of_pos (by simp)]
      cases t <;> simp only [List.filterMap_cons, lowerSide, upperSide, boxBnd, List.getLastD_cons]
      all_goals refine ih hm' _ _ _ ?_ ?_ <;> simp [upd, h1, h2, lowOf, upOf]
    · rw [List.filter_cons_of_neg (by simpa using h)]
      have hi : d.vars.idxOf c ≠ d.vars.idxOf c' := fun hc' => h (idx_inj hc hc').symm
      refine ih hm' _ _ _ ?_ ?_
      · cases t <;> simp [boxBnd, upd, hi, h1]
      · cases t <;> simp [boxBnd, upd, hi, h2]

theorem xBox_of {d : Desc} (hd : d.Ok) {r : Rd} (hr : Collected d r) {c : Word} (hc : c ∈ d.vars) :
    r.xBox.l (d.vars.idxOf c) = lowOf (d.lower c) ∧ r.xBox.u (d.vars.idxOf c) = upOf (d.upper c) := by
  unfold Rd.xBox
  rw [hr.xVal]
  exact xBox_fold hc d.bnd hd.bndVar _ (some 0) none (by simp [lowOf]) rfl

theorem lowOf_le {o : Option ℝ} {x : ℝ} : lowOf o ≤ (x : EReal) ↔ ∀ v, o = some v → v ≤ x := by
  cases o <;> simp [lowOf]

theorem le_upOf {o : Option ℝ} {x : ℝ} : (x : EReal) ≤ upOf o ↔ ∀ v, o = some v → x ≤ v := by
  cases o <;> simp [upOf]

/-! ### Linear part -/

theorem entC_some {d : Desc} {e : Word × Word × ℝ} {b} (h : entC d.row d.vars e = some b) :
    ∃ i t, (e.2.1, i, t) ∈ numFrom 0 d.rows ∧ t ≠ .N ∧ b = (i, d.vars.idxOf e.1, e.2.2) := by
  unfold entC at h
  cases hr : d.row e.2.1 with
  | none => rw [hr] at h; cases h
  | some q =>
    rw [hr] at h
    simp only at h
    split at h
    · cases h
    · rename_i hq
      injection h with h
      exact ⟨q.1, q.2, row_mem hr, hq, h.symm⟩

theorem entA_some {d : Desc} {e : Word × Word × ℝ} {b} (h : entA d.row d.vars e = some b) :
    (e.2.1, RowT.N) ∈ d.rows ∧ b = (d.vars.idxOf e.1, e.2.2) := by
  unfold entA at h
  cases hr : d.row e.2.1 with
  | none => rw [hr] at h; cases h
  | some q =>
    rw [hr] at h
    simp only at h
    split at h
    · rename_i hq
      injection h with h
      refine ⟨?_, h.symm⟩
      have := mem_rows (row_mem (i := q.1) (t := q.2) hr)
      rwa [hq] at this
    · cases h

theorem oneN {d : Desc} (hd : d.Ok) {n n'} (h : (n, RowT.N) ∈ d.rows) (h' : (n', RowT.N) ∈ d.rows) : n = n' := by
  have h1 : (n, RowT.N) ∈ d.rows.filter (fun e => e.2 = .N) := List.mem_filter.2 ⟨h, by simp⟩
  have h2 : (n', RowT.N) ∈ d.rows.filter (fun e => e.2 = .N) := List.mem_filter.2 ⟨h', by simp⟩
  have := hd.oneObj
  generalize d.rows.filter (fun e => e.2 = .N) = l at *
  match l, this with
  | [a], _ =>
    rw [List.mem_singleton] at h1 h2
    rw [h1.symm] at h2
    simpa using h2.symm

theorem coef_inj {d : Desc} {a b : Word × Word × ℝ} (ha : a ∈ d.coef) (h : d.vars.idxOf a.1 = d.vars.idxOf b.1) (h2 : a.2.1 = b.2.1) :
    (a.1, a.2.1) = (b.1, b.2.1) := by
  rw [idx_inj (mem_vars ha) h, h2]

theorem cKeys {d : Desc} (hd : d.Ok) : ((d.coef.filterMap (entC d.row d.vars)).map (fun e => (e.1, e.2.1))).Nodup := by
  refine nodup_filterMap_key hd.coefKeys ?_
  intro a ha a' _ b b' hb hb' hk
  obtain ⟨i, t, h1, ht, rfl⟩ := entC_some hb
  obtain ⟨i', t', h1', ht', rfl⟩ := entC_some hb'
  simp only [Prod.mk.injEq] at hk
  obtain ⟨rfl, hk⟩ := hk
  exact coef_inj ha hk (row_inj h1 ht h1' ht').1

theorem aKeys {d : Desc} (hd : d.Ok) : ((d.coef.filterMap (entA d.row d.vars)).map (·.1)).Nodup := by
  refine nodup_filterMap_key hd.coefKeys ?_
  intro a ha a' _ b b' hb hb' hk
  obtain ⟨h1, rfl⟩ := entA_some hb
  obtain ⟨h1', rfl⟩ := entA_some hb'
  exact coef_inj ha hk (oneN hd h1 h1')

theorem C_act {d : Desc} (hd : d.Ok) {r : Rd} (hr : Collected d r) {x : Word → ℝ} {X : Nat → ℝ}
    (hX : ∀ c ∈ d.vars, X (d.vars.idxOf c) = x c) {n i t} (h : (n, i, t) ∈ numFrom 0 d.rows) (ht : t ≠ .N) :
    ∑ j ∈ range d.vars.length, fillM r.cVal i j * X j = d.act x n := by
  rw [hr.cVal]
  have h1 : ∀ j, fillM (d.coef.filterMap (entC d.row d.vars)) i j * X j =
      ((d.coef.filterMap (entC d.row d.vars)).map (fun e => (if (e.1, e.2.1) = (i, j) then e.2.2 else 0) * X j)).sum := by
    intro j
    rw [fillM_pick (cKeys hd), pick, list_sum_mul]
  simp only [h1]
  rw [sum_list_swap (fun (e : Nat × Nat × ℝ) j => (if (e.1, e.2.1) = (i, j) then e.2.2 else 0) * X j), sum_filterMap]
  unfold Desc.act
  congr 1
  apply List.map_congr_left
  intro e he
  have hv := mem_vars he
  obtain ⟨t', hm⟩ : ∃ t', (e.2.1, t') ∈ d.rows := by
    obtain ⟨q, hq, hq'⟩ := List.mem_map.1 (hd.coefRow e he)
    exact ⟨q.2, by rw [← hq']; exact hq⟩
  obtain ⟨i', hi'⟩ := mem_numFrom (k := 0) hm
  have hrow := row_of_mem hd hi'
  unfold entC
  rw [hrow]
  simp only
  by_cases hN : t' = .N
  · rw [if_pos hN, if_neg]
    · rfl
    · rintro rfl
      exact ht ((row_unique hd (mem_rows h) hm).trans hN)
  · rw [if_neg hN]
    simp only [Option.elim_some]
    by_cases hi : i' = i
    · subst hi
      have hne : e.2.1 = n := (row_inj hi' hN h ht).1
      rw [if_pos hne, Finset.sum_eq_single (d.vars.idxOf e.1)]
      · rw [if_pos rfl, hX _ hv]
      · intro b _ hb
        rw [if_neg (by simpa using fun hc => hb hc.symm), zero_mul]
      · intro hc
        exact absurd (List.idxOf_lt_length_of_mem hv) (by simpa using hc)
    · rw [if_neg, Finset.sum_eq_zero]
      · intro j _
        rw [if_neg (by simp [hi]), zero_mul]
      · rintro rfl
        have := row_of_mem hd h
        rw [hrow] at this
        simp only [Option.some.injEq, Prod.mk.injEq] at this
        exact hi this.1

theorem a_obj {d : Desc} (hd : d.Ok) {r : Rd} (hr : Collected d r) {x : Word → ℝ} {X : Nat → ℝ}
    (hX : ∀ c ∈ d.vars, X (d.vars.idxOf c) = x c) :
    ∑ j ∈ range d.vars.length, fillV r.aVal j * X j = (d.coef.map (fun e => if (e.2.1, RowT.N) ∈ d.rows then e.2.2 * x e.1 else 0)).sum := by
  rw [hr.aVal]
  have h1 : ∀ j, fillV (d.coef.filterMap (entA d.row d.vars)) j * X j =
      ((d.coef.filterMap (entA d.row d.vars)).map (fun e => (if e.1 = j then e.2 else 0) * X j)).sum := by
    intro j
    rw [fillV_pick (aKeys hd), pick, list_sum_mul]
  simp only [h1]
  rw [sum_list_swap (fun (e : Nat × ℝ) j => (if e.1 = j then e.2 else 0) * X j), sum_filterMap]
  congr 1
  apply List.map_congr_left
  intro e he
  have hv := mem_vars he
  obtain ⟨t', hm⟩ : ∃ t', (e.2.1, t') ∈ d.rows := by
    obtain ⟨q, hq, hq'⟩ := List.mem_map.1 (hd.coefRow e he)
    exact ⟨q.2, by rw [← hq']; exact hq⟩
  obtain ⟨i', hi'⟩ := mem_numFrom (k := 0) hm
  have hrow := row_of_mem hd hi'
  unfold entA
  rw [hrow]
  simp only
  by_cases hN : t' = .N
  · rw [if_pos hN, if_pos ((row_isN hd hrow).2 hN)]
    simp only [Option.elim_some]
    rw [Finset.sum_eq_single (d.vars.idxOf e.1)]
    · rw [if_pos rfl, hX _ hv]
    · intro b _ hb
      rw [if_neg (fun hc => hb hc.symm), zero_mul]
    · intro hc
      exact absurd (List.idxOf_lt_length_of_mem hv) (by simpa using hc)
  · rw [if_neg hN, if_neg (fun hc => hN ((row_isN hd hrow).1 hc))]
    rfl

/-! ### Constant -/

theorem cst_fold {d : Desc} (hd : d.Ok) : ∀ (l : List (Word × ℝ)), (l.map (·.1)).Nodup → (∀ e ∈ l, e.1 ∈ d.rows.map (·.1)) → ∀ c,
    l.foldl (cstR d.row) c = if ∃ e ∈ l, (e.1, RowT.N) ∈ d.rows then -(l.map (fun e => if (e.1, RowT.N) ∈ d.rows then e.2 else 0)).sum
      else c := by
  intro l
  induction l with
  | nil => intro _ _ c; simp
  | cons e l ih =>
    intro hn hm c
    rw [List.map_cons, List.nodup_cons] at hn
    rw [List.foldl_cons, ih hn.2 (fun e he => hm e (List.mem_cons_of_mem _ he)), List.map_cons, List.sum_cons]
    obtain ⟨t, hq⟩ : ∃ t, (e.1, t) ∈ d.rows := by
      obtain ⟨q, hq, hq'⟩ := List.mem_map.1 (hm e (List.mem_cons_self ..))
      exact ⟨q.2, by rw [← hq']; exact hq⟩
    obtain ⟨i, hi⟩ := mem_numFrom (k := 0) hq
    have hrow := row_of_mem hd hi
    by_cases hN : t = .N
    · have hN' : (e.1, RowT.N) ∈ d.rows := hN ▸ hq
      have hno : ∀ e' ∈ l, (e'.1, RowT.N) ∉ d.rows := by
        intro e' he' hc
        exact hn.1 (List.mem_map.2 ⟨e', he', oneN hd hc hN'⟩)
      rw [if_neg (by rintro ⟨e', he', hc⟩; exact hno e' he' hc), if_pos ⟨e, List.mem_cons_self .., hN'⟩, if_pos hN']
      have : (l.map (fun e => if (e.1, RowT.N) ∈ d.rows then e.2 else 0)).sum = 0 := by
        have h0 : ∀ e' ∈ l, (if (e'.1, RowT.N) ∈ d.rows then e'.2 else 0) = (0 : ℝ) := fun e' he' => if_neg (hno e' he')
        rw [List.map_congr_left h0]
        simp
      rw [this, add_zero]
      unfold cstR
      rw [hrow]
      simp [hN]
    · have hN' : (e.1, RowT.N) ∉ d.rows := fun hc => hN (row_unique hd hq hc)
      rw [if_neg hN', zero_add]
      have hc : cstR d.row c e = c := by unfold cstR; rw [hrow]; simp [hN]
      rw [hc]
      by_cases h : ∃ e' ∈ l, (e'.1, RowT.N) ∈ d.rows
      · obtain ⟨e', he', h'⟩ := h
        rw [if_pos ⟨e', he', h'⟩, if_pos ⟨e', List.mem_cons_of_mem _ he', h'⟩]
      · rw [if_neg h, if_neg]
        rintro ⟨e', he', h'⟩
        rcases List.mem_cons.1 he' with rfl | he'
        · exact hN' h'
        · exact h ⟨e', he', h'⟩

theorem cst_obj {d : Desc} (hd : d.Ok) {r : Rd} (hr : Collected d r) :
    r.objCst = -(d.rhs.map (fun e => if (e.1, RowT.N) ∈ d.rows then e.2 else 0)).sum := by
  rw [hr.objCst, cst_fold hd _ hd.rhsKeys hd.rhsRow]
  split
  · rfl
  · rename_i h
    have h0 : ∀ e' ∈ d.rhs, (if (e'.1, RowT.N) ∈ d.rows then e'.2 else 0) = (0 : ℝ) :=
      fun e' he' => if_neg (fun hc => h ⟨e', he', hc⟩)
    rw [List.map_congr_left h0]
    simp

/-! ### Quadratic part -/

theorem gKeys {d : Desc} (hd : d.Ok) :
    ((d.quad.map (fun e => (d.vars.idxOf e.2.1, d.vars.idxOf e.1, e.2.2))).map (fun e => (e.1, e.2.1))).Nodup := by
  refine nodup_map_key hd.quadKeys ?_
  intro a ha a' _ hk
  simp only [Prod.mk.injEq] at hk
  rw [idx_inj (hd.quadVar a ha).1 hk.2, idx_inj (hd.quadVar a ha).2 hk.1]

theorem quad_obj {d : Desc} (hd : d.Ok) {r : Rd} (hr : Collected d r) {x : Word → ℝ} {X : Nat → ℝ}
    (hX : ∀ c ∈ d.vars, X (d.vars.idxOf c) = x c) :
    1 / 2 * ∑ i ∈ range d.vars.length, ∑ j ∈ range d.vars.length, X i * symLow (fillM r.gVal) i j * X j =
      (d.quad.map (fun e => if e.1 = e.2.1 then 1 / 2 * e.2.2 * (x e.1 * x e.1) else e.2.2 * (x e.1 * x e.2.1))).sum := by
  rw [hr.gVal]
  set L := d.quad.map (fun e => (d.vars.idxOf e.2.1, d.vars.idxOf e.1, e.2.2)) with hL
  have h1 : ∀ i j, X i * symLow (fillM L) i j * X j =
      (L.map (fun e => (if (e.1, e.2.1) = (if j ≤ i then (i, j) else (j, i)) then e.2.2 else 0) * (X i * X j))).sum := by
    intro i j
    have : symLow (fillM L) i j = pick (fun e => (e.1, e.2.1)) (fun e => e.2.2) L (if j ≤ i then (i, j) else (j, i)) := by
      unfold symLow
      split <;> rw [fillM_pick (gKeys hd)]
    rw [this, mul_comm (X i), mul_assoc, pick, list_sum_mul]
  simp only [h1]
  simp only [sum_list_swap (fun (e : Nat × Nat × ℝ) j => (if (e.1, e.2.1) = (if j ≤ _ then (_, j) else (j, _)) then e.2.2 else 0) * (X _ * X j))]
  rw [sum_list_swap (fun (e : Nat × Nat × ℝ) i => ∑ j ∈ range d.vars.length,
    (if (e.1, e.2.1) = (if j ≤ i then (i, j) else (j, i)) then e.2.2 else 0) * (X i * X j))]
  rw [mul_comm, list_sum_mul, hL, List.map_map]
  congr 1
  apply List.map_congr_left
  intro e he
  obtain ⟨hv1, hv2⟩ := hd.quadVar e he
  have hlow := hd.quadLow e he
  have hl1 := List.idxOf_lt_length_of_mem hv1
  have hl2 := List.idxOf_lt_length_of_mem hv2
  simp only [Function.comp]
  rw [← hX _ hv1, ← hX _ hv2]
  have heq : e.1 = e.2.1 ↔ d.vars.idxOf e.1 = d.vars.idxOf e.2.1 := ⟨fun h => by rw [← h], fun h => idx_inj hv1 h⟩
  simp only [heq]
  generalize d.vars.idxOf e.1 = c at *
  generalize d.vars.idxOf e.2.1 = q at *
  generalize d.vars.length = n at *
  have inner : ∀ i ∈ range n, ∑ j ∈ range n, (if (q, c) = (if j ≤ i then (i, j) else (j, i)) then e.2.2 else 0) * (X i * X j) =
      (if i = q then e.2.2 * (X q * X c) else 0) + (if i = c ∧ c ≠ q then e.2.2 * (X c * X q) else 0) := by
    intro i _
    by_cases hi : i = q
    · subst hi
      rw [Finset.sum_eq_single c]
      · rw [if_pos (by rw [if_pos hlow]), if_pos rfl, if_neg (by rintro ⟨h1, h2⟩; exact h2 h1.symm), add_zero]
      · intro j _ hj
        rw [if_neg, zero_mul]
        split
        · simpa using fun hc => hj hc.symm
        · rename_i hlt
          intro hc
          simp only [Prod.mk.injEq] at hc
          omega
      · intro hc; exact absurd hl1 (by simpa using hc)
    · rw [if_neg hi, zero_add]
      by_cases hi' : i = c
      · subst hi'
        rw [if_pos ⟨rfl, hi⟩, Finset.sum_eq_single q]
        · rw [if_pos]
          rw [if_neg (by omega)]
        · intro j _ hj
          rw [if_neg, zero_mul]
          split
          · simp only [Prod.mk.injEq]; omega
          · simp only [Prod.mk.injEq]; omega
        · intro hc; exact absurd hl2 (by simpa using hc)
      · rw [if_neg (fun hc => hi' hc.1), Finset.sum_eq_zero]
        intro j _
        rw [if_neg, zero_mul]
        split
        · simp only [Prod.mk.injEq]; omega
        · simp only [Prod.mk.injEq]; omega
  rw [Finset.sum_congr rfl inner, Finset.sum_add_distrib, Finset.sum_ite_eq' (range n) q (fun _ => e.2.2 * (X q * X c)), if_pos (by simpa using hl2)]
  by_cases hcq : c = q
  · subst hcq
    rw [Finset.sum_eq_zero (fun i _ => if_neg (fun hc => hc.2 rfl)), if_pos rfl]
    ring
  · rw [if_neg hcq]
    have : ∀ i ∈ range n, (if i = c ∧ c ≠ q then e.2.2 * (X c * X q) else 0) = if i = c then e.2.2 * (X c * X q) else 0 := by
      intro i _
      by_cases h : i = c
      · rw [if_pos ⟨h, hcq⟩, if_pos h]
      · rw [if_neg (fun hc => h hc.1), if_neg h]
    rw [Finset.sum_congr rfl this, Finset.sum_ite_eq' (range n) c (fun _ => e.2.2 * (X c * X q)), if_pos (by simpa using hl1)]
    ring

end JrlQp.Qps
