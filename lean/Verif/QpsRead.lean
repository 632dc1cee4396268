import Verif.QpsSpec

/-!
# Reading a layout

The state of the reader after each section of a layout.
-/

namespace JrlQp.Qps

open Finset Classical

/-- Reading `ls` changes the state from `r` to `r'`. -/
def Reads (num : Word → Option ℝ) (r : Rd) (ls : List Line) (r' : Rd) : Prop :=
  ∀ tl, readLines num r (ls ++ tl) = readLines num r' tl

theorem Reads.nil {num r} : Reads num r [] r := fun _ => rfl

theorem Reads.append {num r r' r'' a b} (h : Reads num r a r') (h' : Reads num r' b r'') : Reads num r (a ++ b) r'' := by
  intro tl
  rw [List.append_assoc, h, h']

theorem Reads.cons {num r r' r'' l b} (h : readLine num r l = .ok r') (h' : Reads num r' b r'') : Reads num r (l :: b) r'' := by
  intro tl
  rw [List.cons_append, readLines, h]
  exact h' tl

/-- The state with another line number. -/
def Rd.at (r : Rd) (ln : Nat) : Rd := { r with line := ln }

theorem lineType_skip {l} (h : Skipped l) : lineType l = .empty ∨ lineType l = .other := by
  rcases h with rfl | ⟨ws, tr, rfl, h⟩
  · exact .inl rfl
  · right
    show header _ = _
    simp only [List.forall_mem_cons, List.not_mem_nil, false_implies, implies_true, and_true] at h
    obtain ⟨h1, h2, h3, h4, h5, h6, h7, h8⟩ := h
    unfold header
    rw [if_neg h1, if_neg h2, if_neg h3, if_neg h4, if_neg h5, if_neg h6, if_neg h7, if_neg h8]

theorem lineType_header {s l} (h : IsHeader s l) : lineType l = header s.toList := by
  obtain ⟨w, more, tr, rfl, h⟩ := h
  show header (w.map Char.toLower) = _
  rw [h]

theorem header_type {s l} (t : LType) (h : IsHeader s l) (ht : header s.toList = t) : lineType l = t := (lineType_header h).trans ht

theorem rowType_letter {c : Char} {t : RowT} (h : c ∈ t.letters) : rowType c = some t := by
  cases t <;> simp only [RowT.letters, List.mem_cons, List.not_mem_nil, or_false] at h <;> rcases h with rfl | rfl <;> rfl

theorem bndType_code (t : BndT) : bndType t.code = some t := by cases t <;> rfl

theorem readLine_skip {num r l} (h : Skipped l) : readLine num r l = .ok (r.at (r.line + 1)) := by
  unfold readLine
  rcases lineType_skip h with h | h <;> simp only [h] <;> rfl

theorem readLine_header {num r l t} (h : lineType l = t) (h1 : t ≠ .empty) (h2 : t ≠ .other) (h3 : t ≠ .normal) (h4 : t ≠ .name) :
    readLine num r l = .ok { r.at (r.line + 1) with sec := t } := by
  unfold readLine
  simp only [h]
  cases t <;> simp_all [Rd.at]

theorem readLine_name {num r l w n more tr} (h : l = Line.text false (w :: n :: more) tr) (h1 : lineType l = .name) :
    readLine num r l = .ok { r.at (r.line + 1) with sec := .name, probName := n } := by
  unfold readLine
  simp only [h1]
  subst h
  simp [Line.words, Rd.at]

theorem readLine_text {num r ws tr} : readLine num r (.text true ws tr) = processLine num (r.at (r.line + 1)) ws tr := by
  unfold readLine
  simp only [lineType]
  rfl

theorem reads_skips {num} : ∀ {ls : List Line} {r : Rd}, (∀ l ∈ ls, Skipped l) → Reads num r ls (r.at (r.line + ls.length)) := by
  intro ls
  induction ls with
  | nil => intro r _; exact Reads.nil
  | cons l ls ih =>
    intro r h
    refine Reads.cons (readLine_skip (h l (List.mem_cons_self ..))) ?_
    have := ih (r := r.at (r.line + 1)) (fun l' hl' => h l' (List.mem_cons_of_mem _ hl'))
    simp only [Rd.at, List.length_cons] at this ⊢
    rw [show r.line + (ls.length + 1) = r.line + 1 + ls.length by omega]
    exact this

/-! ### One entry -/

noncomputable def stRow (r : Rd) (e : Word × RowT) : Rd :=
  if e.2 = .N then { r with objWasRead := true, rows := r.rows ++ [(e.1, 0, e.2)] }
  else { r with rows := r.rows ++ [(e.1, r.nRows, e.2)], nRows := r.nRows + 1 }

noncomputable def stCol (r : Rd) (e : Word × Word × ℝ) : Rd :=
  let r : Rd := if e.1 ∈ r.cols then r else { r with cols := r.cols ++ [e.1] }
  match r.row e.2.1 with
  | none => r
  | some (i, t) =>
    if t = .N then { r with aVal := r.aVal ++ [(r.cols.idxOf e.1, e.2.2)] }
    else { r with cVal := r.cVal ++ [(i, r.cols.idxOf e.1, e.2.2)] }

noncomputable def stRhs (r : Rd) (e : Word × Word × ℝ) : Rd :=
  let r : Rd := { r with rhsName := e.1 }
  match r.row e.2.1 with
  | none => r
  | some (i, t) => if t = .N then { r with objCst := -e.2.2 } else { r with bVal := r.bVal ++ [(i, e.2.2, t)] }

noncomputable def stRng (r : Rd) (e : Word × Word × ℝ) : Rd :=
  let r : Rd := { r with rangeName := e.1 }
  match r.row e.2.1 with
  | none => r
  | some (i, t) => { r with rVal := r.rVal ++ [(i, e.2.2, t)] }

noncomputable def stBnd (r : Rd) (e : BndT × Word × ℝ) : Rd := { r with xVal := r.xVal ++ [(r.cols.idxOf e.2.1, e.2.2, e.1)] }

noncomputable def stQuad (r : Rd) (e : Word × Word × ℝ) : Rd :=
  { r with gVal := r.gVal ++ [(r.cols.idxOf e.2.1, r.cols.idxOf e.1, e.2.2)] }

theorem stRow_at (r : Rd) (a : Nat) (e) : stRow (r.at a) e = (stRow r e).at a := by
  unfold stRow Rd.at; split <;> rfl

theorem stCol_at (r : Rd) (a : Nat) (e) : stCol (r.at a) e = (stCol r e).at a := by
  unfold stCol Rd.at
  by_cases h : e.1 ∈ r.cols
  · simp only [if_pos h, Rd.row]
    cases List.find? (fun e' => decide (e'.1 = e.2.1)) r.rows with
    | none => rfl
    | some q => simp only [Option.map_some]; split <;> rfl
  · simp only [if_neg h, Rd.row]
    cases List.find? (fun e' => decide (e'.1 = e.2.1)) r.rows with
    | none => rfl
    | some q => simp only [Option.map_some]; split <;> rfl

theorem stRhs_at (r : Rd) (a : Nat) (e) : stRhs (r.at a) e = (stRhs r e).at a := by
  unfold stRhs Rd.at
  simp only [Rd.row]
  cases List.find? (fun e' => decide (e'.1 = e.2.1)) r.rows with
  | none => rfl
  | some q => simp only [Option.map_some]; split <;> rfl

theorem stRng_at (r : Rd) (a : Nat) (e) : stRng (r.at a) e = (stRng r e).at a := by
  unfold stRng Rd.at
  simp only [Rd.row]
  cases List.find? (fun e' => decide (e'.1 = e.2.1)) r.rows with
  | none => rfl
  | some q => rfl

theorem foldl_at {β : Type} {st : Rd → β → Rd} (h : ∀ r a e, st (r.at a) e = (st r e).at a) :
    ∀ (es : List β) (r : Rd) (a : Nat), es.foldl st (r.at a) = (es.foldl st r).at a := by
  intro es
  induction es with
  | nil => intros; rfl
  | cons e es ih => intro r a; rw [List.foldl_cons, h, ih]; rfl

/-! ### One section -/

theorem at_at (r : Rd) (a b : Nat) : (r.at a).at b = r.at b := rfl

theorem reads_value {num : Word → Option ℝ} {s : LType} {st : Rd → Word × Word × ℝ → Rd} {I : Rd → Word × Word × ℝ → Prop}
    {f : Rd → List Word → Bool → Except QErr Rd}
    (hs : ∀ r ws tr, r.sec = s → processLine num r ws tr = f r ws tr)
    (hat : ∀ r a e, st (r.at a) e = (st r e).at a)
    (hsec : ∀ r e, (st r e).sec = r.sec)
    (hI : ∀ r e e', I r e → I r e' → I (st r e) e')
    (hIat : ∀ r a e, I r e → I (r.at a) e)
    (h1 : ∀ r k n w v tr, num w = some v → I r (k, n, v) → f r [k, n, w] tr = .ok (st r (k, n, v)))
    (h2 : ∀ r k n w v n' w' v' rest tr, num w = some v → num w' = some v' → I r (k, n, v) → I r (k, n', v') →
      f r (k :: n :: w :: n' :: w' :: rest) tr = .ok (st (st r (k, n, v)) (k, n', v'))) :
    ∀ {es ls}, ValueLines num es ls → ∀ r : Rd, r.sec = s → (∀ e ∈ es, I r e) →
      Reads num r ls ((es.foldl st r).at (r.line + ls.length)) := by
  intro es ls h
  have hfold := fun es => foldl_at hat es
  have hline : ∀ (r : Rd) a, (r.at a).line = a := fun _ _ => rfl
  induction h with
  | nil => intro r _ _; exact Reads.nil
  | @skip es l ls hl _ ih =>
    intro r hr hi
    refine Reads.cons (readLine_skip hl) ?_
    have := ih (r.at (r.line + 1)) hr (fun e he => hIat _ _ _ (hi e he))
    rw [hfold, at_at, hline] at this
    rwa [List.length_cons, show r.line + (ls.length + 1) = r.line + 1 + ls.length by omega]
  | @one es ls k n w v tr hw _ ih =>
    intro r hr hi
    have he := hi _ (List.mem_cons_self ..)
    refine Reads.cons (r' := (st r (k, n, v)).at (r.line + 1)) ?_ ?_
    · rw [readLine_text, hs (r.at (r.line + 1)) _ _ hr, h1 _ _ _ _ _ _ hw (hIat _ _ _ he), hat]
    · have := ih ((st r (k, n, v)).at (r.line + 1)) ((hsec _ _).trans hr)
        (fun e he' => hIat _ _ _ (hI _ _ _ he (hi e (List.mem_cons_of_mem _ he'))))
      rw [hfold, at_at, hline] at this
      rwa [List.length_cons, show r.line + (ls.length + 1) = r.line + 1 + ls.length by omega, List.foldl_cons]
  | @two es ls k n w n' w' v v' rest tr hw hw' _ ih =>
    intro r hr hi
    have he := hi _ (List.mem_cons_self ..)
    have he' := hi (k, n', v') (List.mem_cons_of_mem _ (List.mem_cons_self ..))
    refine Reads.cons (r' := (st (st r (k, n, v)) (k, n', v')).at (r.line + 1)) ?_ ?_
    · rw [readLine_text, hs (r.at (r.line + 1)) _ _ hr, h2 _ _ _ _ _ _ _ _ _ _ hw hw' (hIat _ _ _ he) (hIat _ _ _ he'), hat, hat]
    · have hi2 : I (st r (k, n, v)) (k, n', v') := hI _ _ _ he he'
      have := ih ((st (st r (k, n, v)) (k, n', v')).at (r.line + 1)) ((hsec _ _).trans ((hsec _ _).trans hr))
        (fun e he' => hIat _ _ _ (hI _ _ _ hi2 (hI _ _ _ he (hi e (List.mem_cons_of_mem _ (List.mem_cons_of_mem _ he'))))))
      rw [hfold, at_at, hline] at this
      rwa [List.length_cons, show r.line + (ls.length + 1) = r.line + 1 + ls.length by omega, List.foldl_cons, List.foldl_cons]

theorem parse_one {num : Word → Option ℝ} {ln k n w v tr} (h : num w = some v) :
    parseValueLine num ln [k, n, w] tr = .ok (k, (n, v), none) := by simp [parseValueLine, h]

theorem parse_two {num : Word → Option ℝ} {ln k n w v n' w' v' rest tr} (h : num w = some v) (h' : num w' = some v') :
    parseValueLine num ln (k :: n :: w :: n' :: w' :: rest) tr = .ok (k, (n, v), some (n', v')) := by simp [parseValueLine, h, h']

/-! #### Columns -/

theorem stCol_rows (r e) : (stCol r e).rows = r.rows := by
  unfold stCol
  by_cases h : e.1 ∈ r.cols
  · simp only [if_pos h]; split <;> [rfl; (split <;> rfl)]
  · simp only [if_neg h]; split <;> [rfl; (split <;> rfl)]

theorem stCol_sec (r e) : (stCol r e).sec = r.sec := by
  unfold stCol
  by_cases h : e.1 ∈ r.cols
  · simp only [if_pos h]; split <;> [rfl; (split <;> rfl)]
  · simp only [if_neg h]; split <;> [rfl; (split <;> rfl)]

theorem addCol_ok {r : Rd} {c n v} (h : (r.row n).isSome) :
    addCol r c (n, v) = .ok (match r.row n with
      | none => r
      | some (i, t) => if t = .N then { r with aVal := r.aVal ++ [(c, v)] } else { r with cVal := r.cVal ++ [(i, c, v)] }) := by
  unfold addCol
  simp only
  cases hr : r.row n with
  | none => rw [hr] at h; cases h
  | some q => simp only; split <;> rfl

theorem readColumn_one {num : Word → Option ℝ} {r k n w v tr} (hw : num w = some v) (h : (r.row n).isSome) :
    readColumn num r [k, n, w] tr = .ok (stCol r (k, n, v)) := by
  unfold readColumn
  rw [parse_one hw]
  simp only [addBoth]
  unfold stCol
  by_cases hk : k ∈ r.cols
  · simp only [if_pos hk]
    rw [addCol_ok h]
  · simp only [if_neg hk]
    rw [addCol_ok (r := { r with cols := r.cols ++ [k] }) h]

theorem stCol_mem {r e} : e.1 ∈ (stCol r e).cols := by
  unfold stCol
  by_cases h : e.1 ∈ r.cols
  · simp only [if_pos h]; split <;> [exact h; (split <;> exact h)]
  · simp only [if_neg h]; split <;> [simp; (split <;> simp)]

theorem readColumn_two {num : Word → Option ℝ} {r k n w v n' w' v' rest tr} (hw : num w = some v) (hw' : num w' = some v')
    (h : (r.row n).isSome) (h' : (r.row n').isSome) :
    readColumn num r (k :: n :: w :: n' :: w' :: rest) tr = .ok (stCol (stCol r (k, n, v)) (k, n', v')) := by
  have key : ∀ q : Rd, k ∈ q.cols → (q.row n').isSome → addCol q (q.cols.idxOf k) (n', v') = .ok (stCol q (k, n', v')) := by
    intro q hk hq
    rw [addCol_ok hq]
    unfold stCol
    simp only [if_pos hk]
  have h1 := readColumn_one (num := num) (k := k) (tr := tr) hw h
  unfold readColumn at h1 ⊢
  rw [parse_one hw] at h1
  rw [parse_two hw hw']
  simp only [addBoth] at h1 ⊢
  split at h1
  · cases h1
  · rename_i r1 hr1
    have : r1 = stCol r (k, n, v) := by injection h1
    rw [this]
    refine key _ stCol_mem ?_
    rw [Rd.row, stCol_rows]
    exact h'

theorem reads_columns {num : Word → Option ℝ} {es ls} (h : ValueLines num es ls) (r : Rd) (hr : r.sec = .columns)
    (hi : ∀ e ∈ es, (r.row e.2.1).isSome) : Reads num r ls ((es.foldl stCol r).at (r.line + ls.length)) := by
  refine reads_value (s := .columns) (I := fun r e => (r.row e.2.1).isSome) (f := readColumn num) ?_ stCol_at stCol_sec ?_ ?_ ?_ ?_ h r hr hi
  · intro r ws tr hs; unfold processLine; rw [hs]
  · intro r e e' _ h'; rw [Rd.row, stCol_rows]; exact h'
  · intro r a e h; exact h
  · intro r k n w v tr hw h; exact readColumn_one hw h
  · intro r k n w v n' w' v' rest tr hw hw' h h'; exact readColumn_two hw hw' h h'

/-! #### Right hand sides -/

theorem stRhs_rows (r e) : (stRhs r e).rows = r.rows := by
  unfold stRhs; simp only; split <;> [rfl; (split <;> rfl)]

theorem stRhs_sec (r e) : (stRhs r e).sec = r.sec := by
  unfold stRhs; simp only; split <;> [rfl; (split <;> rfl)]

theorem stRhs_name (r e) : (stRhs r e).rhsName = e.1 := by
  unfold stRhs; simp only; split <;> [rfl; (split <;> rfl)]

theorem addRhs_ok {r : Rd} {n v k} (hk : r.rhsName = k) (h : (r.row n).isSome) : addRhs r (n, v) = .ok (stRhs r (k, n, v)) := by
  subst hk
  have : ({ r with rhsName := r.rhsName } : Rd) = r := rfl
  unfold addRhs stRhs
  simp only [this]
  cases hr : r.row n with
  | none => rw [hr] at h; cases h
  | some q => simp only; split <;> rfl

theorem stRhs_set {r : Rd} {k n v} : stRhs { r with rhsName := k } (k, n, v) = stRhs r (k, n, v) := rfl

theorem reads_rhs {num : Word → Option ℝ} {es : List (Word × ℝ)} {ls k} (h : ValueLines num (es.map (fun e : Word × ℝ => (k, e.1, e.2))) ls) (r : Rd)
    (hr : r.sec = .rhs) (hn : r.rhsName = [] ∨ r.rhsName = k) (hi : ∀ e ∈ es, (r.row e.1).isSome) :
    Reads num r ls (((es.map (fun e : Word × ℝ => (k, e.1, e.2))).foldl stRhs r).at (r.line + ls.length)) := by
  refine reads_value (s := .rhs) (I := fun r e => (r.row e.2.1).isSome ∧ (r.rhsName = [] ∨ r.rhsName = k) ∧ e.1 = k) (f := readRHS num)
    ?_ stRhs_at stRhs_sec ?_ ?_ ?_ ?_ h r hr ?_
  · intro r ws tr hs; unfold processLine; rw [hs]
  · rintro r e e' ⟨_, _, h1⟩ ⟨h2, _, h3⟩
    refine ⟨?_, Or.inr ?_, h3⟩
    · rw [Rd.row, stRhs_rows]; exact h2
    · rw [stRhs_name, h1]
  · intro r a e h; exact h
  · rintro r k' n w v tr hw ⟨hx, hn, hk⟩
    simp only at hx hk
    subst hk
    unfold readRHS
    rw [parse_one hw]
    simp only
    rw [if_neg (by rintro ⟨h1, h2⟩; rcases hn with hn | hn <;> contradiction)]
    simp only [addBoth]
    rw [addRhs_ok (k := k') rfl (by exact hx)]
    rfl
  · rintro r k' n w v n' w' v' rest tr hw hw' ⟨hx, hn, hk⟩ ⟨h', -, -⟩
    simp only at hx hk h'
    subst hk
    unfold readRHS
    rw [parse_two hw hw']
    simp only
    rw [if_neg (by rintro ⟨h1, h2⟩; rcases hn with hn | hn <;> contradiction)]
    simp only [addBoth]
    rw [addRhs_ok (k := k') rfl (by exact hx)]
    simp only [stRhs_set]
    refine addRhs_ok (stRhs_name _ _) ?_
    rw [Rd.row, stRhs_rows]; exact h'
  · intro e he
    obtain ⟨e', he', rfl⟩ := List.mem_map.1 he
    exact ⟨hi e' he', hn, rfl⟩

/-! #### Ranges -/

theorem stRng_rows (r e) : (stRng r e).rows = r.rows := by
  unfold stRng; simp only; split <;> rfl

theorem stRng_sec (r e) : (stRng r e).sec = r.sec := by
  unfold stRng; simp only; split <;> rfl

theorem stRng_name (r e) : (stRng r e).rangeName = e.1 := by
  unfold stRng; simp only; split <;> rfl

theorem addRange_ok {r : Rd} {n v k} (hk : r.rangeName = k) (h : ∃ i t, r.row n = some (i, t) ∧ t ≠ .N) :
    addRange r (n, v) = .ok (stRng r (k, n, v)) := by
  subst hk
  obtain ⟨i, t, h, ht⟩ := h
  have : ({ r with rangeName := r.rangeName } : Rd) = r := rfl
  unfold addRange stRng
  simp only [this, h, if_neg ht]

theorem reads_ranges {num : Word → Option ℝ} {es : List (Word × ℝ)} {ls k} (h : ValueLines num (es.map (fun e : Word × ℝ => (k, e.1, e.2))) ls) (r : Rd)
    (hr : r.sec = .ranges) (hn : r.rangeName = [] ∨ r.rangeName = k) (hi : ∀ e ∈ es, ∃ i t, r.row e.1 = some (i, t) ∧ t ≠ .N) :
    Reads num r ls (((es.map (fun e : Word × ℝ => (k, e.1, e.2))).foldl stRng r).at (r.line + ls.length)) := by
  refine reads_value (s := .ranges)
    (I := fun r e => (∃ i t, r.row e.2.1 = some (i, t) ∧ t ≠ .N) ∧ (r.rangeName = [] ∨ r.rangeName = k) ∧ e.1 = k) (f := readRanges num)
    ?_ stRng_at stRng_sec ?_ ?_ ?_ ?_ h r hr ?_
  · intro r ws tr hs; unfold processLine; rw [hs]
  · rintro r e e' ⟨_, _, h1⟩ ⟨h2, _, h3⟩
    refine ⟨?_, Or.inr ?_, h3⟩
    · rw [Rd.row, stRng_rows]; exact h2
    · rw [stRng_name, h1]
  · intro r a e h; exact h
  · rintro r k' n w v tr hw ⟨hx, hn, hk⟩
    simp only at hx hk
    subst hk
    unfold readRanges
    rw [parse_one hw]
    simp only
    rw [if_neg (by rintro ⟨h1, h2⟩; rcases hn with hn | hn <;> contradiction)]
    simp only [addBoth]
    rw [addRange_ok (k := k') rfl (by exact hx)]
    rfl
  · rintro r k' n w v n' w' v' rest tr hw hw' ⟨hx, hn, hk⟩ ⟨h', -, -⟩
    simp only at hx hk h'
    subst hk
    unfold readRanges
    rw [parse_two hw hw']
    simp only
    rw [if_neg (by rintro ⟨h1, h2⟩; rcases hn with hn | hn <;> contradiction)]
    simp only [addBoth]
    rw [addRange_ok (k := k') rfl (by exact hx)]
    refine addRange_ok (stRng_name _ _) ?_
    rw [Rd.row, stRng_rows]; exact h'
  · intro e he
    obtain ⟨e', he', rfl⟩ := List.mem_map.1 he
    exact ⟨hi e' he', hn, rfl⟩

/-! #### Quadratic part -/

theorem addQuad_ok {r : Rd} {k n v} (h : n ∈ r.cols) : addQuad r (r.cols.idxOf k) (n, v) = .ok (stQuad r (k, n, v)) := by
  unfold addQuad stQuad
  simp only [Rd.col, if_pos h]

theorem reads_quad {num : Word → Option ℝ} {es ls} (h : ValueLines num es ls) (r : Rd) (hr : r.sec = .quadobj)
    (hi : ∀ e ∈ es, e.1 ∈ r.cols ∧ e.2.1 ∈ r.cols) : Reads num r ls ((es.foldl stQuad r).at (r.line + ls.length)) := by
  refine reads_value (s := .quadobj) (st := stQuad) (I := fun r e => e.1 ∈ r.cols ∧ e.2.1 ∈ r.cols) (f := readQuadObj num) ?_ (fun _ _ _ => rfl)
    (fun _ _ => rfl) ?_ ?_ ?_ ?_ h r hr hi
  · intro r ws tr hs; unfold processLine; rw [hs]
  · intro r e e' _ h'; exact h'
  · intro r a e h; exact h
  · rintro r k n w v tr hw ⟨h, h'⟩
    simp only at h h'
    unfold readQuadObj
    rw [parse_one hw]
    simp only [Rd.col, if_pos h, addBoth]
    rw [addQuad_ok h']
  · rintro r k n w v n' w' v' rest tr hw hw' ⟨h, h'⟩ ⟨-, h''⟩
    simp only at h h' h''
    unfold readQuadObj
    rw [parse_two hw hw']
    simp only [Rd.col, if_pos h, addBoth]
    rw [addQuad_ok h']
    exact addQuad_ok (r := stQuad r (k, n, v)) h''

/-! #### Bounds -/

theorem reads_bounds {num : Word → Option ℝ} : ∀ {es ls}, BndLines num es ls → ∀ r : Rd, r.sec = .bounds →
    (∀ e ∈ es, e.2.1 ∈ r.cols) → Reads num r ls ((es.foldl stBnd r).at (r.line + ls.length)) := by
  intro es ls h
  have hfold := fun es => foldl_at (st := stBnd) (fun _ _ _ => rfl) es
  have hline : ∀ (r : Rd) a, (r.at a).line = a := fun _ _ => rfl
  induction h with
  | nil => intro r _ _; exact Reads.nil
  | @skip es l ls hl _ ih =>
    intro r hr hi
    refine Reads.cons (readLine_skip hl) ?_
    have := ih (r.at (r.line + 1)) hr hi
    rw [hfold, at_at, hline] at this
    rwa [List.length_cons, show r.line + (ls.length + 1) = r.line + 1 + ls.length by omega]
  | @valued es ls b c w t v rest tr ht hw _ ih =>
    intro r hr hi
    have hk := bndType_code t
    have he : c ∈ r.cols := hi _ (List.mem_cons_self ..)
    refine Reads.cons (r' := (stBnd r (t, c, v)).at (r.line + 1)) ?_ ?_
    · rw [readLine_text]
      have hs : (r.at (r.line + 1)).sec = .bounds := hr
      unfold processLine
      rw [hs]
      simp only [readBounds, hk, if_neg ht, hw, Rd.col]
      rw [show (r.at (r.line + 1)).cols = r.cols from rfl, if_pos he]
      rfl
    · have := ih ((stBnd r (t, c, v)).at (r.line + 1)) hr (fun e he' => hi e (List.mem_cons_of_mem _ he'))
      rw [hfold, at_at, hline] at this
      rwa [List.length_cons, show r.line + (ls.length + 1) = r.line + 1 + ls.length by omega, List.foldl_cons]
  | @free es ls b c rest tr _ ih =>
    intro r hr hi
    have hk := bndType_code .FR
    have he : c ∈ r.cols := hi _ (List.mem_cons_self ..)
    refine Reads.cons (r' := (stBnd r (.FR, c, 0)).at (r.line + 1)) ?_ ?_
    · rw [readLine_text]
      have hs : (r.at (r.line + 1)).sec = .bounds := hr
      unfold processLine
      rw [hs]
      simp only [readBounds, hk, if_true, Rd.col]
      rw [show (r.at (r.line + 1)).cols = r.cols from rfl, if_pos he]
      rfl
    · have := ih ((stBnd r (.FR, c, 0)).at (r.line + 1)) hr (fun e he' => hi e (List.mem_cons_of_mem _ he'))
      rw [hfold, at_at, hline] at this
      rwa [List.length_cons, show r.line + (ls.length + 1) = r.line + 1 + ls.length by omega, List.foldl_cons]

/-! #### Rows -/

theorem stRow_sec (r e) : (stRow r e).sec = r.sec := by unfold stRow; split <;> rfl

theorem stRow_names (r e) : (stRow r e).rows.map (·.1) = r.rows.map (·.1) ++ [e.1] := by
  unfold stRow; split <;> simp

theorem row_none_iff {r : Rd} {n} : r.row n = none ↔ n ∉ r.rows.map (·.1) := by
  unfold Rd.row
  rw [Option.map_eq_none_iff, List.find?_eq_none]
  simp only [decide_eq_true_eq, List.mem_map, not_exists, not_and]

theorem readRow_ok {r : Rd} {ws t n} (hp : parseRow ws = .ok (t, n)) (hn : n ∉ r.rows.map (·.1)) (ho : t = .N → r.objWasRead = false) :
    readRow r ws = .ok (stRow r (n, t)) := by
  unfold readRow stRow
  rw [hp]
  simp only
  rw [if_neg (by rw [row_none_iff.2 hn]; simp)]
  by_cases ht : t = .N
  · rw [if_pos ht, if_neg (by rw [ho ht]; simp), if_pos ht]
  · rw [if_neg ht, if_neg ht]

theorem parse_spaced {c : Char} {n t rest} (h : rowType c = some t) : parseRow ([c] :: n :: rest) = .ok (t, n) := by
  simp [parseRow, h]

theorem parse_touching {c : Char} {n t rest} (h : rowType c = some t) (hn : n ≠ []) : parseRow ((c :: n) :: rest) = .ok (t, n) := by
  simp [parseRow, h, hn]

theorem reads_rows {num : Word → Option ℝ} : ∀ {es ls}, RowLines es ls → ∀ r : Rd, r.sec = .rows →
    (r.rows.map (·.1) ++ es.map (·.1)).Nodup →
    (es.filter (fun e => e.2 = .N)).length + (if r.objWasRead then 1 else 0) ≤ 1 →
    Reads num r ls ((es.foldl stRow r).at (r.line + ls.length)) := by
  intro es ls h
  have hfold := fun es => foldl_at stRow_at es
  have hline : ∀ (r : Rd) a, (r.at a).line = a := fun _ _ => rfl
  have main : ∀ es ls (n : Word) (t : RowT) (ws : List Word) (tr : Bool), parseRow ws = .ok (t, n) →
      (∀ r : Rd, r.sec = .rows → (r.rows.map (·.1) ++ es.map (·.1)).Nodup →
        (es.filter (fun e => e.2 = .N)).length + (if r.objWasRead then 1 else 0) ≤ 1 →
        Reads num r ls ((es.foldl stRow r).at (r.line + ls.length))) →
      ∀ r : Rd, r.sec = .rows → (r.rows.map (·.1) ++ ((n, t) :: es).map (·.1)).Nodup →
        (((n, t) :: es).filter (fun e => e.2 = .N)).length + (if r.objWasRead then 1 else 0) ≤ 1 →
        Reads num r (.text true ws tr :: ls) ((((n, t) :: es).foldl stRow r).at (r.line + (Line.text true ws tr :: ls).length)) := by
    intro es ls n t ws tr hp ih r hr hn ho
    have hn1 : n ∉ r.rows.map (·.1) := by
      intro hc
      have := List.disjoint_of_nodup_append hn hc (List.mem_cons_self ..)
      exact this
    refine Reads.cons (r' := (stRow r (n, t)).at (r.line + 1)) ?_ ?_
    · rw [readLine_text]
      unfold processLine
      have : (r.at (r.line + 1)).sec = .rows := hr
      rw [this]
      simp only
      rw [readRow_ok (r := r.at (r.line + 1)) hp hn1, stRow_at]
      intro ht
      by_contra hc
      have : r.objWasRead = true := by simpa [Rd.at] using hc
      simp [this, ht] at ho
    · have := ih ((stRow r (n, t)).at (r.line + 1)) ((stRow_sec _ _).trans hr) ?_ ?_
      · rw [hfold, at_at, hline] at this
        rwa [List.length_cons, show r.line + (ls.length + 1) = r.line + 1 + ls.length by omega, List.foldl_cons]
      · show ((stRow r (n, t)).rows.map (·.1) ++ es.map (·.1)).Nodup
        rw [stRow_names, List.append_assoc]
        exact hn
      · show _ + (if (stRow r (n, t)).objWasRead = true then 1 else 0) ≤ 1
        by_cases ht : t = .N
        · rw [show (stRow r (n, t)).objWasRead = true by unfold stRow; rw [if_pos ht]]
          rw [List.filter_cons_of_pos (by simpa using ht), List.length_cons] at ho
          simp only [if_true]
          omega
        · rw [show (stRow r (n, t)).objWasRead = r.objWasRead by unfold stRow; rw [if_neg ht]]
          rwa [List.filter_cons_of_neg (by simpa using ht)] at ho
  induction h with
  | nil => intro r _ _ _; exact Reads.nil
  | @skip es l ls hl _ ih =>
    intro r hr hn ho
    refine Reads.cons (readLine_skip hl) ?_
    have := ih (r.at (r.line + 1)) hr hn ho
    rw [hfold, at_at, hline] at this
    rwa [List.length_cons, show r.line + (ls.length + 1) = r.line + 1 + ls.length by omega]
  | @spaced es ls c n t rest tr hc _ ih => exact main _ _ _ _ _ _ (parse_spaced (rowType_letter hc)) ih
  | @touching es ls c n t rest tr hc hn _ ih => exact main _ _ _ _ _ _ (parse_touching (rowType_letter hc) hn) ih

/-! ### The state after a section -/

/-- The rows with their indices. -/
def numFrom (k : Nat) : List (Word × RowT) → List (Word × Nat × RowT)
  | [] => []
  | (n, t) :: es => if t = .N then (n, 0, t) :: numFrom k es else (n, k, t) :: numFrom (k + 1) es

/-- The number of constraints. -/
def nbC (es : List (Word × RowT)) : Nat := (es.filter (fun e => e.2 ≠ .N)).length

theorem foldRow : ∀ (es : List (Word × RowT)) (r : Rd), es.foldl stRow r =
    { r with
      rows := r.rows ++ numFrom r.nRows es
      nRows := r.nRows + nbC es
      objWasRead := r.objWasRead || es.any (fun e => e.2 = .N) } := by
  intro es
  induction es with
  | nil => intro r; simp [numFrom, nbC]
  | cons e es ih =>
    intro r
    rw [List.foldl_cons, ih]
    obtain ⟨n, t⟩ := e
    by_cases ht : t = .N
    · subst ht
      simp [stRow, numFrom, nbC]
    · simp only [stRow, if_neg ht, numFrom, List.append_assoc, List.cons_append, List.nil_append, nbC]
      rw [List.filter_cons_of_pos (by simpa using ht), List.length_cons, List.any_cons]
      simp only [ht, decide_false, Bool.false_or]
      rw [show r.nRows + ((es.filter (fun e => decide (e.2 ≠ .N))).length + 1) = r.nRows + 1 + (es.filter (fun e => decide (e.2 ≠ .N))).length by omega]

/-- The entry in the matrix of a coefficient. -/
noncomputable def entC (row : Word → Option (Nat × RowT)) (cols : List Word) (e : Word × Word × ℝ) : Option (Nat × Nat × ℝ) :=
  match row e.2.1 with
  | some (i, t) => if t = .N then none else some (i, cols.idxOf e.1, e.2.2)
  | none => none

/-- The entry in the objective of a coefficient. -/
noncomputable def entA (row : Word → Option (Nat × RowT)) (cols : List Word) (e : Word × Word × ℝ) : Option (Nat × ℝ) :=
  match row e.2.1 with
  | some (_, t) => if t = .N then some (cols.idxOf e.1, e.2.2) else none
  | none => none

theorem firstsFrom_prefix : ∀ (ks cs : List Word), cs <+: firstsFrom cs ks := by
  intro ks
  induction ks with
  | nil => intro cs; exact List.prefix_rfl
  | cons k ks ih =>
    intro cs
    rw [firstsFrom]
    by_cases h : k ∈ cs
    · rw [if_pos h]; exact ih cs
    · rw [if_neg h]; exact (List.prefix_append _ _).trans (ih _)

theorem idxOf_prefix {a b : List Word} (h : a <+: b) {k} (hk : k ∈ a) : b.idxOf k = a.idxOf k := by
  obtain ⟨t, rfl⟩ := h
  exact List.idxOf_append_of_mem hk

theorem foldCol : ∀ (es : List (Word × Word × ℝ)) (r : Rd), es.foldl stCol r =
    { r with
      cols := firstsFrom r.cols (es.map (·.1))
      cVal := r.cVal ++ es.filterMap (entC r.row (firstsFrom r.cols (es.map (·.1))))
      aVal := r.aVal ++ es.filterMap (entA r.row (firstsFrom r.cols (es.map (·.1)))) } := by
  intro es
  induction es with
  | nil => intro r; simp [firstsFrom]
  | cons e es ih =>
    intro r
    rw [List.foldl_cons, ih]
    obtain ⟨k, n, v⟩ := e
    have hrow : (stCol r (k, n, v)).row = r.row := by funext n; rw [Rd.row, stCol_rows]; rfl
    have hcols : (stCol r (k, n, v)).cols = if k ∈ r.cols then r.cols else r.cols ++ [k] := by
      unfold stCol
      by_cases h : k ∈ r.cols
      · simp only [if_pos h]; split <;> [rfl; (split <;> rfl)]
      · simp only [if_neg h]; split <;> [rfl; (split <;> rfl)]
    have hidx : (firstsFrom r.cols (k :: es.map (·.1))).idxOf k = (stCol r (k, n, v)).cols.idxOf k := by
      rw [firstsFrom, ← hcols]
      exact idxOf_prefix (firstsFrom_prefix _ _) stCol_mem
    have hF : firstsFrom (stCol r (k, n, v)).cols (es.map (·.1)) = firstsFrom r.cols (k :: es.map (·.1)) := by rw [firstsFrom, hcols]
    rw [hrow, hF]
    simp only [List.map_cons]
    generalize hG : firstsFrom r.cols (k :: es.map (·.1)) = F at *
    have hC : entC r.row F (k, n, v) = match r.row n with
        | some (i, t) => if t = .N then none else some (i, (stCol r (k, n, v)).cols.idxOf k, v)
        | none => none := by unfold entC; rw [hidx]
    have hA : entA r.row F (k, n, v) = match r.row n with
        | some (_, t) => if t = .N then some ((stCol r (k, n, v)).cols.idxOf k, v) else none
        | none => none := by unfold entA; rw [hidx]
    rw [List.filterMap_cons, List.filterMap_cons, hC, hA, hcols]
    unfold stCol
    by_cases h : k ∈ r.cols
    · simp only [if_pos h]
      cases hr : r.row n with
      | none => rfl
      | some q =>
        by_cases hq : q.2 = .N
        · simp [hq]
        · simp [hq]
    · simp only [if_neg h]
      have hr' : ∀ n, Rd.row { r with cols := r.cols ++ [k] } n = r.row n := fun _ => rfl
      rw [hr']
      cases hr : r.row n with
      | none => rfl
      | some q =>
        by_cases hq : q.2 = .N
        · simp [hq]
        · simp [hq]

/-- The entry of a right hand side or of a range. -/
noncomputable def entR (row : Word → Option (Nat × RowT)) (e : Word × ℝ) : Option (Nat × ℝ × RowT) :=
  match row e.1 with
  | some (i, t) => if t = .N then none else some (i, e.2, t)
  | none => none

/-- The constant of the objective. -/
noncomputable def cstR (row : Word → Option (Nat × RowT)) (c : ℝ) (e : Word × ℝ) : ℝ :=
  match row e.1 with
  | some (_, t) => if t = .N then -e.2 else c
  | none => c

theorem foldRhs (k : Word) : ∀ (es : List (Word × ℝ)) (r : Rd), ∃ nm, (es.map (fun e : Word × ℝ => (k, e.1, e.2))).foldl stRhs r =
    { r with
      rhsName := nm
      bVal := r.bVal ++ es.filterMap (entR r.row)
      objCst := es.foldl (cstR r.row) r.objCst } := by
  intro es
  induction es with
  | nil => intro r; exact ⟨r.rhsName, by simp⟩
  | cons e es ih =>
    intro r
    rw [List.map_cons, List.foldl_cons]
    obtain ⟨nm, h⟩ := ih (stRhs r (k, e.1, e.2))
    refine ⟨nm, h.trans ?_⟩
    have hrow : (stRhs r (k, e.1, e.2)).row = r.row := by funext n; rw [Rd.row, stRhs_rows]; rfl
    rw [hrow, List.filterMap_cons, List.foldl_cons]
    have hr' : ∀ n, Rd.row { r with rhsName := k } n = r.row n := fun _ => rfl
    unfold stRhs entR cstR
    simp only [hr']
    cases hr : r.row e.1 with
    | none => rfl
    | some q =>
      by_cases hq : q.2 = .N
      · simp [hq]
      · simp [hq]

theorem foldRng (k : Word) : ∀ (es : List (Word × ℝ)) (r : Rd), (∀ e ∈ es, ∃ i t, r.row e.1 = some (i, t) ∧ t ≠ .N) →
    ∃ nm, (es.map (fun e : Word × ℝ => (k, e.1, e.2))).foldl stRng r =
    { r with
      rangeName := nm
      rVal := r.rVal ++ es.filterMap (entR r.row) } := by
  intro es
  induction es with
  | nil => intro r _; exact ⟨r.rangeName, by simp⟩
  | cons e es ih =>
    intro r he
    rw [List.map_cons, List.foldl_cons]
    have hrow : (stRng r (k, e.1, e.2)).row = r.row := by funext n; rw [Rd.row, stRng_rows]; rfl
    obtain ⟨nm, h⟩ := ih (stRng r (k, e.1, e.2)) (fun e' h' => by rw [hrow]; exact he e' (List.mem_cons_of_mem _ h'))
    refine ⟨nm, h.trans ?_⟩
    rw [hrow, List.filterMap_cons]
    have hr' : ∀ n, Rd.row { r with rangeName := k } n = r.row n := fun _ => rfl
    obtain ⟨i, t, hr, ht⟩ := he e (List.mem_cons_self ..)
    unfold stRng entR
    simp only [hr', hr]
    simp [ht]

theorem foldBnd : ∀ (es : List (BndT × Word × ℝ)) (r : Rd), es.foldl stBnd r =
    { r with xVal := r.xVal ++ es.map (fun e => (r.cols.idxOf e.2.1, e.2.2, e.1)) } := by
  intro es
  induction es with
  | nil => intro r; simp
  | cons e es ih => intro r; rw [List.foldl_cons, ih]; simp [stBnd]

theorem foldQuad : ∀ (es : List (Word × Word × ℝ)) (r : Rd), es.foldl stQuad r =
    { r with gVal := r.gVal ++ es.map (fun e => (r.cols.idxOf e.2.1, r.cols.idxOf e.1, e.2.2)) } := by
  intro es
  induction es with
  | nil => intro r; simp
  | cons e es ih => intro r; rw [List.foldl_cons, ih]; simp [stQuad]

/-! ### The state at the end -/

/-- Index and type of a row. -/
def Desc.row (d : Desc) (n : Word) : Option (Nat × RowT) := ((numFrom 0 d.rows).find? (fun e => e.1 = n)).map (·.2)

/-- What the reader has collected at the end of a layout. -/
structure Collected (d : Desc) (r : Rd) : Prop where
  rows : r.rows = numFrom 0 d.rows
  nRows : r.nRows = nbC d.rows
  cols : r.cols = d.vars
  cVal : r.cVal = d.coef.filterMap (entC d.row d.vars)
  aVal : r.aVal = d.coef.filterMap (entA d.row d.vars)
  bVal : r.bVal = d.rhs.filterMap (entR d.row)
  rVal : r.rVal = d.rng.filterMap (entR d.row)
  xVal : r.xVal = d.bnd.map (fun e => (d.vars.idxOf e.2.1, e.2.2, e.1))
  gVal : r.gVal = d.quad.map (fun e => (d.vars.idxOf e.2.1, d.vars.idxOf e.1, e.2.2))
  objCst : r.objCst = d.rhs.foldl (cstR d.row) 0

theorem numFrom_names : ∀ (es : List (Word × RowT)) (k : Nat), (numFrom k es).map (fun e => (e.1, e.2.2)) = es := by
  intro es
  induction es with
  | nil => intro k; rfl
  | cons e es ih =>
    intro k
    obtain ⟨n, t⟩ := e
    rw [numFrom]
    split <;> simp [ih]

theorem mem_numFrom {es : List (Word × RowT)} {k n t} (h : (n, t) ∈ es) : ∃ i, (n, i, t) ∈ numFrom k es := by
  rw [← numFrom_names es k] at h
  obtain ⟨⟨n', i, t'⟩, hm, he⟩ := List.mem_map.1 h
  simp only [Prod.mk.injEq] at he
  obtain ⟨rfl, rfl⟩ := he
  exact ⟨i, hm⟩

theorem row_of_mem {d : Desc} (hd : d.Ok) {n i t} (h : (n, i, t) ∈ numFrom 0 d.rows) : d.row n = some (i, t) := by
  have hn : ((numFrom 0 d.rows).map (·.1)).Nodup := by
    have := hd.names
    rw [← numFrom_names d.rows 0, List.map_map] at this
    exact this
  unfold Desc.row
  generalize numFrom 0 d.rows = l at *
  induction l with
  | nil => cases h
  | cons e l ih =>
    rw [List.find?_cons]
    rw [List.map_cons, List.nodup_cons] at hn
    rcases List.mem_cons.1 h with h | h
    · subst h; simp
    · have : e.1 ≠ n := by
        rintro rfl
        exact hn.1 (List.mem_map.2 ⟨_, h, rfl⟩)
      simp only [this, decide_false]
      exact ih h hn.2

theorem row_mem {d : Desc} {n i t} (h : d.row n = some (i, t)) : (n, i, t) ∈ numFrom 0 d.rows := by
  unfold Desc.row at h
  rw [Option.map_eq_some_iff] at h
  obtain ⟨e, he, h⟩ := h
  have h1 := List.mem_of_find?_eq_some he
  have h2 := List.find?_some he
  simp only [decide_eq_true_eq] at h2
  obtain ⟨a, b⟩ := e
  simp only at h h2
  subst h2 h
  exact h1

theorem reads_layout_all {num : Word → Option ℝ} {d : Desc} (hd : d.Ok) {file} (h : Layout num d file) :
    ∃ r, readLines num {} file = .ok r ∧ Collected d r ∧ r.objWasRead = d.rows.any (fun e => e.2 = .N) := by
  obtain ⟨pre, w, pn, more, tn, sk, hr, rowL, hc, colL, rhsL, rngL, bndL, quadL, he, post, hpre, hn2, hsk, hr1, hrow, hc1, hcol,
    hrhs, hrng, hbnd, hquad, he1, hpost, rfl⟩ := h
  -- rows
  have a1 : Reads num {} (pre ++ (Line.text false (w :: pn :: more) tn :: (sk ++ (hr :: rowL)))) _ :=
    (reads_skips hpre).append (Reads.cons (readLine_name rfl (header_type .name hn2 (by decide))) ((reads_skips hsk).append (Reads.cons
      (readLine_header (header_type .rows hr1 (by decide)) (by decide) (by decide) (by decide) (by decide))
      (reads_rows hrow _ rfl (by simpa [Rd.at] using hd.names) (by simpa [Rd.at] using hd.oneObj)))))
  rw [foldRow] at a1
  obtain ⟨r1, hr1e⟩ : ∃ r1 : Rd, Reads num {} (pre ++ (Line.text false (w :: pn :: more) tn :: (sk ++ (hr :: rowL)))) r1 ∧ r1.rows = numFrom 0 d.rows ∧
      r1.nRows = nbC d.rows ∧ r1.cols = [] ∧ r1.cVal = [] ∧ r1.aVal = [] ∧ r1.bVal = [] ∧ r1.rVal = [] ∧ r1.xVal = [] ∧ r1.gVal = [] ∧
      r1.objCst = 0 ∧ r1.rhsName = [] ∧ r1.rangeName = [] ∧
      r1.objWasRead = d.rows.any (fun e => e.2 = .N) := by
    exact ⟨_, a1, by simp [Rd.at], by simp [Rd.at], rfl, rfl, rfl, rfl, rfl, rfl, rfl, rfl, rfl, rfl, by simp [Rd.at]⟩
  obtain ⟨b1, b2, b3, b4, b5, b6, b7, b8, b9, b10, b11, b12, b13, b14⟩ := hr1e
  have hrow1 : r1.row = d.row := by funext n; unfold Rd.row Desc.row; rw [b2]
  have hsome : ∀ n, n ∈ d.rows.map (·.1) → ∃ i t, d.row n = some (i, t) := by
    intro n hn
    obtain ⟨⟨n', t⟩, hm, rfl⟩ := List.mem_map.1 hn
    obtain ⟨i, hi⟩ := mem_numFrom (k := 0) hm
    exact ⟨i, t, row_of_mem hd hi⟩
  -- columns
  have a2 : Reads num r1 (hc :: colL) _ := Reads.cons (readLine_header (header_type .columns hc1 (by decide)) (by decide) (by decide) (by decide) (by decide))
    (reads_columns hcol _ rfl (by
      intro e he
      obtain ⟨i, t, h⟩ := hsome _ (hd.coefRow e he)
      show (r1.row _).isSome
      rw [hrow1, h]; rfl))
  rw [foldCol] at a2
  obtain ⟨r2, c1, c2, c3, c4, c5, c6, c7, c8, c9, c10, c11, c12, c13, c14⟩ : ∃ r2 : Rd, Reads num r1 (hc :: colL) r2 ∧
      r2.rows = numFrom 0 d.rows ∧ r2.nRows = nbC d.rows ∧ r2.cols = d.vars ∧ r2.cVal = d.coef.filterMap (entC d.row d.vars) ∧
      r2.aVal = d.coef.filterMap (entA d.row d.vars) ∧ r2.bVal = [] ∧ r2.rVal = [] ∧ r2.xVal = [] ∧ r2.gVal = [] ∧ r2.objCst = 0 ∧
      r2.rhsName = [] ∧ r2.rangeName = [] ∧ r2.objWasRead = d.rows.any (fun e => e.2 = .N) := by
    refine ⟨_, a2, b2, b3, ?_, ?_, ?_, b7, b8, b9, b10, b11, b12, b13, b14⟩
    · show firstsFrom r1.cols _ = _
      rw [b4]; rfl
    · show r1.cVal ++ List.filterMap (entC r1.row (firstsFrom r1.cols _)) _ = _
      rw [b4, b5, hrow1]; rfl
    · show r1.aVal ++ List.filterMap (entA r1.row (firstsFrom r1.cols _)) _ = _
      rw [b4, b6, hrow1]; rfl
  have hrow2 : r2.row = d.row := by funext n; unfold Rd.row Desc.row; rw [c2]
  -- right hand sides
  obtain ⟨r3, d1, d2, d3, d4, d5, d6, d7, d8, d9, d10, d11, d12, d14⟩ : ∃ r3 : Rd, Reads num r2 rhsL r3 ∧
      r3.rows = numFrom 0 d.rows ∧ r3.nRows = nbC d.rows ∧ r3.cols = d.vars ∧ r3.cVal = d.coef.filterMap (entC d.row d.vars) ∧
      r3.aVal = d.coef.filterMap (entA d.row d.vars) ∧ r3.bVal = d.rhs.filterMap (entR d.row) ∧ r3.rVal = [] ∧ r3.xVal = [] ∧
      r3.gVal = [] ∧ r3.objCst = d.rhs.foldl (cstR d.row) 0 ∧ r3.rangeName = [] ∧ r3.objWasRead = d.rows.any (fun e => e.2 = .N) := by
    rcases hrhs with ⟨h0, rfl⟩ | ⟨hd', body, hl, ⟨k, hv⟩, rfl⟩
    · exact ⟨r2, Reads.nil, c2, c3, c4, c5, c6, by rw [c7, h0]; rfl, c8, c9, c10, by rw [c11, h0]; rfl, c13, c14⟩
    · have a3 : Reads num r2 (hd' :: body) _ := Reads.cons (readLine_header (header_type .rhs hl (by decide)) (by decide) (by decide) (by decide) (by decide))
        (reads_rhs hv _ rfl (Or.inl c12) (by
          intro e he
          obtain ⟨i, t, h⟩ := hsome _ (hd.rhsRow e he)
          show (r2.row _).isSome
          rw [hrow2, h]; rfl))
      obtain ⟨nm, hf⟩ := foldRhs k d.rhs { r2.at (r2.line + 1) with sec := .rhs }
      rw [hf] at a3
      refine ⟨_, a3, c2, c3, c4, c5, c6, ?_, c8, c9, c10, ?_, c13, c14⟩
      · show r2.bVal ++ List.filterMap (entR r2.row) _ = _
        rw [c7, hrow2]; rfl
      · show List.foldl (cstR r2.row) r2.objCst _ = _
        rw [c11, hrow2]
  have hrow3 : r3.row = d.row := by funext n; unfold Rd.row Desc.row; rw [d2]
  -- ranges
  obtain ⟨r4, e1, e2, e3, e4, e5, e6, e7, e8, e9, e10, e11, e14⟩ : ∃ r4 : Rd, Reads num r3 rngL r4 ∧
      r4.rows = numFrom 0 d.rows ∧ r4.nRows = nbC d.rows ∧ r4.cols = d.vars ∧ r4.cVal = d.coef.filterMap (entC d.row d.vars) ∧
      r4.aVal = d.coef.filterMap (entA d.row d.vars) ∧ r4.bVal = d.rhs.filterMap (entR d.row) ∧
      r4.rVal = d.rng.filterMap (entR d.row) ∧ r4.xVal = [] ∧ r4.gVal = [] ∧ r4.objCst = d.rhs.foldl (cstR d.row) 0 ∧ r4.objWasRead = d.rows.any (fun e => e.2 = .N) := by
    rcases hrng with ⟨h0, rfl⟩ | ⟨hd', body, hl, ⟨k, hv⟩, rfl⟩
    · exact ⟨r3, Reads.nil, d2, d3, d4, d5, d6, d7, by rw [d8, h0]; rfl, d9, d10, d11, d14⟩
    · have hq : ∀ e ∈ d.rng, ∃ i t, d.row e.1 = some (i, t) ∧ t ≠ .N := by
        intro e he
        obtain ⟨t, hm, ht⟩ := hd.rngRow e he
        obtain ⟨i, hi⟩ := mem_numFrom (k := 0) hm
        exact ⟨i, t, row_of_mem hd hi, ht⟩
      have a3 : Reads num r3 (hd' :: body) _ := Reads.cons (readLine_header (header_type .ranges hl (by decide)) (by decide) (by decide) (by decide) (by decide))
        (reads_ranges hv _ rfl (Or.inl d12) (by
          intro e he
          show ∃ i t, r3.row _ = some (i, t) ∧ _
          rw [hrow3]; exact hq e he))
      obtain ⟨nm, hf⟩ := foldRng k d.rng { r3.at (r3.line + 1) with sec := .ranges } (by
          intro e he
          show ∃ i t, r3.row _ = some (i, t) ∧ _
          rw [hrow3]; exact hq e he)
      rw [hf] at a3
      refine ⟨_, a3, d2, d3, d4, d5, d6, d7, ?_, d9, d10, d11, d14⟩
      show r3.rVal ++ List.filterMap (entR r3.row) _ = _
      rw [d8, hrow3]; rfl
  -- bounds
  obtain ⟨r5, f1, f2, f3, f4, f5, f6, f7, f8, f9, f10, f11, f14⟩ : ∃ r5 : Rd, Reads num r4 bndL r5 ∧
      r5.rows = numFrom 0 d.rows ∧ r5.nRows = nbC d.rows ∧ r5.cols = d.vars ∧ r5.cVal = d.coef.filterMap (entC d.row d.vars) ∧
      r5.aVal = d.coef.filterMap (entA d.row d.vars) ∧ r5.bVal = d.rhs.filterMap (entR d.row) ∧
      r5.rVal = d.rng.filterMap (entR d.row) ∧ r5.xVal = d.bnd.map (fun e => (d.vars.idxOf e.2.1, e.2.2, e.1)) ∧ r5.gVal = [] ∧
      r5.objCst = d.rhs.foldl (cstR d.row) 0 ∧ r5.objWasRead = d.rows.any (fun e => e.2 = .N) := by
    rcases hbnd with ⟨h0, rfl⟩ | ⟨hd', body, hl, hv, rfl⟩
    · exact ⟨r4, Reads.nil, e2, e3, e4, e5, e6, e7, e8, by rw [e9, h0]; rfl, e10, e11, e14⟩
    · have a3 : Reads num r4 (hd' :: body) _ := Reads.cons (readLine_header (header_type .bounds hl (by decide)) (by decide) (by decide) (by decide) (by decide))
        (reads_bounds hv _ rfl (by
          intro e he
          show _ ∈ r4.cols
          rw [e4]; exact hd.bndVar e he))
      rw [foldBnd] at a3
      refine ⟨_, a3, e2, e3, e4, e5, e6, e7, e8, ?_, e10, e11, e14⟩
      show r4.xVal ++ List.map (fun e : BndT × Word × ℝ => (r4.cols.idxOf e.2.1, e.2.2, e.1)) _ = _
      rw [e9, e4]; rfl
  -- quadratic part
  obtain ⟨r6, g1, hcl, g14⟩ : ∃ r6 : Rd, Reads num r5 quadL r6 ∧ Collected d r6 ∧ r6.objWasRead = d.rows.any (fun e => e.2 = .N) := by
    rcases hquad with ⟨h0, rfl⟩ | ⟨hd', body, hl, hv, rfl⟩
    · exact ⟨r5, Reads.nil, ⟨f2, f3, f4, f5, f6, f7, f8, f9, by rw [f10, h0]; rfl, f11⟩, f14⟩
    · have a3 : Reads num r5 (hd' :: body) _ := Reads.cons (readLine_header (header_type .quadobj hl (by decide)) (by decide) (by decide) (by decide) (by decide))
        (reads_quad hv _ rfl (by
          intro e he
          show _ ∈ r5.cols ∧ _ ∈ r5.cols
          rw [f4]; exact hd.quadVar e he))
      rw [foldQuad] at a3
      refine ⟨_, a3, ⟨f2, f3, f4, f5, f6, f7, f8, f9, ?_, f11⟩, f14⟩
      show r5.gVal ++ List.map (fun e : Word × Word × ℝ => (r5.cols.idxOf e.2.1, r5.cols.idxOf e.1, e.2.2)) _ = _
      rw [f10, f4]; rfl
  -- end
  have a4 : Reads num r6 (he :: post) _ := Reads.cons (readLine_header (header_type .endata he1 (by decide)) (by decide) (by decide) (by decide) (by decide)) (reads_skips hpost)
  obtain ⟨r7, h7, hc7, h14⟩ : ∃ r7 : Rd, Reads num r6 (he :: post) r7 ∧ Collected d r7 ∧ r7.objWasRead = d.rows.any (fun e => e.2 = .N) :=
    ⟨_, a4, ⟨hcl.rows, hcl.nRows, hcl.cols, hcl.cVal, hcl.aVal, hcl.bVal, hcl.rVal, hcl.xVal, hcl.gVal, hcl.objCst⟩, g14⟩
  have all := (((((b1.append c1).append d1).append e1).append f1).append g1).append h7
  refine ⟨r7, ?_, hc7, h14⟩
  have := all []
  simp only [List.append_assoc, List.cons_append, List.append_nil] at this ⊢
  rw [this]
  rfl

theorem reads_layout {num : Word → Option ℝ} {d : Desc} (hd : d.Ok) {file} (h : Layout num d file) :
    ∃ r, readLines num {} file = .ok r ∧ Collected d r := by
  obtain ⟨r, h1, h2, _⟩ := reads_layout_all hd h
  exact ⟨r, h1, h2⟩

theorem reads_layout_obj {num : Word → Option ℝ} {d : Desc} (hd : d.Ok) {file} (h : Layout num d file) (hN : ∃ e ∈ d.rows, e.2 = .N) :
    ∃ r, readLines num {} file = .ok r ∧ r.objWasRead = true := by
  obtain ⟨r, h1, _, h2⟩ := reads_layout_all hd h
  refine ⟨r, h1, ?_⟩
  rw [h2, List.any_eq_true]
  obtain ⟨e, he, h⟩ := hN
  exact ⟨e, he, by simpa using h⟩

end JrlQp.Qps
