import Verif.LogRead

/-!
# C71: the log is a Matlab script whose content is what was logged
-/

namespace JrlQp
namespace Log

open Matlab

variable {K : Type}

/-! ## Specification -/

/-- The rows of an `r x c` matrix; a matrix without coefficient is the empty matrix. -/
def rowsOf {α : Type} (r c : Nat) (M : Nat → Nat → α) : List (List α) :=
  if r = 0 ∨ c = 0 then [] else (List.range r).map fun i => (List.range c).map fun j => M i j

/-- A row of integers; no integer is the empty matrix. -/
def rowInts (l : List Int) : Val := .mat (if l = [] then [] else [l.map decInt])

/-- The Matlab value a logged value stands for. -/
def LVal.value (shw : K → Word) : LVal K → Val
  | .mat r c M => .mat (rowsOf r c fun i j => shw (M i j))
  | .num x => .mat [[shw x]]
  | .int i => .mat [[decInt i]]
  | .bool b => .mat [[if b then ['1'] else ['0']]]
  | .active l => rowInts l
  | .vec l => rowInts l
  | .sel p st => .cell [decInt p, decInt st]

/-- A logger for the structure at the path `pre`, then `id`: `a(3).b(1).id`. -/
structure Named (g : Logger) (pre : List (Word × Int)) (id : Word) : Prop where
  name : g.name.toList = pre.flatMap (fun s => s.1 ++ '(' :: decInt s.2 ++ [')', '.']) ++ id
  pre : ∀ s ∈ pre, Ident s.1
  id : Ident id

/-- The member the values logged outside of the iterations are assigned to. -/
def dataOf (id : Word) : Word := id ++ ['D', 'a', 't', 'a']

/-- An empty `std::vector`. -/
def emptyVec : LVal K → Bool
  | .vec l => l.isEmpty
  | _ => false

/-- The statements a call must produce: nothing if none of its flags is enabled; otherwise the comment, or one assignment for
each value (except an empty `std::vector`), to the member of the current iteration (counted from 1) or, with the flag `NO_ITER`,
to the member of the data. -/
def expected (shw : K → Word) (flags : BitVec 32) (pre : List (Word × Int)) (id : Word) (iter : Int) : LogCall K → List Stmt
  | .comment f t => if f &&& flags = 0 then [] else [.comment (' ' :: t)]
  | .log f vals =>
    if f &&& flags = 0 then []
    else (vals.filter fun v => !emptyVec v.2).map fun v =>
      .assign (pre.map (fun s => (s.1, some s.2)) ++
        [if f &&& noIterationFlag = 0 then (id, some (iter + 1)) else (dataOf id, none), (v.1, none)]) (v.2.value shw)
  | .startIter i =>
    if flags = 0 then [] else [.assign (pre.map (fun s => (s.1, some s.2)) ++ [(dataOf id, none), (['i', 't'], none)]) (.mat [[decInt i]])]

/-- The iteration after a call. -/
def LogCall.next (iter : Int) : LogCall K → Int
  | .startIter i => i
  | _ => iter

/-- The statements of a sequence of calls. -/
def expectedAll (shw : K → Word) (flags : BitVec 32) (pre : List (Word × Int)) (id : Word) : Int → List (LogCall K) → List Stmt
  | _, [] => []
  | iter, c :: cs => expected shw flags pre id iter c ++ expectedAll shw flags pre id (c.next iter) cs

/-- Calls with a text without end of line and with identifiers as names. -/
def LogCall.Ok : LogCall K → Prop
  | .comment _ t => '\n' ∉ t
  | .log _ vals => ∀ v ∈ vals, Ident v.1
  | .startIter _ => True

/-! ## Values -/

theorem forall₂_range {α β : Type} {P : α → β → Prop} {f : Nat → α} {g : Nat → β} (l : List Nat) (h : ∀ i ∈ l, P (f i) (g i)) :
    List.Forall₂ P (l.map f) (l.map g) := by
  induction l with
  | nil => exact .nil
  | cons a l ih => exact .cons (h a (by simp)) (ih fun i hi => h i (by simp [hi]))

theorem readRows_nil : readRows [] = some [] := by simp [readRows, trim]

theorem readVal_mat {t : Word} {R : List (List Word)} (h : readRows t = some R) : readVal ('[' :: t ++ [']']) = some (.mat R) := by
  simp [readVal, h]

/-- The text of a matrix, read by Matlab, is the matrix. -/
theorem readVal_toMatlab (r c : Nat) (W : Nat → Nat → Word) (hW : ∀ i < r, ∀ j < c, Clean (W i j)) :
    readVal (toMatlab r c W) = some (.mat (rowsOf r c W)) := by
  unfold toMatlab rowsOf
  by_cases h1 : c = 1
  · subst h1
    rw [if_pos rfl]
    unfold printMat
    by_cases hr : r = 0
    · subst hr
      simp only [or_true, if_true, true_or]
      exact readVal_mat (t := []) readRows_nil
    · rw [if_neg (by omega), if_neg (by omega)]
      generalize List.foldl max 0 _ = wd
      have := readRows_join (s := [' ']) (by simp) (L := (List.range r).map fun i => [padTo wd (W i 0)])
        (R := (List.range r).map fun i => [W i 0])
        (forall₂_range _ fun i _ => .cons (padTo_padded _ _) .nil) (by simp [hr]) (by simp) (by
          intro l hl w hw
          obtain ⟨i, hi, rfl⟩ := List.mem_map.1 hl
          have : w = W i 0 := by simpa using hw
          subst this
          exact hW i (List.mem_range.1 hi) 0 (by omega))
      rw [List.map_map] at this
      have e : (List.map (joinSep [',', ' '] ∘ fun i => [padTo wd (W i 0)]) (List.range r)) = (List.range r).map fun i => padTo wd (W i 0) :=
        List.map_congr_left fun i _ => rfl
      rw [e] at this
      simp only [List.range_one, List.map_cons, List.map_nil, joinSep]
      exact readVal_mat this
  · rw [if_neg h1]
    unfold printMat
    by_cases hr : r = 0 ∨ c = 0
    · rw [if_pos hr, if_pos hr]
      exact readVal_mat (t := []) readRows_nil
    · rw [if_neg hr, if_neg hr]
      generalize List.foldl max 0 _ = wd
      refine readVal_mat ?_
      have := readRows_join (s := ['\n', ' ']) (by simp) (L := (List.range r).map fun i => (List.range c).map fun j => padTo wd (W i j))
        (R := (List.range r).map fun i => (List.range c).map fun j => W i j)
        (forall₂_range _ fun i _ => forall₂_range _ fun j _ => padTo_padded _ _) (by simp; omega) (by
          intro l hl
          obtain ⟨i, hi, rfl⟩ := List.mem_map.1 hl
          simp; omega) (by
          intro l hl w hw
          obtain ⟨i, hi, rfl⟩ := List.mem_map.1 hl
          obtain ⟨j, hj, rfl⟩ := List.mem_map.1 hw
          exact hW i (List.mem_range.1 hi) j (List.mem_range.1 hj))
      rw [List.map_map] at this
      exact this

theorem padded_refl (w : Word) : Padded w w := ⟨[], by simp, rfl⟩

theorem forall₂_self (l : List Word) : List.Forall₂ Padded l l := by
  induction l with
  | nil => exact .nil
  | cons a l ih => exact .cons (padded_refl a) ih

theorem readVal_ints (l : List Int) : readVal ('[' :: joinSep [',', ' '] (l.map decInt) ++ [']']) = some (rowInts l) := by
  refine readVal_mat ?_
  by_cases h : l = []
  · subst h; exact readRows_nil
  · rw [if_neg h]
    have := readRows_join (s := []) (by simp) (L := [l.map decInt]) (R := [l.map decInt]) (.cons (forall₂_self _) .nil) (by simp)
      (by simp [h]) (by
        intro r hr w hw
        have : r = l.map decInt := by simpa using hr
        subst this
        obtain ⟨i, _, rfl⟩ := List.mem_map.1 hw
        exact decInt_clean i)
    simpa [joinSep] using this

theorem readVal_clean {w : Word} (h : Clean w) : readVal w = some (.mat [[w]]) := by
  have hn : readNum w = some w := readNum_pad (sp := []) (by simp) h
  unfold readVal
  split
  · exact absurd (h.2 '[' (by simp)) (by decide)
  · exact absurd (h.2 '{' (by simp)) (by decide)
  · rw [hn]; rfl

theorem readVal_text {shw : K → Word} (hs : ∀ x, Clean (shw x)) (v : LVal K) : readVal (v.text shw) = some (v.value shw) := by
  cases v with
  | mat r c M => exact readVal_toMatlab r c _ fun i _ j _ => hs _
  | num x => exact readVal_clean (hs x)
  | int i => exact readVal_clean (decInt_clean i)
  | bool b =>
    cases b
    · exact readVal_clean (w := ['0']) ⟨by simp, by decide⟩
    · exact readVal_clean (w := ['1']) ⟨by simp, by decide⟩
  | active l => exact readVal_ints l
  | vec l => exact readVal_ints l
  | sel p st =>
    have := readRow_join (l := [decInt p, decInt st]) (forall₂_self _) (by simp) (by
      intro w hw
      simp only [List.mem_cons, List.not_mem_nil, or_false] at hw
      rcases hw with rfl | rfl <;> exact decInt_clean _)
    have e : joinSep [',', ' '] [decInt p, decInt st] = decInt p ++ [',', ' '] ++ decInt st := rfl
    rw [e] at this
    show readVal ('{' :: (decInt p ++ [',', ' '] ++ decInt st) ++ ['}']) = _
    simp only [readVal, List.cons_append, List.getLast?_append, List.getLast?_singleton, Option.some_or, if_true,
      List.dropLast_concat, this, Option.map_some]
    rfl

/-! ## Cutting the script -/

/-- A text that does not end a statement. -/
def Bal (t : Word) : Prop := ∀ d acc cs, acc ≠ [] → stmts d false acc (t ++ cs) = stmts d false (t.reverse ++ acc) cs

theorem Bal.append {t u : Word} (h : Bal t) (k : Bal u) : Bal (t ++ u) := by
  intro d acc cs ha
  rw [List.append_assoc, h d acc _ ha, k d _ cs (by simp [ha]), List.reverse_append, List.append_assoc]

/-- Not a bracket or brace. -/
def flat (c : Char) : Bool := !(c == '[' || c == '{' || c == ']' || c == '}')

theorem flat_ne {c : Char} (h : flat c = true) : ¬ (c = '[' ∨ c = '{') ∧ ¬ (c = ']' ∨ c = '}') := by
  unfold flat at h
  constructor <;> rintro (rfl | rfl) <;> exact absurd h (by decide)

theorem stmts_flat : ∀ (t : Word) (d : Nat) (acc cs : Word), acc ≠ [] → (∀ c ∈ t, flat c = true) → (d = 0 → '\n' ∉ t) →
    stmts d false acc (t ++ cs) = stmts d false (t.reverse ++ acc) cs
  | [], _, _, _, _, _, _ => rfl
  | c :: t, d, acc, cs, ha, hf, hn => by
    obtain ⟨h1, h2⟩ := flat_ne (hf c (by simp))
    have h3 : ¬ (c = '\n' ∧ (false = true ∨ d = 0)) := by
      rintro ⟨rfl, h | h⟩
      · cases h
      · exact hn h (by simp)
    have he : acc.isEmpty = false := by simpa using ha
    rw [List.cons_append]
    show (if c = '\n' ∧ (false = true ∨ d = 0) then _ else _) = _
    rw [if_neg h3, if_neg (by simp : ¬ (false = true)), if_neg h1, if_neg h2, he]
    simp only [Bool.false_and, Bool.false_or]
    rw [stmts_flat t d (c :: acc) cs (by simp) (fun x hx => hf x (by simp [hx])) (fun hd hm => hn hd (by simp [hm]))]
    simp

theorem Bal.flat {t : Word} (h1 : ∀ c ∈ t, flat c = true) (h2 : '\n' ∉ t) : Bal t :=
  fun d acc cs ha => stmts_flat t d acc cs ha h1 fun _ => h2

theorem Bal.bracket {t : Word} {a b : Char} (ha : a = '[' ∨ a = '{') (hb : b = ']' ∨ b = '}') (h1 : ∀ c ∈ t, Log.flat c = true) :
    Bal (a :: t ++ [b]) := by
  intro d acc cs hacc
  have he : acc.isEmpty = false := by simpa using hacc
  have ha1 : ¬ (a = '\n' ∧ (false = true ∨ d = 0)) := by rintro ⟨rfl, _⟩; rcases ha with h | h <;> exact absurd h (by decide)
  have hb1 : ¬ (b = '\n' ∧ (false = true ∨ d + 1 = 0)) := by rintro ⟨rfl, _⟩; rcases hb with h | h <;> exact absurd h (by decide)
  have hb2 : ¬ (b = '[' ∨ b = '{') := by rcases hb with rfl | rfl <;> decide
  rw [List.cons_append, List.cons_append, List.append_assoc]
  show (if a = '\n' ∧ (false = true ∨ d = 0) then _ else _) = _
  rw [if_neg ha1, if_neg (by simp : ¬ (false = true)), if_pos ha, he]
  simp only [Bool.false_and, Bool.false_or]
  rw [stmts_flat t (d + 1) (a :: acc) _ (by simp) h1 (fun h => absurd h (by omega))]
  rw [List.singleton_append]
  show (if b = '\n' ∧ (false = true ∨ d + 1 = 0) then _ else _) = _
  have hne : (t.reverse ++ a :: acc).isEmpty = false := by simp
  rw [if_neg hb1, if_neg (by simp : ¬ (false = true)), if_neg hb2, if_pos hb, hne]
  simp

theorem flat_special {c : Char} (h : special c = false) : Log.flat c = true := by
  unfold Log.flat
  rw [beq_false_of_ne (special_ne h (d := '[') (by decide)), beq_false_of_ne (special_ne h (d := ']') (by decide)),
    beq_false_of_ne (special_ne h (d := '{') (by decide)), beq_false_of_ne (special_ne h (d := '}') (by decide))]
  rfl

theorem Bal.clean {w : Word} (h : ∀ c ∈ w, special c = false) : Bal w :=
  Bal.flat (fun c hc => flat_special (h c hc)) fun hn => absurd (h _ hn) (by decide)

/-- Form of the texts of the values. -/
inductive TextForm (t : Word) : Prop
  | clean (h : Clean t)
  | bracket (m : Word) (a b : Char) (e : t = a :: m ++ [b]) (ha : a = '[' ∨ a = '{') (hb : b = ']' ∨ b = '}')
      (hm : ∀ c ∈ m, Log.flat c = true ∧ c ≠ '=')

theorem TextForm.bal {t : Word} (h : TextForm t) : Bal t := by
  cases h with
  | clean h => exact Bal.clean h.2
  | bracket m a b e ha hb hm => rw [e]; exact Bal.bracket ha hb fun c hc => (hm c hc).1

theorem TextForm.eq {t : Word} (h : TextForm t) : '=' ∉ t := by
  cases h with
  | clean h => intro hm; exact absurd (h.2 _ hm) (by decide)
  | bracket m a b e ha hb hm =>
    rw [e]
    intro h
    simp only [List.cons_append, List.mem_cons, List.mem_append, List.not_mem_nil, or_false] at h
    rcases h with h | h | h
    · rcases ha with rfl | rfl <;> exact absurd h (by decide)
    · exact (hm _ h).2 rfl
    · rcases hb with rfl | rfl <;> exact absurd h (by decide)

theorem TextForm.head {t : Word} (h : TextForm t) : ∃ c u, t = c :: u ∧ blank c = false := by
  cases h with
  | clean h =>
    obtain ⟨c, u, e⟩ := List.exists_cons_of_ne_nil h.1
    exact ⟨c, u, e, special_blank (h.2 c (by simp [e]))⟩
  | bracket m a b e ha hb hm => exact ⟨a, m ++ [b], by simpa using e, by rcases ha with rfl | rfl <;> decide⟩

theorem printMat_form {cs rs : Word} (h1 : ∀ c ∈ cs, Log.flat c = true ∧ c ≠ '=') (h2 : ∀ c ∈ rs, Log.flat c = true ∧ c ≠ '=')
    (r c : Nat) (W : Nat → Nat → Word) (hW : ∀ i j, Clean (W i j)) : TextForm (printMat cs rs r c W) := by
  unfold printMat
  split_ifs
  · exact .bracket [] '[' ']' rfl (by simp) (by simp) (by simp)
  · refine .bracket _ '[' ']' rfl (by simp) (by simp) ?_
    intro ch hch
    rcases joinSep_mem hch with h | ⟨w, hw, h⟩
    · rcases List.mem_append.1 h with h | h
      · exact h2 ch h
      · have : ch = ' ' := by simpa using h
        subst this; exact ⟨by decide, by decide⟩
    · obtain ⟨i, _, rfl⟩ := List.mem_map.1 hw
      rcases joinSep_mem h with h | ⟨w, hw, h⟩
      · exact h1 ch h
      · obtain ⟨j, _, rfl⟩ := List.mem_map.1 hw
        rcases List.mem_append.1 h with h | h
        · have := List.eq_of_mem_replicate h
          subst this; exact ⟨by decide, by decide⟩
        · have := (hW i j).2 ch h
          exact ⟨flat_special this, special_ne this (by decide)⟩

theorem ints_form (l : List Int) : ∀ c ∈ joinSep [',', ' '] (l.map decInt), Log.flat c = true ∧ c ≠ '=' := by
  intro c hc
  rcases joinSep_mem hc with h | ⟨w, hw, h⟩
  · simp only [List.mem_cons, List.not_mem_nil, or_false] at h
    rcases h with rfl | rfl <;> exact ⟨by decide, by decide⟩
  · obtain ⟨i, _, rfl⟩ := List.mem_map.1 hw
    have := (decInt_clean i).2 c h
    exact ⟨flat_special this, special_ne this (by decide)⟩

theorem text_form {shw : K → Word} (hs : ∀ x, Clean (shw x)) (v : LVal K) : TextForm (v.text shw) := by
  cases v with
  | mat r c M =>
    simp only [LVal.text, toMatlab]
    split_ifs
    · exact printMat_form (by decide) (by decide) _ _ _ fun i j => hs _
    · exact printMat_form (by decide) (by decide) _ _ _ fun i j => hs _
  | num x => exact .clean (hs x)
  | int i => exact .clean (decInt_clean i)
  | bool b =>
    cases b
    · exact .clean (t := ['0']) ⟨by simp, by decide⟩
    · exact .clean (t := ['1']) ⟨by simp, by decide⟩
  | active l => exact .bracket _ '[' ']' rfl (by simp) (by simp) (ints_form l)
  | vec l => exact .bracket _ '[' ']' rfl (by simp) (by simp) (ints_form l)
  | sel p st =>
    refine .bracket (decInt p ++ [',', ' '] ++ decInt st) '{' '}' (by simp [LVal.text]) (by simp) (by simp) ?_
    have := ints_form [p, st]
    exact this

/-! ## Left-hand sides -/

/-- Text of a segment of a path. -/
def segText (s : Word × Option Int) : Word :=
  match s.2 with
  | none => s.1
  | some i => s.1 ++ '(' :: decInt i ++ [')']

theorem readIdent_ident {w : Word} (h : Ident w) : readIdent w = some w := by
  have : w.all identChar = true := by rw [List.all_eq_true]; exact h.2
  unfold readIdent; rw [if_pos ⟨h.1, this⟩]

theorem readSeg_text (s : Word × Option Int) (h : Ident s.1) : readSeg (segText s) = some s := by
  obtain ⟨w, i⟩ := s
  have hp : '(' ∉ w := fun hm => absurd (ident_special (h.2 _ hm)).1 (by decide)
  cases i with
  | none =>
    simp only [segText, readSeg, split_no hp, readIdent_ident h, Option.map_some]
  | some i =>
    have hd : '(' ∉ decInt i ++ [')'] := by
      intro hm
      rcases List.mem_append.1 hm with hm | hm
      · exact absurd ((decInt_clean i).2 _ hm) (by decide)
      · exact absurd hm (by decide)
    have e : segText (w, some i) = w ++ '(' :: (decInt i ++ [')']) := by simp [segText]
    unfold readSeg
    rw [e, split_app _ hp, split_no hd]
    simp only [List.getLast?_append, List.getLast?_singleton, Option.some_or, if_true, List.dropLast_concat, readIdent_ident h,
      readInt_decInt]

theorem segText_chars {s : Word × Option Int} (h : Ident s.1) : ∀ c ∈ segText s, c ≠ '.' ∧ blank c = false ∧ c ≠ '=' ∧ Log.flat c = true := by
  obtain ⟨w, i⟩ := s
  have hw : ∀ c ∈ w, c ≠ '.' ∧ blank c = false ∧ c ≠ '=' ∧ Log.flat c = true := by
    intro c hc
    have := ident_special (h.2 c hc)
    exact ⟨this.2, special_blank this.1, special_ne this.1 (by decide), flat_special this.1⟩
  cases i with
  | none => exact hw
  | some i =>
    intro c hc
    simp only [segText, List.cons_append, List.append_assoc, List.mem_append, List.mem_cons, List.not_mem_nil, or_false] at hc
    rcases hc with hc | rfl | hc | rfl
    · exact hw c hc
    · exact ⟨by decide, by decide, by decide, by decide⟩
    · have := decInt_chars i c hc
      exact ⟨this.2, special_blank this.1, special_ne this.1 (by decide), flat_special this.1⟩
    · exact ⟨by decide, by decide, by decide, by decide⟩

theorem segText_ne {s : Word × Option Int} (h : Ident s.1) : ∃ c u, segText s = c :: u ∧ identChar c = true := by
  obtain ⟨w, i⟩ := s
  obtain ⟨c, u, e⟩ := List.exists_cons_of_ne_nil h.1
  have e : w = c :: u := e
  have hc : identChar c = true := h.2 c (by rw [show (w, i).1 = w from rfl, e]; simp)
  cases i with
  | none => exact ⟨c, u, e, hc⟩
  | some i => exact ⟨c, u ++ '(' :: decInt i ++ [')'], by simp only [segText]; rw [show w = c :: u from e]; simp, hc⟩

/-- Text of a path. -/
def pathText (p : List (Word × Option Int)) : Word := joinSep ['.'] (p.map segText)

theorem readPath {p : List (Word × Option Int)} (hp : p ≠ []) (h : ∀ s ∈ p, Ident s.1) : all readSeg (split '.' (pathText p)) = some p := by
  obtain ⟨s, l, rfl⟩ := List.exists_cons_of_ne_nil hp
  unfold pathText
  rw [List.map_cons, split_join (c := '.') (s := []) (by simp) _ _ (fun hm => (segText_chars (h s (by simp)) _ hm).1 rfl) (by
    intro v hv hm
    obtain ⟨t, ht, rfl⟩ := List.mem_map.1 hv
    exact (segText_chars (h t (by simp [ht])) _ hm).1 rfl)]
  simp only [List.nil_append, List.map_id']
  refine all_some (.cons (readSeg_text s (h s (by simp))) ?_)
  have : ∀ l : List (Word × Option Int), (∀ s ∈ l, Ident s.1) → List.Forall₂ (fun a b => readSeg a = some b) (l.map segText) l := by
    intro l
    induction l with
    | nil => intro _; exact .nil
    | cons a l ih => intro h; exact .cons (readSeg_text a (h a (by simp))) (ih fun s hs => h s (by simp [hs]))
  exact this l fun s hs => h s (by simp [hs])

theorem pathText_chars {p : List (Word × Option Int)} (h : ∀ s ∈ p, Ident s.1) : ∀ c ∈ pathText p, blank c = false ∧ c ≠ '=' ∧ Log.flat c = true := by
  intro c hc
  rcases joinSep_mem hc with h1 | ⟨w, hw, h1⟩
  · have : c = '.' := by simpa using h1
    subst this; exact ⟨by decide, by decide, by decide⟩
  · obtain ⟨s, hs, rfl⟩ := List.mem_map.1 hw
    exact (segText_chars (h s hs) c h1).2

theorem pathText_head {p : List (Word × Option Int)} (hp : p ≠ []) (h : ∀ s ∈ p, Ident s.1) : ∃ c u, pathText p = c :: u ∧ identChar c = true := by
  obtain ⟨s, l, rfl⟩ := List.exists_cons_of_ne_nil hp
  obtain ⟨c, u, e, hc⟩ := segText_ne (h s (by simp))
  unfold pathText
  rw [List.map_cons]
  cases hl : l.map segText with
  | nil => exact ⟨c, u, by simpa [joinSep] using e, hc⟩
  | cons v l => exact ⟨c, u ++ ['.'] ++ joinSep ['.'] (v :: l), by simp [joinSep, e], hc⟩

/-! ## Statements -/

theorem readStmt_assign {p : List (Word × Option Int)} (hp : p ≠ []) (h : ∀ s ∈ p, Ident s.1) {t : Word} (ht : TextForm t) {v : Val}
    (hv : readVal t = some v) : readStmt (pathText p ++ [' ', '=', ' '] ++ t ++ [';']) = some (.assign p v) := by
  obtain ⟨c, u, e, hc⟩ := pathText_head hp h
  have hch := pathText_chars h
  obtain ⟨d, w, e2, hd⟩ := ht.head
  have hnp : c ≠ '%' := special_ne (ident_special hc).1 (by decide)
  have hsplit : split '=' (pathText p ++ [' ', '=', ' '] ++ t ++ [';']) = [pathText p ++ [' '], ' ' :: t ++ [';']] := by
    have : pathText p ++ [' ', '=', ' '] ++ t ++ [';'] = (pathText p ++ [' ']) ++ '=' :: (' ' :: t ++ [';']) := by simp
    rw [this, split_app, split_no]
    · intro hm
      simp only [List.cons_append, List.mem_cons, List.mem_append, List.not_mem_nil, or_false] at hm
      rcases hm with hm | hm | hm
      · exact absurd hm (by decide)
      · exact ht.eq hm
      · exact absurd hm (by decide)
    · intro hm
      rcases List.mem_append.1 hm with hm | hm
      · exact (hch _ hm).2.1 rfl
      · exact absurd hm (by decide)
  have hl : trim (pathText p ++ [' ']) = pathText p := by
    have hne : pathText p ≠ [] := by rw [e]; simp
    have := trim_pad (sp := []) (w := pathText p) (sp' := [' ']) (by simp) (by simp [blank]) hne (hch _ (List.head_mem _)).1
      (hch _ (List.getLast_mem _)).1
    simpa using this
  have hr : trim (' ' :: t ++ [';']) = t ++ [';'] := by
    have := trim_pad (sp := [' ']) (w := t ++ [';']) (sp' := []) (by simp [blank]) (by simp) (by simp) (by simp [e2, hd]) (by simp; decide)
    simpa using this
  unfold readStmt
  split
  · rename_i heq
    rw [e] at heq
    simp only [List.cons_append, List.cons.injEq] at heq
    exact absurd heq.1 hnp
  · rw [hsplit]
    simp only []
    rw [hr, hl, readPath hp h]
    simp [hv]

theorem stmts_start {c : Char} {t cs : Word} (hc : identChar c = true) (h : Bal t) :
    stmts 0 false [] (c :: t ++ '\n' :: cs) = (c :: t) :: stmts 0 false [] cs := by
  have hs := (ident_special hc).1
  have hn : c ≠ '\n' := special_ne hs (by decide)
  obtain ⟨h1, h2⟩ := flat_ne (flat_special hs)
  have hpc : (c == '%') = false := beq_false_of_ne (special_ne hs (by decide))
  rw [List.cons_append]
  show (if c = '\n' ∧ (false = true ∨ 0 = 0) then _ else _) = _
  rw [if_neg (fun h => hn h.1), if_neg (by simp : ¬ (false = true)), if_neg h1, if_neg h2, hpc]
  simp only [Bool.and_false, Bool.or_false]
  rw [h 0 [c] _ (by simp)]
  show (if '\n' = '\n' ∧ (false = true ∨ 0 = 0) then _ else _) = _
  rw [if_pos (by simp)]
  simp

theorem stmts_assign {p : List (Word × Option Int)} (hp : p ≠ []) (h : ∀ s ∈ p, Ident s.1) {t : Word} (ht : TextForm t) (cs : Word) :
    stmts 0 false [] (pathText p ++ [' ', '=', ' '] ++ t ++ [';', '\n'] ++ cs)
      = (pathText p ++ [' ', '=', ' '] ++ t ++ [';']) :: stmts 0 false [] cs := by
  obtain ⟨c, u, e, hc⟩ := pathText_head hp h
  have hch := pathText_chars h
  have hu : Bal u := Bal.flat (fun x hx => (hch x (by rw [e]; simp [hx])).2.2) fun hm => by
    have := (hch '\n' (by rw [e]; simp [hm])).1
    exact absurd this (by decide)
  have hb : Bal (u ++ [' ', '=', ' '] ++ t ++ [';']) :=
    ((hu.append (Bal.flat (by decide) (by decide))).append ht.bal).append (Bal.flat (by decide) (by decide))
  have := stmts_start (cs := cs) hc hb
  rw [e]
  simpa using this

theorem stmts_comment : ∀ (t acc cs : Word), '\n' ∉ t →
    stmts 0 true acc (t ++ '\n' :: cs) = (t.reverse ++ acc).reverse :: stmts 0 false [] cs
  | [], acc, cs, _ => by
    show (if '\n' = '\n' ∧ (true = true ∨ 0 = 0) then _ else _) = _
    rw [if_pos (by simp)]; simp
  | c :: t, acc, cs, h => by
    have h1 : c ≠ '\n' := fun e => h (by simp [e])
    rw [List.cons_append]
    show (if c = '\n' ∧ (true = true ∨ 0 = 0) then _ else _) = _
    rw [if_neg (fun h => h1 h.1)]
    simp only [if_true, Bool.true_or]
    rw [stmts_comment t (c :: acc) cs (fun e => h (by simp [e]))]
    simp

theorem stmts_comment_line {t : Word} (h : '\n' ∉ t) (cs : Word) :
    stmts 0 false [] ('%' :: ' ' :: t ++ ['\n'] ++ cs) = ('%' :: ' ' :: t) :: stmts 0 false [] cs := by
  have := stmts_comment (' ' :: t) ['%'] cs (by simp [h])
  rw [show '%' :: ' ' :: t ++ ['\n'] ++ cs = '%' :: ((' ' :: t) ++ '\n' :: cs) by simp]
  show (if '%' = '\n' ∧ (false = true ∨ 0 = 0) then _ else _) = _
  rw [if_neg (by decide), if_neg (by decide), if_neg (by decide), if_neg (by decide)]
  simpa using this

/-! ## The script -/

theorem pathText_pre (pre : List (Word × Int)) {l : List (Word × Option Int)} (hl : l ≠ []) :
    pathText (pre.map (fun s => (s.1, some s.2)) ++ l) = pre.flatMap (fun s => s.1 ++ '(' :: decInt s.2 ++ [')', '.']) ++ pathText l := by
  induction pre with
  | nil => rfl
  | cons s pre ih =>
    have hne : (pre.map (fun s => (s.1, some s.2)) ++ l).map segText ≠ [] := by simp [hl]
    obtain ⟨v, k, e⟩ := List.exists_cons_of_ne_nil hne
    have e1 : pathText ((s :: pre).map (fun s => (s.1, some s.2)) ++ l) = segText (s.1, some s.2) ++ ['.'] ++ pathText (pre.map (fun s => (s.1, some s.2)) ++ l) := by
      unfold pathText
      rw [List.map_cons, List.cons_append, List.map_cons, e]
      rfl
    rw [e1, ih]
    simp [segText]

theorem Ident.data {w : Word} (h : Ident w) : Ident (dataOf w) := by
  refine ⟨by simp [dataOf], ?_⟩
  intro c hc
  rcases List.mem_append.1 hc with hc | hc
  · exact h.2 c hc
  · have : ∀ c ∈ ['D', 'a', 't', 'a'], identChar c = true := by decide
    exact this c hc

/-- The path a value is assigned to. -/
def target (pre : List (Word × Int)) (id : Word) (iter : Int) (b : Bool) (name : Word) : List (Word × Option Int) :=
  pre.map (fun s => (s.1, some s.2)) ++ [if b then (id, some (iter + 1)) else (dataOf id, none), (name, none)]

theorem target_ident {g : Logger} {pre : List (Word × Int)} {id : Word} (hg : Named g pre id) (iter : Int) (b : Bool) {name : Word} (hn : Ident name) :
    ∀ s ∈ target pre id iter b name, Ident s.1 := by
  intro s hs
  rcases List.mem_append.1 hs with hs | hs
  · obtain ⟨t, ht, rfl⟩ := List.mem_map.1 hs
    exact hg.pre t ht
  · simp only [List.mem_cons, List.not_mem_nil, or_false] at hs
    rcases hs with rfl | rfl
    · cases b
      · exact hg.id.data
      · exact hg.id
    · exact hn

theorem logVal_eq {shw : K → Word} {g : Logger} {pre : List (Word × Int)} {id : Word} (hg : Named g pre id) (b : Bool) (name : Word) {v : LVal K}
    (hv : v.silent = false) :
    logVal shw g b name v = pathText (target pre id g.iter b name) ++ [' ', '=', ' '] ++ v.text shw ++ [';', '\n'] := by
  have e : logIter g b ++ '.' :: name = pathText (target pre id g.iter b name) := by
    unfold target
    rw [pathText_pre pre (by simp)]
    unfold logIter
    rw [hg.name]
    cases b <;> simp [pathText, joinSep, segText, dataOf]
  unfold logVal
  rw [hv, if_neg (by simp), e]

/-- A text that is read as the statements `S`. -/
def ReadAs (t : Word) (S : List Stmt) : Prop :=
  ∃ L, (∀ cs, stmts 0 false [] (t ++ cs) = L ++ stmts 0 false [] cs) ∧ List.Forall₂ (fun a b => readStmt a = some b) L S

theorem ReadAs.nil : ReadAs [] [] := ⟨[], fun _ => rfl, .nil⟩

theorem ReadAs.append {t u : Word} {S T : List Stmt} (h : ReadAs t S) (k : ReadAs u T) : ReadAs (t ++ u) (S ++ T) := by
  obtain ⟨L, h1, h2⟩ := h
  obtain ⟨M, k1, k2⟩ := k
  refine ⟨L ++ M, fun cs => ?_, List.rel_append h2 k2⟩
  rw [List.append_assoc, h1, k1, List.append_assoc]

theorem logVal_read {shw : K → Word} (hs : ∀ x, Clean (shw x)) {g : Logger} {pre : List (Word × Int)} {id : Word} (hg : Named g pre id)
    (b : Bool) {name : Word} (hn : Ident name) (v : LVal K) :
    ReadAs (logVal shw g b name v) (if v.silent then [] else [.assign (target pre id g.iter b name) (v.value shw)]) := by
  cases hv : v.silent with
  | true => simp only [logVal, hv, if_true]; exact ReadAs.nil
  | false =>
    rw [logVal_eq hg b name hv, if_neg (by simp)]
    have hid := target_ident hg g.iter b hn
    have hne : target pre id g.iter b name ≠ [] := by simp [target]
    exact ⟨_, fun cs => by rw [stmts_assign hne hid (text_form hs v) cs]; exact (List.singleton_append).symm,
      .cons (readStmt_assign hne hid (text_form hs v) (readVal_text hs v)) .nil⟩

theorem silent_eq (v : LVal K) : v.silent = emptyVec v := by
  cases v with
  | vec l => cases l <;> rfl
  | _ => rfl

theorem logText_read {shw : K → Word} (hs : ∀ x, Clean (shw x)) {g : Logger} {pre : List (Word × Int)} {id : Word} (hg : Named g pre id)
    (f : BitVec 32) (vals : List (Word × LVal K)) (hn : ∀ v ∈ vals, Ident v.1) :
    ReadAs (logText shw g f vals) (expected shw g.flags pre id g.iter (.log f vals)) := by
  unfold logText
  simp only [expected]
  by_cases hf : f &&& g.flags = 0
  · rw [if_neg (by simpa using hf), if_pos hf]; exact ReadAs.nil
  · rw [if_pos hf, if_neg hf]
    induction vals with
    | nil => exact ReadAs.nil
    | cons v vals ih =>
      rw [List.flatMap_cons]
      have h1 := logVal_read hs hg (decide (f &&& noIterationFlag = 0)) (hn v (by simp)) v.2
      have h2 := h1.append (ih fun w hw => hn w (by simp [hw]))
      convert h2 using 1
      rw [silent_eq]
      by_cases hsil : emptyVec v.2 = true
      · simp [hsil]
      · simp [hsil, target]

theorem allOnes_and (f : BitVec 32) : ~~~(0 : BitVec 32) &&& f = f := by
  rw [show ~~~(0 : BitVec 32) = BitVec.allOnes 32 from by decide]
  exact BitVec.allOnes_and

theorem write_read {shw : K → Word} (hs : ∀ x, Clean (shw x)) {g : Logger} {pre : List (Word × Int)} {id : Word} (hg : Named g pre id)
    (c : LogCall K) (hc : c.Ok) : ReadAs (write shw g c).2 (expected shw g.flags pre id g.iter c) := by
  cases c with
  | comment f t =>
    simp only [write, commentText, expected]
    by_cases hf : f &&& g.flags = 0
    · rw [if_neg (by simpa using hf), if_pos hf]; exact ReadAs.nil
    · rw [if_pos hf, if_neg hf]
      exact ⟨[_], fun cs => stmts_comment_line hc cs, .cons rfl .nil⟩
  | log f vals => exact logText_read hs hg f vals hc
  | startIter i =>
    have hg' : Named { g with iter := i } pre id := ⟨hg.name, hg.pre, hg.id⟩
    have := logText_read hs hg' (~~~0) [(['i', 't'], LVal.int i)] (by
      intro v hv
      have : v = (['i', 't'], LVal.int i) := by simpa using hv
      subst this
      exact ⟨by simp, show ∀ c ∈ ['i', 't'], identChar c = true by decide⟩)
    simp only [write]
    convert this using 1
    simp only [expected, allOnes_and]
    have h0 : noIterationFlag ≠ 0 := by decide
    by_cases hf : g.flags = 0
    · rw [if_pos hf, if_pos hf]
    · rw [if_neg hf, if_neg hf, if_neg h0]
      rfl

theorem write_logger {shw : K → Word} {g : Logger} {pre : List (Word × Int)} {id : Word} (hg : Named g pre id) (c : LogCall K) :
    Named (write shw g c).1 pre id ∧ (write shw g c).1.flags = g.flags ∧ (write shw g c).1.iter = c.next g.iter := by
  cases c <;> exact ⟨⟨hg.name, hg.pre, hg.id⟩, rfl, rfl⟩

/-- **C71.** Whatever is logged, in whatever order, with whatever flags: the text written by a logger is a script that Matlab
reads as exactly the comments and assignments that pass the filter, each value being assigned to the member of the current
iteration (numbered from 1), or of the data if it is logged with `NO_ITER`. -/
theorem C71_script {shw : K → Word} (hs : ∀ x, Clean (shw x)) {g : Logger} {pre : List (Word × Int)} {id : Word} (hg : Named g pre id)
    (calls : List (LogCall K)) (hc : ∀ c ∈ calls, c.Ok) :
    readScript (script shw g calls) = some (expectedAll shw g.flags pre id g.iter calls) := by
  have key : ∀ (calls : List (LogCall K)) (g : Logger), Named g pre id → (∀ c ∈ calls, c.Ok) →
      ReadAs (script shw g calls) (expectedAll shw g.flags pre id g.iter calls) := by
    intro calls
    induction calls with
    | nil => intro g _ _; exact ReadAs.nil
    | cons c cs ih =>
      intro g hg hc
      obtain ⟨h1, h2, h3⟩ := write_logger (shw := shw) hg c
      have := ih _ h1 fun d hd => hc d (by simp [hd])
      rw [h2, h3] at this
      exact (write_read hs hg c (hc c (by simp))).append this
  obtain ⟨L, h1, h2⟩ := key calls g hg hc
  have := h1 []
  rw [List.append_nil] at this
  unfold readScript
  rw [this]
  simpa [stmts] using all_some h2

/-- **C71, matrices.** The text of a matrix determines the number of rows and columns and the text of each coefficient, unless
the matrix has no coefficient. -/
theorem C71_matrix {r c r' c' : Nat} {W W' : Nat → Nat → Word} (hW : ∀ i < r, ∀ j < c, Clean (W i j)) (hW' : ∀ i < r', ∀ j < c', Clean (W' i j))
    (h : toMatlab r c W = toMatlab r' c' W') (hr : 0 < r) (hc : 0 < c) : r' = r ∧ c' = c ∧ ∀ i < r, ∀ j < c, W' i j = W i j := by
  have h1 := readVal_toMatlab r c W hW
  rw [h, readVal_toMatlab r' c' W' hW'] at h1
  simp only [Option.some.injEq, Val.mat.injEq, rowsOf] at h1
  rw [if_neg (by omega : ¬ (r = 0 ∨ c = 0))] at h1
  split_ifs at h1 with h0
  · exact absurd (congrArg List.length h1) (by simp; omega)
  · have hlen := congrArg List.length h1
    simp only [List.length_map, List.length_range] at hlen
    have hrow : ∀ i < r, (List.range c').map (fun j => W' i j) = (List.range c).map fun j => W i j := by
      intro i hi
      have := congrArg (fun l => l[i]?) h1
      simpa [List.getElem?_map, List.getElem?_range, hi, hlen ▸ hi] using this
    have hc' : c' = c := by simpa using congrArg List.length (hrow 0 hr)
    refine ⟨hlen, hc', fun i hi j hj => ?_⟩
    have := congrArg (fun l => l[j]?) (hrow i hi)
    simpa [List.getElem?_map, List.getElem?_range, hj, hc'] using this

theorem dec_eq (n : Nat) : dec n = Nat.toDigits 10 n := by
  induction n using Nat.strong_induction_on with
  | _ n ih =>
    unfold dec
    by_cases h : n < 10
    · rw [if_pos h, Nat.toDigits_of_lt_base h]
    · rw [if_neg h, Nat.toDigits_of_base_le (by omega) (by omega), ih (n / 10) (by omega)]

theorem toString_int (i : Int) : (toString i).toList = decInt i := by
  cases i with
  | ofNat n =>
    show (Nat.repr n).toList = dec n
    rw [dec_eq, Nat.toList_repr]
  | negSucc n =>
    show ("-" ++ Nat.repr (n + 1)).toList = '-' :: dec (n + 1)
    rw [dec_eq, String.toList_append, Nat.toList_repr]
    rfl

/-- **C71, sub-loggers.** The logger returned by `subLog` writes to a structure inside the member of the current iteration. -/
theorem C71_subLog {g : Logger} {pre : List (Word × Int)} {id : Word} (hg : Named g pre id) {name : String} (hn : Ident name.toList) :
    Named (g.subLog name) (pre ++ [(id, g.iter + 1)]) name.toList := by
  refine ⟨?_, ?_, hn⟩
  · show (g.name ++ "(" ++ toString (g.iter + 1) ++ ")." ++ name).toList = _
    simp only [String.toList_append, hg.name, toString_int]
    simp
  · intro s hs
    rcases List.mem_append.1 hs with hs | hs
    · exact hg.pre s hs
    · have : s = (id, g.iter + 1) := by simpa using hs
      subst this; exact hg.id

/-! ## Example -/

/-- A logger with the name and flags of a solver. -/
def exLogger : Logger := { flags := 1#32 ||| noIterationFlag, iter := -1, name := "qpLog", os := 0 }

/-- Calls: data outside of the iterations, then two iterations. -/
def exCalls : List (LogCall Int) :=
  [.log (1#32 ||| noIterationFlag) [(['G'], .mat 2 2 fun i j => 10 * i - j), (['e'], .vec [])], .startIter 0,
    .log 1#32 [(['x'], .mat 2 1 fun i _ => i), (['f', '_'], .num 12), (['q'], .sel 3 1)], .comment 1#32 ['o', 'k'], .startIter 1,
    .log 1#32 [(['A'], .active [2, 10])], .log 2#32 [(['n'], .num 1)]]

example : Named exLogger [] ['q', 'p', 'L', 'o', 'g'] :=
  ⟨by decide, by simp, by simp, by decide⟩

example : ∀ c ∈ exCalls, c.Ok := by
  intro c hc
  simp only [exCalls, List.mem_cons, List.not_mem_nil, or_false] at hc
  rcases hc with rfl | rfl | rfl | rfl | rfl | rfl | rfl <;> simp [LogCall.Ok, Ident] <;> decide

/-- The text, as written. -/
example : String.ofList (script decInt exLogger exCalls) =
    "qpLogData.G = [ 0, -1;\n 10,  9];\nqpLogData.it = 0;\nqpLog(1).x = [0; 1];\nqpLog(1).f_ = 12;\nqpLog(1).q = {3, 1};\n% ok\nqpLogData.it = 1;\nqpLog(2).A = [2, 10];\n" := by
  decide +kernel

end Log
end JrlQp
