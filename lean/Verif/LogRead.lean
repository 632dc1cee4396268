import Verif.LogText
import Verif.MatlabSpec
import Mathlib.Tactic

/-!
# Reading back the text of the log: lemmas
-/

namespace JrlQp
namespace Log

open Matlab

/-! ## Numbers -/

theorem digit_props (n : Nat) (h : n < 10) : (Nat.digitChar n).isDigit = true ∧ (Nat.digitChar n).toNat - '0'.toNat = n ∧
    special (Nat.digitChar n) = false ∧ identChar (Nat.digitChar n) = true ∧ Nat.digitChar n ≠ '-' ∧ Nat.digitChar n ≠ '.' := by
  interval_cases n <;> decide

theorem dec_digit (n : Nat) : ∀ c ∈ dec n, ∃ k < 10, c = Nat.digitChar k := by
  induction n using Nat.strong_induction_on with
  | _ n ih =>
    unfold dec
    split_ifs with h
    · intro c hc
      exact ⟨n, h, by simpa using hc⟩
    · intro c hc
      rcases List.mem_append.1 hc with hc | hc
      · exact ih (n / 10) (by omega) c hc
      · exact ⟨n % 10, by omega, by simpa using hc⟩

theorem dec_ne_nil (n : Nat) : dec n ≠ [] := by
  unfold dec; split_ifs <;> simp

theorem dec_fold (n : Nat) : (dec n).foldl (fun n c => 10 * n + (c.toNat - '0'.toNat)) 0 = n := by
  induction n using Nat.strong_induction_on with
  | _ n ih =>
    unfold dec
    split_ifs with h
    · simp only [List.foldl_cons, List.foldl_nil, (digit_props n h).2.1]; omega
    · rw [List.foldl_append, ih (n / 10) (by omega)]
      simp only [List.foldl_cons, List.foldl_nil, (digit_props (n % 10) (by omega)).2.1]; omega

theorem readNat_dec (n : Nat) : readNat (dec n) = some n := by
  have hall : (dec n).all Char.isDigit = true := by
    rw [List.all_eq_true]
    intro c hc
    obtain ⟨k, hk, rfl⟩ := dec_digit n c hc
    exact (digit_props k hk).1
  unfold readNat
  rw [if_pos ⟨dec_ne_nil n, hall⟩, dec_fold]

theorem readInt_decInt (i : Int) : readInt (decInt i) = some i := by
  cases i with
  | ofNat n =>
    obtain ⟨a, l, e⟩ : ∃ a l, dec n = a :: l := List.exists_cons_of_ne_nil (dec_ne_nil n)
    have ha : a ≠ '-' := by
      obtain ⟨k, hk, rfl⟩ := dec_digit n a (by rw [e]; simp)
      exact (digit_props k hk).2.2.2.2.1
    have := readNat_dec n
    simp only [decInt]
    rw [e] at this ⊢
    unfold readInt
    split
    · rename_i h; simp only [List.cons.injEq] at h; exact absurd h.1 ha
    · rw [this]; rfl
  | negSucc n =>
    simp only [decInt, readInt, readNat_dec, Option.map_some]
    rfl

/-- A text that can be a number. -/
def Clean (w : Word) : Prop := w ≠ [] ∧ ∀ c ∈ w, special c = false

/-- A text that can be an identifier. -/
def Ident (w : Word) : Prop := w ≠ [] ∧ ∀ c ∈ w, identChar c = true

theorem decInt_chars (i : Int) : ∀ c ∈ decInt i, special c = false ∧ c ≠ '.' := by
  have hd : ∀ n, ∀ c ∈ dec n, special c = false ∧ c ≠ '.' := by
    intro n c hc
    obtain ⟨k, hk, rfl⟩ := dec_digit n c hc
    exact ⟨(digit_props k hk).2.2.1, (digit_props k hk).2.2.2.2.2⟩
  cases i with
  | ofNat n => exact hd n
  | negSucc n =>
    intro c hc
    simp only [decInt, List.mem_cons] at hc
    rcases hc with rfl | hc
    · exact ⟨by decide, by decide⟩
    · exact hd _ c hc

theorem decInt_clean (i : Int) : Clean (decInt i) := by
  refine ⟨?_, fun c hc => (decInt_chars i c hc).1⟩
  cases i with
  | ofNat n => exact dec_ne_nil n
  | negSucc n => simp [decInt]

theorem special_blank {c : Char} (h : special c = false) : blank c = false := by
  unfold special at h
  by_contra hb
  simp [hb] at h

theorem special_ne {c d : Char} (h : special c = false) (hd : special d = true) : c ≠ d := by
  rintro rfl; rw [h] at hd; cases hd

theorem ident_special {c : Char} (h : identChar c = true) : special c = false ∧ c ≠ '.' := by
  have key : ∀ d : Char, identChar d = false → c ≠ d := by
    rintro d hd rfl; rw [h] at hd; cases hd
  refine ⟨?_, key '.' (by decide)⟩
  have e := fun d hd => beq_false_of_ne (key d hd)
  unfold special blank
  rw [e ' ' (by decide), e '\t' (by decide), e '\n' (by decide), e '[' (by decide), e ']' (by decide), e '{' (by decide),
    e '}' (by decide), e '(' (by decide), e ')' (by decide), e ',' (by decide), e ';' (by decide), e '=' (by decide), e '%' (by decide)]
  rfl

/-! ## Cutting -/

theorem split_no {c : Char} : ∀ {w : Word}, c ∉ w → split c w = [w]
  | [], _ => rfl
  | x :: xs, h => by
    have h1 : x ≠ c := fun e => h (by simp [e])
    have h2 : c ∉ xs := fun e => h (by simp [e])
    unfold split
    rw [if_neg h1, split_no h2]

theorem split_app {c : Char} : ∀ {w : Word} (t : Word), c ∉ w → split c (w ++ c :: t) = w :: split c t
  | [], t, _ => by simp [split]
  | x :: xs, t, h => by
    have h1 : x ≠ c := fun e => h (by simp [e])
    have h2 : c ∉ xs := fun e => h (by simp [e])
    rw [List.cons_append]
    show (if x = c then [] :: split c (xs ++ c :: t) else _) = _
    rw [if_neg h1, split_app t h2]

theorem split_join {c : Char} {s : Word} (hs : c ∉ s) : ∀ (w : Word) (l : List Word), c ∉ w → (∀ v ∈ l, c ∉ v) →
    split c (joinSep (c :: s) (w :: l)) = w :: l.map (s ++ ·)
  | w, [], hw, _ => by simp [joinSep, split_no hw]
  | w, v :: l, hw, hl => by
    have e : joinSep (c :: s) (w :: v :: l) = w ++ c :: (s ++ joinSep (c :: s) (v :: l)) := by simp [joinSep]
    have e2 : s ++ joinSep (c :: s) (v :: l) = joinSep (c :: s) ((s ++ v) :: l) := by
      cases l <;> simp [joinSep]
    rw [e, split_app _ hw, e2, split_join hs (s ++ v) l]
    · simp
    · simp only [List.mem_append, not_or]; exact ⟨hs, hl v (by simp)⟩
    · intro u hu; exact hl u (by simp [hu])

/-! ## Trimming -/

theorem dropWhile_pre {p : Char → Bool} {sp w : Word} (h : ∀ c ∈ sp, p c = true) : (sp ++ w).dropWhile p = w.dropWhile p := by
  induction sp with
  | nil => rfl
  | cons a sp ih =>
    rw [List.cons_append, List.dropWhile_cons_of_pos (h a (by simp))]
    exact ih fun c hc => h c (by simp [hc])

theorem trim_pad {sp w sp' : Word} (h1 : ∀ c ∈ sp, blank c = true) (h2 : ∀ c ∈ sp', blank c = true)
    (hw : w ≠ []) (hh : blank (w.head hw) = false) (hl : blank (w.getLast hw) = false) : trim (sp ++ w ++ sp') = w := by
  unfold trim
  rw [List.append_assoc, dropWhile_pre h1]
  have e1 : (w ++ sp').dropWhile blank = w ++ sp' := by
    obtain ⟨a, l, rfl⟩ := List.exists_cons_of_ne_nil hw
    rw [List.cons_append, List.dropWhile_cons_of_neg (by simpa using hh)]
  rw [e1, List.reverse_append, dropWhile_pre (by simpa using h2)]
  have e2 : w.reverse.dropWhile blank = w.reverse := by
    have hr : w.reverse ≠ [] := by simpa using hw
    obtain ⟨a, l, e⟩ := List.exists_cons_of_ne_nil hr
    have ha : a = w.getLast hw := by
      have : w.reverse.head hr = w.getLast hw := by simp
      rw [← this]; simp [e]
    rw [e, List.dropWhile_cons_of_neg (by rw [ha, hl]; simp)]
  rw [e2, List.reverse_reverse]

theorem trim_clean {sp w : Word} (h1 : ∀ c ∈ sp, blank c = true) (hw : Clean w) : trim (sp ++ w) = w := by
  have := trim_pad (sp := sp) (sp' := []) (w := w) h1 (by simp) hw.1 (special_blank (hw.2 _ (List.head_mem _)))
    (special_blank (hw.2 _ (List.getLast_mem _)))
  simpa using this

theorem mem_dropWhile {p : Char → Bool} {c : Char} (hb : p c = false) : ∀ {t : Word}, c ∈ t → c ∈ t.dropWhile p
  | a :: t, h => by
    by_cases ha : p a = true
    · rw [List.dropWhile_cons_of_pos ha]
      rcases List.mem_cons.1 h with rfl | h
      · rw [hb] at ha; cases ha
      · exact mem_dropWhile hb h
    · rw [List.dropWhile_cons_of_neg ha]; exact h

theorem trim_ne_nil {t : Word} {c : Char} (hc : c ∈ t) (hb : blank c = false) : trim t ≠ [] := by
  have : c ∈ trim t := by
    unfold trim
    rw [List.mem_reverse]
    exact mem_dropWhile hb (by rw [List.mem_reverse]; exact mem_dropWhile hb hc)
  intro h; rw [h] at this; simp at this

/-! ## Values -/

theorem all_some {α β : Type} {f : α → Option β} : ∀ {l : List α} {r : List β}, List.Forall₂ (fun a b => f a = some b) l r → all f l = some r
  | _, _, .nil => rfl
  | _, _, .cons h t => by simp only [all, h, all_some t]

theorem readNum_pad {sp w : Word} (h1 : ∀ c ∈ sp, blank c = true) (hw : Clean w) : readNum (sp ++ w) = some w := by
  have hall : w.all (fun c => !special c) = true := by
    rw [List.all_eq_true]
    intro c hc
    rw [hw.2 c hc]; rfl
  unfold readNum
  simp only [trim_clean h1 hw]
  rw [if_pos ⟨hw.1, hall⟩]

/-- `t` is `w` after blanks. -/
def Padded (t w : Word) : Prop := ∃ sp : Word, (∀ c ∈ sp, c = ' ' ∨ c = '\n') ∧ t = sp ++ w

theorem Padded.blank {sp : Word} (h : ∀ c ∈ sp, c = ' ' ∨ c = '\n') : ∀ c ∈ sp, Matlab.blank c = true := by
  intro c hc; rcases h c hc with rfl | rfl <;> decide

theorem Padded.readNum {t w : Word} (h : Padded t w) (hw : Clean w) : readNum t = some w := by
  obtain ⟨sp, h1, rfl⟩ := h
  exact readNum_pad (Padded.blank h1) hw

theorem Padded.mem {t w : Word} (h : Padded t w) (hw : Clean w) {c : Char} (hc : special c = true) (h1 : c ≠ ' ') (h2 : c ≠ '\n') : c ∉ t := by
  obtain ⟨sp, h3, rfl⟩ := h
  intro hm
  rcases List.mem_append.1 hm with hm | hm
  · rcases h3 c hm with e | e
    · exact h1 e
    · exact h2 e
  · rw [hw.2 c hm] at hc; cases hc

theorem Padded.pre {t w : Word} (h : Padded t w) {s : Word} (hs : ∀ c ∈ s, c = ' ' ∨ c = '\n') : Padded (s ++ t) w := by
  obtain ⟨sp, h1, rfl⟩ := h
  refine ⟨s ++ sp, fun c hc => ?_, by simp⟩
  rcases List.mem_append.1 hc with hc | hc
  · exact hs c hc
  · exact h1 c hc

theorem padTo_padded (k : Nat) (w : Word) : Padded (padTo k w) w :=
  ⟨_, fun c hc => Or.inl (List.eq_of_mem_replicate hc), rfl⟩

/-- A row: padded numbers separated by `, `. -/
theorem readRow_join {l : List Word} {r : List Word} (h : List.Forall₂ Padded l r) (hl : l ≠ []) (hr : ∀ w ∈ r, Clean w) :
    readRow (joinSep [',', ' '] l) = some r := by
  cases h with
  | nil => exact absurd rfl hl
  | cons h t =>
    rename_i a w l r
    have hc : ∀ {l r : List Word}, List.Forall₂ Padded l r → (∀ w ∈ r, Clean w) → ∀ v ∈ l, (',' : Char) ∉ v := by
      intro l r h
      induction h with
      | nil => simp
      | cons h _ ih =>
        intro hr v hv
        rcases List.mem_cons.1 hv with rfl | hv
        · exact h.mem (hr _ (by simp)) (by decide) (by decide) (by decide)
        · exact ih (fun w hw => hr w (by simp [hw])) v hv
    unfold readRow
    rw [split_join (c := ',') (s := [' ']) (by decide) a l (h.mem (hr _ (by simp)) (by decide) (by decide) (by decide))
      (hc t (fun w hw => hr w (by simp [hw])))]
    refine all_some (.cons (h.readNum (hr _ (by simp))) ?_)
    rw [List.forall₂_map_left_iff]
    have : ∀ {l r : List Word}, List.Forall₂ Padded l r → (∀ w ∈ r, Clean w) → List.Forall₂ (fun a b => readNum ([' '] ++ a) = some b) l r := by
      intro l r h
      induction h with
      | nil => intro _; exact .nil
      | cons h _ ih =>
        intro hr
        exact .cons ((h.pre (s := [' ']) (by simp)).readNum (hr _ (by simp))) (ih fun w hw => hr w (by simp [hw]))
    exact this t fun w hw => hr w (by simp [hw])

theorem joinSep_mem {sep : Word} : ∀ {l : List Word} {c : Char}, c ∈ joinSep sep l → c ∈ sep ∨ ∃ w ∈ l, c ∈ w
  | [], c, h => by simp [joinSep] at h
  | [w], c, h => Or.inr ⟨w, by simp, h⟩
  | w :: v :: l, c, h => by
    simp only [joinSep, List.mem_append] at h
    rcases h with (h | h) | h
    · exact Or.inr ⟨w, by simp, h⟩
    · exact Or.inl h
    · rcases joinSep_mem h with h | ⟨u, hu, h⟩
      · exact Or.inl h
      · exact Or.inr ⟨u, by simp [hu], h⟩

theorem mem_joinSep {sep : Word} : ∀ {l : List Word} {w : Word} {c : Char}, w ∈ l → c ∈ w → c ∈ joinSep sep l
  | [], _, _, h, _ => by simp at h
  | [v], w, c, h, hc => by
    have : w = v := by simpa using h
    subst this; exact hc
  | v :: u :: l, w, c, h, hc => by
    simp only [joinSep, List.mem_append]
    rcases List.mem_cons.1 h with rfl | h
    · exact Or.inl (Or.inl hc)
    · exact Or.inr (mem_joinSep h hc)

theorem joinSep_pre {sep s v : Word} {l : List Word} : s ++ joinSep sep (v :: l) = joinSep sep ((s ++ v) :: l) := by
  cases l <;> simp [joinSep]

/-- Characters of a row. -/
theorem row_chars {l r : List Word} (h : List.Forall₂ Padded l r) (hr : ∀ w ∈ r, Clean w) : ∀ c ∈ joinSep [',', ' '] l,
    c = ',' ∨ c = ' ' ∨ c = '\n' ∨ special c = false := by
  intro c hc
  rcases joinSep_mem hc with hc | ⟨t, ht, hc'⟩
  · simp only [List.mem_cons, List.not_mem_nil, or_false] at hc
    tauto
  · clear hc
    have hc := hc'
    clear hc'
    induction h with
    | nil => simp at ht
    | cons h _ ih =>
      rcases List.mem_cons.1 ht with rfl | ht
      · obtain ⟨sp, h1, rfl⟩ := h
        rcases List.mem_append.1 hc with hc | hc
        · have := h1 c hc; tauto
        · exact Or.inr (Or.inr (Or.inr ((hr _ (by simp)).2 c hc)))
      · exact ih (fun w hw => hr w (by simp [hw])) ht

/-- Rows separated by `;` and blanks. -/
theorem readRows_join {s : Word} (hs : ∀ c ∈ s, c = ' ' ∨ c = '\n') {L : List (List Word)} {R : List (List Word)}
    (h : List.Forall₂ (List.Forall₂ Padded) L R) (hL : L ≠ []) (hne : ∀ r ∈ R, r ≠ []) (hR : ∀ r ∈ R, ∀ w ∈ r, Clean w) :
    readRows (joinSep (';' :: s) (L.map (joinSep [',', ' ']))) = some R := by
  have hnb : trim (joinSep (';' :: s) (L.map (joinSep [',', ' ']))) ≠ [] := by
    cases h with
    | nil => exact absurd rfl hL
    | cons h t =>
      rename_i l r L R
      cases h with
      | nil => exact absurd rfl (hne [] (by simp))
      | cons h _ =>
        rename_i a w l r _
        have hw := hR (w :: r) (by simp) w (by simp)
        obtain ⟨c, cs, e⟩ := List.exists_cons_of_ne_nil hw.1
        have hc : c ∈ a := by
          obtain ⟨sp, _, rfl⟩ := h
          simp [e]
        refine trim_ne_nil (c := c) ?_ (special_blank (hw.2 c (by simp [e])))
        refine mem_joinSep (w := joinSep [',', ' '] (a :: l)) (by simp) ?_
        exact mem_joinSep (w := a) (by simp) hc
  have hsemi : ∀ {l r : List Word}, List.Forall₂ Padded l r → (∀ w ∈ r, Clean w) → (';' : Char) ∉ joinSep [',', ' '] l := by
    intro l r h hr hm
    rcases row_chars h hr _ hm with e | e | e | e
    · exact absurd e (by decide)
    · exact absurd e (by decide)
    · exact absurd e (by decide)
    · exact absurd e (by decide)
  unfold readRows
  rw [if_neg hnb]
  cases h with
  | nil => exact absurd rfl hL
  | cons h t =>
    rename_i l r L R
    have hl : l ≠ [] := by rintro rfl; cases h; exact hne [] (by simp) rfl
    rw [List.map_cons, split_join (c := ';') (s := s)]
    · refine all_some (.cons (readRow_join h hl (hR r (by simp))) ?_)
      rw [List.forall₂_map_left_iff, List.forall₂_map_left_iff]
      have : ∀ {L R : List (List Word)}, List.Forall₂ (List.Forall₂ Padded) L R → (∀ r ∈ R, r ≠ []) → (∀ r ∈ R, ∀ w ∈ r, Clean w) →
          List.Forall₂ (fun a b => readRow (s ++ joinSep [',', ' '] a) = some b) L R := by
        intro L R h
        induction h with
        | nil => intro _ _; exact .nil
        | cons h _ ih =>
          rename_i l r L R _
          intro hne hR
          refine .cons ?_ (ih (fun r hr => hne r (by simp [hr])) fun r hr => hR r (by simp [hr]))
          cases h with
          | nil => exact absurd rfl (hne [] (by simp))
          | cons h t =>
            rw [joinSep_pre]
            exact readRow_join (.cons (h.pre hs) t) (by simp) (hR _ (by simp))
      exact this t (fun r hr => hne r (by simp [hr])) fun r hr => hR r (by simp [hr])
    · intro hm; rcases hs ';' hm with e | e <;> exact absurd e (by decide)
    · exact hsemi h (hR r (by simp))
    · intro v hv
      obtain ⟨l', hl', rfl⟩ := List.mem_map.1 hv
      have : ∀ {L R : List (List Word)}, List.Forall₂ (List.Forall₂ Padded) L R → (∀ r ∈ R, ∀ w ∈ r, Clean w) → ∀ l ∈ L, (';' : Char) ∉ joinSep [',', ' '] l := by
        intro L R h
        induction h with
        | nil => simp
        | cons h _ ih =>
          intro hR l hl
          rcases List.mem_cons.1 hl with rfl | hl
          · exact hsemi h (hR _ (by simp))
          · exact ih (fun r hr => hR r (by simp [hr])) l hl
      exact this t (fun r hr => hR r (by simp [hr])) l' hl'

end Log
end JrlQp
