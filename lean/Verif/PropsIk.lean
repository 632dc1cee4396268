import Verif.IkReader
import Verif.LogRead
import Mathlib.Data.List.Forall2

/-!
# C83: reading an inverse kinematics problem gives the problem that the file describes
-/

namespace JrlQp.Ik

variable {K : Type}

/-! ## Specification: what a file describes -/

/-- How numbers are written: `txt x t` says that the text `t` is a way to write `x`. -/
structure Notation (K : Type) where
  txt : K → Line → Prop
  int : Int → Line → Prop

/-- What the reader needs of the conversions of the standard library: they read back what is written up to a space or the end of the line, skip
spaces, and fail on an empty line. -/
structure Scan.Reads (sc : Scan K) (nt : Notation K) : Prop where
  dbl : ∀ {x t r}, nt.txt x t → (r = [] ∨ r.head? = some ' ') → sc.dbl (t ++ r) = some (x, r)
  space : ∀ s, sc.dbl (' ' :: s) = sc.dbl s
  nil : sc.dbl [] = none
  int : ∀ {i t}, nt.int i t → sc.int t = some i

/-- A row of numbers separated by at least one space, with spaces before and after. -/
inductive RowText (nt : Notation K) : List K → Line → Prop
  | nil : RowText nt [] []
  | space {l s} : RowText nt l s → RowText nt l (' ' :: s)
  | cons {x t l s} : nt.txt x t → RowText nt l s → (s = [] ∨ s.head? = some ' ') → RowText nt (x :: l) (t ++ s)

/-- A matrix: one line per row, one line if there is no row. -/
def MatText (nt : Notation K) (M : List (List K)) (ls : List Line) : Prop := (M = [] ∧ ∃ l, ls = [l]) ∨ (M ≠ [] ∧ List.Forall₂ (RowText nt) M ls)

/-- A vector: one line per element. -/
def VecText (nt : Notation K) (v : List K) (ls : List Line) : Prop := MatText nt (v.map fun x => [x]) ls

/-- The line that announces a field, as in the files of tests/MultiIK.zip. -/
def title (name : Line) : Line := "==== ".toList ++ name ++ " ====".toList

/-- A quadratic program `min ½ xᵀQx + cᵀx, A x = b, C x ≤ d, xl ≤ x ≤ xu`, by its rows. -/
structure IkPb (K : Type) where
  n : Nat
  Q : List (List K)
  c : List K
  A : List (List K)
  b : List K
  C : List (List K)
  d : List K
  xl : List K
  xu : List K

/-- Sizes agree, and there is a variable. -/
structure IkPb.Ok (p : IkPb K) : Prop where
  n0 : 0 < p.n
  Q : p.Q.length = p.n ∧ ∀ r ∈ p.Q, r.length = p.n
  c : p.c.length = p.n
  A : ∀ r ∈ p.A, r.length = p.n
  b : p.b.length = p.A.length
  C : ∀ r ∈ p.C, r.length = p.n
  d : p.d.length = p.C.length
  xl : p.xl.length = p.n
  xu : p.xu.length = p.n

/-- The lines `ls` describe the problem `p`. -/
def Describes (nt : Notation K) (p : IkPb K) (ls : List Line) : Prop :=
  ∃ n me mi : Line, ∃ Q c A b C d xl xu rest : List Line, nt.int p.n n ∧ nt.int p.A.length me ∧ nt.int p.C.length mi ∧
    MatText nt p.Q Q ∧ VecText nt p.c c ∧ MatText nt p.A A ∧ VecText nt p.b b ∧ MatText nt p.C C ∧ VecText nt p.d d ∧ VecText nt p.xl xl ∧
    VecText nt p.xu xu ∧
    ls = title "dim_var".toList :: n :: title "dim_eq".toList :: me :: title "dim_ineq".toList :: mi ::
      title "Q".toList :: (Q ++ title "c".toList :: (c ++ title "A".toList :: (A ++ title "b".toList :: (b ++ title "C".toList :: (C ++
      title "d".toList :: (d ++ title "x_min".toList :: (xl ++ title "x_max".toList :: (xu ++ rest))))))))

/-- The tuple of matrices for a problem; a matrix without row has no column. -/
def IkPb.out (p : IkPb K) : Out K :=
  ⟨⟨p.n, p.Q⟩, p.c, ⟨if p.A = [] then 0 else p.n, p.A⟩, p.b, ⟨if p.C = [] then 0 else p.n, p.C⟩, p.d, p.xl, p.xu⟩

/-! ## Proofs -/

theorem readVec_none {sc : Scan K} {l : Line} (h : sc.dbl l = none) : readVec sc l = [] := by
  rw [readVec]; split
  · rfl
  · rename_i h'; rw [h] at h'; cases h'

theorem readVec_some {sc : Scan K} {l r : Line} {v : K} (h : sc.dbl l = some (v, r)) : readVec sc l = v :: readVec sc r := by
  rw [readVec]; split
  · rename_i h'; rw [h] at h'; cases h'
  · rename_i h'; rw [h] at h'; cases h'; rfl

theorem readVec_text {sc : Scan K} {nt : Notation K} (hs : sc.Reads nt) {l : List K} {s : Line} (h : RowText nt l s) : readVec sc s = l := by
  induction h with
  | nil => exact readVec_none hs.nil
  | @space l s _ ih =>
    rw [← ih]
    cases hd : sc.dbl s with
    | none => rw [readVec_none hd, readVec_none ((hs.space s).trans hd)]
    | some p => rw [readVec_some (r := p.2) (v := p.1) hd, readVec_some (r := p.2) (v := p.1) ((hs.space s).trans hd)]
  | @cons x t l s hx _ he ih => rw [readVec_some (hs.dbl hx he), ih]

theorem isDataName_title (name : Line) : isDataName (title name) name = .ok true := by
  unfold isDataName title
  rw [if_pos (by simp), if_neg (by simp)]
  have : ("==== ".toList ++ name ++ " ====".toList).drop 5 = name ++ " ====".toList := by
    rw [List.append_assoc]; rfl
  rw [this, List.take_left]
  simp

theorem readName_title (name : Line) (ls : List Line) : readDataNameLine name (title name :: ls) = .ok ls := by
  unfold readDataNameLine
  simp only [isDataName_title]

theorem readRows_text {sc : Scan K} {nt : Notation K} (hs : sc.Reads nt) {cols : Nat} (rest : List Line) :
    ∀ {M : List (List K)} {ls : List Line}, List.Forall₂ (RowText nt) M ls → (∀ r ∈ M, r.length = cols) →
    readRows sc cols M.length (ls ++ rest) = .ok (M, rest) := by
  intro M ls h
  induction h with
  | nil => intro _; rfl
  | @cons r l M ls h1 _ ih =>
    intro hc
    have e := readVec_text hs h1
    show readRows sc cols (M.length + 1) (l :: (ls ++ rest)) = _
    rw [readRows, e, if_pos (hc r List.mem_cons_self), ih fun r hr => hc r (List.mem_cons_of_mem _ hr)]

theorem readMat_text {sc : Scan K} {nt : Notation K} (hs : sc.Reads nt) {cols : Nat} {M : List (List K)} {ls : List Line} (h : MatText nt M ls)
    (hc : ∀ r ∈ M, r.length = cols) (fv : Bool) (rest : List Line) :
    readMat sc M.length fv (ls ++ rest) = .ok (⟨if M = [] then (if fv then 1 else 0) else cols, M⟩, rest) := by
  unfold readMat
  rw [if_neg (by omega)]
  rcases h with ⟨rfl, l, rfl⟩ | ⟨hne, h⟩
  · rfl
  · cases h with
    | nil => exact absurd rfl hne
    | @cons r l M ls h1 h2 =>
      have e := readVec_text hs h1
      have er : r.length = cols := hc r List.mem_cons_self
      rw [if_neg (by simp; omega), if_neg hne]
      simp only [List.cons_append]
      rw [e, er, Int.toNat_natCast, List.length_cons, Nat.add_sub_cancel, readRows_text hs rest h2 fun r hr => hc r (List.mem_cons_of_mem _ hr)]

theorem readNamed_text {sc : Scan K} {nt : Notation K} (hs : sc.Reads nt) {cols : Nat} {M : List (List K)} {ls : List Line} (h : MatText nt M ls)
    (hc : ∀ r ∈ M, r.length = cols) (name : Line) {k : Nat} (hk : M.length = k) (fv : Bool) (rest : List Line) :
    readNamed sc name k fv (title name :: (ls ++ rest)) = .ok (⟨if M = [] then (if fv then 1 else 0) else cols, M⟩, rest) := by
  unfold readNamed
  rw [readName_title]
  subst hk
  exact readMat_text hs h hc fv rest

theorem flatten_single (v : List K) : (v.map fun x => [x]).flatten = v := by
  induction v with
  | nil => rfl
  | cons a v ih => rw [List.map_cons, List.flatten_cons, ih]; rfl

theorem readNamedVec_text {sc : Scan K} {nt : Notation K} (hs : sc.Reads nt) {v : List K} {ls : List Line} (h : VecText nt v ls)
    (name : Line) {k : Nat} (hk : v.length = k) {fv : Bool} (hv : fv = true ∨ v ≠ []) (rest : List Line) :
    readNamedVec sc name k fv (title name :: (ls ++ rest)) = .ok (v, rest) := by
  unfold readNamedVec
  rw [readNamed_text hs h (cols := 1) (by simp) name (by simpa using hk)]
  have e : (if v.map (fun x => [x]) = [] then (if fv then 1 else 0) else 1) = 1 := by
    rcases hv with rfl | hv
    · simp
    · rw [if_neg (by simpa using hv)]
  simp only [toVec, e, if_true]
  rw [flatten_single]

theorem readDim_text {sc : Scan K} {nt : Notation K} (hs : sc.Reads nt) {i : Int} {t : Line} (h : nt.int i t) (name : Line) (rest : List Line) :
    readDim sc name (title name :: t :: rest) = .ok (i, rest) := by
  unfold readDim readIntLine
  rw [readName_title]
  simp only [hs.int h]

/-- **C83.** A file that describes a problem is read as this problem. -/
theorem C83_reader {sc : Scan K} {nt : Notation K} (hs : sc.Reads nt) {p : IkPb K} (hp : p.Ok) {ls : List Line} (h : Describes nt p ls) :
    readIKPbFile sc ls = .ok p.out := by
  obtain ⟨n, me, mi, Q, c, A, b, C, d, xl, xu, rest, hn, hme, hmi, hQ, hc, hA, hb, hC, hd, hxl, hxu, rfl⟩ := h
  have hn0 : ∀ {v : List K}, v.length = p.n → v ≠ [] := fun hv h => by
    have := hp.n0; rw [h] at hv; simp at hv; omega
  have hQn : p.Q ≠ [] := fun h => by
    have := hp.n0; have h1 := hp.Q.1; rw [h] at h1; simp at h1; omega
  unfold readIKPbFile
  rw [readDim_text hs hn]
  simp only [bind, Except.bind]
  rw [readDim_text hs hme]
  simp only []
  rw [readDim_text hs hmi]
  simp only []
  rw [readNamed_text hs hQ hp.Q.2 _ hp.Q.1, if_neg hQn]
  simp only []
  rw [readNamedVec_text hs hc _ hp.c (Or.inr (hn0 hp.c))]
  simp only []
  rw [readNamed_text hs hA hp.A _ rfl]
  simp only []
  rw [readNamedVec_text hs hb _ hp.b (Or.inl rfl)]
  simp only []
  rw [readNamed_text hs hC hp.C _ rfl]
  simp only []
  rw [readNamedVec_text hs hd _ hp.d (Or.inl rfl)]
  simp only []
  rw [readNamedVec_text hs hxl _ hp.xl (Or.inl rfl)]
  simp only []
  rw [readNamedVec_text hs hxu _ hp.xu (Or.inl rfl)]
  rfl

/-! ## What is checked, and what is not -/

theorem readRows_ok {sc : Scan K} {cols : Nat} : ∀ {k : Nat} {ls rest : List Line} {M : List (List K)}, readRows sc cols k ls = .ok (M, rest) →
    M.length = k ∧ ∀ r ∈ M, r.length = cols := by
  intro k
  induction k with
  | zero =>
    intro ls rest M h
    unfold readRows at h
    cases h
    exact ⟨rfl, fun _ h => by cases h⟩
  | succ k ih =>
    intro ls rest M h
    cases ls with
    | nil => unfold readRows at h; cases h
    | cons l ls =>
      unfold readRows at h
      by_cases hl : (readVec sc l).length = cols
      · rw [if_pos hl] at h
        cases hr : readRows sc cols k ls with
        | error e => rw [hr] at h; cases h
        | ok p =>
          rw [hr] at h
          cases h
          obtain ⟨h1, h2⟩ := ih hr
          refine ⟨by simp [h1], fun r hr => ?_⟩
          rcases List.mem_cons.1 hr with rfl | hr
          · exact hl
          · exact h2 r hr
      · rw [if_neg hl] at h; cases h

theorem readMat_ok {sc : Scan K} {k : Int} {fv : Bool} {ls rest : List Line} {M : Mat K} (h : readMat sc k fv ls = .ok (M, rest)) :
    (∀ r ∈ M.rows, r.length = M.cols) ∧ (k < 0 → rest = []) ∧ (0 ≤ k → (M.rows.length : Int) = k ∧ (k = 0 → M.cols = if fv then 1 else 0)) := by
  unfold readMat at h
  by_cases h0 : k < 0
  · rw [if_pos h0] at h
    simp only [] at h
    split at h
    · rename_i ha
      cases h
      refine ⟨fun r hr => ?_, fun _ => rfl, fun h => by omega⟩
      have := List.all_eq_true.1 ha r hr
      simpa using this
    · cases h
  rw [if_neg h0] at h
  by_cases h1 : k = 0
  · rw [if_pos h1] at h
    cases ls with
    | nil => cases h
    | cons l ls =>
      cases h
      exact ⟨fun _ h => (by cases h), fun h => by omega, fun _ => ⟨by simp [h1], fun _ => rfl⟩⟩
  · rw [if_neg h1] at h
    cases ls with
    | nil => cases h
    | cons l ls =>
      simp only [] at h
      cases hr : readRows sc (readVec sc l).length (k.toNat - 1) ls with
      | error e => rw [hr] at h; cases h
      | ok p =>
        rw [hr] at h
        cases h
        obtain ⟨h2, h3⟩ := readRows_ok hr
        refine ⟨fun r hr => ?_, fun h => absurd h h0, fun _ => ⟨?_, fun h => absurd h h1⟩⟩
        · rcases List.mem_cons.1 hr with rfl | hr
          · rfl
          · exact h3 r hr
        · simp only [List.length_cons, h2]; omega

theorem readName_ok {name : Line} {ls rest : List Line} (h : readDataNameLine name ls = .ok rest) : ∃ l, ls = l :: rest ∧ isDataName l name = .ok true := by
  cases ls with
  | nil => cases h
  | cons l ls =>
    unfold readDataNameLine at h
    cases hd : isDataName l name with
    | error e => simp only [hd] at h; cases h
    | ok b =>
      cases b
      · simp only [hd] at h; cases h
      · simp only [hd] at h; cases h; exact ⟨l, rfl, hd⟩

theorem readDim_ok {sc : Scan K} {name : Line} {ls rest : List Line} {i : Int} (h : readDim sc name ls = .ok (i, rest)) :
    ∃ t l, ls = t :: l :: rest ∧ sc.int l = some i := by
  unfold readDim at h
  cases hn : readDataNameLine name ls with
  | error e => rw [hn] at h; cases h
  | ok ls' =>
    rw [hn] at h
    obtain ⟨t, rfl, -⟩ := readName_ok hn
    cases ls' with
    | nil => cases h
    | cons l ls =>
      unfold readIntLine at h
      cases hi : sc.int l with
      | none => simp only [hi] at h; cases h
      | some j => simp only [hi] at h; cases h; exact ⟨t, l, rfl, hi⟩

theorem readNamed_ok {sc : Scan K} {name : Line} {k : Int} {fv : Bool} {ls rest : List Line} {M : Mat K} (h : readNamed sc name k fv ls = .ok (M, rest)) :
    ls ≠ [] ∧ (∀ r ∈ M.rows, r.length = M.cols) ∧ (k < 0 → rest = []) ∧
      (0 ≤ k → (M.rows.length : Int) = k ∧ (k = 0 → M.cols = if fv then 1 else 0)) := by
  unfold readNamed at h
  cases hn : readDataNameLine name ls with
  | error e => rw [hn] at h; cases h
  | ok ls' =>
    rw [hn] at h
    obtain ⟨t, rfl, -⟩ := readName_ok hn
    exact ⟨by simp, readMat_ok h⟩

theorem flatten_ones {M : List (List K)} (h : ∀ r ∈ M, r.length = 1) : M.flatten.length = M.length := by
  induction M with
  | nil => rfl
  | cons r M ih =>
    rw [List.flatten_cons, List.length_append, h r List.mem_cons_self, ih fun r hr => h r (List.mem_cons_of_mem _ hr), List.length_cons]
    omega

theorem readNamedVec_ok {sc : Scan K} {name : Line} {k : Int} {fv : Bool} {ls rest : List Line} {v : List K}
    (h : readNamedVec sc name k fv ls = .ok (v, rest)) :
    ls ≠ [] ∧ (0 ≤ k → (v.length : Int) = k ∧ (fv = false → k ≠ 0)) ∧ (k < 0 → rest = []) := by
  unfold readNamedVec at h
  cases hn : readNamed sc name k fv ls with
  | error e => rw [hn] at h; cases h
  | ok p =>
    obtain ⟨M, ls'⟩ := p
    rw [hn] at h
    simp only [toVec] at h
    obtain ⟨h1, h2, h3, h4⟩ := readNamed_ok hn
    by_cases hc : M.cols = 1
    · rw [if_pos hc] at h
      cases h
      have hl := flatten_ones (fun r hr => (h2 r hr).trans hc)
      refine ⟨h1, fun h0 => ⟨by rw [hl]; exact (h4 h0).1, fun hf hk0 => ?_⟩, h3⟩
      have := (h4 h0).2 hk0
      rw [hf, hc] at this
      simp at this
    · rw [if_neg hc] at h; cases h

theorem bind_ok {α β ε : Type} {x : Except ε α} {f : α → Except ε β} {b : β} (h : (x >>= f) = .ok b) : ∃ a, x = .ok a ∧ f a = .ok b := by
  cases x with
  | error e => cases h
  | ok a => exact ⟨a, rfl, h⟩

/-- **C83, any file.** Whatever the file and the conversions, what is returned has the sizes written on lines 2, 4 and 6, which are not negative (the first
one is positive), and rectangular matrices. -/
theorem C83_sizes {sc : Scan K} {ls : List Line} {r : Out K} (h : readIKPbFile sc ls = .ok r) :
    ∃ n me mi : Nat, sc.int (ls.getD 1 []) = some (n : Int) ∧ sc.int (ls.getD 3 []) = some (me : Int) ∧ sc.int (ls.getD 5 []) = some (mi : Int) ∧ 0 < n ∧
      r.Q.rows.length = n ∧ r.c.length = n ∧ r.A.rows.length = me ∧ r.b.length = me ∧ r.C.rows.length = mi ∧ r.d.length = mi ∧
      r.xl.length = n ∧ r.xu.length = n ∧ (∀ l ∈ r.Q.rows, l.length = r.Q.cols) ∧ (∀ l ∈ r.A.rows, l.length = r.A.cols) ∧
      ∀ l ∈ r.C.rows, l.length = r.C.cols := by
  unfold readIKPbFile at h
  obtain ⟨⟨n, l1⟩, e1, h⟩ := bind_ok h
  obtain ⟨⟨me, l2⟩, e2, h⟩ := bind_ok h
  obtain ⟨⟨mi, l3⟩, e3, h⟩ := bind_ok h
  obtain ⟨⟨Q, l4⟩, e4, h⟩ := bind_ok h
  obtain ⟨⟨c, l5⟩, e5, h⟩ := bind_ok h
  obtain ⟨⟨A, l6⟩, e6, h⟩ := bind_ok h
  obtain ⟨⟨b, l7⟩, e7, h⟩ := bind_ok h
  obtain ⟨⟨C, l8⟩, e8, h⟩ := bind_ok h
  obtain ⟨⟨d, l9⟩, e9, h⟩ := bind_ok h
  obtain ⟨⟨xl, l10⟩, e10, h⟩ := bind_ok h
  obtain ⟨⟨xu, l11⟩, e11, h⟩ := bind_ok h
  cases h
  simp only [] at *
  obtain ⟨t1, d1, rfl, i1⟩ := readDim_ok e1
  obtain ⟨t2, d2, rfl, i2⟩ := readDim_ok e2
  obtain ⟨t3, d3, rfl, i3⟩ := readDim_ok e3
  obtain ⟨-, q1, q2, q3⟩ := readNamed_ok e4
  obtain ⟨c0, c1, c2⟩ := readNamedVec_ok e5
  obtain ⟨a0, a1, a2, a3⟩ := readNamed_ok e6
  obtain ⟨b0, b1, b2⟩ := readNamedVec_ok e7
  obtain ⟨C0, C1, C2, C3⟩ := readNamed_ok e8
  obtain ⟨d0, d1', d2'⟩ := readNamedVec_ok e9
  obtain ⟨x0, x1, x2⟩ := readNamedVec_ok e10
  obtain ⟨y0, y1, y2⟩ := readNamedVec_ok e11
  have n0 : 0 ≤ n := by by_contra hc; exact c0 (q2 (by omega))
  have m0 : 0 ≤ me := by by_contra hc; exact b0 (a2 (by omega))
  have k0 : 0 ≤ mi := by by_contra hc; exact d0 (C2 (by omega))
  obtain ⟨nq, -⟩ := q3 n0
  obtain ⟨ma, -⟩ := a3 m0
  obtain ⟨kc, -⟩ := C3 k0
  have hc := c1 n0
  have hb := b1 m0
  have hd := d1' k0
  have hx := x1 n0
  have hy := y1 n0
  have hn := hc.2 rfl
  refine ⟨n.toNat, me.toNat, mi.toNat, ?_, ?_, ?_, by omega, by omega, by omega, by omega, by omega, by omega, by omega, by omega, by omega, q1, a1, C1⟩
  · show sc.int d1 = _
    rw [i1, Int.toNat_of_nonneg n0]
  · show sc.int d2 = _
    rw [i2, Int.toNat_of_nonneg m0]
  · show sc.int d3 = _
    rw [i3, Int.toNat_of_nonneg k0]

/-! ## Conversions and files that meet the hypotheses -/

open Matlab in
/-- Reading decimal integers, as a stream does: the spaces are skipped, the digits consumed. -/
def natScan : Scan Nat where
  dbl s :=
    let t := s.dropWhile (· = ' ')
    (readNat (t.takeWhile Char.isDigit)).map fun v => (v, t.dropWhile Char.isDigit)
  int s := (readNat ((s.dropWhile (· = ' ')).takeWhile Char.isDigit)).map Int.ofNat
  dbl_short := by
    intro s v r h
    simp only [Option.map_eq_some_iff] at h
    obtain ⟨w, h1, h2⟩ := h
    cases h2
    have hne : (s.dropWhile (· = ' ')).takeWhile Char.isDigit ≠ [] := by
      intro he
      rw [he] at h1
      simp [readNat] at h1
    have e := List.takeWhile_append_dropWhile (p := Char.isDigit) (l := s.dropWhile (· = ' '))
    have l1 := congrArg List.length e
    have l2 := (List.dropWhile_sublist (p := fun c : Char => decide (c = ' ')) (l := s)).length_le
    have l3 := List.length_pos_iff.2 hne
    rw [List.length_append] at l1
    omega

/-- The decimal notation. -/
def natNotation : Notation Nat where
  txt x t := Matlab.readNat t = some x
  int i t := ∃ x : Nat, i = x ∧ Matlab.readNat t = some x

theorem readNat_digits {t : Line} {x : Nat} (h : Matlab.readNat t = some x) : t ≠ [] ∧ ∀ c ∈ t, c.isDigit = true := by
  unfold Matlab.readNat at h
  split at h
  · rename_i hc; exact ⟨hc.1, List.all_eq_true.1 hc.2⟩
  · cases h

theorem digit_split {t r : Line} {x : Nat} (h : Matlab.readNat t = some x) (hr : r = [] ∨ r.head? = some ' ') :
    (t ++ r).dropWhile (· = ' ') = t ++ r ∧ (t ++ r).takeWhile Char.isDigit = t ∧ (t ++ r).dropWhile Char.isDigit = r := by
  obtain ⟨h1, h2⟩ := readNat_digits h
  have hr0 : r.takeWhile Char.isDigit = [] ∧ r.dropWhile Char.isDigit = r := by
    cases r with
    | nil => exact ⟨rfl, rfl⟩
    | cons c r =>
      have : c = ' ' := by simpa using hr
      subst this
      constructor <;> simp [List.takeWhile, List.dropWhile] <;> rfl
  refine ⟨?_, ?_, ?_⟩
  · cases t with
    | nil => exact absurd rfl h1
    | cons c t =>
      have hc := h2 c List.mem_cons_self
      have hne : c ≠ ' ' := by rintro rfl; exact absurd hc (by decide)
      simp [List.dropWhile, hne]
  · rw [List.takeWhile_append_of_pos h2, hr0.1, List.append_nil]
  · rw [List.dropWhile_append_of_pos h2, hr0.2]

theorem natScan_reads : natScan.Reads natNotation where
  dbl := by
    intro x t r h hr
    obtain ⟨e1, e2, e3⟩ := digit_split h hr
    show (Matlab.readNat (((t ++ r).dropWhile (· = ' ')).takeWhile Char.isDigit)).map _ = _
    rw [e1, e2, h, e3]
    rfl
  space := fun s => by
    show (Matlab.readNat (((' ' :: s).dropWhile (· = ' ')).takeWhile Char.isDigit)).map _ = _
    have : (' ' :: s).dropWhile (· = ' ') = s.dropWhile (· = ' ') := by simp [List.dropWhile]
    simp only [natScan, this]
  nil := rfl
  int := by
    rintro i t ⟨x, rfl, h⟩
    obtain ⟨e1, e2, -⟩ := digit_split h (r := []) (Or.inl rfl)
    rw [List.append_nil] at e1 e2
    show (Matlab.readNat ((t.dropWhile (· = ' ')).takeWhile Char.isDigit)).map _ = _
    rw [e1, e2, h]
    rfl

theorem rowText_exists (l : List Nat) : ∃ s, RowText natNotation l s ∧ (s = [] ∨ s.head? = some ' ') := by
  induction l with
  | nil => exact ⟨[], .nil, Or.inl rfl⟩
  | cons x l ih =>
    obtain ⟨s, h, hs⟩ := ih
    exact ⟨' ' :: (Log.dec x ++ s), .space (.cons (Log.readNat_dec x) h hs), Or.inr rfl⟩

theorem matText_exists (M : List (List Nat)) : ∃ ls, MatText natNotation M ls := by
  by_cases h : M = []
  · exact ⟨[[]], Or.inl ⟨h, [], rfl⟩⟩
  · have : ∃ ls, List.Forall₂ (RowText natNotation) M ls := by
      clear h
      induction M with
      | nil => exact ⟨[], .nil⟩
      | cons r M ih =>
        obtain ⟨ls, hl⟩ := ih
        obtain ⟨s, hs, -⟩ := rowText_exists r
        exact ⟨s :: ls, .cons hs hl⟩
    obtain ⟨ls, hl⟩ := this
    exact ⟨ls, Or.inr ⟨h, hl⟩⟩

/-- Hypotheses of C83: the conversions of decimal integers are as required, and every problem with such coefficients is described by a file. -/
theorem C83_hypotheses_met : natScan.Reads natNotation ∧ (∀ p : IkPb Nat, ∃ ls, Describes natNotation p ls) ∧
    (⟨2, [[2, 1], [1, 3]], [4, 5], [], [], [[1, 1]], [7], [0, 0], [9, 9]⟩ : IkPb Nat).Ok := by
  refine ⟨natScan_reads, fun p => ?_, ?_⟩
  · obtain ⟨Q, hQ⟩ := matText_exists p.Q
    obtain ⟨c, hc⟩ := matText_exists (p.c.map fun x => [x])
    obtain ⟨A, hA⟩ := matText_exists p.A
    obtain ⟨b, hb⟩ := matText_exists (p.b.map fun x => [x])
    obtain ⟨C, hC⟩ := matText_exists p.C
    obtain ⟨d, hd⟩ := matText_exists (p.d.map fun x => [x])
    obtain ⟨xl, hxl⟩ := matText_exists (p.xl.map fun x => [x])
    obtain ⟨xu, hxu⟩ := matText_exists (p.xu.map fun x => [x])
    exact ⟨_, Log.dec p.n, Log.dec p.A.length, Log.dec p.C.length, Q, c, A, b, C, d, xl, xu, [], ⟨_, rfl, Log.readNat_dec _⟩,
      ⟨_, rfl, Log.readNat_dec _⟩, ⟨_, rfl, Log.readNat_dec _⟩, hQ, hc, hA, hb, hC, hd, hxl, hxu, rfl⟩
  · constructor <;> simp

/-- **C83, what is not checked.** A title is only compared up to the length of the name, and the numbers of columns are not compared with the number
of variables: this file is accepted although its Hessian has three columns for two variables and its fields have other names. -/
theorem C83_unchecked : readIKPbFile natScan (["==== dim_variables", "2", "=xxxxdim_eq", "0", "==== dim_inequalities", "0", "==== Query", "1 2 3", "4 5 6",
    "==== cost", "1", "2", "==== Aeq", "anything", "==== beq", "at all", "==== Cin", "", "==== din", "", "==== x_minimum", "0", "0", "==== x_max", "1",
    "1"].map String.toList) = .ok ⟨⟨3, [[1, 2, 3], [4, 5, 6]]⟩, [1, 2], ⟨0, []⟩, [], ⟨0, []⟩, [], [0, 0], [1, 1]⟩ := by
  decide +kernel

/-- A title of fewer than five characters raises `std::out_of_range`, not the documented error; a problem without variable stops on an assertion;
a row with another number of elements too. -/
theorem C83_errors : readIKPbFile natScan (["==", "2"].map String.toList) = .error .outOfRange ∧
    readIKPbFile natScan (["==== dim_var ====", "0", "==== dim_eq ====", "0", "==== dim_ineq ====", "0", "==== Q ====", "", "==== c ====", ""].map String.toList)
      = .error .assertion ∧
    readMatFile natScan (["1 2", "3"].map String.toList) = .error .assertion := by
  decide +kernel

/-- **C83, the titles.** A first line that begins with `=` and has fewer than five characters raises `std::out_of_range`; a first line that does not
begin with `=`, or does not have the name of the field after its fifth character, raises the documented error; any other one is accepted: the line that follows is
read as a number. -/
theorem C83_title (sc : Scan K) (l : Line) (ls : List Line) :
    (l.head? = some '=' → l.length < 5 → readIKPbFile sc (l :: ls) = .error .outOfRange) ∧
    (l.head? ≠ some '=' → readIKPbFile sc (l :: ls) = .error .runtime) ∧
    (5 ≤ l.length → (l.drop 5).take 7 ≠ "dim_var".toList → readIKPbFile sc (l :: ls) = .error .runtime) ∧
    (∀ t, l.length = 5 → l.head? = some '=' → readIKPbFile sc ((l ++ "dim_var".toList ++ t) :: ls) =
      readIKPbFile sc (title "dim_var".toList :: ls)) ∧
    readIKPbFile sc [] = .error .runtime := by
  have ke : ∀ (l : Line) (e : IErr), isDataName l "dim_var".toList = .error e → readIKPbFile sc (l :: ls) = .error e := by
    intro l e h
    have : readDataNameLine "dim_var".toList (l :: ls) = .error e := by simp only [readDataNameLine, h]
    unfold readIKPbFile readDim
    rw [this]; rfl
  have kf : ∀ l : Line, isDataName l "dim_var".toList = .ok false → readIKPbFile sc (l :: ls) = .error .runtime := by
    intro l h
    have : readDataNameLine "dim_var".toList (l :: ls) = .error .runtime := by simp only [readDataNameLine, h]
    unfold readIKPbFile readDim
    rw [this]; rfl
  have h7 : "dim_var".toList.length = 7 := by decide
  refine ⟨fun h1 h2 => ke l _ ?_, fun h1 => kf l ?_, fun h1 h2 => kf l ?_, fun t h1 h2 => ?_, rfl⟩
  · unfold isDataName
    rw [if_pos h1, if_pos h2]
  · unfold isDataName
    rw [if_neg h1]
  · unfold isDataName
    by_cases h3 : l.head? = some '='
    · rw [if_pos h3, if_neg (by omega), h7, decide_eq_false h2]
    · rw [if_neg h3]
  · have e : ∀ l', isDataName l' "dim_var".toList = .ok true → readDataNameLine "dim_var".toList (l' :: ls) = .ok ls := by
      intro l' h
      simp only [readDataNameLine, h]
    have e1 : isDataName (l ++ "dim_var".toList ++ t) "dim_var".toList = .ok true := by
      unfold isDataName
      rw [if_pos (by rw [List.append_assoc, List.head?_append, h2]; rfl), if_neg (by simp; omega), List.append_assoc, ← h1, List.drop_left,
        List.take_left, decide_eq_true rfl]
    unfold readIKPbFile readDim
    rw [e _ e1, e _ (isDataName_title _)]

end JrlQp.Ik
