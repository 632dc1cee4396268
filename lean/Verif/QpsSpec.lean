import Verif.QpsReader
import Verif.PropsProblems

/-!
# What a QPS file describes

Independent of the reader: a description of a problem by names, what it means, and which files are its layouts. Conventions:
http://lpsolve.sourceforge.net/5.5/mps-format.htm and https://github.com/YimingYAN/QP-Test-Problems, the references given at
tests/QPSReader.h:26-29.
-/

namespace JrlQp.Qps

open Finset Classical

/-- A problem given by names.
* `rows`: the rows with their types; a row of type `N` is the objective,
* `coef`: (column, row, coefficient),
* `rhs`, `rng`: (row, value) of the right hand sides and of the ranges,
* `bnd`: (kind, column, value) of the bounds; the value is not used for `FR`, `MI`, `PL`,
* `quad`: (column, row, coefficient) of the lower triangle of the quadratic part, row and column being names of columns. -/
structure Desc where
  rows : List (Word × RowT)
  coef : List (Word × Word × ℝ)
  rhs : List (Word × ℝ)
  rng : List (Word × ℝ)
  bnd : List (BndT × Word × ℝ)
  quad : List (Word × Word × ℝ)

/-- The different elements of a list, in the order of their first appearance, after those of `cs`. -/
def firstsFrom (cs : List Word) : List Word → List Word
  | [] => cs
  | k :: ks => firstsFrom (if k ∈ cs then cs else cs ++ [k]) ks

/-- The variables, in the order of their first appearance in the section `COLUMNS`. -/
def Desc.vars (d : Desc) : List Word := firstsFrom [] (d.coef.map (·.1))

/-- A description without duplicates, with at most one objective row, and where all names are declared. -/
structure Desc.Ok (d : Desc) : Prop where
  names : (d.rows.map (·.1)).Nodup
  oneObj : (d.rows.filter (fun e => e.2 = .N)).length ≤ 1
  coefKeys : (d.coef.map (fun e => (e.1, e.2.1))).Nodup
  rhsKeys : (d.rhs.map (·.1)).Nodup
  rngKeys : (d.rng.map (·.1)).Nodup
  quadKeys : (d.quad.map (fun e => (e.1, e.2.1))).Nodup
  coefRow : ∀ e ∈ d.coef, e.2.1 ∈ d.rows.map (·.1)
  rhsRow : ∀ e ∈ d.rhs, e.1 ∈ d.rows.map (·.1)
  rngRow : ∀ e ∈ d.rng, ∃ t, (e.1, t) ∈ d.rows ∧ t ≠ .N
  bndVar : ∀ e ∈ d.bnd, e.2.1 ∈ d.vars
  quadVar : ∀ e ∈ d.quad, e.1 ∈ d.vars ∧ e.2.1 ∈ d.vars
  quadLow : ∀ e ∈ d.quad, d.vars.idxOf e.1 ≤ d.vars.idxOf e.2.1

/-- The value of the linear function of a row. -/
noncomputable def Desc.act (d : Desc) (x : Word → ℝ) (r : Word) : ℝ :=
  (d.coef.map (fun e => if e.2.1 = r then e.2.2 * x e.1 else 0)).sum

/-- What a row without range says. -/
def RowT.plain (a b : ℝ) : RowT → Prop
  | .E => a = b
  | .L => a ≤ b
  | .G => b ≤ a
  | .N => True

/-- What a row with the range `v` says. -/
def RowT.ranged (a b v : ℝ) : RowT → Prop
  | .E => if 0 ≤ v then b ≤ a ∧ a ≤ b + v else b + v ≤ a ∧ a ≤ b
  | .L => b - |v| ≤ a ∧ a ≤ b
  | .G => b ≤ a ∧ a ≤ b + |v|
  | .N => True

/-- A right hand side that is not given is 0. -/
noncomputable def Desc.rhsOf (d : Desc) (r : Word) : ℝ := ((d.rhs.find? (fun e => e.1 = r)).map (·.2)).getD 0

/-- The constraint of a row. -/
noncomputable def Desc.rowHolds (d : Desc) (x : Word → ℝ) (r : Word) (t : RowT) : Prop :=
  match d.rng.find? (fun e => e.1 = r) with
  | none => t.plain (d.act x r) (d.rhsOf r)
  | some e => t.ranged (d.act x r) (d.rhsOf r) e.2

/-- What a line of the section `BOUNDS` says of the lower bound: nothing, that there is none, or its value. -/
def lowerSide : BndT × Word × ℝ → Option (Option ℝ)
  | (.LO, _, v) => some (some v)
  | (.FX, _, v) => some (some v)
  | (.FR, _, _) => some none
  | (.MI, _, _) => some none
  | (.UP, _, _) => none
  | (.PL, _, _) => none

/-- What a line of the section `BOUNDS` says of the upper bound. -/
def upperSide : BndT × Word × ℝ → Option (Option ℝ)
  | (.UP, _, v) => some (some v)
  | (.FX, _, v) => some (some v)
  | (.FR, _, _) => some none
  | (.PL, _, _) => some none
  | (.LO, _, _) => none
  | (.MI, _, _) => none

/-- The lower bound of a variable: the last one given, 0 by default. -/
noncomputable def Desc.lower (d : Desc) (c : Word) : Option ℝ :=
  ((d.bnd.filter (fun e => e.2.1 = c)).filterMap lowerSide).getLastD (some 0)

/-- The upper bound of a variable: the last one given, none by default. -/
noncomputable def Desc.upper (d : Desc) (c : Word) : Option ℝ :=
  ((d.bnd.filter (fun e => e.2.1 = c)).filterMap upperSide).getLastD none

/-- The feasible set of the description. -/
def Desc.Feasible (d : Desc) (x : Word → ℝ) : Prop :=
  (∀ e ∈ d.rows, d.rowHolds x e.1 e.2) ∧
  ∀ c ∈ d.vars, (∀ v, d.lower c = some v → v ≤ x c) ∧ ∀ v, d.upper c = some v → x c ≤ v

/-- The objective of the description: `½ xᵀ Q x + aᵀ x - b` where `b` is the right hand side of the objective row. -/
noncomputable def Desc.objective (d : Desc) (x : Word → ℝ) : ℝ :=
  (d.quad.map (fun e => if e.1 = e.2.1 then 1 / 2 * e.2.2 * (x e.1 * x e.1) else e.2.2 * (x e.1 * x e.2.1))).sum
    + (d.coef.map (fun e => if (e.2.1, RowT.N) ∈ d.rows then e.2.2 * x e.1 else 0)).sum
    - (d.rhs.map (fun e => if (e.1, RowT.N) ∈ d.rows then e.2 else 0)).sum

/-! ### Layouts -/

/-- A header: a line that does not begin with a space and whose first word is `s`, in upper or lower case. -/
def IsHeader (s : String) (l : Line) : Prop := ∃ w more tr, l = .text false (w :: more) tr ∧ w.map Char.toLower = s.toList

/-- A line that is skipped: empty, or a line that does not begin with a space nor by the name of a section (a comment for instance). -/
def Skipped (l : Line) : Prop :=
  l = .empty ∨ ∃ ws tr, l = .text false ws tr ∧
    ∀ s ∈ ["name", "rows", "columns", "rhs", "ranges", "bounds", "quadobj", "endata"], (ws.headD []).map Char.toLower ≠ s.toList

/-- The letters of a type of row. -/
def RowT.letters : RowT → List Char
  | .E => ['E', 'e']
  | .L => ['L', 'l']
  | .G => ['G', 'g']
  | .N => ['N', 'n']

/-- The code of a kind of bound. -/
def BndT.code : BndT → Word
  | .LO => ['L', 'O']
  | .UP => ['U', 'P']
  | .FX => ['F', 'X']
  | .FR => ['F', 'R']
  | .MI => ['M', 'I']
  | .PL => ['P', 'L']

/-- The lines of the section `ROWS`. The type is one letter; it may touch the name. -/
inductive RowLines : List (Word × RowT) → List Line → Prop
  | nil : RowLines [] []
  | skip {es l ls} : Skipped l → RowLines es ls → RowLines es (l :: ls)
  | spaced {es ls} (c : Char) (n : Word) (t : RowT) (rest : List Word) (tr : Bool) : c ∈ t.letters → RowLines es ls →
      RowLines ((n, t) :: es) (.text true ([c] :: n :: rest) tr :: ls)
  | touching {es ls} (c : Char) (n : Word) (t : RowT) (rest : List Word) (tr : Bool) : c ∈ t.letters → n ≠ [] → RowLines es ls →
      RowLines ((n, t) :: es) (.text true ((c :: n) :: rest) tr :: ls)

/-- The lines of a section whose lines are a name and one or two named values. -/
inductive ValueLines (num : Word → Option ℝ) : List (Word × Word × ℝ) → List Line → Prop
  | nil : ValueLines num [] []
  | skip {es l ls} : Skipped l → ValueLines num es ls → ValueLines num es (l :: ls)
  | one {es ls} (k n w : Word) (v : ℝ) (tr : Bool) : num w = some v → ValueLines num es ls →
      ValueLines num ((k, n, v) :: es) (.text true [k, n, w] tr :: ls)
  | two {es ls} (k n w n' w' : Word) (v v' : ℝ) (rest : List Word) (tr : Bool) : num w = some v → num w' = some v' → ValueLines num es ls →
      ValueLines num ((k, n, v) :: (k, n', v') :: es) (.text true (k :: n :: w :: n' :: w' :: rest) tr :: ls)

/-- The lines of the section `BOUNDS`. -/
inductive BndLines (num : Word → Option ℝ) : List (BndT × Word × ℝ) → List Line → Prop
  | nil : BndLines num [] []
  | skip {es l ls} : Skipped l → BndLines num es ls → BndLines num es (l :: ls)
  | valued {es ls} (b c w : Word) (t : BndT) (v : ℝ) (rest : List Word) (tr : Bool) : t ≠ .FR → num w = some v →
      BndLines num es ls → BndLines num ((t, c, v) :: es) (.text true (t.code :: b :: c :: w :: rest) tr :: ls)
  | free {es ls} (b c : Word) (rest : List Word) (tr : Bool) :
      BndLines num es ls → BndLines num ((.FR, c, 0) :: es) (.text true (BndT.code .FR :: b :: c :: rest) tr :: ls)

/-- A section: a header and its lines, or nothing at all. -/
def Section (s : String) (P : List Line → Prop) (empty : Prop) (ls : List Line) : Prop :=
  (empty ∧ ls = []) ∨ ∃ h body, IsHeader s h ∧ P body ∧ ls = h :: body

/-- `file` is a layout of `d`: a name, the rows, the columns, and possibly the right hand sides, the ranges, the bounds and the quadratic
part, in this order. -/
def Layout (num : Word → Option ℝ) (d : Desc) (file : List Line) : Prop :=
  ∃ pre w pn more tn sk hr rowL hc colL rhsL rngL bndL quadL he post,
    (∀ l ∈ pre, Skipped l) ∧ IsHeader "name" (.text false (w :: pn :: more) tn) ∧ (∀ l ∈ sk, Skipped l) ∧
    IsHeader "rows" hr ∧ RowLines d.rows rowL ∧
    IsHeader "columns" hc ∧ ValueLines num d.coef colL ∧
    Section "rhs" (fun ls => ∃ k, ValueLines num (d.rhs.map (fun e => (k, e.1, e.2))) ls) (d.rhs = []) rhsL ∧
    Section "ranges" (fun ls => ∃ k, ValueLines num (d.rng.map (fun e => (k, e.1, e.2))) ls) (d.rng = []) rngL ∧
    Section "bounds" (BndLines num d.bnd) (d.bnd = []) bndL ∧
    Section "quadobj" (ValueLines num d.quad) (d.quad = []) quadL ∧
    IsHeader "endata" he ∧ (∀ l ∈ post, Skipped l) ∧
    file = pre ++ .text false (w :: pn :: more) tn :: sk ++ hr :: rowL ++ hc :: colL ++ rhsL ++ rngL ++ bndL ++ quadL ++ he :: post

end JrlQp.Qps
