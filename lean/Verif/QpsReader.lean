import Verif.Problems
import Verif.Eigen

/-!
# The reader of QPS files

Model of `tests/QPSReader.{h,cpp}`. A line is given by its first character (nothing, a space, or something else), its words (what
`is >> s` returns successively) and whether something follows the last word. The conversion of a word to a number is an argument;
`is >> value` is modelled for words that it consumes entirely or not at all. Numbers are exact reals, bounds are extended reals (`bigBnd` is
the infinity of `double`, tests/QPSReader.h:95).
-/

namespace JrlQp.Qps

open Classical

/-- A word of a line. -/
abbrev Word := List Char

/-- `QPSReader::LineType`, tests/QPSReader.h:33-46. -/
inductive LType
  | normal | name | rows | columns | rhs | ranges | bounds | quadobj | endata | empty | other
  deriving DecidableEq

/-- `QPSReader::RowType`, tests/QPSReader.h:48-55, without `UNKNOWN`. -/
inductive RowT
  | E | L | G | N
  deriving DecidableEq

/-- `QPSReader::BndType`, tests/QPSReader.h:58-67, without `UNKNOWN`. -/
inductive BndT
  | LO | UP | FX | FR | MI | PL
  deriving DecidableEq

/-- A line of the file (see the header of this file). -/
inductive Line
  | empty
  | text (space : Bool) (words : List Word) (trail : Bool)

/-- What can happen instead of a result: an exception, or an access outside of an array. -/
inductive QErr
  | throws
  | outOfRange
  deriving DecidableEq

/-- `rowType`, tests/QPSReader.cpp:30-45. -/
def rowType (c : Char) : Option RowT :=
  match c.toLower with
  | 'e' => some .E
  | 'l' => some .L
  | 'g' => some .G
  | 'n' => some .N
  | _ => none

/-- `bndType`, tests/QPSReader.cpp:47-63. -/
def bndType (s : Word) : Option BndT :=
  if s = ['L', 'O'] then some .LO
  else if s = ['U', 'P'] then some .UP
  else if s = ['F', 'X'] then some .FX
  else if s = ['F', 'R'] then some .FR
  else if s = ['M', 'I'] then some .MI
  else if s = ['P', 'L'] then some .PL
  else none

/-- The comparison with `lineName[1..8]`, tests/QPSReader.cpp:27-28, 93-96. -/
def header (s : Word) : LType :=
  if s = "name".toList then .name
  else if s = "rows".toList then .rows
  else if s = "columns".toList then .columns
  else if s = "rhs".toList then .rhs
  else if s = "ranges".toList then .ranges
  else if s = "bounds".toList then .bounds
  else if s = "quadobj".toList then .quadobj
  else if s = "endata".toList then .endata
  else .other

/-- `lineType`, tests/QPSReader.cpp:77-99. -/
def lineType : Line → LType
  | .empty => .empty
  | .text true _ _ => .normal
  | .text false ws _ => header ((ws.headD []).map Char.toLower)

/-- The data members of `QPSReader`, tests/QPSReader.h:94-115. A map is given by the list of its entries, in the order of their insertion
(the order in which `unordered_map` is traversed does not matter: each row writes its own entry). The index of a column is its
position in the list. `context` is `line` and `sec`. -/
structure Rd where
  line : Nat := 0
  sec : LType := .other
  probName : Word := []
  rows : List (Word × Nat × RowT) := []
  cols : List Word := []
  rhsName : Word := []
  rangeName : Word := []
  cVal : List (Nat × Nat × ℝ) := []
  gVal : List (Nat × Nat × ℝ) := []
  aVal : List (Nat × ℝ) := []
  bVal : List (Nat × ℝ × RowT) := []
  rVal : List (Nat × ℝ × RowT) := []
  xVal : List (Nat × ℝ × BndT) := []
  objCst : ℝ := 0
  nRows : Nat := 0
  objWasRead : Bool := false

/-- `mapRow.at(name)`. -/
def Rd.row (r : Rd) (name : Word) : Option (Nat × RowT) := (r.rows.find? (fun e => e.1 = name)).map (·.2)

/-- `mapCol.at(name)`. -/
noncomputable def Rd.col (r : Rd) (name : Word) : Option Nat := if name ∈ r.cols then some (r.cols.idxOf name) else none

/-- `parseRow`, tests/QPSReader.cpp:111-126: the type is one character, the name may follow it without space. -/
def parseRow : List Word → Except QErr (RowT × Word)
  | [] => .error .throws
  | [] :: _ => .error .throws
  | (c :: s) :: ws =>
    match rowType c with
    | none => .error .throws
    | some t =>
      match (if s = [] then ws else s :: ws) with
      | [] => .error .throws
      | name :: _ => .ok (t, name)

/-- `parseValueLine` with `readNamedValue`, tests/QPSReader.cpp:128-165. If there is no word, the message is built with
`lineName[c.line]` (:159): the number of the line, not the section, is used as index in an array of size 11. A second name that ends the
line is ignored (`is.eof()`), but it is an error if something follows it. -/
def parseValueLine (num : Word → Option ℝ) (line : Nat) (ws : List Word) (trail : Bool) :
    Except QErr (Word × (Word × ℝ) × Option (Word × ℝ)) :=
  match ws with
  | [] => if line < 11 then .error .throws else .error .outOfRange
  | [_] => .error .throws
  | [_, _] => .error .throws
  | k :: n1 :: v1 :: rest =>
    match num v1 with
    | none => .error .throws
    | some x1 =>
      match rest with
      | [] => .ok (k, (n1, x1), none)
      | [_] => if trail then .error .throws else .ok (k, (n1, x1), none)
      | n2 :: v2 :: _ =>
        match num v2 with
        | none => .error .throws
        | some x2 => .ok (k, (n1, x1), some (n2, x2))

/-- `readRow`, tests/QPSReader.cpp:348-366. -/
noncomputable def readRow (r : Rd) (ws : List Word) : Except QErr Rd :=
  match parseRow ws with
  | .error e => .error e
  | .ok (t, name) =>
    if (r.row name).isSome then .error .throws
    else if t = .N then
      if r.objWasRead then .error .throws
      else .ok { r with objWasRead := true, rows := r.rows ++ [(name, 0, t)] }
    else .ok { r with rows := r.rows ++ [(name, r.nRows, t)], nRows := r.nRows + 1 }

/-- `addValueToColumn`, tests/QPSReader.cpp:389-396. -/
def addCol (r : Rd) (c : Nat) (p : Word × ℝ) : Except QErr Rd :=
  match r.row p.1 with
  | none => .error .throws
  | some (i, t) =>
    if t = .N then .ok { r with aVal := r.aVal ++ [(c, p.2)] }
    else .ok { r with cVal := r.cVal ++ [(i, c, p.2)] }

/-- `addValueToRHS`, tests/QPSReader.cpp:410-417. -/
noncomputable def addRhs (r : Rd) (p : Word × ℝ) : Except QErr Rd :=
  match r.row p.1 with
  | none => .error .throws
  | some (i, t) =>
    if t = .N then .ok { r with objCst := -p.2 }
    else .ok { r with bVal := r.bVal ++ [(i, p.2, t)] }

/-- `addValueToRanges`, tests/QPSReader.cpp:431-436. -/
def addRange (r : Rd) (p : Word × ℝ) : Except QErr Rd :=
  match r.row p.1 with
  | none => .error .throws
  | some (i, t) =>
    if t = .N then .error .throws
    else .ok { r with rVal := r.rVal ++ [(i, p.2, t)] }

/-- The entry of `readQuadObj`, tests/QPSReader.cpp:467-480: the first name is the column. -/
noncomputable def addQuad (r : Rd) (c : Nat) (p : Word × ℝ) : Except QErr Rd :=
  match r.col p.1 with
  | none => .error .throws
  | some i => .ok { r with gVal := r.gVal ++ [(i, c, p.2)] }

/-- One or two values, `if(val2) ...`. -/
def addBoth (f : Rd → Word × ℝ → Except QErr Rd) (r : Rd) (p : Word × ℝ) (p2 : Option (Word × ℝ)) : Except QErr Rd :=
  match f r p with
  | .error e => .error e
  | .ok r =>
    match p2 with
    | none => .ok r
    | some p2 => f r p2

/-- `readColumn`, tests/QPSReader.cpp:368-387. -/
noncomputable def readColumn (num : Word → Option ℝ) (r : Rd) (ws : List Word) (trail : Bool) : Except QErr Rd :=
  match parseValueLine num r.line ws trail with
  | .error e => .error e
  | .ok (k, p1, p2) =>
    let r := if k ∈ r.cols then r else { r with cols := r.cols ++ [k] }
    addBoth (fun r p => addCol r (r.cols.idxOf k) p) r p1 p2

/-- `readRHS`, tests/QPSReader.cpp:398-408. -/
noncomputable def readRHS (num : Word → Option ℝ) (r : Rd) (ws : List Word) (trail : Bool) : Except QErr Rd :=
  match parseValueLine num r.line ws trail with
  | .error e => .error e
  | .ok (k, p1, p2) =>
    if r.rhsName ≠ [] ∧ r.rhsName ≠ k then .error .throws
    else addBoth addRhs { r with rhsName := k } p1 p2

/-- `readRanges`, tests/QPSReader.cpp:419-429. -/
noncomputable def readRanges (num : Word → Option ℝ) (r : Rd) (ws : List Word) (trail : Bool) : Except QErr Rd :=
  match parseValueLine num r.line ws trail with
  | .error e => .error e
  | .ok (k, p1, p2) =>
    if r.rangeName ≠ [] ∧ r.rangeName ≠ k then .error .throws
    else addBoth addRange { r with rangeName := k } p1 p2

/-- `readBounds`, tests/QPSReader.cpp:438-465. For `FR` the value is infinite in the code, and not used. -/
noncomputable def readBounds (num : Word → Option ℝ) (r : Rd) (ws : List Word) : Except QErr Rd :=
  match ws with
  | [] => .error .throws
  | s :: ws =>
    match bndType s with
    | none => .error .throws
    | some t =>
      match ws with
      | [] => .error .throws
      | _ :: ws =>
        if t = .FR then
          match ws with
          | [] => .error .throws
          | c :: _ =>
            match r.col c with
            | none => .error .throws
            | some i => .ok { r with xVal := r.xVal ++ [(i, 0, t)] }
        else
          match ws with
          | c :: v :: _ =>
            match num v with
            | none => .error .throws
            | some x =>
              match r.col c with
              | none => .error .throws
              | some i => .ok { r with xVal := r.xVal ++ [(i, x, t)] }
          | _ => .error .throws

/-- `readQuadObj`, tests/QPSReader.cpp:467-480. -/
noncomputable def readQuadObj (num : Word → Option ℝ) (r : Rd) (ws : List Word) (trail : Bool) : Except QErr Rd :=
  match parseValueLine num r.line ws trail with
  | .error e => .error e
  | .ok (k, p1, p2) =>
    match r.col k with
    | none => .error .throws
    | some c => addBoth (fun r p => addQuad r c p) r p1 p2

/-- `processLine`, tests/QPSReader.cpp:317-346. -/
noncomputable def processLine (num : Word → Option ℝ) (r : Rd) (ws : List Word) (trail : Bool) : Except QErr Rd :=
  match r.sec with
  | .name => .error .throws
  | .rows => readRow r ws
  | .columns => readColumn num r ws trail
  | .rhs => readRHS num r ws trail
  | .ranges => readRanges num r ws trail
  | .bounds => readBounds num r ws
  | .quadobj => readQuadObj num r ws trail
  | .endata => .error .throws
  | _ => .ok r

/-- The words of a line. -/
def Line.words : Line → List Word
  | .empty => []
  | .text _ ws _ => ws

/-- The body of the loop of `read`, tests/QPSReader.cpp:180-193, with `parseName` (:102-109). -/
noncomputable def readLine (num : Word → Option ℝ) (r0 : Rd) (l : Line) : Except QErr Rd :=
  let r : Rd := { r0 with line := r0.line + 1 }
  match lineType l, l with
  | .empty, _ => .ok r
  | .other, _ => .ok r
  | .normal, .text _ ws trail => processLine num r ws trail
  | .normal, .empty => .ok r
  | lt, l =>
    if lt = .name then
      match l.words with
      | _ :: n :: _ => .ok { r with sec := lt, probName := n }
      | _ => .error .throws
    else .ok { r with sec := lt }

/-- The loop of `read`. -/
noncomputable def readLines (num : Word → Option ℝ) : Rd → List Line → Except QErr Rd
  | r, [] => .ok r
  | r, l :: ls =>
    match readLine num r l with
    | .error e => .error e
    | .ok r => readLines num r ls

/-- `ProblemProperties`, tests/QPSReader.h:17-24. -/
structure Props where
  nbVar : Nat
  nbCstr : Nat
  nbEq : Nat
  useBounds : Prop
  hasFixedVariables : Prop

/-- Both bounds of the general constraints, or of the variables. -/
structure Box where
  l : Nat → EReal
  u : Nat → EReal

/-- tests/QPSReader.cpp:214-234 (0 for the objective: nothing is written). -/
noncomputable def boxRow (b : Box) (i : Nat) : RowT → Box
  | .E => ⟨upd b.l i 0, upd b.u i 0⟩
  | .L => ⟨upd b.l i ⊥, upd b.u i 0⟩
  | .G => ⟨upd b.l i 0, upd b.u i ⊤⟩
  | .N => b

/-- tests/QPSReader.cpp:235-255. -/
noncomputable def boxRhs (b : Box) (i : Nat) (v : ℝ) : RowT → Box
  | .E => ⟨upd b.l i (v : EReal), upd b.u i (v : EReal)⟩
  | .L => ⟨upd b.l i ⊥, upd b.u i (v : EReal)⟩
  | .G => ⟨upd b.l i (v : EReal), upd b.u i ⊤⟩
  | .N => b

/-- tests/QPSReader.cpp:256-277. -/
noncomputable def boxRange (b : Box) (i : Nat) (v : ℝ) : RowT → Box
  | .E => if 0 ≤ v then ⟨b.l, upd b.u i (b.u i + (v : EReal))⟩ else ⟨upd b.l i (b.l i + (v : EReal)), b.u⟩
  | .L => ⟨upd b.l i (b.u i - ((|v| : ℝ) : EReal)), b.u⟩
  | .G => ⟨b.l, upd b.u i (b.l i + ((|v| : ℝ) : EReal))⟩
  | .N => b

/-- tests/QPSReader.cpp:278-307. -/
noncomputable def boxBnd (b : Box) (i : Nat) (v : ℝ) : BndT → Box
  | .LO => ⟨upd b.l i (v : EReal), b.u⟩
  | .UP => ⟨b.l, upd b.u i (v : EReal)⟩
  | .FX => ⟨upd b.l i (v : EReal), upd b.u i (v : EReal)⟩
  | .FR => ⟨upd b.l i ⊥, upd b.u i ⊤⟩
  | .MI => ⟨upd b.l i ⊥, b.u⟩
  | .PL => ⟨b.l, upd b.u i ⊤⟩

/-- `for(const auto & t : GVal) qp.G(...) = ...;`, tests/QPSReader.cpp:209, 213. -/
def fillM (l : List (Nat × Nat × ℝ)) : Nat → Nat → ℝ := l.foldl (fun M e => upd2 M e.1 e.2.1 e.2.2) (fun _ _ => 0)

/-- `for(const auto & p : aVal) qp.a[p.first] = p.second;`, tests/QPSReader.cpp:212. -/
def fillV (l : List (Nat × ℝ)) : Nat → ℝ := l.foldl (fun v e => upd v e.1 e.2) (fun _ => 0)

/-- The bounds on the general constraints. -/
noncomputable def Rd.cBox (r : Rd) : Box :=
  let b := r.rows.foldl (fun b e => boxRow b e.2.1 e.2.2) ⟨fun _ => 0, fun _ => 0⟩
  let b := r.bVal.foldl (fun b e => boxRhs b e.1 e.2.1 e.2.2) b
  r.rVal.foldl (fun b e => boxRange b e.1 e.2.1 e.2.2) b

/-- The bounds on the variables. -/
noncomputable def Rd.xBox (r : Rd) : Box :=
  r.xVal.foldl (fun b e => boxBnd b e.1 e.2.1 e.2.2) ⟨fun _ => 0, fun _ => ⊤⟩

/-- The second half of `read`, tests/QPSReader.cpp:195-314. `full` is `fullObjMat`. -/
noncomputable def Rd.problem (full : Bool) (r : Rd) : Qp × Props :=
  let n := r.cols.length
  let G := fillM r.gVal
  ({ cstr :=
      { C := ⟨r.nRows, n, fillM r.cVal⟩
        l := ⟨r.nRows, r.cBox.l⟩
        u := ⟨r.nRows, r.cBox.u⟩
        xl := ⟨n, r.xBox.l⟩
        xu := ⟨n, r.xBox.u⟩
        tr := false }
     cost :=
      { G := ⟨n, n, fun i j => if full = true ∧ i < j then G j i else G i j⟩
        a := ⟨n, fillV r.aVal⟩
        objCst := r.objCst } },
   { nbVar := n
     nbCstr := r.nRows
     nbEq := (r.rows.filter (fun e => e.2.2 = .E)).length
     useBounds := (∃ i < n, ⊥ < r.xBox.l i) ∨ ∃ i < n, r.xBox.u i < ⊤
     hasFixedVariables := ∃ e ∈ r.xVal, e.2.2 = .FX })

/-- `QPSReader::read`, tests/QPSReader.cpp:172-315, on the lines of the file. The reader is left with the data it has collected. -/
noncomputable def read (num : Word → Option ℝ) (full : Bool) (r : Rd) (file : List Line) : Except QErr ((Qp × Props) × Rd) :=
  match readLines num r file with
  | .error e => .error e
  | .ok r => .ok (r.problem full, r)

end JrlQp.Qps
