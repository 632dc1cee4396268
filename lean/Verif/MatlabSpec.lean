import Mathlib.Data.List.Basic

/-!
# Specification: how Matlab reads a script of assignments

An independent reader for the subset of the Matlab language a log may use: comments, and assignments of a matrix, a number or
a cell array to a (possibly indexed) field of a structure.
-/

namespace Matlab

/-- Blanks. -/
def blank (c : Char) : Bool := c == ' ' || c == '\t' || c == '\n'

/-- Characters that cannot belong to a number. -/
def special (c : Char) : Bool :=
  blank c || c == '[' || c == ']' || c == '{' || c == '}' || c == '(' || c == ')' || c == ',' || c == ';' || c == '=' || c == '%'

/-- Characters of an identifier. -/
def identChar (c : Char) : Bool := c.isAlphanum || c == '_'

/-- Cut a text at each occurrence of a character. -/
def split (c : Char) : List Char → List (List Char)
  | [] => [[]]
  | x :: xs =>
    if x = c then [] :: split c xs
    else
      match split c xs with
      | [] => [[x]]
      | h :: t => (x :: h) :: t

/-- Remove the blanks at both ends. -/
def trim (t : List Char) : List Char := ((t.dropWhile blank).reverse.dropWhile blank).reverse

/-- A value: the rows of a matrix of numbers (a number is a `1 x 1` matrix), or a cell array of numbers. Numbers are left as
they are written. -/
inductive Val
  | mat (rows : List (List (List Char)))
  | cell (l : List (List Char))

/-- A number. -/
def readNum (t : List Char) : Option (List Char) :=
  let w := trim t
  if w ≠ [] ∧ w.all (fun c => !special c) then some w else none

/-- All the elements must be readable. -/
def all {α β : Type} (f : α → Option β) : List α → Option (List β)
  | [] => some []
  | a :: l =>
    match f a, all f l with
    | some b, some bs => some (b :: bs)
    | _, _ => none

/-- Elements separated by commas. -/
def readRow (t : List Char) : Option (List (List Char)) := all readNum (split ',' t)

/-- Rows separated by semicolons; no element: the empty matrix. -/
def readRows (t : List Char) : Option (List (List (List Char))) :=
  if trim t = [] then some [] else all readRow (split ';' t)

/-- The right-hand side of an assignment. -/
def readVal (t : List Char) : Option Val :=
  match t with
  | '[' :: u => if u.getLast? = some ']' then (readRows u.dropLast).map .mat else none
  | '{' :: u => if u.getLast? = some '}' then (readRow u.dropLast).map .cell else none
  | t => (readNum t).map fun w => .mat [[w]]

/-- An unsigned decimal integer. -/
def readNat (t : List Char) : Option Nat :=
  if t ≠ [] ∧ t.all Char.isDigit then some (t.foldl (fun n c => 10 * n + (c.toNat - '0'.toNat)) 0) else none

/-- A decimal integer. -/
def readInt (t : List Char) : Option Int :=
  match t with
  | '-' :: u => (readNat u).map fun n => -(n : Int)
  | t => (readNat t).map fun n => (n : Int)

/-- An identifier. -/
def readIdent (t : List Char) : Option (List Char) := if t ≠ [] ∧ t.all identChar then some t else none

/-- `name` or `name(i)`. -/
def readSeg (t : List Char) : Option (List Char × Option Int) :=
  match split '(' t with
  | [a] => (readIdent a).map fun w => (w, none)
  | [a, b] =>
    if b.getLast? = some ')' then
      match readIdent a, readInt b.dropLast with
      | some w, some i => some (w, some i)
      | _, _ => none
    else none
  | _ => none

/-- A statement: a comment, or the assignment of a value to a path `a(i).b.c(j)`. -/
inductive Stmt
  | comment (t : List Char)
  | assign (path : List (List Char × Option Int)) (v : Val)

/-- Read a statement; an assignment ends with a semicolon. -/
def readStmt (t : List Char) : Option Stmt :=
  match t with
  | '%' :: u => some (.comment u)
  | t =>
    match split '=' t with
    | [l, r] =>
      let r := trim r
      if r.getLast? = some ';' then
        match all readSeg (split '.' (trim l)), readVal r.dropLast with
        | some p, some v => some (.assign p v)
        | _, _ => none
      else none
    | _ => none

/-- Cut a script into statements: at the end of a line, except between brackets or braces (a comment extends to the end of
its line). Arguments: number of open brackets, in a comment or not, the statement read so far (reversed). -/
def stmts : Nat → Bool → List Char → List Char → List (List Char)
  | _, _, acc, [] => if acc = [] then [] else [acc.reverse]
  | d, cm, acc, c :: cs =>
    if c = '\n' ∧ (cm = true ∨ d = 0) then acc.reverse :: stmts 0 false [] cs
    else stmts (if cm then d else if c = '[' ∨ c = '{' then d + 1 else if c = ']' ∨ c = '}' then d - 1 else d)
      (cm || (acc.isEmpty && c == '%')) (c :: acc) cs

/-- Read a script. -/
def readScript (t : List Char) : Option (List Stmt) := all readStmt (stmts 0 false [] t)

/-- A statement Matlab accepts: indices start at 1. -/
def Stmt.Valid : Stmt → Prop
  | .comment _ => True
  | .assign p _ => ∀ s ∈ p, ∀ i, s.2 = some i → 1 ≤ i

end Matlab
