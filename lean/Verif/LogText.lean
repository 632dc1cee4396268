import Verif.Options

/-!
# The text written by the logger

Model of `include/jrl-qp/utils/toMatlab.h`, of the output part of `include/jrl-qp/utils/Logger.h` and of the `operator<<` of
the values that are logged. The text of a number (`ostream << double`) is an argument; a text is a list of characters. Stream
failures are not modelled.
-/

namespace JrlQp
namespace Log

/-- A piece of text. -/
abbrev Word := List Char

/-- Decimal digits of a natural number (`ostream << int`, default format). -/
def dec (n : Nat) : Word :=
  if n < 10 then [Nat.digitChar n] else dec (n / 10) ++ [Nat.digitChar (n % 10)]

/-- `ostream << int`. -/
def decInt : Int → Word
  | .ofNat n => dec n
  | .negSucc n => '-' :: dec (n + 1)

/-- `l₀ sep l₁ sep ...`. -/
def joinSep (sep : Word) : List Word → Word
  | [] => []
  | [w] => w
  | w :: v :: l => w ++ sep ++ joinSep sep (v :: l)

/-- `s.width(w); s << text`: right-justified with spaces. -/
def padTo (w : Nat) (t : Word) : Word := List.replicate (w - t.length) ' ' ++ t

/-- Eigen's `print_matrix` for an `IOFormat` with flags 0 (columns are aligned), matrix prefix `[`, matrix suffix `]`, no row
prefix and suffix; the row spacer is one space for each character of the matrix prefix. The size of the matrix is `r x c`, the
texts of its coefficients are `W`. Called in include/jrl-qp/utils/toMatlab.h:44-51. -/
def printMat (coefSep rowSep : Word) (r c : Nat) (W : Nat → Nat → Word) : Word :=
  if r = 0 ∨ c = 0 then ['[', ']']
  else
    let width := ((List.range c).flatMap fun j => (List.range r).map fun i => (W i j).length).foldl max 0
    '[' :: joinSep (rowSep ++ [' ']) ((List.range r).map fun i => joinSep coefSep ((List.range c).map fun j => padTo width (W i j))) ++ [']']

/-- `operator<<(std::ostream &, const toMatlab &)`, include/jrl-qp/utils/toMatlab.h:40-53. -/
def toMatlab (r c : Nat) (W : Nat → Nat → Word) : Word :=
  if c = 1 then printMat [';', ' '] [';'] 1 r (fun _ j => W j 0)
  else printMat [',', ' '] [';', '\n'] r c W

/-- The values that are logged: an Eigen matrix or vector (given by its size and coefficients), a number, an integer, a
Boolean, the active set, a `std::vector` of integers or enumerators, a selected constraint. -/
inductive LVal (K : Type)
  | mat (r c : Nat) (M : Nat → Nat → K)
  | num (x : K)
  | int (i : Int)
  | bool (b : Bool)
  | active (l : List Int)
  | vec (l : List Int)
  | sel (p st : Int)

/-- The text after `=` (without the final semicolon): include/jrl-qp/utils/Logger.h:141-164;
src/internal/ActiveSet.cpp:170-178; include/jrl-qp/internal/SelectedConstraint.h:36-40. -/
def LVal.text {K : Type} (shw : K → Word) : LVal K → Word
  | .mat r c M => toMatlab r c (fun i j => shw (M i j))
  | .num x => shw x
  | .int i => decInt i
  | .bool b => if b then ['1'] else ['0']
  | .active l => '[' :: joinSep [',', ' '] (l.map decInt) ++ [']']
  | .vec l => '[' :: joinSep [',', ' '] (l.map decInt) ++ [']']
  | .sel p st => '{' :: decInt p ++ [',', ' '] ++ decInt st ++ ['}']

/-- `logVal_` writes nothing for an empty `std::vector`, include/jrl-qp/utils/Logger.h:150. -/
def LVal.silent {K : Type} : LVal K → Bool
  | .vec [] => true
  | _ => false

/-- `logIter<b>`, include/jrl-qp/utils/Logger.h:94-106. -/
def logIter (g : Logger) (b : Bool) : Word :=
  if b then g.name.toList ++ '(' :: decInt (g.iter + 1) ++ [')'] else g.name.toList ++ ['D', 'a', 't', 'a']

/-- `logVal_<b>`, include/jrl-qp/utils/Logger.h:141-164. -/
def logVal {K : Type} (shw : K → Word) (g : Logger) (b : Bool) (name : Word) (v : LVal K) : Word :=
  if v.silent then [] else logIter g b ++ '.' :: name ++ [' ', '=', ' '] ++ v.text shw ++ [';', '\n']

/-- Calls on a logger. -/
inductive LogCall (K : Type)
  | comment (flag : BitVec 32) (text : Word)
  | log (flag : BitVec 32) (vals : List (Word × LVal K))
  | startIter (i : Int)

/-- `Logger::comment` and `Logger::log`, include/jrl-qp/utils/Logger.h:108-127: the text written. -/
def commentText (g : Logger) (f : BitVec 32) (t : Word) : Word :=
  if f &&& g.flags ≠ 0 then '%' :: ' ' :: t ++ ['\n'] else []

/-- See `commentText`. -/
def logText {K : Type} (shw : K → Word) (g : Logger) (f : BitVec 32) (vals : List (Word × LVal K)) : Word :=
  if f &&& g.flags ≠ 0 then vals.flatMap fun v => logVal shw g (decide (f &&& noIterationFlag = 0)) v.1 v.2 else []

/-- A call: the logger after it, the text it writes. `startIter`: src/utils/Logger.cpp:22-26. -/
def write {K : Type} (shw : K → Word) (g : Logger) : LogCall K → Logger × Word
  | .comment f t => (g, commentText g f t)
  | .log f vals => (g, logText shw g f vals)
  | .startIter i => ({ g with iter := i }, logText shw { g with iter := i } (~~~0) [(['i', 't'], LVal.int i)])

/-- A sequence of calls. -/
def script {K : Type} (shw : K → Word) : Logger → List (LogCall K) → Word
  | _, [] => []
  | g, c :: cs => (write shw g c).2 ++ script shw (write shw g c).1 cs

end Log
end JrlQp
