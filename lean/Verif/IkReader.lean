/-!
# The reader of the inverse kinematics problems

Model of `tests/IKmatReader.{h,cpp}`. A file is the list of its lines (what `std::getline` returns successively). The conversions of
the standard library, `iss >> double` and `iss >> int`, are arguments of the model (`Scan`).
-/

namespace JrlQp.Ik

/-- A line of a file, without its end. -/
abbrev Line := List Char

/-- `operator>>` of a stream, for `double` and `int`: the value and what remains, or nothing in case of failure. A conversion that succeeds consumes
something. -/
structure Scan (K : Type) where
  dbl : Line → Option (K × Line)
  int : Line → Option Int
  dbl_short : ∀ {s v r}, dbl s = some (v, r) → r.length < s.length

/-- What can happen instead of a result: `std::runtime_error` thrown by the reader, `std::out_of_range` thrown by `std::string::compare`, or an
assertion of Eigen about sizes (an access outside of an array if assertions are off). -/
inductive IErr
  | runtime
  | outOfRange
  | assertion
  deriving DecidableEq

/-- `MatrixXd`: the number of columns and the rows. -/
structure Mat (K : Type) where
  cols : Nat
  rows : List (List K)
  deriving DecidableEq

variable {K : Type}

/-- `readVecLine`, tests/IKmatReader.cpp:11-17: numbers are read until a conversion fails. -/
def readVec (sc : Scan K) (line : Line) : List K :=
  match h : sc.dbl line with
  | none => []
  | some (v, rest) => v :: readVec sc rest
termination_by line.length
decreasing_by exact sc.dbl_short h

/-- `readIntLine`, tests/IKmatReader.cpp:19-31. -/
def readIntLine (sc : Scan K) : List Line → Except IErr (Int × List Line)
  | [] => .error .runtime
  | l :: ls =>
    match sc.int l with
    | none => .error .runtime
    | some i => .ok (i, ls)

/-- `isDataName`, tests/IKmatReader.cpp:33-41: `line.compare(5, name.size(), name)` throws if the line has fewer than 5 characters, and compares
only as many characters as `name` has. -/
def isDataName (line name : Line) : Except IErr Bool :=
  if line.head? = some '=' then
    if line.length < 5 then .error .outOfRange
    else .ok (decide ((line.drop 5).take name.length = name))
  else .ok false

/-- `readDataNameLine`, tests/IKmatReader.cpp:43-52. -/
def readDataNameLine (name : Line) : List Line → Except IErr (List Line)
  | [] => .error .runtime
  | l :: ls =>
    match isDataName l name with
    | .error e => .error e
    | .ok true => .ok ls
    | .ok false => .error .runtime

/-- The loop of tests/IKmatReader.cpp:84-90: `k` more rows, that must have `cols` elements. -/
def readRows (sc : Scan K) (cols : Nat) : Nat → List Line → Except IErr (List (List K) × List Line)
  | 0, ls => .ok ([], ls)
  | _ + 1, [] => .error .runtime
  | k + 1, l :: ls =>
    if (readVec sc l).length = cols then
      match readRows sc cols k ls with
      | .error e => .error e
      | .ok (rs, rest) => .ok (readVec sc l :: rs, rest)
    else .error .assertion

/-- `readMat(aif, nbRows, forceVec)`, tests/IKmatReader.cpp:54-93. With `nbRows < 0` all the lines are read (:58-65); with 0 one line is
skipped (:66-72). -/
def readMat (sc : Scan K) (nbRows : Int) (forceVec : Bool) (ls : List Line) : Except IErr (Mat K × List Line) :=
  if nbRows < 0 then
    let rows := ls.map (readVec sc)
    let cols := (rows.headD []).length
    if rows.all (fun r => r.length = cols) then .ok (⟨cols, rows⟩, []) else .error .assertion
  else if nbRows = 0 then
    match ls with
    | [] => .error .runtime
    | _ :: rest => .ok (⟨if forceVec then 1 else 0, []⟩, rest)
  else
    match ls with
    | [] => .error .runtime
    | l :: rest =>
      let r := readVec sc l
      match readRows sc r.length (nbRows.toNat - 1) rest with
      | .error e => .error e
      | .ok (rs, rest) => .ok (⟨r.length, r :: rs⟩, rest)

/-- `readMat(filename)`, tests/IKmatReader.cpp:95-104, for a file that can be opened. -/
def readMatFile (sc : Scan K) (ls : List Line) : Except IErr (Mat K) :=
  match readMat sc (-1) false ls with
  | .error e => .error e
  | .ok (M, _) => .ok M

/-- The conversion of a `MatrixXd` to a `VectorXd`: Eigen asserts that there is one column (`PlainObjectBase::resizeLike` and `resize`). -/
def toVec (M : Mat K) : Except IErr (List K) := if M.cols = 1 then .ok M.rows.flatten else .error .assertion

/-- The tuple returned by `readIKPbFile`. -/
structure Out (K : Type) where
  Q : Mat K
  c : List K
  A : Mat K
  b : List K
  C : Mat K
  d : List K
  xl : List K
  xu : List K
  deriving DecidableEq

/-- A name, then an integer: tests/IKmatReader.cpp:121-126. -/
def readDim (sc : Scan K) (name : Line) (ls : List Line) : Except IErr (Int × List Line) :=
  match readDataNameLine name ls with
  | .error e => .error e
  | .ok ls => readIntLine sc ls

/-- A name, then a matrix: tests/IKmatReader.cpp:127-128, 131-132, 135-136. -/
def readNamed (sc : Scan K) (name : Line) (nbRows : Int) (forceVec : Bool) (ls : List Line) : Except IErr (Mat K × List Line) :=
  match readDataNameLine name ls with
  | .error e => .error e
  | .ok ls => readMat sc nbRows forceVec ls

/-- A name, then a vector: tests/IKmatReader.cpp:129-130, 133-134, 137-142. -/
def readNamedVec (sc : Scan K) (name : Line) (nbRows : Int) (forceVec : Bool) (ls : List Line) : Except IErr (List K × List Line) :=
  match readNamed sc name nbRows forceVec ls with
  | .error e => .error e
  | .ok (M, ls) =>
    match toVec M with
    | .error e => .error e
    | .ok v => .ok (v, ls)

/-- `readIKPbFile`, tests/IKmatReader.cpp:106-146, for a file that can be opened. -/
def readIKPbFile (sc : Scan K) (ls : List Line) : Except IErr (Out K) := do
  let (n, ls) ← readDim sc "dim_var".toList ls
  let (me, ls) ← readDim sc "dim_eq".toList ls
  let (mi, ls) ← readDim sc "dim_ineq".toList ls
  let (Q, ls) ← readNamed sc "Q".toList n false ls
  let (c, ls) ← readNamedVec sc "c".toList n false ls
  let (A, ls) ← readNamed sc "A".toList me false ls
  let (b, ls) ← readNamedVec sc "b".toList me true ls
  let (C, ls) ← readNamed sc "C".toList mi false ls
  let (d, ls) ← readNamedVec sc "d".toList mi true ls
  let (xl, ls) ← readNamedVec sc "x_min".toList n true ls
  let (xu, _) ← readNamedVec sc "x_max".toList n true ls
  return ⟨Q, c, A, b, C, d, xl, xu⟩

end JrlQp.Ik
