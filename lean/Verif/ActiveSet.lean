import Verif.Enums
import Mathlib.Data.List.Nodup
import Mathlib.Data.List.Count
import Mathlib.Tactic.Linarith

/-!
# The active set

Model of `src/internal/ActiveSet.cpp` and `include/jrl-qp/internal/ActiveSet.h`.
Sizes are natural numbers (`int` overflow is not modelled). The counters are integers, as in the code.
-/

namespace JrlQp

/-- `class ActiveSet`, data members: include/jrl-qp/internal/ActiveSet.h:151-168. -/
structure ActiveSet where
  /-- `status_` -/
  status : List Status
  /-- `activeSet_` -/
  active : List Nat
  nbCstr : Nat
  nbBnd : Nat
  me : Int
  mi : Int
  ml : Int
  mu : Int
  mb : Int
  mbl : Int
  mbu : Int
  mbe : Int
  deriving DecidableEq, Repr, Inhabited

namespace ActiveSet

/-- `ActiveSet::reset`, src/internal/ActiveSet.cpp:45-58. -/
def reset (A : ActiveSet) : ActiveSet :=
  { A with status := List.replicate A.status.length .inactive, active := [],
           me := 0, mi := 0, ml := 0, mu := 0, mb := 0, mbl := 0, mbu := 0, mbe := 0 }

/-- `std::vector::resize`: truncates or appends default values (here `INACTIVE`, the enumerator of value 0). -/
def vecResize (l : List Status) (n : Nat) : List Status :=
  l.take n ++ List.replicate (n - l.length) .inactive

/-- `ActiveSet::resize`, src/internal/ActiveSet.cpp:31-43. -/
def resize (A : ActiveSet) (nCstr nBnd : Nat) : ActiveSet :=
  reset { A with status := vecResize A.status (nCstr + nBnd), nbCstr := nCstr, nbBnd := nBnd }

/-- `ActiveSet::ActiveSet(int nCstr, int nBnd)`, src/internal/ActiveSet.cpp:12-15. The data members are left
uninitialised before `resize`; `resize` overwrites all of them, so the starting value is immaterial. -/
def mk' (nCstr nBnd : Nat) : ActiveSet :=
  resize { status := [], active := [], nbCstr := 0, nbBnd := 0,
           me := 0, mi := 0, ml := 0, mu := 0, mb := 0, mbl := 0, mbu := 0, mbe := 0 } nCstr nBnd

/-- `ActiveSet::activationStatus(int)`, src/internal/ActiveSet.cpp:71-75. Reading out of range (undefined in C++)
returns `inactive` here; the callers' ranges are checked in the solver model. -/
def statusAt (A : ActiveSet) (i : Nat) : Status := A.status.getD i .inactive

/-- `ActiveSet::isActive`, src/internal/ActiveSet.cpp:60-64. -/
def isActive (A : ActiveSet) (i : Nat) : Bool := decide (A.statusAt i ≠ .inactive)

/-- `ActiveSet::activationStatusBnd`, src/internal/ActiveSet.cpp:76-80. -/
def statusAtBnd (A : ActiveSet) (i : Nat) : Status := A.statusAt (A.nbCstr + i)

/-- `ActiveSet::isActiveBnd`, src/internal/ActiveSet.cpp:65-70. -/
def isActiveBnd (A : ActiveSet) (i : Nat) : Bool := decide (A.statusAtBnd i ≠ .inactive)

/-- `ActiveSet::operator[]`, include/jrl-qp/internal/ActiveSet.h:76-79 (0 when out of range). -/
def get (A : ActiveSet) (k : Nat) : Nat := A.active.getD k 0

/-- `ActiveSet::nbAll`, include/jrl-qp/internal/ActiveSet.h:108-111. -/
def nbAll (A : ActiveSet) : Nat := A.nbCstr + A.nbBnd

/-- `ActiveSet::nbActiveCstr`, include/jrl-qp/internal/ActiveSet.h:113-116. -/
def nbActiveCstr (A : ActiveSet) : Int := A.me + A.mi + A.mb

/-- The counter updates of the `switch` of src/internal/ActiveSet.cpp:103-130 (`d = 1`) and 140-167 (`d = -1`). -/
def bump (A : ActiveSet) (s : Status) (d : Int) : ActiveSet :=
  match s with
  | .lower => { A with mi := A.mi + d, ml := A.ml + d }
  | .upper => { A with mi := A.mi + d, mu := A.mu + d }
  | .equality => { A with me := A.me + d }
  | .lowerBound => { A with mb := A.mb + d, mbl := A.mbl + d }
  | .upperBound => { A with mb := A.mb + d, mbu := A.mbu + d }
  | .fixed => { A with mb := A.mb + d, mbe := A.mbe + d }
  | .inactive => A

/-- The asserted preconditions of `activate`, src/internal/ActiveSet.cpp:89-98. -/
def activatePre (A : ActiveSet) (i : Nat) (s : Status) : Bool :=
  decide (i < A.nbCstr + A.nbBnd) && decide (A.statusAt i = .inactive) && decide (s ≠ .inactive)
    && ((decide (i < A.nbCstr) && s.isGeneral) || (decide (A.nbCstr ≤ i) && s.isBound))

/-- `ActiveSet::activate`, src/internal/ActiveSet.cpp:87-131. -/
def activate (A : ActiveSet) (i : Nat) (s : Status) : ActiveSet :=
  bump { A with active := A.active ++ [i], status := A.status.set i s } s 1

/-- Precondition of `deactivate` (src/internal/ActiveSet.cpp:134): the position must exist. -/
def deactivatePre (A : ActiveSet) (k : Nat) : Bool := decide (k < A.active.length)

/-- `ActiveSet::deactivate`, src/internal/ActiveSet.cpp:132-168. -/
def deactivate (A : ActiveSet) (k : Nat) : ActiveSet :=
  bump { A with active := A.active.eraseIdx k, status := A.status.set (A.get k) .inactive }
    (A.statusAt (A.get k)) (-1)

/-- Loop of the constructor from a status vector, src/internal/ActiveSet.cpp:22-28, starting at index `i`. -/
def activateAll (A : ActiveSet) : Nat → List Status → ActiveSet
  | _, [] => A
  | i, s :: rest => activateAll (if s ≠ .inactive then A.activate i s else A) (i + 1) rest

/-- `ActiveSet::ActiveSet(const std::vector<ActivationStatus>&, int)`, src/internal/ActiveSet.cpp:17-29. -/
def ofStatus (as : List Status) (nBnd : Nat) : ActiveSet :=
  activateAll (mk' (as.length - nBnd) nBnd) 0 as

/-! ## Operation histories -/

/-- The public mutating operations of `ActiveSet`. -/
inductive Op
  | resize (nCstr nBnd : Nat)
  | reset
  | activate (i : Nat) (s : Status)
  | deactivate (k : Nat)
  deriving DecidableEq, Repr

/-- One operation; `none` when a documented/asserted precondition is violated. -/
def step (A : ActiveSet) : Op → Option ActiveSet
  | .resize c b => some (A.resize c b)
  | .reset => some A.reset
  | .activate i s => if A.activatePre i s then some (A.activate i s) else none
  | .deactivate k => if A.deactivatePre k then some (A.deactivate k) else none

/-- A sequence of operations. -/
def run (A : ActiveSet) : List Op → Option ActiveSet
  | [] => some A
  | o :: os => (A.step o).bind fun A' => A'.run os

end ActiveSet
end JrlQp
