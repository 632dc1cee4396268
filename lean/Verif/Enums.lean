/-!
# Enumerations

Model of `include/jrl-qp/enums.h`.
-/

namespace JrlQp

/-- `enum class ActivationStatus`, include/jrl-qp/enums.h:14-23 (same order of the cases). -/
inductive Status
  | inactive
  | lower
  | upper
  | equality
  | lowerBound
  | upperBound
  | fixed
  deriving DecidableEq, Repr, Inhabited

namespace Status

/-- The underlying integer of the enumerator (position in include/jrl-qp/enums.h:14-23); the code compares statuses
with `<` and `>=` (e.g. include/jrl-qp/internal/ConstraintNormal.h:40-41). -/
def toNat : Status → Nat
  | inactive => 0
  | lower => 1
  | upper => 2
  | equality => 3
  | lowerBound => 4
  | upperBound => 5
  | fixed => 6

/-- Statuses a general constraint may be given: src/internal/ActiveSet.cpp:92-94. -/
def isGeneral : Status → Bool
  | lower | upper | equality => true
  | _ => false

/-- Statuses a bound may be given: src/internal/ActiveSet.cpp:95-97. -/
def isBound : Status → Bool
  | lowerBound | upperBound | fixed => true
  | _ => false

/-- `EQUALITY` or `FIXED`, the statuses tested in src/GoldfarbIdnaniSolver.cpp:162. -/
def isEq : Status → Bool
  | equality | fixed => true
  | _ => false

/-- `UPPER` or `UPPER_BOUND`, the statuses tested in src/DualSolver.cpp:58. -/
def isUpper : Status → Bool
  | upper | upperBound => true
  | _ => false

end Status

/-- `enum class TerminationStatus`, include/jrl-qp/enums.h:26-37. -/
inductive Term
  | success
  | inconsistentInput
  | nonPosHessian
  | infeasible
  | maxIterReached
  | linearDependencyDetected
  | overconstrainedProblem
  | unknown
  deriving DecidableEq, Repr, Inhabited

end JrlQp
