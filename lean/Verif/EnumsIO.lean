import Verif.LogText
import Verif.Enums

/-! Model of the printing of termination statuses: include/jrl-qp/utils/enumsIO.h, src/utils/enumsIO.cpp. -/

namespace JrlQp
namespace Log

/-- `static_cast<int>(TerminationStatus)`: the place in the declaration, include/jrl-qp/enums.h:27-38. -/
def termVal : Term → Int
  | .success => 0
  | .inconsistentInput => 1
  | .nonPosHessian => 2
  | .infeasible => 3
  | .maxIterReached => 4
  | .linearDependencyDetected => 5
  | .overconstrainedProblem => 6
  | .unknown => 7

/-- What `operator<<(std::ostream &, TerminationStatus)` appends, src/utils/enumsIO.cpp:5-34. The argument is the underlying value of the status, which
may be any `int`. -/
def showTerm (s : Int) : Word :=
  if s = 0 then "success".toList
  else if s = 1 then "inconsistent inputs".toList
  else if s = 2 then "non positive hessian matrix".toList
  else if s = 3 then "infeasible".toList
  else if s = 4 then "maximum iteration reached".toList
  else if s = 5 then "linear dependency detected".toList
  else if s = 6 then "overconstrained problem".toList
  else "unknown failure (".toList ++ decInt s ++ ")".toList

end Log
end JrlQp
