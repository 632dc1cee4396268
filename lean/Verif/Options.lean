import Mathlib.Data.BitVec

/-!
# Options and logger

Model of include/jrl-qp/SolverOptions.h, include/jrl-qp/utils/Logger.h, src/utils/Logger.cpp and of `DualSolver::options`,
src/DualSolver.cpp:26-31. A stream is represented by a number (its address); what is written is a list of lines with the
stream they go to. The text of the values is not modelled, only the member of the Matlab structure it is assigned to.
-/

namespace JrlQp

/-- `SolverOptions`, include/jrl-qp/SolverOptions.h:14-20. -/
structure SolverOptions (K : Type) where
  maxIter : Int
  bigBnd : K
  warmStart : Bool
  logFlags : BitVec 32
  stream : Nat

namespace SolverOptions

variable {K : Type}

/-- Default values, include/jrl-qp/SolverOptions.h:14-18: `big` is `1e100`, `dflt` is the default stream. -/
def default (big : K) (dflt : Nat) : SolverOptions K := ⟨500, big, false, 0, dflt⟩

/-- `logFlags(f)`, include/jrl-qp/SolverOptions.h:26-35. -/
def setLogFlags (o : SolverOptions K) (f : BitVec 32) : SolverOptions K := { o with logFlags := f }

/-- `addLogFlag`, include/jrl-qp/SolverOptions.h:36-40. -/
def addLogFlag (o : SolverOptions K) (f : BitVec 32) : SolverOptions K := { o with logFlags := o.logFlags ||| f }

/-- `removeLogFlag`, include/jrl-qp/SolverOptions.h:41-45. -/
def removeLogFlag (o : SolverOptions K) (f : BitVec 32) : SolverOptions K := { o with logFlags := o.logFlags &&& ~~~f }

/-- `maxIter(max)`, include/jrl-qp/SolverOptions.h:51-55. -/
def setMaxIter (o : SolverOptions K) (n : Int) : SolverOptions K := { o with maxIter := n }

/-- `bigBnd(big)`, include/jrl-qp/SolverOptions.h:61-65. -/
def setBigBnd (o : SolverOptions K) (b : K) : SolverOptions K := { o with bigBnd := b }

/-- `warmStart(warm)`, include/jrl-qp/SolverOptions.h:71-75. -/
def setWarmStart (o : SolverOptions K) (b : Bool) : SolverOptions K := { o with warmStart := b }

/-- `logStream(os)`, include/jrl-qp/SolverOptions.h:81-85. -/
def setStream (o : SolverOptions K) (s : Nat) : SolverOptions K := { o with stream := s }

end SolverOptions

/-- `constant::noIterationFlag`, include/jrl-qp/defs.h:22. -/
def noIterationFlag : BitVec 32 := 1#32 <<< 31

/-- `LogFlags`, include/jrl-qp/enums.h:40-52. -/
inductive LogFlags
  | none | input | termination | iterationBasicDetails | iterationAdvanceDetails | activeSet | activeSetDetails | init | misc | noIter
  deriving DecidableEq, Repr

/-- The values of the enumerators, include/jrl-qp/enums.h:42-51. -/
def LogFlags.bits : LogFlags → BitVec 32
  | .none => 0
  | .input => 1#32 <<< 0
  | .termination => 1#32 <<< 1
  | .iterationBasicDetails => 1#32 <<< 2
  | .iterationAdvanceDetails => 1#32 <<< 3
  | .activeSet => 1#32 <<< 4
  | .activeSetDetails => 1#32 <<< 5
  | .init => 1#32 <<< 6
  | .misc => 1#32 <<< 30
  | .noIter => noIterationFlag

/-- `Logger`, include/jrl-qp/utils/Logger.h:18-92. -/
structure Logger where
  flags : BitVec 32
  iter : Int
  name : String
  os : Nat

/-- A line of log: a comment, an assignment to the member `val` of `name(i)`, or to the member `val` of `nameData`. -/
inductive LogLine
  | comment (text : String)
  | iter (name : String) (i : Int) (val : String)
  | data (name : String) (val : String)
  deriving DecidableEq, Repr

namespace Logger

/-- The constructor, include/jrl-qp/utils/Logger.h:25-27. -/
def new (os : Nat) (name : String) (flags : BitVec 32 := 0) : Logger := ⟨flags, -1, name, os⟩

/-- `setFlag`, src/utils/Logger.cpp:7-14. -/
def setFlag (g : Logger) (f : BitVec 32) (add : Bool := true) : Logger :=
  if add then { g with flags := g.flags ||| f } else { g with flags := g.flags &&& ~~~f }

/-- `setOutputStream`, src/utils/Logger.cpp:16-20. -/
def setOutputStream (g : Logger) (os : Nat) : Logger := { g with os := os }

/-- `comment`, include/jrl-qp/utils/Logger.h:108-112: the stream and the line written, if any. -/
def comment (g : Logger) (f : BitVec 32) (text : String) : List (Nat × LogLine) :=
  if f &&& g.flags ≠ 0 then [(g.os, .comment text)] else []

/-- `log`, include/jrl-qp/utils/Logger.h:114-165: one line for each value, here given by their names (a `std::vector` that is
empty gives no line, which is not modelled). -/
def log (g : Logger) (f : BitVec 32) (vals : List String) : List (Nat × LogLine) :=
  if f &&& g.flags ≠ 0 then
    if f &&& noIterationFlag ≠ 0 then vals.map fun v => (g.os, .data g.name v)
    else vals.map fun v => (g.os, .iter g.name (g.iter + 1) v)
  else []

/-- `startIter`, src/utils/Logger.cpp:22-26. -/
def startIter (g : Logger) (i : Int) : Logger × List (Nat × LogLine) :=
  let g := { g with iter := i }
  (g, g.log (~~~0) ["it"])

/-- `subLog`, src/utils/Logger.cpp:28-31. -/
def subLog (g : Logger) (name : String) : Logger :=
  ⟨g.flags, -1, g.name ++ "(" ++ toString (g.iter + 1) ++ ")." ++ name, g.os⟩

end Logger

/-- The members `options_` and `log_` of `DualSolver`. -/
structure SolverLog (K : Type) where
  opts : SolverOptions K
  log : Logger

/-- `DualSolver::DualSolver()`, src/DualSolver.cpp:7-11, for these members. -/
def SolverLog.new {K : Type} (big : K) (dflt : Nat) : SolverLog K := ⟨SolverOptions.default big dflt, Logger.new dflt "log"⟩

/-- `DualSolver::options(const SolverOptions & options)`, src/DualSolver.cpp:26-31. -/
def SolverLog.options {K : Type} (s : SolverLog K) (o : SolverOptions K) : SolverLog K :=
  ⟨o, (s.log.setFlag o.logFlags).setOutputStream o.stream⟩

end JrlQp
