import Verif.Options

/-!
# C20: options and log flags
-/

namespace JrlQp

variable {K : Type}

/-! ### Specification -/

/-- A solver after the calls `options(o)` for `o` in `os`. -/
def afterOptions (big : K) (dflt : Nat) (os : List (SolverOptions K)) : SolverLog K :=
  os.foldl SolverLog.options (SolverLog.new big dflt)

/-- A message with flags `f` is wanted by the options `o`. -/
def SolverOptions.Wants (o : SolverOptions K) (f : BitVec 32) : Prop := ∃ i : Nat, f.getLsbD i = true ∧ o.logFlags.getLsbD i = true

/-! ### Flags -/

/-- **C20, flags.** `addLogFlag` sets the given bits and `removeLogFlag` clears them; the other bits and the other options do
not change. -/
theorem C20_flags (o : SolverOptions K) (f : BitVec 32) (i : Nat) :
    ((o.addLogFlag f).logFlags.getLsbD i = true ↔ f.getLsbD i = true ∨ o.logFlags.getLsbD i = true) ∧
    ((o.removeLogFlag f).logFlags.getLsbD i = true ↔ f.getLsbD i = false ∧ o.logFlags.getLsbD i = true) ∧
    ((o.addLogFlag f).maxIter, (o.addLogFlag f).bigBnd, (o.addLogFlag f).warmStart, (o.addLogFlag f).stream) =
      (o.maxIter, o.bigBnd, o.warmStart, o.stream) ∧
    ((o.removeLogFlag f).maxIter, (o.removeLogFlag f).bigBnd, (o.removeLogFlag f).warmStart, (o.removeLogFlag f).stream) =
      (o.maxIter, o.bigBnd, o.warmStart, o.stream) := by
  refine ⟨?_, ?_, rfl, rfl⟩
  · simp [SolverOptions.addLogFlag, or_comm]
  · simp only [SolverOptions.removeLogFlag, BitVec.getLsbD_and, BitVec.getLsbD_not, Bool.and_eq_true, decide_eq_true_eq,
      Bool.not_eq_true']
    constructor
    · rintro ⟨h1, _, h2⟩; exact ⟨h2, h1⟩
    · rintro ⟨h1, h2⟩; exact ⟨h2, BitVec.lt_of_getLsbD h2, h1⟩

/-- `removeLogFlag` undoes `addLogFlag` for bits that were not set, and both are idempotent. -/
theorem C20_flags_inverse (o : SolverOptions K) (f : BitVec 32) :
    ((o.addLogFlag f).addLogFlag f).logFlags = (o.addLogFlag f).logFlags ∧
    ((o.removeLogFlag f).removeLogFlag f).logFlags = (o.removeLogFlag f).logFlags ∧
    (f &&& o.logFlags = 0 → ((o.addLogFlag f).removeLogFlag f).logFlags = o.logFlags) := by
  refine ⟨?_, ?_, fun h => ?_⟩
  · simp only [SolverOptions.addLogFlag]; ext i; simp
  · simp only [SolverOptions.removeLogFlag]; ext i; simp
  · simp only [SolverOptions.addLogFlag, SolverOptions.removeLogFlag]
    ext i hi
    have := congrArg (fun v : BitVec 32 => v[i]) h
    simp only [BitVec.getElem_and, BitVec.getElem_or, BitVec.getElem_not] at this ⊢
    revert this
    cases f[i] <;> cases o.logFlags[i] <;> simp

/-- A call to one of the setters of `SolverOptions`. -/
inductive OptCall (K : Type)
  | maxIter (n : Int)
  | bigBnd (b : K)
  | warmStart (b : Bool)
  | logStream (s : Nat)
  | logFlags (f : BitVec 32)
  | addLogFlag (f : BitVec 32)
  | removeLogFlag (f : BitVec 32)

/-- The options after a call. -/
def OptCall.run (o : SolverOptions K) : OptCall K → SolverOptions K
  | .maxIter n => o.setMaxIter n
  | .bigBnd b => o.setBigBnd b
  | .warmStart b => o.setWarmStart b
  | .logStream s => o.setStream s
  | .logFlags f => o.setLogFlags f
  | .addLogFlag f => o.addLogFlag f
  | .removeLogFlag f => o.removeLogFlag f

/-- Argument of the last call selected by `p`, `v` if there is none. -/
def lastArg {α : Type} (p : OptCall K → Option α) (v : α) (cs : List (OptCall K)) : α := ((cs.filterMap p).getLast?).getD v

/-- **C20, setters.** After any sequence of calls to the setters, each getter returns the argument of the last call to its own
setter (the default value if there is none); bit `i` of the flags is the one given by the last call that concerns it. -/
theorem C20_setters (big : K) (dflt : Nat) (cs : List (OptCall K)) :
    (cs.foldl OptCall.run (SolverOptions.default big dflt)).maxIter
        = lastArg (fun | .maxIter n => some n | _ => none) 500 cs ∧
    (cs.foldl OptCall.run (SolverOptions.default big dflt)).bigBnd
        = lastArg (fun | .bigBnd b => some b | _ => none) big cs ∧
    (cs.foldl OptCall.run (SolverOptions.default big dflt)).warmStart
        = lastArg (fun | .warmStart b => some b | _ => none) false cs ∧
    (cs.foldl OptCall.run (SolverOptions.default big dflt)).stream
        = lastArg (fun | .logStream s => some s | _ => none) dflt cs ∧
    ∀ i < 32, (cs.foldl OptCall.run (SolverOptions.default big dflt)).logFlags.getLsbD i
        = lastArg (fun | .logFlags f => some (f.getLsbD i)
                       | .addLogFlag f => if f.getLsbD i then some true else none
                       | .removeLogFlag f => if f.getLsbD i then some false else none
                       | _ => none) false cs := by
  induction cs using List.reverseRecOn with
  | nil => simp [lastArg, SolverOptions.default]
  | append_singleton cs c ih =>
    obtain ⟨h1, h2, h3, h4, h5⟩ := ih
    simp only [lastArg] at h1 h2 h3 h4 h5
    simp only [lastArg, List.foldl_append, List.foldl_cons, List.foldl_nil, List.filterMap_append, List.filterMap_cons,
      List.filterMap_nil]
    cases c <;>
      simp only [OptCall.run, SolverOptions.setMaxIter, SolverOptions.setBigBnd, SolverOptions.setWarmStart,
        SolverOptions.setStream, SolverOptions.setLogFlags, SolverOptions.addLogFlag, SolverOptions.removeLogFlag,
        List.append_nil, List.getLast?_append, List.getLast?_singleton, Option.some_or, Option.getD_some, h1, h2, h3, h4,
        true_and]
    case addLogFlag f =>
      intro i hi
      rw [BitVec.getLsbD_or, h5 i hi]
      by_cases hf : f.getLsbD i = true
      · simp [hf]
      · simp [hf]
    case removeLogFlag f =>
      intro i hi
      rw [BitVec.getLsbD_and, h5 i hi, BitVec.getLsbD_not]
      by_cases hf : f.getLsbD i = true
      · simp [hf]
      · rw [if_neg hf, Bool.not_eq_true] at *; rw [hf]; simp [-BitVec.getLsbD_eq_getElem, hi]
    all_goals first | exact h5 | (intro i hi; simp)

theorem and_ne_zero (f g : BitVec 32) : f &&& g ≠ 0 ↔ ∃ i : Nat, f.getLsbD i = true ∧ g.getLsbD i = true := by
  constructor
  · intro h
    by_contra hc
    push Not at hc
    apply h
    apply BitVec.eq_of_getLsbD_eq
    intro i _
    rw [BitVec.getLsbD_and]
    cases h1 : f.getLsbD i
    · simp
    · have := hc i h1
      simp only [Bool.not_eq_true] at this
      rw [this]; simp
  · rintro ⟨i, h1, h2⟩ h
    have := congrArg (fun v : BitVec 32 => v.getLsbD i) h
    simp [h1, h2] at this

/-! ### Options in force -/

theorem afterOptions_append (big : K) (dflt : Nat) (os : List (SolverOptions K)) (o : SolverOptions K) :
    afterOptions big dflt (os ++ [o]) = (afterOptions big dflt os).options o := by
  simp [afterOptions]

/-- **C20, options in force.** After any history of calls, `options(o)` makes the solver use the values of `o` for the maximum
number of iterations, the infinite bound and the warm start, and write its log on the stream of `o`. -/
theorem C20_options_in_force (big : K) (dflt : Nat) (os : List (SolverOptions K)) (o : SolverOptions K) :
    (afterOptions big dflt (os ++ [o])).opts = o ∧ (afterOptions big dflt (os ++ [o])).log.os = o.stream := by
  rw [afterOptions_append]
  simp only [SolverLog.options, Logger.setFlag, Logger.setOutputStream, if_true, and_self]

theorem afterOptions_flags (big : K) (dflt : Nat) (os : List (SolverOptions K)) (i : Nat) :
    (afterOptions big dflt os).log.flags.getLsbD i = true ↔ ∃ o ∈ os, o.logFlags.getLsbD i = true := by
  induction os using List.reverseRecOn with
  | nil => simp [afterOptions, SolverLog.new, Logger.new]
  | append_singleton os o ih =>
    rw [afterOptions_append]
    simp only [SolverLog.options, Logger.setFlag, Logger.setOutputStream, if_true, BitVec.getLsbD_or, Bool.or_eq_true, ih,
      List.mem_append, List.mem_singleton]
    constructor
    · rintro (⟨o', h1, h2⟩ | h)
      · exact ⟨o', Or.inl h1, h2⟩
      · exact ⟨o, Or.inr rfl, h⟩
    · rintro ⟨o', h1 | rfl, h2⟩
      · exact Or.inl ⟨o', h1, h2⟩
      · exact Or.inr h2

/-- **C20, what is logged.** A message with flags `f` is logged iff *some* options given since the construction wanted it: not
only the current ones. -/
theorem C20_logged_iff (big : K) (dflt : Nat) (os : List (SolverOptions K)) (f : BitVec 32) (text : String) (vals : List String)
    (hv : vals ≠ []) :
    ((afterOptions big dflt os).log.comment f text ≠ [] ↔ ∃ o ∈ os, o.Wants f) ∧
    ((afterOptions big dflt os).log.log f vals ≠ [] ↔ ∃ o ∈ os, o.Wants f) := by
  have key : f &&& (afterOptions big dflt os).log.flags ≠ 0 ↔ ∃ o ∈ os, o.Wants f := by
    rw [and_ne_zero]
    simp only [afterOptions_flags, SolverOptions.Wants]
    constructor
    · rintro ⟨i, h1, o, h2, h3⟩; exact ⟨o, h2, i, h1, h3⟩
    · rintro ⟨o, h2, i, h1, h3⟩; exact ⟨i, h1, o, h2, h3⟩
  rw [← key]
  unfold Logger.comment Logger.log
  constructor
  · split <;> simp_all
  · split
    · split <;> simp_all
    · simp_all

/-- **C20 (partial), log flags.** When every call of `options` keeps the flags of the previous one, exactly what the current
options want is logged.

Missing: calls that remove flags, for which it is false (`C20_removed_flag_logged`). -/
theorem C20_log_flags_partial (big : K) (dflt : Nat) (os : List (SolverOptions K)) (o : SolverOptions K)
    (hm : ∀ o' ∈ os, ∀ i, o'.logFlags.getLsbD i = true → o.logFlags.getLsbD i = true) (f : BitVec 32) (text : String) :
    (afterOptions big dflt (os ++ [o])).log.comment f text ≠ [] ↔ o.Wants f := by
  rw [(C20_logged_iff big dflt (os ++ [o]) f text [""] (by simp)).1]
  constructor
  · rintro ⟨o', h1, i, h2, h3⟩
    rcases List.mem_append.1 h1 with h | h
    · exact ⟨i, h2, hm o' h i h3⟩
    · rw [List.mem_singleton] at h; subst h; exact ⟨i, h2, h3⟩
  · intro h
    exact ⟨o, by simp, h⟩

/-- **C20 is false for removed flags.** Whatever the flag, options that want it, followed by the same options with the flag
removed: the message is still logged. -/
theorem C20_removed_flag_logged (big : K) (dflt : Nat) (o : SolverOptions K) (f : BitVec 32) (hf : f ≠ 0) (text : String) :
    ¬ ((o.addLogFlag f).removeLogFlag f).Wants f ∧
    (afterOptions big dflt [o.addLogFlag f, (o.addLogFlag f).removeLogFlag f]).log.comment f text ≠ [] := by
  constructor
  · rintro ⟨i, h1, h2⟩
    have := ((C20_flags (o.addLogFlag f) f i).2.1.1 h2).1
    rw [h1] at this
    cases this
  · rw [(C20_logged_iff big dflt _ f text [""] (by simp)).1]
    have : f &&& f ≠ 0 := by simpa using hf
    obtain ⟨i, h1, _⟩ := (and_ne_zero f f).1 this
    exact ⟨o.addLogFlag f, by simp, i, h1, (C20_flags o f i).1.2 (Or.inl h1)⟩

/-! ### Logger -/

/-- **C20, destination of the log.** All that is logged goes to the stream of the last options, values of an iteration under the
index of the iteration started last (Matlab indices start at 1) if their flags do not have `NO_ITER`, in the `Data` structure
otherwise. -/
theorem C20_destination (g : Logger) (i : Int) (f : BitVec 32) (vals : List String) :
    ∀ p ∈ ((g.startIter i).1.log f vals), p.1 = g.os ∧
      ((f &&& noIterationFlag = 0 ∧ ∃ v ∈ vals, p.2 = .iter g.name (i + 1) v) ∨
       (f &&& noIterationFlag ≠ 0 ∧ ∃ v ∈ vals, p.2 = .data g.name v)) := by
  intro p hp
  unfold Logger.startIter Logger.log at hp
  dsimp only at hp
  split at hp
  · split at hp
    · rename_i h
      obtain ⟨v, h1, rfl⟩ := List.mem_map.1 hp
      exact ⟨rfl, Or.inr ⟨h, v, h1, rfl⟩⟩
    · rename_i h
      obtain ⟨v, h1, rfl⟩ := List.mem_map.1 hp
      exact ⟨rfl, Or.inl ⟨by simpa using h, v, h1, rfl⟩⟩
  · cases hp

/-- The iteration number itself is never logged under the index of its iteration: `startIter` uses a flag with all bits set,
`NO_ITER` included, so that each iteration overwrites `Data.it`. -/
theorem C20_iteration_number (g : Logger) (i : Int) (h : g.flags ≠ 0) : (g.startIter i).2 = [(g.os, .data g.name "it")] := by
  have h1 : (~~~(0 : BitVec 32)) &&& g.flags ≠ 0 := by
    have : (~~~(0 : BitVec 32)) &&& g.flags = g.flags := by
      have e : (~~~(0 : BitVec 32)) = BitVec.allOnes 32 := by decide
      rw [e, BitVec.allOnes_and]
    rw [this]; exact h
  have h2 : (~~~(0 : BitVec 32)) &&& noIterationFlag ≠ 0 := by decide
  unfold Logger.startIter Logger.log
  dsimp only
  rw [if_pos h1, if_pos h2]
  rfl

/-- A sub-logger filters as its parent, writes on the same stream, in a member of the current iteration of its parent. -/
theorem C20_subLog (g : Logger) (name : String) (f : BitVec 32) (text : String) :
    (g.subLog name).comment f text = g.comment f text ∧ (g.subLog name).os = g.os := ⟨rfl, rfl⟩

/-- **C20, the flags are independent.** No two different flags share a bit, each flag but `NONE` has one; so a value logged with
a flag is not logged because of another one, and no flag but `NO_ITER` sends a value to the `Data` structure. -/
theorem C20_flags_independent (a b : LogFlags) :
    (a ≠ b → a.bits &&& b.bits = 0) ∧ (a ≠ .none → a.bits ≠ 0) ∧ (a.bits &&& noIterationFlag ≠ 0 ↔ a = .noIter) := by
  refine ⟨fun h => ?_, fun h => ?_, ?_⟩
  · cases a <;> cases b <;> first | exact absurd rfl h | decide
  · cases a <;> first | exact absurd rfl h | decide
  · cases a <;> decide

/-- **C20, logger flags.** `setFlag f` enables exactly the flags of `f` in addition to those enabled, `setFlag f false` disables
exactly those of `f`, enabled or not; the stream, the name and the iteration are kept. -/
theorem C20_logger_setFlag (g : Logger) (f : BitVec 32) (i : Nat) :
    ((g.setFlag f true).flags.getLsbD i = true ↔ g.flags.getLsbD i = true ∨ f.getLsbD i = true) ∧
    ((g.setFlag f false).flags.getLsbD i = true ↔ g.flags.getLsbD i = true ∧ f.getLsbD i = false) ∧
    ∀ add, (g.setFlag f add).os = g.os ∧ (g.setFlag f add).name = g.name ∧ (g.setFlag f add).iter = g.iter := by
  refine ⟨?_, ?_, ?_⟩
  · simp [Logger.setFlag, BitVec.getLsbD_or]
  · simp only [Logger.setFlag, Bool.false_eq_true, if_false, BitVec.getLsbD_and, BitVec.getLsbD_not, Bool.and_eq_true, decide_eq_true_eq,
      Bool.not_eq_true']
    constructor
    · rintro ⟨h1, _, h3⟩; exact ⟨h1, h3⟩
    · rintro ⟨h1, h3⟩; exact ⟨h1, BitVec.lt_of_getLsbD h1, h3⟩
  · intro add; cases add <;> exact ⟨rfl, rfl, rfl⟩

/-- After `setFlag f false`, nothing is logged with the flags of `f` only. -/
theorem C20_disabled_silent (g : Logger) (f : BitVec 32) (text : String) (vals : List String) :
    (g.setFlag f false).comment f text = [] ∧ (g.setFlag f false).log f vals = [] := by
  have h : f &&& (g.flags &&& ~~~f) = 0 := by
    apply BitVec.eq_of_getLsbD_eq
    intro i hi
    simp [BitVec.getLsbD_and]
    intro h _
    simp [h]
  constructor
  · unfold Logger.comment; rw [if_neg]; simpa [Logger.setFlag] using h
  · unfold Logger.log; rw [if_neg]; simpa [Logger.setFlag] using h

/-- **C20, before the first iteration.** A value logged by a new logger, or by the logger given by `subLog`, before any `startIter` goes to the index 0 of its
structure (which is no index for Matlab), whatever the iteration of the parent logger. -/
theorem C20_before_first (g : Logger) (os : Nat) (name v : String) (flags f : BitVec 32) (hf : f &&& noIterationFlag = 0) :
    (f &&& flags ≠ 0 → (Logger.new os name flags).log f [v] = [(os, .iter name 0 v)]) ∧
    (f &&& g.flags ≠ 0 → (g.subLog name).log f [v] = [(g.os, .iter (g.name ++ "(" ++ toString (g.iter + 1) ++ ")." ++ name) 0 v)]) := by
  constructor
  · intro h
    unfold Logger.log
    rw [if_pos (show f &&& (Logger.new os name flags).flags ≠ 0 from h), if_neg (by simp [hf])]
    rfl
  · intro h
    unfold Logger.log
    rw [if_pos (show f &&& (g.subLog name).flags ≠ 0 from h), if_neg (by simp [hf])]
    rfl

/-- `MISC` and `NO_ITER` together: a value of the `Data` structure; `MISC` alone: a value of the iteration. -/
example : (((Logger.new 1 "l").setFlag LogFlags.misc.bits).startIter 2).1.log LogFlags.misc.bits ["v"] = [(1, .iter "l" 3 "v")] ∧
    (((Logger.new 1 "l").setFlag LogFlags.misc.bits).startIter 2).1.log (LogFlags.misc.bits ||| LogFlags.noIter.bits) ["v"] =
      [(1, .data "l" "v")] := by decide

/-- Non-trivial instance: `INPUT` and `TERMINATION` wanted, then `ACTIVE_SET` added. -/
example : ∃ (os : List (SolverOptions Int)) (o : SolverOptions Int), os.length = 2 ∧
    (∀ o' ∈ os, ∀ i, o'.logFlags.getLsbD i = true → o.logFlags.getLsbD i = true) ∧ o.Wants 16#32 ∧ ¬ o.Wants 4#32 := by
  refine ⟨[SolverOptions.default 0 0, (SolverOptions.default 0 0).addLogFlag 3], ⟨500, 0, false, 19, 0⟩, rfl, ?_, ⟨4, rfl, rfl⟩, ?_⟩
  · intro o' ho i h
    simp only [List.mem_cons, List.not_mem_nil, or_false] at ho
    rcases ho with rfl | rfl
    · simp [SolverOptions.default] at h
    · have hi : i < 32 := BitVec.lt_of_getLsbD h
      revert h
      simp only [SolverOptions.addLogFlag, SolverOptions.default]
      revert i
      decide
  · unfold SolverOptions.Wants
    rw [← and_ne_zero]
    decide

end JrlQp
