import Verif.XSolveLog
import Verif.PropsSolveLog
import Verif.PropsExp

/-!
# C74, C75: the log of a solve of the warm-started solver
-/

namespace JrlQp
namespace Log

open NumOps Matlab

section Calls

variable {V : Type}

/-- Not the start of an iteration, and nothing logged in the member of an iteration. -/
def LogCall.quiet (c : LogCall V) : Prop := c.plain ∧ ¬ ∃ f vals, c = .log f vals ∧ f &&& noIterationFlag = 0

theorem expectedAll_quiet {shw : V → Word} {flags : BitVec 32} {pre : List (Word × Int)} (hp : ∀ s ∈ pre, 1 ≤ s.2) {id : Word}
    {l : List (LogCall V)} (h : ∀ c ∈ l, c.quiet) : ∀ {iter : Int}, ∀ st ∈ expectedAll shw flags pre id iter l, st.Valid := by
  induction l with
  | nil => intro iter st hst; simp [expectedAll] at hst
  | cons c l ih =>
    intro iter st hst
    simp only [expectedAll, List.mem_append] at hst
    rcases hst with hst | hst
    · exact expected_valid hp (.inr (h c (by simp)).2) st hst
    · exact ih (fun d hd => h d (by simp [hd])) st hst

theorem quiet_member {l : List (LogCall V)} (h : ∀ c ∈ l, c.quiet) {flags : BitVec 32} {nm : Word} {w : LVal V} : ¬ ∃ c ∈ l, Member flags nm w c := by
  rintro ⟨c, hc, f, vals, rfl, -, h0, -⟩
  exact (h _ hc).2 ⟨f, vals, rfl, h0⟩

theorem mem_comment_expected {shw : V → Word} {flags : BitVec 32} {pre : List (Word × Int)} {id t : Word} {iter : Int} {c : LogCall V} :
    Stmt.comment (' ' :: t) ∈ expected shw flags pre id iter c ↔ ∃ f, c = .comment f t ∧ f &&& flags ≠ 0 := by
  cases c with
  | comment f t' =>
    simp only [expected]
    by_cases hf : f &&& flags = 0
    · rw [if_pos hf]
      simp only [List.not_mem_nil, LogCall.comment.injEq, false_iff]
      rintro ⟨f', ⟨rfl, -⟩, h⟩
      exact h hf
    · rw [if_neg hf]
      simp only [List.mem_singleton, Stmt.comment.injEq, List.cons.injEq, true_and, LogCall.comment.injEq]
      constructor
      · rintro rfl; exact ⟨f, ⟨rfl, rfl⟩, hf⟩
      · rintro ⟨f', ⟨-, rfl⟩, -⟩; rfl
  | startIter j =>
    simp only [expected]
    split_ifs <;> simp
  | log f vals =>
    simp only [expected]
    split_ifs <;> simp

theorem mem_comment_expectedAll {shw : V → Word} {flags : BitVec 32} {pre : List (Word × Int)} {id t : Word} (l : List (LogCall V)) : ∀ {iter : Int},
    Stmt.comment (' ' :: t) ∈ expectedAll shw flags pre id iter l ↔ ∃ f, LogCall.comment f t ∈ l ∧ f &&& flags ≠ 0 := by
  induction l with
  | nil => intro iter; simp [expectedAll]
  | cons c l ih =>
    intro iter
    simp only [expectedAll, List.mem_append, ih, mem_comment_expected, List.mem_cons]
    constructor
    · rintro (⟨f, rfl, h⟩ | ⟨f, h1, h2⟩)
      · exact ⟨f, .inl rfl, h⟩
      · exact ⟨f, .inr h1, h2⟩
    · rintro ⟨f, h1 | h1, h2⟩
      · exact .inl ⟨f, h1.symm, h2⟩
      · exact .inr ⟨f, h1, h2⟩

end Calls

variable {K B : Type} [Zero K] [One K] [Add K] [Sub K] [Neg K] [Mul K] [Div K] [NumOps K B] [SumOps K]

/-! ## The calls of the initialisation -/

theorem dec_nl (i : Nat) : '\n' ∉ dec i := by
  intro h
  obtain ⟨k, hk, e⟩ := dec_digit i _ h
  revert e
  interval_cases k <;> decide

theorem bndNote_mem {o : Opts K} {pb : Pb K B} {as : List Status} {m i : Nat} {c : LogCall (K ⊕ B)} (h : c ∈ bndNote o pb as m i) :
    ∃ t, '\n' ∉ t ∧ c = .comment LogFlags.activeSet.bits t := by
  unfold bndNote at h
  simp only [] at h
  split_ifs at h
  · simp at h
  · simp only [List.mem_singleton] at h
    refine ⟨_, ?_, h⟩
    simp only [List.mem_append, not_or]
    exact ⟨⟨by decide +kernel, dec_nl i⟩, by decide +kernel⟩
  · simp only [List.mem_singleton] at h
    refine ⟨_, ?_, h⟩
    simp only [List.mem_append, not_or]
    exact ⟨⟨by decide +kernel, dec_nl i⟩, by decide +kernel⟩
  · simp at h
  · simp at h

theorem genNote_mem {o : Opts K} {pb : Pb K B} {as : List Status} {i : Nat} {c : LogCall (K ⊕ B)} (h : c ∈ genNote o pb as i) :
    ∃ t, '\n' ∉ t ∧ c = .comment LogFlags.activeSet.bits t := by
  unfold genNote at h
  simp only [] at h
  split_ifs at h
  · simp at h
  · simp only [List.mem_singleton] at h
    refine ⟨_, ?_, h⟩
    simp only [List.mem_append, not_or]
    exact ⟨by decide +kernel, dec_nl i⟩
  · simp only [List.mem_singleton] at h
    refine ⟨_, ?_, h⟩
    simp only [List.mem_append, not_or]
    exact ⟨⟨by decide +kernel, dec_nl i⟩, by decide +kernel⟩
  · simp at h
  · simp at h

theorem comment_quiet {c : LogCall (K ⊕ B)} (h : ∃ t, '\n' ∉ t ∧ c = .comment LogFlags.activeSet.bits t) : c.quiet ∧ c.Ok := by
  obtain ⟨t, ht, rfl⟩ := h
  exact ⟨⟨trivial, by rintro ⟨f, v, e, -⟩; cases e⟩, ht⟩

theorem processLog_quiet (o : Opts K) (pb : Pb K B) (as : List Status) (A : ActiveSet) : ∀ c ∈ processLog o pb as A, c.quiet ∧ c.Ok := by
  intro c hc
  unfold processLog at hc
  simp only [List.mem_append, List.mem_flatMap, List.mem_range] at hc
  rcases hc with ⟨i, -, h⟩ | ⟨i, -, h⟩
  · exact comment_quiet (bndNote_mem h)
  · exact comment_quiet (genNote_mem h)

theorem log_quiet {f : BitVec 32} (hf : f &&& noIterationFlag ≠ 0) {vals : List (Word × LVal (K ⊕ B))} (hv : ∀ v ∈ vals, Ident v.1) :
    (LogCall.log f vals).quiet ∧ (LogCall.log f vals).Ok := by
  refine ⟨⟨trivial, ?_⟩, hv⟩
  rintro ⟨f', v, e, h⟩
  injection e with e1
  rw [← e1] at h
  exact hf h

theorem dataLog_quiet (xs : XState K) : ∀ c ∈ dataLog (B := B) xs, c.quiet ∧ c.Ok := by
  intro c hc
  simp only [dataLog, List.mem_singleton] at hc
  subst hc
  refine log_quiet (by decide) ?_
  intro v hv
  simp only [List.mem_cons, List.not_mem_nil, or_false] at hv
  rcases hv with rfl | rfl | rfl
  · exact ident1 _ (by decide)
  · exact ident1 _ (by decide)
  · exact ⟨show "b_act".toList ≠ [] by decide, show ∀ c ∈ "b_act".toList, identChar c = true by decide⟩

theorem pointsLog_quiet (pb : Pb K B) (xs : XState K) : ∀ c ∈ pointsLog pb xs, c.quiet ∧ c.Ok := by
  intro c hc
  simp only [pointsLog, List.mem_singleton] at hc
  subst hc
  refine log_quiet (by decide) ?_
  intro v hv
  simp only [List.mem_cons, List.not_mem_nil, or_false] at hv
  rcases hv with rfl | rfl | rfl | rfl | rfl
  · exact ⟨show "alpha".toList ≠ [] by decide, show ∀ c ∈ "alpha".toList, identChar c = true by decide⟩
  · exact ⟨show "beta".toList ≠ [] by decide, show ∀ c ∈ "beta".toList, identChar c = true by decide⟩
  · exact ident1 _ (by decide)
  · exact ident1 _ (by decide)
  · exact ⟨by simp, show ∀ c ∈ ['f', '_'], identChar c = true by decide⟩

theorem dropLog_quiet (o : Opts K) (pb : Pb K B) (fuel : Nat) : ∀ xs : XState K, ∀ c ∈ dropLog o pb fuel xs, c.quiet ∧ c.Ok := by
  induction fuel with
  | zero => intro xs c hc; simp [dropLog] at hc
  | succ fuel ih =>
    intro xs c hc
    simp only [dropLog] at hc
    split at hc
    · simp at hc
    · rcases List.mem_append.1 hc with hc | hc
      · exact pointsLog_quiet _ _ c hc
      · exact ih _ c hc

theorem xinitLog_quiet (o : Opts K) (pb : Pb K B) (xs : XState K) : ∀ c ∈ xinitLog o pb xs, c.quiet ∧ c.Ok := by
  intro c hc
  unfold xinitLog at hc
  simp only [] at hc
  rcases List.mem_append.1 hc with hc | hc
  · exact processLog_quiet _ _ _ _ c hc
  · split at hc
    · simp at hc
    · rename_i t A _
      by_cases ht : t = .success
      · rw [if_neg (not_not.2 ht)] at hc
        split at hc
        · simp at hc
        simp only [List.mem_append] at hc
        rcases hc with (hc | hc) | hc
        · exact dataLog_quiet _ c hc
        · exact pointsLog_quiet _ _ c hc
        · exact dropLog_quiet _ _ _ _ c hc
      · rw [if_pos ht] at hc; simp at hc

/-- The state on which `DualSolver::solve` is called. -/
def xargs (o : Opts K) (pb : Pb K B) (as : List Status) (xs : XState K) : XState K :=
  let xs := xresize xs pb.n pb.m pb.useBnd
  if o.warmStart then { xs with as := if as = [] then xs.s.A.status else as } else xs

theorem xargs_start (o : Opts K) (pb : Pb K B) (as : List Status) (xs : XState K) :
    { xargs o pb as xs with s := preInit o (xargs o pb as xs).s } = xsolveStart o pb as xs := by
  unfold xargs xsolveStart usedAs
  cases o.warmStart
  · unfold xresize
    simp only [Bool.false_eq_true, if_false]
    split_ifs <;> rfl
  · rfl

/-- The first two calls. -/
def xhead (pb : Pb K B) (as : List Status) : Calls K B :=
  [.startIter (-1), .log (LogFlags.input.bits ||| LogFlags.noIter.bits)
      (inputLog pb ++ [(['a', 's'], .vec (as.map fun s => (s.toNat : Int)))])]

theorem xsolveLog_eq (o : Opts K) (pb : Pb K B) (as : List Status) (xs : XState K) :
    xsolveLog o pb as xs = xhead pb as ++ (xinitLog o pb (xsolveStart o pb as xs) ++
      match xinit o pb (xsolveStart o pb as xs) with
      | .error _ => []
      | .ok (t, xs) =>
        if t ≠ .success then termLog t
        else
          loopLog o pb (o.maxIter - xs.s.it) xs.s ⟨0, .inactive⟩ false ++
            match loop o pb (o.maxIter - xs.s.it) xs.s ⟨0, .inactive⟩ false with
            | .error _ => []
            | .ok (t, _) => termLog t) := by
  rw [← xargs_start]
  rfl

theorem xhead_ok (pb : Pb K B) (as : List Status) : ∀ c ∈ xhead pb as, c.Ok := by
  intro c hc
  simp only [xhead, List.mem_cons, List.not_mem_nil, or_false] at hc
  rcases hc with rfl | rfl
  · trivial
  · intro v hv
    rcases List.mem_append.1 hv with hv | hv
    · exact inputLog_ok pb v hv
    · simp only [List.mem_singleton] at hv
      subst hv
      exact ⟨by simp, show ∀ c ∈ ['a', 's'], identChar c = true by decide⟩

theorem xsolveLog_ok (o : Opts K) (pb : Pb K B) (as : List Status) (xs : XState K) : ∀ c ∈ xsolveLog o pb as xs, c.Ok := by
  intro c hc
  rw [xsolveLog_eq] at hc
  simp only [List.mem_append] at hc
  rcases hc with hc | hc | hc
  · exact xhead_ok _ _ c hc
  · exact (xinitLog_quiet _ _ _ c hc).2
  · split at hc
    · simp at hc
    · split_ifs at hc
      · exact (termLog_plain _ c hc).2
      · rcases List.mem_append.1 hc with hc | hc
        · exact loopLog_ok _ _ _ _ _ _ c hc
        · split at hc
          · simp at hc
          · exact (termLog_plain _ c hc).2

/-- **C74.** The log of a call of the warm-started solver is a Matlab script with valid indices only: for every problem, warm
start, option, flag and history, in debug and in release builds. -/
theorem C74_valid {shw : K ⊕ B → Word} (hs : ∀ x, Clean (shw x)) {g : Logger} {pre : List (Word × Int)} {id : Word} (hg : Named g pre id)
    (hp : ∀ s ∈ pre, 1 ≤ s.2) (o : Opts K) (pb : Pb K B) (as : List Status) (xs : XState K) :
    ∃ S, readScript (script shw g (xsolveLog o pb as xs)) = some S ∧ ∀ st ∈ S, st.Valid := by
  refine ⟨_, C71_script hs hg _ (xsolveLog_ok o pb as xs), ?_⟩
  intro st hst
  rw [xsolveLog_eq] at hst
  rw [expectedAll_append, expectedAll_append] at hst
  simp only [List.mem_append] at hst
  rcases hst with hst | hst | hst
  · simp only [xhead, expectedAll, List.append_nil, List.mem_append] at hst
    rcases hst with hst | hst
    · exact expected_valid hp (.inr (by simp)) st hst
    · exact expected_valid hp (.inr (by
        rintro ⟨f, vals, e, h⟩
        injection e with e1
        rw [← e1] at h
        exact absurd h (by decide))) st hst
  · exact expectedAll_quiet hp (fun c hc => (xinitLog_quiet _ _ _ c hc).1) st hst
  · split at hst
    · simp [expectedAll] at hst
    · split_ifs at hst
      · exact termLog_valid hp _ _ st hst
      · rw [expectedAll_append] at hst
        rcases List.mem_append.1 hst with hst | hst
        · exact loopLog_valid hp _ _ _ _ _ _ _ st hst
        · split at hst
          · simp [expectedAll] at hst
          · exact termLog_valid hp _ _ st hst

/-! ## The comments of the initial active set -/

theorem dec_injective {i j : Nat} (h : dec i = dec j) : i = j := by
  have := readNat_dec i
  rw [h, readNat_dec] at this
  exact (Option.some.inj this).symm

theorem dec_space (i : Nat) : ∀ c ∈ dec i, (c != ' ') = true := by
  intro c hc
  obtain ⟨k, hk, rfl⟩ := dec_digit i c hc
  interval_cases k <;> decide

theorem dec_prefix {i j : Nat} {s t : Word} (h : dec i ++ ' ' :: s = dec j ++ ' ' :: t) : i = j ∧ s = t := by
  have hi : (dec i ++ ' ' :: s).takeWhile (· != ' ') = dec i := by
    rw [List.takeWhile_append_of_pos (dec_space i)]; simp
  have hj : (dec j ++ ' ' :: t).takeWhile (· != ' ') = dec j := by
    rw [List.takeWhile_append_of_pos (dec_space j)]; simp
  have e : dec i = dec j := by rw [← hi, ← hj, h]
  refine ⟨dec_injective e, ?_⟩
  rw [e] at h
  simpa using h

theorem dec_no_space {i j : Nat} {t : Word} (h : dec i = dec j ++ ' ' :: t) : False := by
  have := dec_space i ' ' (by rw [h]; simp)
  simp at this

theorem toString_dec (i : Nat) : (toString i).toList = dec i := toString_int (i : Int)

/-- Texts of the comments. -/
def bndEqText (i : Nat) : Word := "Ignoring activation status for bound ".toList ++ dec i ++ " (bounds not equal)".toList
/-- See `bndEqText`. -/
def bndInfText (i : Nat) : Word := "Ignoring activation status for bound ".toList ++ dec i ++ " (infinite bound)".toList
/-- See `bndEqText`. -/
def genEqText (i : Nat) : Word := "Ignoring activation status for constraint ".toList ++ dec i
/-- See `bndEqText`. -/
def genInfText (i : Nat) : Word := "Ignoring activation status for constraint ".toList ++ dec i ++ " (infinite bound)".toList

theorem bndEq_inj {i j : Nat} (h : bndEqText i = bndEqText j) : i = j := by
  unfold bndEqText at h
  rw [List.append_assoc, List.append_assoc, List.append_cancel_left_eq] at h
  exact (dec_prefix h).1

theorem bndInf_inj {i j : Nat} (h : bndInfText i = bndInfText j) : i = j := by
  unfold bndInfText at h
  rw [List.append_assoc, List.append_assoc, List.append_cancel_left_eq] at h
  exact (dec_prefix h).1

theorem genEq_inj {i j : Nat} (h : genEqText i = genEqText j) : i = j := by
  unfold genEqText at h
  rw [List.append_cancel_left_eq] at h
  exact dec_injective h

theorem genInf_inj {i j : Nat} (h : genInfText i = genInfText j) : i = j := by
  unfold genInfText at h
  rw [List.append_assoc, List.append_assoc, List.append_cancel_left_eq] at h
  exact (dec_prefix h).1

theorem bnd_ne {i j : Nat} : bndEqText i ≠ bndInfText j := by
  intro h
  unfold bndEqText bndInfText at h
  rw [List.append_assoc, List.append_assoc, List.append_cancel_left_eq] at h
  have := (dec_prefix (s := "(bounds not equal)".toList) (t := "(infinite bound)".toList) h).2
  exact absurd this (by decide)

theorem gen_ne {i j : Nat} : genEqText i ≠ genInfText j := by
  intro h
  unfold genEqText genInfText at h
  rw [List.append_assoc, List.append_cancel_left_eq] at h
  exact dec_no_space (t := "(infinite bound)".toList) h

theorem bg_ne {u v : Word} : "Ignoring activation status for bound ".toList ++ u ≠ "Ignoring activation status for constraint ".toList ++ v := by
  intro h
  have := congrArg (fun l => l[31]?) h
  beta_reduce at this
  rw [List.getElem?_append_left (by decide), List.getElem?_append_left (by decide)] at this
  exact absurd this (by decide)

theorem bndNote_eq (o : Opts K) (pb : Pb K B) (as : List Status) (m i : Nat) : bndNote o pb as m i =
    if bEq K (pb.xl i) (pb.xu i) then []
    else if as ≠ [] ∧ o.warmStart = true ∧ as.getD (m + i) .inactive ≠ .inactive then
      if as.getD (m + i) .inactive = .fixed then [.comment LogFlags.activeSet.bits (bndEqText i)]
      else if (as.getD (m + i) .inactive = .lowerBound ∧ bLt K (pb.xl i) (ofK (-o.bigBnd)) = true)
          ∨ (as.getD (m + i) .inactive = .upperBound ∧ bLt K (ofK o.bigBnd) (pb.xu i) = true) then
        [.comment LogFlags.activeSet.bits (bndInfText i)]
      else []
    else [] := rfl

theorem genNote_eq (o : Opts K) (pb : Pb K B) (as : List Status) (i : Nat) : genNote o pb as i =
    if bEq K (pb.bl i) (pb.bu i) then []
    else if as ≠ [] ∧ o.warmStart = true ∧ as.getD i .inactive ≠ .inactive then
      if as.getD i .inactive = .fixed then [.comment LogFlags.activeSet.bits (genEqText i)]
      else if (as.getD i .inactive = .lower ∧ bLt K (pb.bl i) (ofK (-o.bigBnd)) = true)
          ∨ (as.getD i .inactive = .upper ∧ bLt K (ofK o.bigBnd) (pb.bu i) = true) then
        [.comment LogFlags.activeSet.bits (genInfText i)]
      else []
    else [] := rfl

theorem mem_bndNote {o : Opts K} {pb : Pb K B} {as : List Status} {m i : Nat} {f : BitVec 32} {t : Word} :
    LogCall.comment f t ∈ bndNote o pb as m i ↔ f = LogFlags.activeSet.bits ∧ o.warmStart = true ∧ bEq K (pb.xl i) (pb.xu i) = false ∧
      (t = bndEqText i ∧ as.getD (m + i) .inactive = .fixed ∨
       t = bndInfText i ∧ (as.getD (m + i) .inactive = .lowerBound ∧ bLt K (pb.xl i) (ofK (-o.bigBnd)) = true ∨
          as.getD (m + i) .inactive = .upperBound ∧ bLt K (ofK o.bigBnd) (pb.xu i) = true)) := by
  rw [bndNote_eq]
  have hne : ∀ st, as.getD (m + i) .inactive = st → st ≠ .inactive → as ≠ [] := by
    rintro st h1 h2 rfl; simp at h1; exact h2 h1.symm
  by_cases h1 : bEq K (pb.xl i) (pb.xu i) = true
  · rw [if_pos h1]; simp [h1]
  rw [if_neg h1]
  have h1' : bEq K (pb.xl i) (pb.xu i) = false := by simpa using h1
  by_cases hw : o.warmStart = true
  swap
  · rw [if_neg (fun h => hw h.2.1)]; simp [hw]
  simp only [hw, h1', true_and]
  by_cases h2 : as.getD (m + i) .inactive = .inactive
  · rw [if_neg (fun h => h.2 h2), h2]; simp
  rw [if_pos ⟨hne _ rfl h2, h2⟩]
  by_cases h3 : as.getD (m + i) .inactive = .fixed
  · rw [if_pos h3, h3]
    simp
  rw [if_neg h3]
  split_ifs with h4
  · simp only [List.mem_singleton, LogCall.comment.injEq, h3, and_false, false_or, h4, and_true]
  · simp only [List.not_mem_nil, h3, h4, and_false, or_self]

theorem mem_genNote {o : Opts K} {pb : Pb K B} {as : List Status} {i : Nat} {f : BitVec 32} {t : Word} :
    LogCall.comment f t ∈ genNote o pb as i ↔ f = LogFlags.activeSet.bits ∧ o.warmStart = true ∧ bEq K (pb.bl i) (pb.bu i) = false ∧
      (t = genEqText i ∧ as.getD i .inactive = .fixed ∨
       t = genInfText i ∧ (as.getD i .inactive = .lower ∧ bLt K (pb.bl i) (ofK (-o.bigBnd)) = true ∨
          as.getD i .inactive = .upper ∧ bLt K (ofK o.bigBnd) (pb.bu i) = true)) := by
  rw [genNote_eq]
  have hne : ∀ st, as.getD i .inactive = st → st ≠ .inactive → as ≠ [] := by
    rintro st h1 h2 rfl; simp at h1; exact h2 h1.symm
  by_cases h1 : bEq K (pb.bl i) (pb.bu i) = true
  · rw [if_pos h1]; simp [h1]
  rw [if_neg h1]
  have h1' : bEq K (pb.bl i) (pb.bu i) = false := by simpa using h1
  by_cases hw : o.warmStart = true
  swap
  · rw [if_neg (fun h => hw h.2.1)]; simp [hw]
  simp only [hw, h1', true_and]
  by_cases h2 : as.getD i .inactive = .inactive
  · rw [if_neg (fun h => h.2 h2), h2]; simp
  rw [if_pos ⟨hne _ rfl h2, h2⟩]
  by_cases h3 : as.getD i .inactive = .fixed
  · rw [if_pos h3, h3]
    simp
  rw [if_neg h3]
  split_ifs with h4
  · simp only [List.mem_singleton, LogCall.comment.injEq, h3, and_false, false_or, h4, and_true]
  · simp only [List.not_mem_nil, h3, h4, and_false, or_self]

theorem loopLog_comment {o : Opts K} {pb : Pb K B} {f : BitVec 32} {t : Word} (fuel : Nat) : ∀ {s : State K} {sc : SC} {skip : Bool},
    LogCall.comment f t ∈ loopLog o pb fuel s sc skip → t = "Step computation".toList := by
  have hstep : ∀ s : State K, LogCall.comment f t ∉ stepDbg (B := B) o s := by
    intro s h
    unfold stepDbg at h
    split_ifs at h <;> simp at h
  have hbody : ∀ (s : State K) (sc : SC), LogCall.comment f t ∈ bodyLog o pb s sc → t = "Step computation".toList := by
    intro s sc h
    unfold bodyLog at h
    simp only [List.mem_append] at h
    rcases h with (h | h) | h
    · exact absurd h (hstep _)
    · simp only [List.mem_cons, LogCall.comment.injEq, reduceCtorEq, List.not_mem_nil, or_false] at h
      exact h.2
    · split_ifs at h <;> simp at h
  induction fuel with
  | zero => intro s sc skip h; simp [loopLog] at h
  | succ fuel ih =>
    intro s sc skip h
    simp only [loopLog, iterLog, List.mem_append, List.mem_cons, reduceCtorEq, List.not_mem_nil, or_false, false_or] at h
    rcases h with h | h
    · cases skip with
      | true => exact hbody _ _ (by simpa using h)
      | false =>
        simp only [Bool.false_eq_true, if_false] at h
        split_ifs at h
        · simp at h
        · simp only [List.mem_cons, reduceCtorEq, false_or] at h
          exact hbody _ _ h
    · split at h
      · exact ih h
      · simp at h

theorem termLog_comment {t : Term} {f : BitVec 32} {w : Word} (h : LogCall.comment f w ∈ termLog (K := K) (B := B) t) : ∃ c, termText t = some c ∧ w = c.toList := by
  unfold termLog at h
  split at h
  · rename_i c hc
    simp only [List.mem_singleton, LogCall.comment.injEq] at h
    exact ⟨c, hc, h.2⟩
  · simp at h

/-- Of the comments of a solve, those starting with `Ignoring` are those of the initial active set. -/
theorem xsolveLog_comment {o : Opts K} {pb : Pb K B} {as : List Status} {xs : XState K} {f : BitVec 32} {w : Word} :
    LogCall.comment f ("Ignoring".toList ++ w) ∈ xsolveLog o pb as xs ↔
      (∃ i < pb.nb, LogCall.comment f ("Ignoring".toList ++ w) ∈ bndNote o pb (usedAs o pb as xs) pb.m i) ∨
      ∃ i < pb.m, LogCall.comment f ("Ignoring".toList ++ w) ∈ genNote o pb (usedAs o pb as xs) i := by
  have hterm : ∀ t : Term, LogCall.comment f ("Ignoring".toList ++ w) ∉ termLog (K := K) (B := B) t := by
    intro t h
    obtain ⟨c, hc, e⟩ := termLog_comment h
    have e := congrArg (List.take 8) e
    rw [List.take_left' (by decide)] at e
    cases t <;> simp only [termText, Option.some.injEq, reduceCtorEq] at hc <;> subst hc <;> exact absurd e (by decide +kernel)
  have hloop : ∀ fuel (s : State K) sc skip, LogCall.comment f ("Ignoring".toList ++ w) ∉ loopLog o pb fuel s sc skip := by
    intro fuel s sc skip h
    have e := congrArg (List.take 8) (loopLog_comment _ h)
    rw [List.take_left' (by decide)] at e
    exact absurd e (by decide)
  have hpts : ∀ ys : XState K, LogCall.comment f ("Ignoring".toList ++ w) ∉ pointsLog pb ys := by
    intro ys h; simp [pointsLog] at h
  have hdrop : ∀ fuel (ys : XState K), LogCall.comment f ("Ignoring".toList ++ w) ∉ dropLog o pb fuel ys := by
    intro fuel
    induction fuel with
    | zero => intro ys h; simp [dropLog] at h
    | succ fuel ih =>
      intro ys h
      simp only [dropLog] at h
      split at h
      · simp at h
      · rcases List.mem_append.1 h with h | h
        · exact hpts _ h
        · exact ih _ h
  have hA : (xsolveStart o pb as xs).s.A.nbCstr = pb.m ∧ (xsolveStart o pb as xs).s.A.nbBnd = pb.nb := by
    obtain ⟨-, h1, h2⟩ := resize_dims xs.s pb.n pb.m pb.useBnd
    obtain ⟨-, h3, h4⟩ := preInit_dims o (resize xs.s pb.n pb.m pb.useBnd)
    exact ⟨h3.trans h1, h4.trans h2⟩
  rw [xsolveLog_eq]
  simp only [List.mem_append]
  constructor
  · rintro (h | h | h)
    · simp [xhead] at h
    · unfold xinitLog at h
      simp only [] at h
      rcases List.mem_append.1 h with h | h
      · unfold processLog at h
        simp only [hA, List.mem_append, List.mem_flatMap, List.mem_range] at h
        exact h
      · exfalso
        split at h
        · simp at h
        · rename_i t A _
          by_cases ht : t = .success
          · rw [if_neg (not_not.2 ht)] at h
            split at h
            · simp at h
            simp only [List.mem_append] at h
            rcases h with (h | h) | h
            · simp [dataLog] at h
            · exact hpts _ h
            · exact hdrop _ _ h
          · rw [if_pos ht] at h; simp at h
    · exfalso
      split at h
      · simp at h
      · split_ifs at h
        · exact hterm _ h
        · rcases List.mem_append.1 h with h | h
          · exact hloop _ _ _ _ h
          · split at h
            · simp at h
            · exact hterm _ h
  · intro h
    refine .inr (.inl ?_)
    unfold xinitLog
    simp only []
    refine List.mem_append.2 (.inl ?_)
    unfold processLog
    simp only [hA, List.mem_append, List.mem_flatMap, List.mem_range]
    exact h

/-- **C74, discarded statuses.** With the flag `ACTIVE_SET`, the log tells which statuses of the warm start are discarded, and
only those: `FIXED` for a bound with different sides, a status for a side beyond `bigBnd`. (A status `FIXED` for a general
constraint violates an assertion in debug builds.) The statuses are those of the argument or, when it is empty, those of the
previous solve. -/
theorem C74_discarded {shw : K ⊕ B → Word} (hs : ∀ x, Clean (shw x)) {g : Logger} {pre : List (Word × Int)} {id : Word} (hg : Named g pre id)
    (hf : LogFlags.activeSet.bits &&& g.flags ≠ 0) (o : Opts K) (pb : Pb K B) (as : List Status) (xs : XState K) :
    ∃ S, readScript (script shw g (xsolveLog o pb as xs)) = some S ∧
      (∀ i : Nat, Stmt.comment (" Ignoring activation status for bound " ++ toString i ++ " (bounds not equal)").toList ∈ S ↔
        i < pb.nb ∧ o.warmStart = true ∧ bEq K (pb.xl i) (pb.xu i) = false ∧ (usedAs o pb as xs).getD (pb.m + i) .inactive = .fixed) ∧
      (∀ i : Nat, Stmt.comment (" Ignoring activation status for bound " ++ toString i ++ " (infinite bound)").toList ∈ S ↔
        i < pb.nb ∧ o.warmStart = true ∧ bEq K (pb.xl i) (pb.xu i) = false ∧
          ((usedAs o pb as xs).getD (pb.m + i) .inactive = .lowerBound ∧ bLt K (pb.xl i) (ofK (-o.bigBnd)) = true ∨
           (usedAs o pb as xs).getD (pb.m + i) .inactive = .upperBound ∧ bLt K (ofK o.bigBnd) (pb.xu i) = true)) ∧
      (∀ i : Nat, Stmt.comment (" Ignoring activation status for constraint " ++ toString i).toList ∈ S ↔
        i < pb.m ∧ o.warmStart = true ∧ bEq K (pb.bl i) (pb.bu i) = false ∧ (usedAs o pb as xs).getD i .inactive = .fixed) ∧
      (∀ i : Nat, Stmt.comment (" Ignoring activation status for constraint " ++ toString i ++ " (infinite bound)").toList ∈ S ↔
        i < pb.m ∧ o.warmStart = true ∧ bEq K (pb.bl i) (pb.bu i) = false ∧
          ((usedAs o pb as xs).getD i .inactive = .lower ∧ bLt K (pb.bl i) (ofK (-o.bigBnd)) = true ∨
           (usedAs o pb as xs).getD i .inactive = .upper ∧ bLt K (ofK o.bigBnd) (pb.bu i) = true)) ∧
      ∀ w, Stmt.comment (" Ignoring".toList ++ w) ∈ S → ∃ i : Nat,
        " Ignoring".toList ++ w = (" Ignoring activation status for bound " ++ toString i ++ " (bounds not equal)").toList ∨
        " Ignoring".toList ++ w = (" Ignoring activation status for bound " ++ toString i ++ " (infinite bound)").toList ∨
        " Ignoring".toList ++ w = (" Ignoring activation status for constraint " ++ toString i).toList ∨
        " Ignoring".toList ++ w = (" Ignoring activation status for constraint " ++ toString i ++ " (infinite bound)").toList := by
  refine ⟨_, C71_script hs hg _ (xsolveLog_ok o pb as xs), ?_⟩
  have e1 : ∀ i : Nat, (" Ignoring activation status for bound " ++ toString i ++ " (bounds not equal)").toList = ' ' :: bndEqText i := by
    intro i; rw [String.toList_append, String.toList_append, toString_dec]; rfl
  have e2 : ∀ i : Nat, (" Ignoring activation status for bound " ++ toString i ++ " (infinite bound)").toList = ' ' :: bndInfText i := by
    intro i; rw [String.toList_append, String.toList_append, toString_dec]; rfl
  have e3 : ∀ i : Nat, (" Ignoring activation status for constraint " ++ toString i).toList = ' ' :: genEqText i := by
    intro i; rw [String.toList_append, toString_dec]; rfl
  have e4 : ∀ i : Nat, (" Ignoring activation status for constraint " ++ toString i ++ " (infinite bound)").toList = ' ' :: genInfText i := by
    intro i; rw [String.toList_append, String.toList_append, toString_dec]; rfl
  have key : ∀ w, Stmt.comment (' ' :: ("Ignoring".toList ++ w)) ∈ expectedAll shw g.flags pre id g.iter (xsolveLog o pb as xs) ↔
      (∃ i < pb.nb, LogCall.comment LogFlags.activeSet.bits ("Ignoring".toList ++ w) ∈ bndNote o pb (usedAs o pb as xs) pb.m i) ∨
      ∃ i < pb.m, LogCall.comment LogFlags.activeSet.bits ("Ignoring".toList ++ w) ∈ genNote o pb (usedAs o pb as xs) i := by
    intro w
    rw [mem_comment_expectedAll]
    constructor
    · rintro ⟨f, h1, h2⟩
      have h3 := xsolveLog_comment.1 h1
      have : f = LogFlags.activeSet.bits := by
        rcases h3 with ⟨i, -, h⟩ | ⟨i, -, h⟩
        · exact (mem_bndNote.1 h).1
        · exact (mem_genNote.1 h).1
      rwa [this] at h3
    · intro h
      exact ⟨_, xsolveLog_comment.2 h, hf⟩
  have s1 : ∀ i, bndEqText i = "Ignoring".toList ++ (" activation status for bound ".toList ++ dec i ++ " (bounds not equal)".toList) := fun i => rfl
  have s2 : ∀ i, bndInfText i = "Ignoring".toList ++ (" activation status for bound ".toList ++ dec i ++ " (infinite bound)".toList) := fun i => rfl
  have s3 : ∀ i, genEqText i = "Ignoring".toList ++ (" activation status for constraint ".toList ++ dec i) := fun i => rfl
  have s4 : ∀ i, genInfText i = "Ignoring".toList ++ (" activation status for constraint ".toList ++ dec i ++ " (infinite bound)".toList) := fun i => rfl
  have d1 : ∀ {i j}, bndEqText i ≠ genEqText j := fun {i j} h => bg_ne (u := dec i ++ " (bounds not equal)".toList) (v := dec j) (by unfold bndEqText genEqText at h; rw [List.append_assoc] at h; exact h)
  have d2 : ∀ {i j}, bndEqText i ≠ genInfText j := fun {i j} h =>
    bg_ne (u := dec i ++ " (bounds not equal)".toList) (v := dec j ++ " (infinite bound)".toList) (by unfold bndEqText genInfText at h; rw [List.append_assoc, List.append_assoc] at h; exact h)
  have d3 : ∀ {i j}, bndInfText i ≠ genEqText j := fun {i j} h => bg_ne (u := dec i ++ " (infinite bound)".toList) (v := dec j) (by unfold bndInfText genEqText at h; rw [List.append_assoc] at h; exact h)
  have d4 : ∀ {i j}, bndInfText i ≠ genInfText j := fun {i j} h =>
    bg_ne (u := dec i ++ " (infinite bound)".toList) (v := dec j ++ " (infinite bound)".toList) (by unfold bndInfText genInfText at h; rw [List.append_assoc, List.append_assoc] at h; exact h)
  refine ⟨fun i => ?_, fun i => ?_, fun i => ?_, fun i => ?_, fun w h => ?_⟩
  · rw [e1, s1, key, ← s1]
    simp only [mem_bndNote, mem_genNote]
    constructor
    · rintro (⟨j, hj, -, h1, h2, ⟨h3, h4⟩ | ⟨h3, -⟩⟩ | ⟨j, hj, -, h1, h2, ⟨h3, h4⟩ | ⟨h3, -⟩⟩)
      · obtain rfl := bndEq_inj h3; exact ⟨hj, h1, h2, h4⟩
      · exact absurd h3 bnd_ne
      · exact absurd h3 d1
      · exact absurd h3 d2
    · rintro ⟨h1, h2, h3, h4⟩; exact .inl ⟨i, h1, trivial, h2, h3, .inl ⟨rfl, h4⟩⟩
  · rw [e2, s2, key, ← s2]
    simp only [mem_bndNote, mem_genNote]
    constructor
    · rintro (⟨j, hj, -, h1, h2, ⟨h3, -⟩ | ⟨h3, h4⟩⟩ | ⟨j, hj, -, h1, h2, ⟨h3, h4⟩ | ⟨h3, -⟩⟩)
      · exact absurd h3.symm bnd_ne
      · obtain rfl := bndInf_inj h3; exact ⟨hj, h1, h2, h4⟩
      · exact absurd h3 d3
      · exact absurd h3 d4
    · rintro ⟨h1, h2, h3, h4⟩; exact .inl ⟨i, h1, trivial, h2, h3, .inr ⟨rfl, h4⟩⟩
  · rw [e3, s3, key, ← s3]
    simp only [mem_bndNote, mem_genNote]
    constructor
    · rintro (⟨j, hj, -, h1, h2, ⟨h3, -⟩ | ⟨h3, h4⟩⟩ | ⟨j, hj, -, h1, h2, ⟨h3, h4⟩ | ⟨h3, -⟩⟩)
      · exact absurd h3.symm d1
      · exact absurd h3.symm d3
      · obtain rfl := genEq_inj h3; exact ⟨hj, h1, h2, h4⟩
      · exact absurd h3 gen_ne
    · rintro ⟨h1, h2, h3, h4⟩; exact .inr ⟨i, h1, trivial, h2, h3, .inl ⟨rfl, h4⟩⟩
  · rw [e4, s4, key, ← s4]
    simp only [mem_bndNote, mem_genNote]
    constructor
    · rintro (⟨j, hj, -, h1, h2, ⟨h3, -⟩ | ⟨h3, h4⟩⟩ | ⟨j, hj, -, h1, h2, ⟨h3, -⟩ | ⟨h3, h4⟩⟩)
      · exact absurd h3.symm d2
      · exact absurd h3.symm d4
      · exact absurd h3.symm gen_ne
      · obtain rfl := genInf_inj h3; exact ⟨hj, h1, h2, h4⟩
    · rintro ⟨h1, h2, h3, h4⟩; exact .inr ⟨i, h1, trivial, h2, h3, .inr ⟨rfl, h4⟩⟩
  · have h' : Stmt.comment (' ' :: ("Ignoring".toList ++ w)) ∈ expectedAll shw g.flags pre id g.iter (xsolveLog o pb as xs) := h
    have hw : " Ignoring".toList ++ w = ' ' :: ("Ignoring".toList ++ w) := rfl
    rw [hw]
    rw [key] at h'
    simp only [mem_bndNote, mem_genNote] at h'
    rcases h' with ⟨j, hj, -, h1, h2, ⟨h3, -⟩ | ⟨h3, h4⟩⟩ | ⟨j, hj, -, h1, h2, ⟨h3, -⟩ | ⟨h3, h4⟩⟩
    · exact ⟨j, .inl (by rw [e1, h3])⟩
    · exact ⟨j, .inr (.inl (by rw [e2, h3]))⟩
    · exact ⟨j, .inr (.inr (.inl (by rw [e3, h3])))⟩
    · exact ⟨j, .inr (.inr (.inr (by rw [e4, h3])))⟩

end Log
end JrlQp
