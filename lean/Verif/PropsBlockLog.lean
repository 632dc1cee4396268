import Verif.BlockLog
import Verif.PropsXSolveLog

/-!
# C84: the log of the structured solver
-/

namespace JrlQp
namespace Log

open NumOps Matlab

variable {K B : Type} [Zero K] [One K] [Add K] [Sub K] [Neg K] [Mul K] [Div K] [NumOps K B] [SumOps K]

/-! ## The calls are well formed -/

theorem bbodyLog_plain (o : Opts K) (pb : BPb K B) (bs : BState K) (sc : SC) : ∀ c ∈ bbodyLog o pb bs sc, c.plain ∧ c.Ok := by
  intro c hc
  unfold bbodyLog at hc
  split at hc
  · simp at hc
  simp only [List.mem_append] at hc
  rcases hc with hc | hc
  · simp only [List.mem_cons, List.not_mem_nil, or_false] at hc
    rcases hc with rfl | rfl
    · exact ⟨trivial, show '\n' ∉ _ by decide⟩
    · refine ⟨trivial, ?_⟩
      intro v hv
      simp only [List.mem_cons, List.not_mem_nil, or_false] at hv
      rcases hv with rfl | rfl | rfl <;> exact ident1 _ (by decide)
  · split_ifs at hc
    · simp at hc
    · simp only [List.mem_singleton] at hc
      subst hc
      refine ⟨trivial, ?_⟩
      intro v hv
      simp only [List.mem_cons, List.not_mem_nil, or_false] at hv
      rcases hv with rfl | rfl
      · exact ⟨show "Activate".toList ≠ [] by decide, show ∀ c ∈ "Activate".toList, identChar c = true by decide⟩
      · exact ident1 _ (by decide)

/-- The calls of an iteration after `startIter`. -/
def biterTail (o : Opts K) (pb : BPb K B) (bs : BState K) (sc : SC) (skip : Bool) : Calls K B := (biterLog o pb bs sc skip).tail

theorem biterLog_eq (o : Opts K) (pb : BPb K B) (bs : BState K) (sc : SC) (skip : Bool) :
    biterLog o pb bs sc skip = .startIter bs.s.it :: biterTail o pb bs sc skip := rfl

theorem biterTail_plain (o : Opts K) (pb : BPb K B) (bs : BState K) (sc : SC) (skip : Bool) :
    ∀ c ∈ biterTail o pb bs sc skip, c.plain ∧ c.Ok := by
  intro c hc
  unfold biterTail biterLog at hc
  simp only [List.cons_append, List.tail_cons, List.nil_append, List.mem_cons] at hc
  rcases hc with rfl | rfl | hc
  · refine ⟨trivial, ?_⟩
    intro v hv
    simp only [List.mem_cons, List.not_mem_nil, or_false] at hv
    subst hv
    exact ⟨by simp, show ∀ c ∈ ['A', '_'], identChar c = true by decide⟩
  · refine ⟨trivial, ?_⟩
    intro v hv
    simp only [List.mem_cons, List.not_mem_nil, or_false] at hv
    rcases hv with rfl | rfl | rfl
    · exact ident1 _ (by decide)
    · exact ident1 _ (by decide)
    · exact ⟨by simp, show ∀ c ∈ ['f', '_'], identChar c = true by decide⟩
  · cases skip with
    | true => exact bbodyLog_plain _ _ _ _ c (by simpa using hc)
    | false =>
      simp only [Bool.false_eq_true, if_false] at hc
      split_ifs at hc
      · simp at hc
      · rcases List.mem_cons.1 hc with rfl | hc
        · refine ⟨trivial, ?_⟩
          intro v hv
          simp only [List.mem_cons, List.not_mem_nil, or_false] at hv
          subst hv
          exact ⟨by simp, show ∀ c ∈ ['s', 'c'], identChar c = true by decide⟩
        · exact bbodyLog_plain _ _ _ _ c hc

theorem bloopLog_ok (o : Opts K) (pb : BPb K B) (fuel : Nat) : ∀ (bs : BState K) (sc : SC) (skip : Bool), ∀ c ∈ bloopLog o pb fuel bs sc skip, c.Ok := by
  induction fuel with
  | zero => intro s sc skip c hc; simp [bloopLog] at hc
  | succ fuel ih =>
    intro s sc skip c hc
    simp only [bloopLog, biterLog_eq, List.cons_append, List.mem_cons, List.mem_append] at hc
    rcases hc with rfl | hc | hc
    · trivial
    · exact (biterTail_plain _ _ _ _ _ c hc).2
    · split at hc
      · exact ih _ _ _ c hc
      · simp at hc

theorem bdualSolveLog_ok (o : Opts K) (pb : BPb K B) (bs : BState K) : ∀ c ∈ bdualSolveLog o pb bs, c.Ok := by
  intro c hc
  unfold bdualSolveLog at hc
  rcases List.mem_append.1 hc with hc | hc
  · exact (processLog_quiet _ _ _ _ c hc).2
  · split at hc
    · simp at hc
    · split_ifs at hc
      · exact (termLog_plain _ c hc).2
      · rcases List.mem_append.1 hc with hc | hc
        · exact bloopLog_ok _ _ _ _ _ _ c hc
        · split at hc
          · simp at hc
          · exact (termLog_plain _ c hc).2

theorem bsolveLog_ok (o : Opts K) (pb : BPb K B) (as : List Status) (fresh : Nat → K) (bs : BState K) :
    ∀ c ∈ bsolveLog o pb as fresh bs, c.Ok := by
  intro c hc
  unfold bsolveLog at hc
  simp only [] at hc
  by_cases h : pb.C.nbVar = pb.n ∧ (as.length = pb.m + pb.nb ∨ as = []) ∧ (o.warmStart = true ∨ as = [])
  · rw [if_pos h] at hc
    exact bdualSolveLog_ok _ _ _ c hc
  · rw [if_neg h] at hc
    simp at hc

/-! ## Validity -/

theorem bloopLog_valid {shw : K ⊕ B → Word} {flags : BitVec 32} {pre : List (Word × Int)} (hp : ∀ s ∈ pre, 1 ≤ s.2) {id : Word}
    (o : Opts K) (pb : BPb K B) (fuel : Nat) : ∀ (bs : BState K) (sc : SC) (skip : Bool) (iter : Int),
    ∀ st ∈ expectedAll shw flags pre id iter (bloopLog o pb fuel bs sc skip), st.Valid := by
  induction fuel with
  | zero => intro s sc skip iter st hst; simp [bloopLog, expectedAll] at hst
  | succ fuel ih =>
    intro s sc skip iter st hst
    simp only [bloopLog, biterLog_eq, List.cons_append, expectedAll, expectedAll_append, List.mem_append] at hst
    rcases hst with hst | hst | hst
    · exact expected_valid hp (.inr (by simp)) st hst
    · exact expectedAll_valid hp (fun c hc => (biterTail_plain _ _ _ _ _ c hc).1) (by simp [LogCall.next]) st hst
    · split at hst
      · exact ih _ _ _ _ st hst
      · simp [expectedAll] at hst

theorem bdualSolveLog_valid {shw : K ⊕ B → Word} {flags : BitVec 32} {pre : List (Word × Int)} (hp : ∀ s ∈ pre, 1 ≤ s.2) {id : Word}
    (o : Opts K) (pb : BPb K B) (bs : BState K) (iter : Int) : ∀ st ∈ expectedAll shw flags pre id iter (bdualSolveLog o pb bs), st.Valid := by
  intro st hst
  unfold bdualSolveLog at hst
  rw [expectedAll_append] at hst
  rcases List.mem_append.1 hst with hst | hst
  · exact expectedAll_quiet hp (fun c hc => (processLog_quiet _ _ _ _ c hc).1) st hst
  · split at hst
    · simp [expectedAll] at hst
    · split_ifs at hst
      · exact termLog_valid hp _ _ st hst
      · rw [expectedAll_append] at hst
        rcases List.mem_append.1 hst with hst | hst
        · exact bloopLog_valid hp _ _ _ _ _ _ _ st hst
        · split at hst
          · simp [expectedAll] at hst
          · exact termLog_valid hp _ _ st hst

/-- Without the log of the input. -/
theorem blockText_quiet {shw : K ⊕ B → Word} {g : Logger} (hf : (LogFlags.input.bits ||| LogFlags.noIter.bits) &&& g.flags = 0)
    (o : Opts K) (pb : BPb K B) (as : List Status) (fresh : Nat → K) (bs : BState K) :
    blockText shw g o pb as fresh bs = script shw g (.startIter (-1) :: bsolveLog o pb as fresh bs) := by
  unfold blockText blockInputText
  have : ¬ (LogFlags.input.bits ||| LogFlags.noIter.bits) &&& (write shw g (.startIter (-1))).1.flags ≠ 0 := fun h => h hf
  simp only [if_neg this, List.append_nil]
  rfl

/-- What is read in the log. -/
theorem block_read {shw : K ⊕ B → Word} (hs : ∀ x, Clean (shw x)) {g : Logger} {pre : List (Word × Int)} {id : Word} (hg : Named g pre id)
    (hf : (LogFlags.input.bits ||| LogFlags.noIter.bits) &&& g.flags = 0)
    (o : Opts K) (pb : BPb K B) (as : List Status) (fresh : Nat → K) (bs : BState K) :
    readScript (blockText shw g o pb as fresh bs) =
      some (expectedAll shw g.flags pre id g.iter (.startIter (-1) :: bsolveLog o pb as fresh bs)) := by
  rw [blockText_quiet hf]
  exact C71_script hs hg _ (by
    intro c hc
    rcases List.mem_cons.1 hc with rfl | hc
    · trivial
    · exact bsolveLog_ok _ _ _ _ _ c hc)

/-- **C84.** Without the flags `INPUT` and `NO_ITER`, the log of a call of the structured solver is a Matlab script with valid
indices only: for every problem, warm start, option and history. -/
theorem C84_valid {shw : K ⊕ B → Word} (hs : ∀ x, Clean (shw x)) {g : Logger} {pre : List (Word × Int)} {id : Word} (hg : Named g pre id)
    (hp : ∀ s ∈ pre, 1 ≤ s.2) (hf : (LogFlags.input.bits ||| LogFlags.noIter.bits) &&& g.flags = 0)
    (o : Opts K) (pb : BPb K B) (as : List Status) (fresh : Nat → K) (bs : BState K) :
    ∃ S, readScript (blockText shw g o pb as fresh bs) = some S ∧ ∀ st ∈ S, st.Valid := by
  refine ⟨_, block_read hs hg hf o pb as fresh bs, ?_⟩
  intro st hst
  simp only [expectedAll, List.mem_append] at hst
  rcases hst with hst | hst
  · exact expected_valid hp (.inr (by simp)) st hst
  unfold bsolveLog at hst
  simp only [] at hst
  by_cases h : pb.C.nbVar = pb.n ∧ (as.length = pb.m + pb.nb ∨ as = []) ∧ (o.warmStart = true ∨ as = [])
  · rw [if_pos h] at hst
    exact bdualSolveLog_valid hp _ _ _ _ st hst
  · rw [if_neg h] at hst
    simp [expectedAll] at hst

/-! ## The input -/

theorem all_none {α β : Type} {f : α → Option β} : ∀ {l : List α} {a : α}, a ∈ l → f a = none → all f l = none
  | b :: l, a, h, hf => by
    rcases List.mem_cons.1 h with rfl | h
    · simp [all, hf]
    · have := all_none h hf
      cases hb : f b <;> simp [all, hb, this]

/-- An assignment without a value is not a Matlab statement. -/
theorem readStmt_blank {p : Word} (h : '=' ∉ p) (h0 : p.head? ≠ some '%') : readStmt (p ++ [' ', '=', ' ', ';']) = none := by
  unfold readStmt
  split
  · rename_i u hu
    exfalso
    cases p with
    | nil => simp at hu
    | cons c p => simp only [List.cons_append, List.cons.injEq] at hu; exact h0 (by simp [hu.1])
  · have e : split '=' (p ++ [' ', '=', ' ', ';']) = [p ++ [' '], [' ', ';']] := by
      rw [show p ++ [' ', '=', ' ', ';'] = (p ++ [' ']) ++ '=' :: [' ', ';'] by simp,
        split_app _ (by simp [h]), split_no (by decide)]
    rw [e]
    have e1 : Matlab.trim [' ', ';'] = [';'] := by decide
    have e2 : readVal [] = none := by decide
    simp only [e1]
    simp only [List.getLast?_singleton, if_true, List.dropLast_singleton, e2]
    split <;> simp_all

/-- **C84, input.** With one of the flags `INPUT` and `NO_ITER`, the log of a call of the structured solver is never a Matlab
script: the assignments of the members `G` and `C` have no right-hand side. -/
theorem C84_input {shw : K ⊕ B → Word} (hs : ∀ x, Clean (shw x)) {g : Logger} {pre : List (Word × Int)} {id : Word} (hg : Named g pre id)
    (hf : (LogFlags.input.bits ||| LogFlags.noIter.bits) &&& g.flags ≠ 0)
    (o : Opts K) (pb : BPb K B) (as : List Status) (fresh : Nat → K) (bs : BState K) :
    readScript (blockText shw g o pb as fresh bs) = none ∧
      ∃ t u v, blockText shw g o pb as fresh bs =
        t ++ (g.name.toList ++ "Data.G = ;\n".toList) ++ u ++ (g.name.toList ++ "Data.C = ;\n".toList) ++ v := by
  have hG : logBlank { g with iter := -1 } false ['G'] = g.name.toList ++ "Data.G = ;\n".toList := by
    simp [logBlank, logIter]
  have hC : logBlank { g with iter := -1 } false ['C'] = g.name.toList ++ "Data.C = ;\n".toList := by
    simp [logBlank, logIter]
  have e : ∃ u v, blockText shw g o pb as fresh bs = (write shw g (LogCall.startIter (K := K ⊕ B) (-1))).2 ++
      (g.name.toList ++ "Data.G = ;\n".toList) ++ u ++ (g.name.toList ++ "Data.C = ;\n".toList) ++ v := by
    have h1 : (write shw g (LogCall.startIter (K := K ⊕ B) (-1))).1 = { g with iter := -1 } := rfl
    have h2 : (LogFlags.input.bits ||| LogFlags.noIter.bits) &&& ({ g with iter := -1 } : Logger).flags ≠ 0 := hf
    unfold blockText blockInputText
    simp only [h1, if_pos h2]
    rw [hG, hC]
    refine ⟨logVal shw { g with iter := -1 } false ['a'] (lvec pb.n pb.a), ?_, ?_⟩
    rotate_left
    · simp only [List.append_assoc]
      rfl
  obtain ⟨u, v, e⟩ := e
  refine ⟨?_, _, u, v, e⟩
  obtain ⟨L, h1, -⟩ := write_read hs hg (LogCall.startIter (K := K ⊕ B) (-1)) trivial
  -- the line of `G`
  have hid := target_ident hg g.iter false (name := ['G']) (ident1 _ (by decide))
  have hne : target pre id g.iter false ['G'] ≠ [] := by simp [target]
  have hl : g.name.toList ++ "Data.G".toList = pathText (target pre id g.iter false ['G']) := by
    unfold target
    rw [pathText_pre pre (by simp), hg.name]
    simp [pathText, joinSep, segText, dataOf]
  obtain ⟨c, w, ec, hc⟩ := pathText_head hne hid
  have hch := pathText_chars hid
  have hb : Bal (w ++ [' ', '=', ' ', ';']) :=
    (Bal.flat (fun x hx => (hch x (by rw [ec]; simp [hx])).2.2) fun hm => by
      have := (hch '\n' (by rw [ec]; simp [hm])).1
      exact absurd this (by decide)).append (Bal.flat (by decide) (by decide))
  have hline : ∀ cs, stmts 0 false [] (g.name.toList ++ "Data.G = ;\n".toList ++ cs) =
      (pathText (target pre id g.iter false ['G']) ++ [' ', '=', ' ', ';']) :: stmts 0 false [] cs := by
    intro cs
    have := stmts_start (cs := cs) hc hb
    have e2 : g.name.toList ++ "Data.G = ;\n".toList ++ cs = (g.name.toList ++ "Data.G".toList) ++ ([' ', '=', ' ', ';'] ++ '\n' :: cs) := by simp
    rw [e2, hl, ec]
    simpa using this
  rw [e]
  unfold readScript
  rw [List.append_assoc, List.append_assoc, List.append_assoc, h1, hline]
  refine all_none (a := pathText (target pre id g.iter false ['G']) ++ [' ', '=', ' ', ';']) (by simp) (readStmt_blank ?_ ?_)
  · exact fun hm => (hch _ hm).2.1 rfl
  · rw [ec]
    intro h
    have : c = '%' := by simpa using h
    exact absurd this (special_ne (ident_special hc).1 (by decide))

end Log
end JrlQp
