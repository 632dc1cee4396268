import Verif.PropsXSolveLogEx

/-!
# C89: the log contains the problem
-/

namespace JrlQp
namespace Log

open NumOps Matlab

section Data

variable {V : Type}

/-- The call logs the value `w` under the name `nm`, in the member of the data. -/
def DataMember (flags : BitVec 32) (nm : Word) (w : LVal V) (c : LogCall V) : Prop :=
  ∃ f vals, c = .log f vals ∧ f &&& flags ≠ 0 ∧ f &&& noIterationFlag ≠ 0 ∧ (nm, w) ∈ vals ∧ emptyVec w = false

theorem mem_expected_data {shw : V → Word} {flags : BitVec 32} {pre : List (Word × Int)} {id nm : Word} (hn : nm ≠ ['i', 't']) {iter : Int} {v : Val}
    {c : LogCall V} :
    Stmt.assign (dataPath pre id nm) v ∈ expected shw flags pre id iter c ↔ ∃ w, DataMember flags nm w c ∧ v = w.value shw := by
  cases c with
  | comment f t =>
    simp only [expected, DataMember]
    split_ifs <;> simp
  | startIter j =>
    simp only [expected, DataMember]
    split_ifs
    · simp
    · simp [dataPath, hn]
  | log f vals =>
    simp only [expected]
    by_cases hf : f &&& flags = 0
    · rw [if_pos hf]
      simp only [List.not_mem_nil, DataMember, LogCall.log.injEq, false_iff]
      rintro ⟨w, ⟨f', vals', ⟨rfl, rfl⟩, h, -⟩, -⟩
      exact h hf
    · rw [if_neg hf]
      simp only [List.mem_map, List.mem_filter, Stmt.assign.injEq, dataPath, List.append_cancel_left_eq]
      constructor
      · rintro ⟨⟨n, w⟩, ⟨h1, h2⟩, h3, rfl⟩
        by_cases h0 : f &&& noIterationFlag = 0
        · rw [if_pos h0] at h3; simp at h3
        · rw [if_neg h0] at h3
          simp only [List.cons.injEq, Prod.mk.injEq, and_true, true_and] at h3
          exact ⟨w, ⟨f, vals, rfl, hf, h0, h3 ▸ h1, by simpa using h2⟩, rfl⟩
      · rintro ⟨w, ⟨f', vals', e, h1, h2, h3, h4⟩, rfl⟩
        injection e with e1 e2
        subst e1 e2
        exact ⟨(nm, w), ⟨h3, by simp [h4]⟩, by rw [if_neg h2], rfl⟩

theorem mem_expectedAll_data {shw : V → Word} {flags : BitVec 32} {pre : List (Word × Int)} {id nm : Word} (hn : nm ≠ ['i', 't']) {v : Val}
    {l : List (LogCall V)} : ∀ {iter : Int},
    Stmt.assign (dataPath pre id nm) v ∈ expectedAll shw flags pre id iter l ↔ ∃ w, (∃ c ∈ l, DataMember flags nm w c) ∧ v = w.value shw := by
  induction l with
  | nil => intro iter; simp [expectedAll]
  | cons c l ih =>
    intro iter
    simp only [expectedAll, List.mem_append, mem_expected_data hn, ih, List.mem_cons]
    constructor
    · rintro (⟨w, h, rfl⟩ | ⟨w, ⟨d, hd, h⟩, rfl⟩)
      · exact ⟨w, ⟨c, .inl rfl, h⟩, rfl⟩
      · exact ⟨w, ⟨d, .inr hd, h⟩, rfl⟩
    · rintro ⟨w, ⟨d, rfl | hd, h⟩, rfl⟩
      · exact .inl ⟨w, h, rfl⟩
      · exact .inr ⟨w, ⟨d, hd, h⟩, rfl⟩

/-- The call logs in the data none of the names. -/
def LogCall.Avoids (nms : List Word) (c : LogCall V) : Prop := ∀ nm ∈ nms, ∀ flags w, ¬ DataMember flags nm w c

theorem LogCall.noData.avoids {c : LogCall V} (h : c.noData) (nms : List Word) : c.Avoids nms := by
  rintro nm _ flags w ⟨f, vals, e, _, h0, _⟩
  exact h ⟨f, vals, e, h0⟩

/-- When the first two calls are `startIter(-1)` and the log of the data `vals`, and no other call logs their names, each of these names is assigned
exactly its value. -/
theorem assigned_head {shw : V → Word} {g : Logger} {pre : List (Word × Int)} {id : Word} {f : BitVec 32} (hf : f &&& g.flags ≠ 0)
    (h0 : f &&& noIterationFlag ≠ 0) {vals : List (Word × LVal V)} {i : Int} {rest : List (LogCall V)} {nms : List Word} (hr : ∀ c ∈ rest, c.Avoids nms)
    {nm : Word} (hn : nm ≠ ['i', 't']) (hnm : nm ∈ nms) {w : LVal V} (hw : ∀ w', (nm, w') ∈ vals ↔ w' = w) (he : emptyVec w = false) (iter : Int) :
    Assigned (expectedAll shw g.flags pre id iter ([.startIter i, .log f vals] ++ rest)) (dataPath pre id nm) (w.value shw) := by
  intro v
  rw [mem_expectedAll_data hn]
  constructor
  · rintro ⟨w', ⟨c, hc, h⟩, rfl⟩
    simp only [List.mem_append, List.mem_cons, List.not_mem_nil, or_false] at hc
    rcases hc with (rfl | rfl) | hc
    · obtain ⟨f', v', e, -⟩ := h; cases e
    · obtain ⟨f', v', e, -, -, h3, -⟩ := h
      injection e with e1 e2
      subst e2
      rw [(hw w').1 h3]
    · exact absurd h (hr c hc nm hnm _ _)
  · rintro rfl
    exact ⟨w, ⟨.log f vals, by simp, f, vals, rfl, hf, h0, (hw w).2 rfl, he⟩, rfl⟩

end Data

variable {K B : Type} [Zero K] [One K] [Add K] [Sub K] [Neg K] [Mul K] [Div K] [NumOps K B] [SumOps K]

/-! ## Specification -/

/-- The matrix with the given coefficients. -/
def matrix (shw : K ⊕ B → Word) (r c : Nat) (M : Nat → Nat → K) : Val := .mat (rowsOf r c fun i j => shw (.inl (M i j)))

/-- The column vector with the given bounds. -/
def bcolumn (shw : K ⊕ B → Word) (n : Nat) (b : Nat → B) : Val := .mat ((List.range n).map fun i => [shw (.inr (b i))])

/-- The script assigns to the members of `nameData` the matrices and vectors of the problem, and nothing else to these members. -/
structure InputShown (shw : K ⊕ B → Word) (S : List Stmt) (pre : List (Word × Int)) (id : Word) (pb : Pb K B) : Prop where
  G : Assigned S (dataPath pre id ['G']) (matrix shw pb.n pb.n pb.G)
  a : Assigned S (dataPath pre id ['a']) (column shw pb.n pb.a)
  C : Assigned S (dataPath pre id ['C']) (matrix shw pb.n pb.m pb.C)
  bl : Assigned S (dataPath pre id ['b', 'l']) (bcolumn shw pb.m pb.bl)
  bu : Assigned S (dataPath pre id ['b', 'u']) (bcolumn shw pb.m pb.bu)
  xl : Assigned S (dataPath pre id ['x', 'l']) (bcolumn shw pb.nb pb.xl)
  xu : Assigned S (dataPath pre id ['x', 'u']) (bcolumn shw pb.nb pb.xu)

/-- The same problem: same sizes, same matrices and vectors. -/
structure SameProblem (pb pb' : Pb K B) : Prop where
  n : pb.n = pb'.n
  m : pb.m = pb'.m
  nb : pb.nb = pb'.nb
  G : ∀ i < pb.n, ∀ j < pb.n, pb.G i j = pb'.G i j
  a : ∀ i < pb.n, pb.a i = pb'.a i
  C : ∀ i < pb.n, ∀ j < pb.m, pb.C i j = pb'.C i j
  b : ∀ i < pb.m, pb.bl i = pb'.bl i ∧ pb.bu i = pb'.bu i
  x : ∀ i < pb.nb, pb.xl i = pb'.xl i ∧ pb.xu i = pb'.xu i

/-! ## Proofs -/

theorem value_lbnd (shw : K ⊕ B → Word) (n : Nat) (b : Nat → B) : LVal.value shw (lbnd n b) = bcolumn shw n b := by
  unfold lbnd LVal.value bcolumn rowsOf
  by_cases h : n = 0
  · simp [h]
  · simp [h]

/-- The names of the input. -/
def inputNames : List Word := [['G'], ['a'], ['C'], ['b', 'l'], ['b', 'u'], ['x', 'l'], ['x', 'u'], ['a', 's'], ['x', '0'], ['c']]

theorem inputShown_of {shw : K ⊕ B → Word} {g : Logger} {pre : List (Word × Int)} {id : Word}
    (hf : (LogFlags.input.bits ||| LogFlags.noIter.bits) &&& g.flags ≠ 0) {pb : Pb K B} {extra : List (Word × LVal (K ⊕ B))}
    (hx : ∀ v ∈ extra, v.1 = ['a', 's']) {rest : Calls K B} (hr : ∀ c ∈ rest, c.Avoids inputNames) :
    InputShown shw (expectedAll shw g.flags pre id g.iter
      ([.startIter (-1), .log (LogFlags.input.bits ||| LogFlags.noIter.bits) (inputLog pb ++ extra)] ++ rest)) pre id pb := by
  have key : ∀ nm ∈ inputNames, nm ≠ ['a', 's'] → ∀ w : LVal (K ⊕ B), emptyVec w = false → (∀ w', (nm, w') ∈ inputLog pb ↔ w' = w) →
      Assigned (expectedAll shw g.flags pre id g.iter
        ([.startIter (-1), .log (LogFlags.input.bits ||| LogFlags.noIter.bits) (inputLog pb ++ extra)] ++ rest)) (dataPath pre id nm) (w.value shw) := by
    intro nm hnm hne w he hw
    refine assigned_head hf (by decide) hr ?_ hnm (fun w' => ?_) he _
    · rintro rfl; revert hnm; decide
    · rw [List.mem_append, hw]
      refine ⟨fun h => h.elim (fun e => e) fun h => absurd (hx _ h) hne, .inl⟩
  refine ⟨?_, ?_, ?_, ?_, ?_, ?_, ?_⟩
  · exact key ['G'] (by decide) (by decide) (lmat pb.n pb.n pb.G) rfl (by simp [inputLog])
  · rw [← value_lvec]; exact key ['a'] (by decide) (by decide) _ rfl (by simp [inputLog])
  · exact key ['C'] (by decide) (by decide) (lmat pb.n pb.m pb.C) rfl (by simp [inputLog])
  all_goals rw [← value_lbnd]
  · exact key ['b', 'l'] (by decide) (by decide) _ rfl (by simp [inputLog])
  · exact key ['b', 'u'] (by decide) (by decide) _ rfl (by simp [inputLog])
  · exact key ['x', 'l'] (by decide) (by decide) _ rfl (by simp [inputLog])
  · exact key ['x', 'u'] (by decide) (by decide) _ rfl (by simp [inputLog])

theorem dualSolveLog_avoids {iniLog : State K → Calls K B} {nms : List Word} (hl : ∀ s, ∀ c ∈ iniLog s, c.Avoids nms)
    (ini : State K → Except Fault (Term × State K)) (o : Opts K) (pb : Pb K B) (s : State K) : ∀ c ∈ dualSolveLog iniLog ini o pb s, c.Avoids nms := by
  intro c hc
  unfold dualSolveLog at hc
  rcases List.mem_append.1 hc with hc | hc
  · exact hl _ c hc
  · split at hc
    · simp at hc
    · split_ifs at hc
      · exact (termLog_noData _ c hc).avoids _
      · rcases List.mem_append.1 hc with hc | hc
        · exact (loopLog_noData _ _ _ _ _ _ c hc).avoids _
        · split at hc
          · simp at hc
          · exact (termLog_noData _ c hc).avoids _

theorem stepDbg_avoids (nms : List Word) (o : Opts K) (s : State K) : ∀ c ∈ stepDbg (B := B) o s, c.Avoids nms := by
  intro c hc
  unfold stepDbg at hc
  split_ifs at hc
  · simp only [List.mem_singleton] at hc
    subst hc
    refine LogCall.noData.avoids ?_ _
    rintro ⟨f', v, e, h'⟩
    injection e with e1
    rw [← e1] at h'
    exact h' (by decide)
  · simp at hc

theorem addInitialsLog_avoids (nms : List Word) (o : Opts K) (pb : Pb K B) (l : List SC) : ∀ (s : State K), ∀ c ∈ addInitialsLog o pb l s, c.Avoids nms := by
  induction l with
  | nil => intro s c hc; simp [addInitialsLog] at hc
  | cons sc l ih =>
    intro s c hc
    simp only [addInitialsLog, List.mem_append] at hc
    rcases hc with hc | hc
    · exact stepDbg_avoids _ _ _ c hc
    · split at hc
      · simp at hc
      · exact ih _ c hc

theorem solveLog_avoids (nms : List Word) (o : Opts K) (pb : Pb K B) (s : State K) :
    ∀ c ∈ dualSolveLog (initLog o pb) (init_ o pb) o pb s, c.Avoids nms := by
  refine dualSolveLog_avoids (fun s c hc => ?_) _ _ _ _
  unfold initLog at hc
  simp only [] at hc
  split_ifs at hc
  · simp at hc
  · exact addInitialsLog_avoids _ _ _ _ _ c hc

theorem log_avoids {nms : List Word} {f : BitVec 32} {vals : List (Word × LVal (K ⊕ B))} (h : ∀ v ∈ vals, v.1 ∉ nms) :
    (LogCall.log f vals).Avoids nms := by
  rintro nm hnm flags w ⟨f', v', e, -, -, h3, -⟩
  injection e with e1 e2
  subst e2
  exact h _ h3 hnm

theorem pointsLog_avoids (pb : Pb K B) (xs : XState K) : ∀ c ∈ pointsLog pb xs, c.Avoids inputNames := by
  intro c hc
  simp only [pointsLog, List.mem_singleton] at hc
  subst hc
  refine log_avoids fun v hv => ?_
  simp only [List.mem_cons, List.not_mem_nil, or_false] at hv
  rcases hv with rfl | rfl | rfl | rfl | rfl <;> (dsimp only; decide)

theorem dropLog_avoids (o : Opts K) (pb : Pb K B) (fuel : Nat) : ∀ (xs : XState K), ∀ c ∈ dropLog o pb fuel xs, c.Avoids inputNames := by
  induction fuel with
  | zero => intro xs c hc; simp [dropLog] at hc
  | succ fuel ih =>
    intro xs c hc
    simp only [dropLog] at hc
    split at hc
    · simp at hc
    · rcases List.mem_append.1 hc with hc | hc
      · exact pointsLog_avoids _ _ c hc
      · exact ih _ c hc

theorem processLog_avoids (nms : List Word) (o : Opts K) (pb : Pb K B) (as : List Status) (A : ActiveSet) : ∀ c ∈ processLog o pb as A, c.Avoids nms := by
  intro c hc
  have hcom : ∀ f t, (LogCall.comment (K := K ⊕ B) f t).Avoids nms := fun f t => by
    rintro nm hnm flags w ⟨f', v', e, -⟩; cases e
  simp only [processLog, List.mem_append, List.mem_flatMap] at hc
  rcases hc with ⟨i, -, hc⟩ | ⟨i, -, hc⟩
  · unfold bndNote at hc
    simp only [] at hc
    split_ifs at hc <;> simp only [List.mem_singleton, List.not_mem_nil] at hc <;> (subst hc; exact hcom _ _)
  · unfold genNote at hc
    simp only [] at hc
    split_ifs at hc <;> simp only [List.mem_singleton, List.not_mem_nil] at hc <;> (subst hc; exact hcom _ _)

theorem xinitLog_avoids (o : Opts K) (pb : Pb K B) (xs : XState K) : ∀ c ∈ xinitLog o pb xs, c.Avoids inputNames := by
  intro c hc
  unfold xinitLog at hc
  simp only [] at hc
  rcases List.mem_append.1 hc with hc | hc
  · exact processLog_avoids _ _ _ _ _ c hc
  · split at hc
    · simp at hc
    · split at hc
      · simp at hc
      · split at hc
        · simp at hc
        · rcases List.mem_append.1 hc with hc | hc
          · rcases List.mem_append.1 hc with hc | hc
            · simp only [dataLog, List.mem_singleton] at hc
              subst hc
              refine log_avoids fun v hv => ?_
              simp only [List.mem_cons, List.not_mem_nil, or_false] at hv
              rcases hv with rfl | rfl | rfl <;> (dsimp only; decide)
            · exact pointsLog_avoids _ _ c hc
          · exact dropLog_avoids _ _ _ _ c hc

theorem xsolveLog_avoids (o : Opts K) (pb : Pb K B) (xs : XState K) : ∀ c ∈ xdualSolveLog o pb xs, c.Avoids inputNames := by
  intro c hc
  unfold xdualSolveLog at hc
  rcases List.mem_append.1 hc with hc | hc
  · exact xinitLog_avoids _ _ _ c hc
  · split at hc
    · simp at hc
    · split_ifs at hc
      · exact (termLog_noData _ c hc).avoids _
      · rcases List.mem_append.1 hc with hc | hc
        · exact (loopLog_noData _ _ _ _ _ _ c hc).avoids _
        · split at hc
          · simp at hc
          · exact (termLog_noData _ c hc).avoids _

/-- **C89.** With `INPUT` (or `NO_ITER`) enabled, the script logged by a call of `solve` of the base solver, in any state, with any options, whether it
succeeds or not, assigns to the members of the data exactly the matrices and the vectors of the problem. -/
theorem C89_input {shw : K ⊕ B → Word} (hs : ∀ x, Clean (shw x)) {g : Logger} {pre : List (Word × Int)} {id : Word} (hg : Named g pre id)
    (hf : (LogFlags.input.bits ||| LogFlags.noIter.bits) &&& g.flags ≠ 0) (o : Opts K) (pb : Pb K B) (s : State K) :
    ∃ S, readScript (script shw g (solveLog o pb s)) = some S ∧ InputShown shw S pre id pb := by
  refine ⟨_, C71_script hs hg _ (solveLog_ok o pb s), ?_⟩
  have := inputShown_of (shw := shw) (pre := pre) (id := id) hf (pb := pb) (extra := []) (by simp)
    (solveLog_avoids inputNames o pb (resize s pb.n pb.m pb.useBnd))
  rwa [List.append_nil] at this

/-- **C89**, warm-started solver: the script shows the problem and the statuses of the warm start (nothing for an empty vector). -/
theorem C89_warm {shw : K ⊕ B → Word} (hs : ∀ x, Clean (shw x)) {g : Logger} {pre : List (Word × Int)} {id : Word} (hg : Named g pre id)
    (hf : (LogFlags.input.bits ||| LogFlags.noIter.bits) &&& g.flags ≠ 0) (o : Opts K) (pb : Pb K B) (as : List Status) (xs : XState K) :
    ∃ S, readScript (script shw g (xsolveLog o pb as xs)) = some S ∧ InputShown shw S pre id pb ∧
      (as ≠ [] → Assigned S (dataPath pre id ['a', 's']) (.mat [as.map fun s => decInt s.toNat])) ∧
      (as = [] → ∀ v, Stmt.assign (dataPath pre id ['a', 's']) v ∉ S) := by
  refine ⟨_, C71_script hs hg _ (xsolveLog_ok o pb as xs), inputShown_of hf (by simp) (xsolveLog_avoids o pb _), fun h => ?_, fun h v hv => ?_⟩
  · have := assigned_head (shw := shw) (pre := pre) (id := id) (i := -1) hf (by decide)
      (vals := inputLog pb ++ [(['a', 's'], .vec (as.map fun s => (s.toNat : Int)))]) (xsolveLog_avoids o pb (xargs o pb as xs)) (nm := ['a', 's'])
      (by decide) (by decide) (w := .vec (as.map fun s => (s.toNat : Int))) (by simp [inputLog]) (by simp [emptyVec, h]) g.iter
    have e : LVal.value shw (.vec (as.map fun s => (s.toNat : Int))) = .mat [as.map fun s => decInt s.toNat] := by
      simp [LVal.value, rowInts, h, List.map_map, Function.comp_def]
    rw [e] at this
    exact this
  · rw [mem_expectedAll_data (by decide)] at hv
    obtain ⟨w, ⟨c, hc, hm⟩, -⟩ := hv
    unfold xsolveLog at hc
    rcases List.mem_append.1 hc with hc | hc
    · simp only [List.mem_cons, List.not_mem_nil, or_false] at hc
      rcases hc with rfl | rfl
      · obtain ⟨f', v', e, -⟩ := hm; cases e
      · obtain ⟨f', v', e, -, -, h3, h4⟩ := hm
        injection e with e1 e2
        subst e2
        simp only [inputLog, List.cons_append, List.nil_append, List.mem_cons, List.not_mem_nil, or_false, Prod.mk.injEq] at h3
        simp at h3
        rw [h3, h] at h4
        simp [emptyVec] at h4
    · exact xsolveLog_avoids o pb _ c hc ['a', 's'] (by decide) _ _ hm

/-- **C89**, box solver: the script shows the arguments. -/
theorem C89_box {shw : K ⊕ B → Word} (hs : ∀ x, Clean (shw x)) {g : Logger} {pre : List (Word × Int)} {id : Word} (hg : Named g pre id)
    (hf : (LogFlags.input.bits ||| LogFlags.noIter.bits) &&& g.flags ≠ 0) (o : Opts K) (n : Nat) (x0 c : Nat → K) (bl inf : B) (xl xu : Nat → B) (s : State K) :
    ∃ S, readScript (script shw g (boxSolveLog o n x0 c bl inf xl xu s)) = some S ∧
      Assigned S (dataPath pre id ['x', '0']) (column shw n x0) ∧ Assigned S (dataPath pre id ['c']) (column shw n c) ∧
      Assigned S (dataPath pre id ['b', 'l']) (.mat [[shw (.inr bl)]]) ∧ Assigned S (dataPath pre id ['x', 'l']) (bcolumn shw n xl) ∧
      Assigned S (dataPath pre id ['x', 'u']) (bcolumn shw n xu) := by
  have hr : ∀ k ∈ dualSolveLog (boxInitLog o (boxPb n x0 c bl inf xl xu)) (boxInit o (boxPb n x0 c bl inf xl xu)) o (boxPb n x0 c bl inf xl xu)
      (resize s n 1 (decide (0 < n))), k.Avoids inputNames := by
    refine dualSolveLog_avoids (fun s k hk => ?_) _ _ _ _
    unfold boxInitLog at hk
    split at hk
    · simp at hk
    · simp only [List.mem_singleton] at hk
      subst hk
      refine log_avoids fun v hv => ?_
      simp only [List.mem_cons, List.not_mem_nil, or_false] at hv
      rcases hv with rfl | rfl | rfl | rfl <;> (dsimp only; decide)
  have key : ∀ nm ∈ inputNames, ∀ w : LVal (K ⊕ B), emptyVec w = false → (∀ w', (nm, w') ∈ ([(['x', '0'], lvec n x0), (['c'], lvec n c),
      (['b', 'l'], .num (.inr bl)), (['x', 'l'], lbnd n xl), (['x', 'u'], lbnd n xu)] : List (Word × LVal (K ⊕ B))) ↔ w' = w) →
      Assigned (expectedAll shw g.flags pre id g.iter (boxSolveLog o n x0 c bl inf xl xu s)) (dataPath pre id nm) (w.value shw) := by
    intro nm hnm w he hw
    refine assigned_head hf (by decide) hr ?_ hnm hw he _
    rintro rfl; revert hnm; decide
  refine ⟨_, C71_script hs hg _ (boxSolveLog_ok o n x0 c bl inf xl xu s), ?_, ?_, ?_, ?_, ?_⟩
  · rw [← value_lvec]; exact key ['x', '0'] (by decide) _ rfl (by simp)
  · rw [← value_lvec]; exact key ['c'] (by decide) _ rfl (by simp)
  · exact key ['b', 'l'] (by decide) (.num (.inr bl)) rfl (by simp)
  · rw [← value_lbnd]; exact key ['x', 'l'] (by decide) _ rfl (by simp)
  · rw [← value_lbnd]; exact key ['x', 'u'] (by decide) _ rfl (by simp)

/-! ## Replay -/

theorem Assigned.unique {S : List Stmt} {p : List (Word × Option Int)} {v w : Val} (h : Assigned S p v) (h' : Assigned S p w) : v = w :=
  (h' v).1 ((h v).2 rfl)

theorem col_inj {α : Type} {shw : α → Word} (hi : Function.Injective shw) {n n' : Nat} {x x' : Nat → α}
    (h : Val.mat ((List.range n).map fun i => [shw (x i)]) = Val.mat ((List.range n').map fun i => [shw (x' i)])) : n = n' ∧ ∀ i < n, x i = x' i := by
  injection h with h
  have hn : n = n' := by simpa using congrArg List.length h
  subst hn
  refine ⟨rfl, fun i hin => hi ?_⟩
  have := List.map_inj_left.1 h i (List.mem_range.2 hin)
  simpa using this

theorem rows_inj {α : Type} {shw : α → Word} (hi : Function.Injective shw) {r c : Nat} {M M' : Nat → Nat → α}
    (h : Val.mat (rowsOf r c fun i j => shw (M i j)) = Val.mat (rowsOf r c fun i j => shw (M' i j))) : ∀ i < r, ∀ j < c, M i j = M' i j := by
  intro i hir j hjc
  injection h with h
  unfold rowsOf at h
  rw [if_neg (by omega), if_neg (by omega)] at h
  have h1 := List.map_inj_left.1 h i (List.mem_range.2 hir)
  exact hi (List.map_inj_left.1 h1 j (List.mem_range.2 hjc))

/-- A script shows a single problem, when different numbers are printed differently. -/
theorem InputShown.unique {shw : K ⊕ B → Word} (hi : Function.Injective shw) {S : List Stmt} {pre : List (Word × Int)} {id : Word} {pb pb' : Pb K B}
    (h : InputShown shw S pre id pb) (h' : InputShown shw S pre id pb') : SameProblem pb pb' := by
  have hl : Function.Injective fun x : K => shw (.inl x) := fun x y e => Sum.inl.inj (hi e)
  have hr : Function.Injective fun x : B => shw (.inr x) := fun x y e => Sum.inr.inj (hi e)
  obtain ⟨n1, n2⟩ := col_inj (shw := fun x : K => shw (.inl x)) hl (h.a.unique h'.a)
  obtain ⟨m1, m2⟩ := col_inj (shw := fun x : B => shw (.inr x)) hr (h.bl.unique h'.bl)
  obtain ⟨b1, b2⟩ := col_inj (shw := fun x : B => shw (.inr x)) hr (h.xl.unique h'.xl)
  have m3 := (col_inj (shw := fun x : B => shw (.inr x)) hr (h.bu.unique h'.bu)).2
  have b3 := (col_inj (shw := fun x : B => shw (.inr x)) hr (h.xu.unique h'.xu)).2
  have g1 := h.G.unique h'.G
  have c1 := h.C.unique h'.C
  rw [← n1] at g1 c1
  rw [← m1] at c1
  exact ⟨n1, m1, b1, rows_inj (shw := fun x : K => shw (.inl x)) hl g1, n2, rows_inj (shw := fun x : K => shw (.inl x)) hl c1,
    fun i hi => ⟨m2 i hi, m3 i hi⟩, fun i hi => ⟨b2 i hi, b3 i hi⟩⟩

/-- **C89, replay.** If two calls of `solve`, in any states, with any options, write the same text to loggers of the same name, they were given the
same problem (when different numbers are printed differently). -/
theorem C89_replay {shw : K ⊕ B → Word} (hs : ∀ x, Clean (shw x)) (hi : Function.Injective shw) {g g' : Logger} {pre : List (Word × Int)} {id : Word}
    (hg : Named g pre id) (hg' : Named g' pre id) (hf : (LogFlags.input.bits ||| LogFlags.noIter.bits) &&& g.flags ≠ 0)
    (hf' : (LogFlags.input.bits ||| LogFlags.noIter.bits) &&& g'.flags ≠ 0) {o o' : Opts K} {pb pb' : Pb K B} {s s' : State K}
    (h : script shw g (solveLog o pb s) = script shw g' (solveLog o' pb' s')) : SameProblem pb pb' := by
  obtain ⟨S, h1, h2⟩ := C89_input hs hg hf o pb s
  obtain ⟨S', h3, h4⟩ := C89_input hs hg' hf' o' pb' s'
  rw [h, h3] at h1
  cases h1
  exact h2.unique hi h4

theorem toNat_inj {s s' : Status} (h : s.toNat = s'.toNat) : s = s' := by
  revert h; cases s <;> cases s' <;> decide

theorem decInt_inj {i j : Int} (h : decInt i = decInt j) : i = j := by
  have := readInt_decInt i
  rw [h, readInt_decInt] at this
  exact (Option.some.inj this).symm

/-- **C89, replay**, warm-started solver: also the same statuses. -/
theorem C89_warm_replay {shw : K ⊕ B → Word} (hs : ∀ x, Clean (shw x)) (hi : Function.Injective shw) {g g' : Logger} {pre : List (Word × Int)} {id : Word}
    (hg : Named g pre id) (hg' : Named g' pre id) (hf : (LogFlags.input.bits ||| LogFlags.noIter.bits) &&& g.flags ≠ 0)
    (hf' : (LogFlags.input.bits ||| LogFlags.noIter.bits) &&& g'.flags ≠ 0) {o o' : Opts K} {pb pb' : Pb K B} {as as' : List Status} {xs xs' : XState K}
    (h : script shw g (xsolveLog o pb as xs) = script shw g' (xsolveLog o' pb' as' xs')) : SameProblem pb pb' ∧ as = as' := by
  obtain ⟨S, h1, h2, h3, h4⟩ := C89_warm hs hg hf o pb as xs
  obtain ⟨S', k1, k2, k3, k4⟩ := C89_warm hs hg' hf' o' pb' as' xs'
  rw [h, k1] at h1
  cases h1
  refine ⟨h2.unique hi k2, ?_⟩
  by_cases e : as = []
  · by_cases e' : as' = []
    · rw [e, e']
    · exact absurd ((k3 e' _).2 rfl) (h4 e _)
  · by_cases e' : as' = []
    · exact absurd ((h3 e _).2 rfl) (k4 e' _)
    · have := (h3 e).unique (k3 e')
      simp only [Val.mat.injEq, List.cons.injEq, and_true] at this
      refine List.map_injective_iff.2 (fun a b hab => ?_) this
      exact toNat_inj (by exact_mod_cast decInt_inj hab)

/-- Hypotheses of C89 and C89_replay: the logger of `DualSolver` with all flags, and a way to print the numbers of a countable type, here the integers,
injective. -/
theorem C89_hypotheses_met : Named allLogger [] ['l', 'o', 'g'] ∧ (LogFlags.input.bits ||| LogFlags.noIter.bits) &&& allLogger.flags ≠ 0 ∧
    ∃ shw : Int ⊕ Int → Word, (∀ x, Clean (shw x)) ∧ Function.Injective shw := by
  refine ⟨allLogger_named, by decide, fun x => match x with | .inl i => decInt i | .inr i => decInt i ++ ['f'], fun x => ?_, fun x y h => ?_⟩
  · cases x with
    | inl i => exact decInt_clean i
    | inr i => exact ⟨by simp, fun c hc => (List.mem_append.1 hc).elim ((decInt_clean i).2 c) (by simp; rintro rfl; decide)⟩
  · have hf : ∀ i : Int, 'f' ∉ decInt i := fun i hc => by
      have hd : ∀ n, 'f' ∉ dec n := fun n hc => by
        obtain ⟨k, hk, e⟩ := dec_digit n _ hc
        revert e
        interval_cases k <;> decide
      cases i with
      | ofNat n => exact hd n hc
      | negSucc n => exact hd _ (by simpa [decInt] using hc)
    cases x <;> cases y <;> simp only [] at h
    · rw [decInt_inj h]
    · exact absurd (h ▸ List.mem_append_right _ (by simp)) (hf _)
    · exact absurd (h ▸ List.mem_append_right _ (by simp)) (hf _)
    · rw [decInt_inj (List.append_cancel_right h)]

end Log
end JrlQp
