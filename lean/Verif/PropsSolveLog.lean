import Verif.SolveLog
import Verif.PropsLogText
import Verif.PropsSafety

/-!
# C72, C73: the log of a solve
-/

namespace JrlQp
namespace Log

open NumOps Matlab

section Calls

variable {V : Type}

/-- The iteration after a sequence of calls. -/
def nextAll (iter : Int) (cs : List (LogCall V)) : Int := cs.foldl (fun i c => c.next i) iter

theorem expectedAll_append (shw : V → Word) (flags : BitVec 32) (pre : List (Word × Int)) (id : Word) (l l' : List (LogCall V)) :
    ∀ iter, expectedAll shw flags pre id iter (l ++ l') =
      expectedAll shw flags pre id iter l ++ expectedAll shw flags pre id (nextAll iter l) l' := by
  induction l with
  | nil => intro iter; rfl
  | cons c l ih =>
    intro iter
    show expected shw flags pre id iter c ++ expectedAll shw flags pre id (c.next iter) (l ++ l') = _
    rw [ih, ← List.append_assoc]
    rfl

/-- Not the start of an iteration. -/
def LogCall.plain : LogCall V → Prop
  | .startIter _ => False
  | _ => True

theorem nextAll_plain {l : List (LogCall V)} (h : ∀ c ∈ l, c.plain) : ∀ iter, nextAll iter l = iter := by
  induction l with
  | nil => intro _; rfl
  | cons c l ih =>
    intro iter
    have hc : c.next iter = iter := by
      have := h c (by simp)
      cases c <;> first | rfl | exact absurd this (by simp [LogCall.plain])
    show nextAll (c.next iter) l = iter
    rw [hc]
    exact ih (fun d hd => h d (by simp [hd])) iter

/-- The path of the member `nm` of the iteration `i`. -/
def pathOf (pre : List (Word × Int)) (id : Word) (i : Int) (nm : Word) : List (Word × Option Int) :=
  pre.map (fun s => (s.1, some s.2)) ++ [(id, some i), (nm, none)]

/-- The call logs the value `w` under the name `nm`, in the member of the iteration. -/
def Member (flags : BitVec 32) (nm : Word) (w : LVal V) (c : LogCall V) : Prop :=
  ∃ f vals, c = .log f vals ∧ f &&& flags ≠ 0 ∧ f &&& noIterationFlag = 0 ∧ (nm, w) ∈ vals ∧ emptyVec w = false

theorem mem_expected {shw : V → Word} {flags : BitVec 32} {pre : List (Word × Int)} {id nm : Word} {iter i : Int} {v : Val} {c : LogCall V} :
    Stmt.assign (pathOf pre id i nm) v ∈ expected shw flags pre id iter c ↔ i = iter + 1 ∧ ∃ w, Member flags nm w c ∧ v = w.value shw := by
  cases c with
  | comment f t =>
    simp only [expected, Member]
    split_ifs <;> simp
  | startIter j =>
    simp only [expected, Member]
    split_ifs
    · simp
    · simp [pathOf]
  | log f vals =>
    simp only [expected]
    by_cases hf : f &&& flags = 0
    · rw [if_pos hf]
      simp only [List.not_mem_nil, Member, LogCall.log.injEq, false_iff]
      rintro ⟨-, w, ⟨f', vals', ⟨rfl, rfl⟩, h, -⟩, -⟩
      exact h hf
    · rw [if_neg hf]
      simp only [List.mem_map, List.mem_filter, Stmt.assign.injEq, pathOf, List.append_cancel_left_eq]
      constructor
      · rintro ⟨⟨n, w⟩, ⟨h1, h2⟩, h3, rfl⟩
        by_cases h0 : f &&& noIterationFlag = 0
        · rw [if_pos h0] at h3
          simp only [List.cons.injEq, Prod.mk.injEq, Option.some.injEq, and_true, true_and] at h3
          refine ⟨h3.1.symm, w, ⟨f, vals, rfl, hf, h0, h3.2 ▸ h1, by simpa using h2⟩, rfl⟩
        · rw [if_neg h0] at h3; simp at h3
      · rintro ⟨rfl, w, ⟨f', vals', e, h1, h2, h3, h4⟩, rfl⟩
        injection e with e1 e2
        subst e1 e2
        exact ⟨(nm, w), ⟨h3, by simp [h4]⟩, by rw [if_pos h2], rfl⟩

theorem mem_expectedAll {shw : V → Word} {flags : BitVec 32} {pre : List (Word × Int)} {id nm : Word} {i : Int} {v : Val}
    {l : List (LogCall V)} (h : ∀ c ∈ l, c.plain) : ∀ {iter : Int},
    Stmt.assign (pathOf pre id i nm) v ∈ expectedAll shw flags pre id iter l ↔ i = iter + 1 ∧ ∃ w, (∃ c ∈ l, Member flags nm w c) ∧ v = w.value shw := by
  induction l with
  | nil => intro iter; simp [expectedAll]
  | cons c l ih =>
    intro iter
    have hc : c.next iter = iter := nextAll_plain (l := [c]) (by simpa using h c (by simp)) iter
    simp only [expectedAll, List.mem_append, mem_expected, hc]
    rw [ih (fun d hd => h d (by simp [hd]))]
    constructor
    · rintro (⟨rfl, w, h1, rfl⟩ | ⟨rfl, w, ⟨d, h1, h2⟩, rfl⟩)
      · exact ⟨rfl, w, ⟨c, by simp, h1⟩, rfl⟩
      · exact ⟨rfl, w, ⟨d, by simp [h1], h2⟩, rfl⟩
    · rintro ⟨rfl, w, ⟨d, h1, h2⟩, rfl⟩
      rcases List.mem_cons.1 h1 with rfl | h1
      · exact .inl ⟨rfl, w, h2, rfl⟩
      · exact .inr ⟨rfl, w, ⟨d, h1, h2⟩, rfl⟩

/-- Statements of plain calls are accepted when the current iteration is at least 0. -/
theorem expected_valid {shw : V → Word} {flags : BitVec 32} {pre : List (Word × Int)} (hp : ∀ s ∈ pre, 1 ≤ s.2) {id : Word} {iter : Int} {c : LogCall V}
    (h : 0 ≤ iter ∨ ¬ ∃ f vals, c = .log f vals ∧ f &&& noIterationFlag = 0) : ∀ st ∈ expected shw flags pre id iter c, st.Valid := by
  have hpre : ∀ s ∈ pre.map (fun s => (s.1, some s.2)), ∀ i, s.2 = some i → 1 ≤ i := by
    intro s hs i hi
    obtain ⟨t, ht, rfl⟩ := List.mem_map.1 hs
    obtain rfl : t.2 = i := by simpa using hi
    exact hp t ht
  intro st hst
  cases c with
  | comment f t =>
    simp only [expected] at hst
    split_ifs at hst
    · simp at hst
    · simp only [List.mem_singleton] at hst; subst hst; trivial
  | startIter j =>
    simp only [expected] at hst
    split_ifs at hst
    · simp at hst
    · simp only [List.mem_singleton] at hst
      subst hst
      intro s hs i hi
      rcases List.mem_append.1 hs with hs | hs
      · exact hpre s hs i hi
      · simp only [List.mem_cons, List.not_mem_nil, or_false] at hs
        rcases hs with rfl | rfl <;> simp at hi
  | log f vals =>
    simp only [expected] at hst
    by_cases hf : f &&& flags = 0
    · rw [if_pos hf] at hst; simp at hst
    · rw [if_neg hf] at hst
      obtain ⟨w, -, rfl⟩ := List.mem_map.1 hst
      intro s hs i hi
      rcases List.mem_append.1 hs with hs | hs
      · exact hpre s hs i hi
      · simp only [List.mem_cons, List.not_mem_nil, or_false] at hs
        rcases hs with rfl | rfl
        · by_cases h0 : f &&& noIterationFlag = 0
          · rw [if_pos h0] at hi
            have := h.resolve_right (fun k => k ⟨f, vals, rfl, h0⟩)
            have hi : iter + 1 = i := by simpa using hi
            omega
          · rw [if_neg h0] at hi; simp at hi
        · simp at hi

theorem expectedAll_valid {shw : V → Word} {flags : BitVec 32} {pre : List (Word × Int)} (hp : ∀ s ∈ pre, 1 ≤ s.2) {id : Word}
    {l : List (LogCall V)} (h : ∀ c ∈ l, c.plain) : ∀ {iter : Int}, 0 ≤ iter → ∀ st ∈ expectedAll shw flags pre id iter l, st.Valid := by
  induction l with
  | nil => intro iter _ st hst; simp [expectedAll] at hst
  | cons c l ih =>
    intro iter hi st hst
    have hc : c.next iter = iter := nextAll_plain (l := [c]) (by simpa using h c (by simp)) iter
    simp only [expectedAll, List.mem_append, hc] at hst
    rcases hst with hst | hst
    · exact expected_valid hp (.inl hi) st hst
    · exact ih (fun d hd => h d (by simp [hd])) hi st hst

end Calls

variable {K B : Type} [Zero K] [One K] [Add K] [Sub K] [Neg K] [Mul K] [Div K] [NumOps K B] [SumOps K]

/-! ## The calls are well formed -/

theorem ident1 (c : Char) (h : identChar c = true) : Ident [c] := ⟨by simp, by simpa using h⟩

theorem stepDbg_plain (o : Opts K) (s : State K) : ∀ c ∈ stepDbg (B := B) o s, c.plain ∧ c.Ok := by
  intro c hc
  unfold stepDbg at hc
  split_ifs at hc
  · simp only [List.mem_singleton] at hc
    subst hc
    refine ⟨trivial, ?_⟩
    intro v hv
    simp only [List.mem_cons, List.not_mem_nil, or_false] at hv
    rcases hv with rfl | rfl | rfl <;> exact ident1 _ (by decide)
  · simp at hc


theorem bodyLog_plain (o : Opts K) (pb : Pb K B) (s : State K) (sc : SC) : ∀ c ∈ bodyLog o pb s sc, c.plain ∧ c.Ok := by
  intro c hc
  unfold bodyLog at hc
  simp only [List.mem_append] at hc
  rcases hc with (hc | hc) | hc
  · exact stepDbg_plain _ _ c hc
  · simp only [List.mem_cons, List.not_mem_nil, or_false] at hc
    rcases hc with rfl | rfl
    · exact ⟨trivial, show '\n' ∉ _ by decide⟩
    · refine ⟨trivial, ?_⟩
      intro v hv
      simp only [List.mem_cons, List.not_mem_nil, or_false] at hv
      rcases hv with rfl | rfl | rfl <;> exact ident1 _ (by decide)
  · split_ifs at hc
    · simp at hc
    · simp only [List.mem_singleton] at hc
      subst hc
      refine ⟨trivial, ?_⟩
      intro v hv
      simp only [List.mem_cons, List.not_mem_nil, or_false] at hv
      rcases hv with rfl | rfl
      · exact ⟨show "Activate".toList ≠ [] by decide, show ∀ c ∈ "Activate".toList, identChar c = true by decide⟩
      · exact ident1 _ (by decide)

/-- The calls of an iteration after `startIter`. -/
def iterTail (o : Opts K) (pb : Pb K B) (s : State K) (sc : SC) (skip : Bool) : Calls K B := (iterLog o pb s sc skip).tail

theorem iterLog_eq (o : Opts K) (pb : Pb K B) (s : State K) (sc : SC) (skip : Bool) :
    iterLog o pb s sc skip = .startIter s.it :: iterTail o pb s sc skip := rfl

theorem iterTail_plain (o : Opts K) (pb : Pb K B) (s : State K) (sc : SC) (skip : Bool) :
    ∀ c ∈ iterTail o pb s sc skip, c.plain ∧ c.Ok := by
  intro c hc
  unfold iterTail iterLog at hc
  simp only [List.cons_append, List.tail_cons, List.nil_append, List.mem_cons] at hc
  rcases hc with rfl | rfl | hc
  · refine ⟨trivial, ?_⟩
    intro v hv
    simp only [List.mem_cons, List.not_mem_nil, or_false] at hv
    subst hv
    exact ⟨by simp, show ∀ c ∈ ['A', '_'], identChar c = true by decide⟩
  · refine ⟨trivial, ?_⟩
    intro v hv
    simp only [List.mem_cons, List.not_mem_nil, or_false] at hv
    rcases hv with rfl | rfl | rfl
    · exact ident1 _ (by decide)
    · exact ident1 _ (by decide)
    · exact ⟨by simp, show ∀ c ∈ ['f', '_'], identChar c = true by decide⟩
  · cases skip with
    | true => exact bodyLog_plain _ _ _ _ c (by simpa using hc)
    | false =>
      simp only [Bool.false_eq_true, if_false] at hc
      split_ifs at hc
      · simp at hc
      · rcases List.mem_cons.1 hc with rfl | hc
        · refine ⟨trivial, ?_⟩
          intro v hv
          simp only [List.mem_cons, List.not_mem_nil, or_false] at hv
          subst hv
          exact ⟨by simp, show ∀ c ∈ ['s', 'c'], identChar c = true by decide⟩
        · exact bodyLog_plain _ _ _ _ c hc

theorem loopLog_ok (o : Opts K) (pb : Pb K B) (fuel : Nat) : ∀ (s : State K) (sc : SC) (skip : Bool), ∀ c ∈ loopLog o pb fuel s sc skip, c.Ok := by
  induction fuel with
  | zero => intro s sc skip c hc; simp [loopLog] at hc
  | succ fuel ih =>
    intro s sc skip c hc
    simp only [loopLog, iterLog_eq, List.cons_append, List.mem_cons, List.mem_append] at hc
    rcases hc with rfl | hc | hc
    · trivial
    · exact (iterTail_plain _ _ _ _ _ c hc).2
    · split at hc
      · exact ih _ _ _ c hc
      · simp at hc

theorem termLog_plain (t : Term) : ∀ c ∈ termLog (K := K) (B := B) t, c.plain ∧ c.Ok := by
  intro c hc
  cases t <;> simp only [termLog, termText, List.mem_singleton, List.not_mem_nil] at hc
  all_goals subst hc; exact ⟨trivial, show '\n' ∉ _ by decide +kernel⟩

theorem addInitialsLog_plain (o : Opts K) (pb : Pb K B) (l : List SC) : ∀ (s : State K), ∀ c ∈ addInitialsLog o pb l s, c.plain ∧ c.Ok := by
  induction l with
  | nil => intro s c hc; simp [addInitialsLog] at hc
  | cons sc l ih =>
    intro s c hc
    simp only [addInitialsLog, List.mem_append] at hc
    rcases hc with hc | hc
    · exact stepDbg_plain _ _ c hc
    · split at hc
      · simp at hc
      · exact ih _ c hc

theorem initLog_plain (o : Opts K) (pb : Pb K B) (s : State K) : ∀ c ∈ initLog o pb s, c.plain ∧ c.Ok := by
  intro c hc
  unfold initLog at hc
  simp only [] at hc
  split_ifs at hc
  · simp at hc
  · exact addInitialsLog_plain _ _ _ _ c hc

theorem inputLog_ok (pb : Pb K B) : ∀ v ∈ inputLog pb, Ident v.1 := by
  intro v hv
  simp only [inputLog, List.mem_cons, List.not_mem_nil, or_false] at hv
  rcases hv with rfl | rfl | rfl | rfl | rfl | rfl | rfl
  · exact ⟨by simp, show ∀ c ∈ ['G'], identChar c = true by decide⟩
  · exact ⟨by simp, show ∀ c ∈ ['a'], identChar c = true by decide⟩
  · exact ⟨by simp, show ∀ c ∈ ['C'], identChar c = true by decide⟩
  · exact ⟨by simp, show ∀ c ∈ ['b', 'l'], identChar c = true by decide⟩
  · exact ⟨by simp, show ∀ c ∈ ['b', 'u'], identChar c = true by decide⟩
  · exact ⟨by simp, show ∀ c ∈ ['x', 'l'], identChar c = true by decide⟩
  · exact ⟨by simp, show ∀ c ∈ ['x', 'u'], identChar c = true by decide⟩

theorem dualSolveLog_ok {iniLog : State K → Calls K B} (hl : ∀ s, ∀ c ∈ iniLog s, c.Ok) (ini : State K → Except Fault (Term × State K))
    (o : Opts K) (pb : Pb K B) (s : State K) : ∀ c ∈ dualSolveLog iniLog ini o pb s, c.Ok := by
  intro c hc
  unfold dualSolveLog at hc
  rcases List.mem_append.1 hc with hc | hc
  · exact hl _ c hc
  · split at hc
    · simp at hc
    · split_ifs at hc
      · exact (termLog_plain _ c hc).2
      · rcases List.mem_append.1 hc with hc | hc
        · exact loopLog_ok _ _ _ _ _ _ c hc
        · split at hc
          · simp at hc
          · exact (termLog_plain _ c hc).2

theorem boxInitLog_plain (o : Opts K) (pb : Pb K B) (s : State K) : ∀ c ∈ boxInitLog o pb s, c.plain ∧ c.Ok := by
  intro c hc
  unfold boxInitLog at hc
  split at hc
  · simp at hc
  · simp only [List.mem_singleton] at hc
    subst hc
    refine ⟨trivial, ?_⟩
    intro v hv
    simp only [List.mem_cons, List.not_mem_nil, or_false] at hv
    rcases hv with rfl | rfl | rfl | rfl <;> exact ident1 _ (by decide)

theorem boxSolveLog_ok (o : Opts K) (n : Nat) (x0 c : Nat → K) (bl inf : B) (xl xu : Nat → B) (s : State K) :
    ∀ k ∈ boxSolveLog o n x0 c bl inf xl xu s, k.Ok := by
  intro k hk
  unfold boxSolveLog at hk
  rcases List.mem_append.1 hk with hk | hk
  · simp only [List.mem_cons, List.not_mem_nil, or_false] at hk
    rcases hk with rfl | rfl
    · trivial
    · intro v hv
      simp only [List.mem_cons, List.not_mem_nil, or_false] at hv
      rcases hv with rfl | rfl | rfl | rfl | rfl
      · exact ⟨by simp, show ∀ c ∈ ['x', '0'], identChar c = true by decide⟩
      · exact ident1 _ (by decide)
      · exact ⟨by simp, show ∀ c ∈ ['b', 'l'], identChar c = true by decide⟩
      · exact ⟨by simp, show ∀ c ∈ ['x', 'l'], identChar c = true by decide⟩
      · exact ⟨by simp, show ∀ c ∈ ['x', 'u'], identChar c = true by decide⟩
  · exact dualSolveLog_ok (fun s c hc => (boxInitLog_plain _ _ s c hc).2) _ _ _ _ k hk

theorem solveLog_ok (o : Opts K) (pb : Pb K B) (s : State K) : ∀ c ∈ solveLog o pb s, c.Ok := by
  intro c hc
  unfold solveLog at hc
  rcases List.mem_append.1 hc with hc | hc
  · simp only [List.mem_cons, List.not_mem_nil, or_false] at hc
    rcases hc with rfl | rfl
    · trivial
    · exact inputLog_ok pb
  · exact dualSolveLog_ok (fun s c hc => (initLog_plain _ _ s c hc).2) _ _ _ _ c hc

/-! ## C72: indices -/

theorem loopLog_valid {shw : K ⊕ B → Word} {flags : BitVec 32} {pre : List (Word × Int)} (hp : ∀ s ∈ pre, 1 ≤ s.2) {id : Word}
    (o : Opts K) (pb : Pb K B) (fuel : Nat) : ∀ (s : State K) (sc : SC) (skip : Bool) (iter : Int),
    ∀ st ∈ expectedAll shw flags pre id iter (loopLog o pb fuel s sc skip), st.Valid := by
  induction fuel with
  | zero => intro s sc skip iter st hst; simp [loopLog, expectedAll] at hst
  | succ fuel ih =>
    intro s sc skip iter st hst
    simp only [loopLog, iterLog_eq, List.cons_append, expectedAll, expectedAll_append, List.mem_append] at hst
    rcases hst with hst | hst | hst
    · exact expected_valid hp (.inr (by simp)) st hst
    · exact expectedAll_valid hp (fun c hc => (iterTail_plain _ _ _ _ _ c hc).1) (by simp [LogCall.next]) st hst
    · split at hst
      · exact ih _ _ _ _ st hst
      · simp [expectedAll] at hst

/-- Comments are accepted. -/
theorem termLog_valid {shw : K ⊕ B → Word} {flags : BitVec 32} {pre : List (Word × Int)} (hp : ∀ s ∈ pre, 1 ≤ s.2) {id : Word} (t : Term) (iter : Int) :
    ∀ st ∈ expectedAll shw flags pre id iter (termLog (K := K) (B := B) t), st.Valid := by
  intro st hst
  unfold termLog at hst
  split at hst
  · simp only [expectedAll, List.append_nil] at hst
    exact expected_valid hp (.inr (by simp)) st hst
  · simp [expectedAll] at hst

/-- No equality constraint and no fixed variable. -/
def NoEq (pb : Pb K B) : Prop := (∀ i < pb.m, bEq K (pb.bl i) (pb.bu i) = false) ∧ ∀ i < pb.nb, bEq K (pb.xl i) (pb.xu i) = false

theorem addInitialsLog_release {o : Opts K} (hd : o.dbg = false) (pb : Pb K B) (l : List SC) : ∀ (s : State K), addInitialsLog o pb l s = [] := by
  induction l with
  | nil => intro s; rfl
  | cons sc l ih =>
    intro s
    simp only [addInitialsLog, stepDbg, hd, Bool.false_eq_true, if_false, List.nil_append]
    split
    · rfl
    · exact ih _

/-- The dimensions after `resize`. -/
theorem resize_dims (s : State K) (n m : Nat) (b : Bool) :
    (resize s n m b).nbVar = n ∧ (resize s n m b).A.nbCstr = m ∧ (resize s n m b).A.nbBnd = if b then n else 0 := by
  unfold resize resizeP resize_
  simp only []
  split_ifs <;> simp_all [ActiveSet.resize, ActiveSet.reset]

theorem preInit_dims (o : Opts K) (s : State K) : (preInit o s).nbVar = s.nbVar ∧ (preInit o s).A.nbCstr = s.A.nbCstr ∧ (preInit o s).A.nbBnd = s.A.nbBnd := by
  unfold preInit
  refine ⟨rfl, ?_⟩
  cases o.warmStart <;> exact ⟨rfl, rfl⟩

theorem eqList_nil_iff (pb : Pb K B) (A : ActiveSet) (hm : A.nbCstr = pb.m) (hb : A.nbBnd = pb.nb) : eqList pb A = [] ↔ NoEq pb := by
  unfold eqList NoEq
  rw [hm, hb]
  simp [List.filter_eq_nil_iff]

theorem initLog_nil (o : Opts K) (pb : Pb K B) (s : State K) (h : o.dbg = false ∨ NoEq pb) :
    initLog o pb (preInit o (resize s pb.n pb.m pb.useBnd)) = [] := by
  unfold initLog
  simp only []
  split_ifs
  · rfl
  · rcases h with h | h
    · exact addInitialsLog_release h _ _ _
    · obtain ⟨-, h1, h2⟩ := resize_dims s pb.n pb.m pb.useBnd
      obtain ⟨-, h3, h4⟩ := preInit_dims o (resize s pb.n pb.m pb.useBnd)
      have e : eqList pb (initPoint o pb { preInit o (resize s pb.n pb.m pb.useBnd) with G := (chol (preInit o (resize s pb.n pb.m pb.useBnd)).nbVar pb.G (preInit o (resize s pb.n pb.m pb.useBnd)).nbVar).1 }).A = [] := by
        rw [eqList_nil_iff]
        · exact h
        · exact h3.trans h1
        · exact h4.trans h2
      rw [e]
      rfl

/-- **C72.** In a release build, or when there is no equality constraint and no fixed variable: whatever the problem (NaN and
infinities included), the options, the flags and the state of the solver, and even if the solve is interrupted by a fault, what
the solver logs is a script accepted by Matlab: statements that can be read, with indices at least 1. -/
theorem C72_valid {shw : K ⊕ B → Word} (hs : ∀ x, Clean (shw x)) {g : Logger} {pre : List (Word × Int)} {id : Word} (hg : Named g pre id)
    (hp : ∀ s ∈ pre, 1 ≤ s.2) (o : Opts K) (pb : Pb K B) (s : State K) (h : o.dbg = false ∨ NoEq pb) :
    ∃ S, readScript (script shw g (solveLog o pb s)) = some S ∧ ∀ st ∈ S, st.Valid := by
  refine ⟨_, C71_script hs hg _ (solveLog_ok o pb s), ?_⟩
  intro st hst
  simp only [solveLog, dualSolveLog, initLog_nil o pb s h, List.nil_append, List.cons_append, expectedAll, List.mem_append] at hst
  rcases hst with hst | hst | hst
  · exact expected_valid hp (.inr (by simp)) st hst
  · refine expected_valid hp (.inr ?_) st hst
    rintro ⟨f, vals, e, h0⟩
    injection e with e1 e2
    rw [← e1] at h0
    exact absurd h0 (by decide)
  · split at hst
    · simp [expectedAll] at hst
    · split_ifs at hst
      · exact termLog_valid hp _ _ st hst
      · rw [expectedAll_append] at hst
        rcases List.mem_append.1 hst with hst | hst
        · exact loopLog_valid hp _ _ _ _ _ _ _ st hst
        · split at hst
          · simp [expectedAll] at hst
          · exact termLog_valid hp _ _ st hst

theorem initLog_debug {o : Opts K} {pb : Pb K B} {s : State K} {flags : BitVec 32} (hf : LogFlags.iterationAdvanceDetails.bits &&& flags ≠ 0)
    (hd : o.dbg = true) (hm : s.A.nbCstr = pb.m) (hb : s.A.nbBnd = pb.nb) (hc : (chol s.nbVar pb.G s.nbVar).2 = none) (h : ¬ NoEq pb) :
    ∃ w, ∃ c ∈ initLog o pb s, Member flags ['J'] w c := by
  unfold initLog
  simp only [hc, Option.isSome_none, Bool.false_eq_true, if_false]
  generalize hs0 : ({ s with G := (chol s.nbVar pb.G s.nbVar).1 } : State K) = s0
  have hA : s0.A = s.A := by rw [← hs0]
  have e : eqList pb (initPoint o pb s0).A ≠ [] := by
    rw [Ne, eqList_nil_iff]
    · exact h
    · show s0.A.reset.nbCstr = _; rw [hA]; exact hm
    · show s0.A.reset.nbBnd = _; rw [hA]; exact hb
  obtain ⟨sc, l, e⟩ := List.exists_cons_of_ne_nil e
  rw [e]
  simp only [addInitialsLog, stepDbg, hd, if_true]
  exact ⟨_, _, List.mem_append_left _ (List.mem_singleton.2 rfl), _, _, rfl, hf, by decide, List.mem_cons_self, rfl⟩

/-- **C72, debug builds.** The hypothesis of `C72_valid` is needed: in a debug build, when the factorisation succeeds, there is
an equality constraint or a fixed variable and `ITERATION_ADVANCE_DETAILS` is enabled, the script contains assignments to the
member of index 0, which Matlab rejects. -/
theorem C72_debug {shw : K ⊕ B → Word} (hs : ∀ x, Clean (shw x)) {g : Logger} {pre : List (Word × Int)} {id : Word} (hg : Named g pre id)
    (hf : LogFlags.iterationAdvanceDetails.bits &&& g.flags ≠ 0) (o : Opts K) (pb : Pb K B) (s : State K) (hd : o.dbg = true) (hc : (chol pb.n pb.G pb.n).2 = none)
    (h : ¬ NoEq pb) :
    ∃ S v, readScript (script shw g (solveLog o pb s)) = some S ∧ Stmt.assign (pathOf pre id 0 ['J']) v ∈ S ∧
      ¬ (Stmt.assign (pathOf pre id 0 ['J']) v).Valid := by
  obtain ⟨h0, h1, h2⟩ := resize_dims s pb.n pb.m pb.useBnd
  obtain ⟨h5, h3, h4⟩ := preInit_dims o (resize s pb.n pb.m pb.useBnd)
  have hn : (preInit o (resize s pb.n pb.m pb.useBnd)).nbVar = pb.n := h5.trans h0
  obtain ⟨v, hv⟩ : ∃ w, ∃ c ∈ initLog o pb (preInit o (resize s pb.n pb.m pb.useBnd)), Member g.flags ['J'] w c :=
    initLog_debug hf hd (h3.trans h1) (h4.trans h2) (by rw [hn]; exact hc) h
  refine ⟨_, v.value shw, C71_script hs hg _ (solveLog_ok o pb s), ?_, ?_⟩
  · simp only [solveLog, dualSolveLog, List.cons_append, List.nil_append, expectedAll, List.mem_append, expectedAll_append]
    refine .inr (.inr (.inl ?_))
    rw [mem_expectedAll fun c hc => (initLog_plain _ _ _ c hc).1]
    exact ⟨rfl, v, hv, rfl⟩
  · intro hval
    have := hval (id, some 0) (by simp [pathOf]) 0 rfl
    omega

/-- **C72, box solver.** In the box solver the log of `init_` is not marked `NO_ITER`: when `ACTIVE_SET_DETAILS` is enabled and
`init_` succeeds, whatever the build, the script contains an assignment to the member of index 0. -/
theorem C72_box {shw : K ⊕ B → Word} (hs : ∀ x, Clean (shw x)) {g : Logger} {pre : List (Word × Int)} {id : Word} (hg : Named g pre id)
    (hf : LogFlags.activeSetDetails.bits &&& g.flags ≠ 0) (o : Opts K) (n : Nat) (x0 c : Nat → K) (bl inf : B) (xl xu : Nat → B) (s : State K)
    {r : Term × State K} (hr : boxSolve o n x0 c bl inf xl xu s = .ok r) :
    ∃ S v, readScript (script shw g (boxSolveLog o n x0 c bl inf xl xu s)) = some S ∧ Stmt.assign (pathOf pre id 0 ['x']) v ∈ S ∧
      ¬ (Stmt.assign (pathOf pre id 0 ['x']) v).Valid := by
  obtain ⟨v, hv⟩ : ∃ w, ∃ k ∈ boxInitLog o (boxPb n x0 c bl inf xl xu) (preInit o (resize s n 1 (decide (0 < n)))), Member g.flags ['x'] w k := by
    unfold boxSolve dualSolve at hr
    unfold boxInitLog
    cases hi : boxInit o (boxPb n x0 c bl inf xl xu) (preInit o (resize s n 1 (decide (0 < n)))) with
    | error e => simp [hi] at hr
    | ok r => exact ⟨_, _, List.mem_singleton.2 rfl, _, _, rfl, hf, by decide, List.mem_cons_self, rfl⟩
  refine ⟨_, v.value shw, C71_script hs hg _ (boxSolveLog_ok o n x0 c bl inf xl xu s), ?_, ?_⟩
  · simp only [boxSolveLog, dualSolveLog, List.cons_append, List.nil_append, expectedAll, List.mem_append, expectedAll_append]
    refine .inr (.inr (.inl ?_))
    rw [mem_expectedAll fun c hc => (boxInitLog_plain _ _ _ c hc).1]
    exact ⟨rfl, v, hv, rfl⟩
  · intro hval
    have := hval (id, some 0) (by simp [pathOf]) 0 rfl
    omega

/-- **C72, box solver.** The script is accepted when `ACTIVE_SET_DETAILS` is disabled. -/
theorem C72_box_valid {shw : K ⊕ B → Word} (hs : ∀ x, Clean (shw x)) {g : Logger} {pre : List (Word × Int)} {id : Word} (hg : Named g pre id)
    (hp : ∀ s ∈ pre, 1 ≤ s.2) (hf : LogFlags.activeSetDetails.bits &&& g.flags = 0) (o : Opts K) (n : Nat) (x0 c : Nat → K) (bl inf : B)
    (xl xu : Nat → B) (s : State K) :
    ∃ S, readScript (script shw g (boxSolveLog o n x0 c bl inf xl xu s)) = some S ∧ ∀ st ∈ S, st.Valid := by
  refine ⟨_, C71_script hs hg _ (boxSolveLog_ok o n x0 c bl inf xl xu s), ?_⟩
  intro st hst
  simp only [boxSolveLog, dualSolveLog, List.nil_append, List.cons_append, expectedAll, expectedAll_append, List.mem_append] at hst
  rcases hst with hst | hst | hst | hst
  · exact expected_valid hp (.inr (by simp)) st hst
  · refine expected_valid hp (.inr ?_) st hst
    rintro ⟨f, vals, e, h0⟩
    injection e with e1 e2
    rw [← e1] at h0
    exact absurd h0 (by decide)
  · exfalso
    unfold boxInitLog at hst
    split at hst
    · simp [expectedAll] at hst
    · simp [expectedAll, expected, hf] at hst
  · split at hst
    · simp [expectedAll] at hst
    · split_ifs at hst
      · exact termLog_valid hp _ _ st hst
      · rw [expectedAll_append] at hst
        rcases List.mem_append.1 hst with hst | hst
        · exact loopLog_valid hp _ _ _ _ _ _ _ st hst
        · split at hst
          · simp [expectedAll] at hst
          · exact termLog_valid hp _ _ st hst

/-! ## C73: the iterates -/

/-- The state of the main loop after `k` complete iterations, and the flag `skipStep1`. -/
def ent (o : Opts K) (pb : Pb K B) : Nat → State K → SC → Bool → Option (State K × Bool)
  | 0, s, _, skip => some (s, skip)
  | k + 1, s, sc, skip =>
    match iterate o pb s sc skip with
    | .ok (.cont s sc skip) => ent o pb k { s with it := s.it + 1 } sc skip
    | _ => none

theorem ent_loop {o : Opts K} {pb : Pb K B} (k : Nat) : ∀ {s : State K} {sc : SC} {skip : Bool} {sk : State K} {b : Bool},
    ent o pb k s sc skip = some (sk, b) → loop o pb k s sc skip = .ok (.maxIterReached, sk) ∧ sk.it = s.it + k := by
  induction k with
  | zero => intro s sc skip sk b h; simp only [ent, Option.some.injEq, Prod.mk.injEq] at h; exact ⟨by rw [← h.1]; rfl, by rw [← h.1]; rfl⟩
  | succ k ih =>
    intro s sc skip sk b h
    simp only [ent] at h
    split at h
    · rename_i s1 sc1 b1 hr
      have h1 := ih h
      have h2 : s1.it = s.it := iterate_it hr
      refine ⟨?_, ?_⟩
      · simp only [loop, hr]; exact h1.1
      · rw [h1.2]; simp only [h2]; omega
    · simp at h

/-- A value logged once at the start of each iteration. -/
def Field (flags : BitVec 32) (nm : Word) (F : State K → Bool → LVal (K ⊕ B)) : Prop :=
  ∀ (o : Opts K) (pb : Pb K B) (s : State K) (sc : SC) (skip : Bool) (w : LVal (K ⊕ B)),
    (∃ c ∈ iterTail o pb s sc skip, Member flags nm w c) ↔ w = F s skip

theorem iterBody_done {o : Opts K} {pb : Pb K B} {s s' : State K} {sc : SC} {t : Term}
    (h : iterBody o pb s sc = .ok (.done t s')) : s'.x = s.x ∧ s'.f = s.f ∧ s'.A = s.A ∧ s'.nbVar = s.nbVar := by
  unfold iterBody at h
  simp only [] at h
  split_ifs at h <;> cases h
  exact ⟨rfl, rfl, rfl, rfl⟩

theorem iterate_done {o : Opts K} {pb : Pb K B} {s s' : State K} {sc : SC} {skip : Bool} {t : Term}
    (h : iterate o pb s sc skip = .ok (.done t s')) : s'.x = s.x ∧ s'.f = s.f ∧ s'.A = s.A ∧ s'.nbVar = s.nbVar := by
  unfold iterate at h
  simp only [] at h
  split_ifs at h
  · exact iterBody_done h
  · simp only [Except.ok.injEq, Iter.done.injEq] at h
    obtain ⟨-, rfl⟩ := h
    exact ⟨rfl, rfl, rfl, rfl⟩
  · have := iterBody_done h
    exact this

theorem loop_le {o : Opts K} {pb : Pb K B} (fuel : Nat) : ∀ {s : State K} {sc : SC} {skip : Bool} {t : Term} {s' : State K},
    loop o pb fuel s sc skip = .ok (t, s') → s.it ≤ s'.it ∧ (t = .maxIterReached ∨ ∃ sk b, ent o pb (s'.it - s.it) s sc skip = some (sk, b) ∧
      s'.x = sk.x ∧ s'.f = sk.f ∧ s'.A = sk.A ∧ s'.nbVar = sk.nbVar) := by
  induction fuel with
  | zero =>
    intro s sc skip t s' h
    simp only [loop, Except.ok.injEq, Prod.mk.injEq] at h
    exact ⟨by rw [h.2], .inl h.1.symm⟩
  | succ fuel ih =>
    intro s sc skip t s' h
    simp only [loop] at h
    cases hr : iterate o pb s sc skip with
    | error e => rw [hr] at h; cases h
    | ok r =>
      rw [hr] at h
      cases r with
      | done t1 s1 =>
        simp only [Except.ok.injEq, Prod.mk.injEq] at h
        obtain ⟨rfl, rfl⟩ := h
        have hi := (iterate_it hr).2
        refine ⟨by omega, .inr ⟨s, skip, ?_, iterate_done hr⟩⟩
        rw [hi, Nat.sub_self]; rfl
      | cont s1 sc1 b1 =>
        simp only at h
        have hi : s1.it = s.it := iterate_it hr
        obtain ⟨h1, h2⟩ := ih h
        simp only at h1
        refine ⟨by omega, h2.imp_right ?_⟩
        rintro ⟨sk, b, h3, h4⟩
        refine ⟨sk, b, ?_, h4⟩
        rw [show s'.it - s.it = (s'.it - (s1.it + 1)) + 1 by omega]
        simp only [ent, hr]
        exact h3

theorem loopLog_field {flags : BitVec 32} {nm : Word} {F : State K → Bool → LVal (K ⊕ B)} (hF : Field flags nm F) {shw : K ⊕ B → Word}
    {pre : List (Word × Int)} {id : Word} {o : Opts K} {pb : Pb K B} (fuel : Nat) : ∀ {s : State K} {sc : SC} {skip : Bool} {iter : Int} {t : Term} {s' : State K},
    loop o pb fuel s sc skip = .ok (t, s') → ∀ i v,
    Stmt.assign (pathOf pre id i nm) v ∈ expectedAll shw flags pre id iter (loopLog o pb fuel s sc skip) ↔
      ∃ k, k < fuel ∧ s.it + k ≤ s'.it ∧ i = (s.it + k : Nat) + 1 ∧ ∃ sk b, ent o pb k s sc skip = some (sk, b) ∧ v = (F sk b).value shw := by
  induction fuel with
  | zero => intro s sc skip iter t s' _ i v; simp [loopLog, expectedAll]
  | succ fuel ih =>
    intro s sc skip iter t s' h i v
    simp only [loopLog, iterLog_eq, List.cons_append, expectedAll, expectedAll_append, List.mem_append]
    rw [mem_expectedAll fun c hc => (iterTail_plain _ _ _ _ _ c hc).1, mem_expected]
    have h1 : (∃ w, (∃ c ∈ iterTail o pb s sc skip, Member flags nm w c) ∧ v = w.value shw) ↔ v = (F s skip).value shw := by
      constructor
      · rintro ⟨w, hw, rfl⟩; rw [(hF o pb s sc skip w).1 hw]
      · rintro rfl; exact ⟨_, (hF o pb s sc skip _).2 rfl, rfl⟩
    have h0 : ¬ (i = iter + 1 ∧ ∃ w, Member flags nm w (LogCall.startIter (K := K ⊕ B) s.it) ∧ v = w.value shw) := by
      rintro ⟨-, w, ⟨f, vals, e, -⟩, -⟩; cases e
    rw [h1]
    simp only [loop] at h
    have hz : (∃ sk b, ent o pb 0 s sc skip = some (sk, b) ∧ v = (F sk b).value shw) ↔ v = (F s skip).value shw := by
      simp only [ent, Option.some.injEq, Prod.mk.injEq]
      constructor
      · rintro ⟨sk, b, ⟨rfl, rfl⟩, h⟩; exact h
      · intro h; exact ⟨s, skip, ⟨rfl, rfl⟩, h⟩
    have hlater : ∀ (X : Prop), (X ↔ ∃ k, k < fuel ∧ s.it + (k + 1) ≤ s'.it ∧ i = (s.it + (k + 1) : Nat) + 1 ∧
        ∃ sk b, ent o pb (k + 1) s sc skip = some (sk, b) ∧ v = (F sk b).value shw) → s.it ≤ s'.it →
        ((i = iter + 1 ∧ ∃ w, Member flags nm w (LogCall.startIter (K := K ⊕ B) s.it) ∧ v = w.value shw) ∨
          (i = LogCall.next (K := K ⊕ B) iter (.startIter s.it) + 1 ∧ v = (F s skip).value shw) ∨ X ↔
        ∃ k, k < fuel + 1 ∧ s.it + k ≤ s'.it ∧ i = (s.it + k : Nat) + 1 ∧ ∃ sk b, ent o pb k s sc skip = some (sk, b) ∧ v = (F sk b).value shw) := by
      intro X hX hle
      rw [or_iff_right h0, hX]
      constructor
      · rintro (⟨rfl, h3⟩ | ⟨k, h2, h3, h4, h5⟩)
        · exact ⟨0, by omega, by omega, rfl, hz.2 h3⟩
        · exact ⟨k + 1, by omega, h3, h4, h5⟩
      · rintro ⟨k, h2, h3, h4, h5⟩
        cases k with
        | zero => exact .inl ⟨h4, hz.1 h5⟩
        | succ k => exact .inr ⟨k, by omega, h3, h4, h5⟩
    cases hr : iterate o pb s sc skip with
    | error e => rw [hr] at h; cases h
    | ok r =>
      rw [hr] at h
      cases r with
      | done t1 s1 =>
        simp only [Except.ok.injEq, Prod.mk.injEq] at h
        obtain ⟨rfl, rfl⟩ := h
        refine hlater _ ?_ (by have := (iterate_it hr).2; omega)
        simp [expectedAll, ent, hr]
      | cont s1 sc1 b1 =>
        simp only at h
        have hi : s1.it = s.it := iterate_it hr
        have hle := loop_it _ h
        simp only at hle
        refine hlater _ ?_ ?_
        · rw [ih h]
          simp only [hi, ent, hr]
          constructor
          · rintro ⟨k, h2, h3, h4, h5⟩; exact ⟨k, h2, by omega, by rw [h4]; push_cast; ring, h5⟩
          · rintro ⟨k, h2, h3, h4, h5⟩; exact ⟨k, h2, by omega, by rw [h4]; push_cast; ring, h5⟩
        · have := (loop_le _ h).1
          simp only at this
          omega

theorem stepDbg_names {o : Opts K} {s : State K} {flags : BitVec 32} {nm : Word} {w : LVal (K ⊕ B)} {c : LogCall (K ⊕ B)}
    (hc : c ∈ stepDbg o s) (h : Member flags nm w c) : nm ∈ [['J'], ['R'], ['d']] := by
  unfold stepDbg at hc
  split_ifs at hc
  · simp only [List.mem_singleton] at hc
    subst hc
    obtain ⟨f, vals, e, -, -, h1, -⟩ := h
    injection e with _ e2
    rw [← e2] at h1
    simp only [List.mem_cons, List.not_mem_nil, or_false, Prod.mk.injEq] at h1
    rcases h1 with h1 | h1 | h1 <;> simp [h1.1]
  · simp at hc

theorem bodyLog_names {o : Opts K} {pb : Pb K B} {s : State K} {sc : SC} {flags : BitVec 32} {nm : Word} {w : LVal (K ⊕ B)} {c : LogCall (K ⊕ B)}
    (hc : c ∈ bodyLog o pb s sc) (h : Member flags nm w c) : nm ∈ [['J'], ['R'], ['d'], ['z'], ['r'], ['t'], "Activate".toList, ['l']] := by
  unfold bodyLog at hc
  simp only [List.mem_append] at hc
  rcases hc with (hc | hc) | hc
  · have := stepDbg_names hc h
    simp only [List.mem_cons, List.not_mem_nil, or_false] at this ⊢
    tauto
  · obtain ⟨f, vals, rfl, -, -, h1, -⟩ := h
    simp only [List.mem_cons, List.not_mem_nil, or_false, reduceCtorEq, false_or, LogCall.log.injEq] at hc
    rw [hc.2] at h1
    simp only [List.mem_cons, List.not_mem_nil, or_false, Prod.mk.injEq] at h1 ⊢
    tauto
  · obtain ⟨f, vals, rfl, -, -, h1, -⟩ := h
    split_ifs at hc
    · simp at hc
    · simp only [List.mem_cons, List.not_mem_nil, or_false, LogCall.log.injEq] at hc
      rw [hc.2] at h1
      simp only [List.mem_cons, List.not_mem_nil, or_false, Prod.mk.injEq] at h1 ⊢
      tauto

/-- The values logged under `nm` at an iteration, for the names that are only used at its start. -/
theorem iterTail_names {o : Opts K} {pb : Pb K B} {s : State K} {sc : SC} {skip : Bool} {flags : BitVec 32} {nm : Word}
    (hnm : nm ∉ [['s', 'c'], ['J'], ['R'], ['d'], ['z'], ['r'], ['t'], "Activate".toList, ['l']]) (w : LVal (K ⊕ B)) :
    (∃ c ∈ iterTail o pb s sc skip, Member flags nm w c) ↔
      (LogFlags.activeSetDetails.bits &&& flags ≠ 0 ∧ nm = ['A', '_'] ∧ w = .active ((List.range s.A.q).map fun k => (s.A.get k : Int))) ∨
      (LogFlags.iterationBasicDetails.bits &&& flags ≠ 0 ∧ ((nm = ['x'] ∧ w = lvec s.nbVar s.x) ∨
        (nm = ['u'] ∧ w = lvec (if skip then s.A.q + 1 else s.A.q) s.u) ∨ (nm = ['f', '_'] ∧ w = .num (.inl s.f)))) := by
  constructor
  · rintro ⟨c, hc, h⟩
    unfold iterTail iterLog at hc
    simp only [List.cons_append, List.tail_cons, List.nil_append, List.mem_cons] at hc
    rcases hc with rfl | rfl | hc
    · obtain ⟨f, vals, e, h0, -, h1, -⟩ := h
      injection e with e1 e2
      rw [← e2] at h1
      simp only [List.mem_cons, List.not_mem_nil, or_false, Prod.mk.injEq] at h1
      exact .inl ⟨e1 ▸ h0, h1⟩
    · obtain ⟨f, vals, e, h0, -, h1, -⟩ := h
      injection e with e1 e2
      rw [← e2] at h1
      simp only [List.mem_cons, List.not_mem_nil, or_false, Prod.mk.injEq] at h1
      exact .inr ⟨e1 ▸ h0, h1⟩
    · exfalso
      have hb : ∀ s sc, c ∈ bodyLog o pb s sc → False := by
        intro s sc hc
        have := bodyLog_names hc h
        exact hnm (List.mem_cons_of_mem _ this)
      cases skip with
      | true => exact hb _ _ (by simpa using hc)
      | false =>
        simp only [Bool.false_eq_true, if_false] at hc
        split_ifs at hc
        · simp at hc
        · rcases List.mem_cons.1 hc with rfl | hc
          · obtain ⟨f, vals, e, -, -, h1, -⟩ := h
            injection e with _ e2
            rw [← e2] at h1
            simp only [List.mem_cons, List.not_mem_nil, or_false, Prod.mk.injEq] at h1
            exact hnm (by simp [h1.1])
          · exact hb _ _ hc
  · rintro (⟨h0, rfl, rfl⟩ | ⟨h0, h⟩)
    · exact ⟨_, List.mem_cons_self, _, _, rfl, h0, by decide, by simp, rfl⟩
    · refine ⟨_, List.mem_cons_of_mem _ List.mem_cons_self, _, _, rfl, h0, by decide, ?_, ?_⟩
      · simpa using h
      · rcases h with ⟨-, rfl⟩ | ⟨-, rfl⟩ | ⟨-, rfl⟩ <;> rfl

theorem field_x {flags : BitVec 32} (hf : LogFlags.iterationBasicDetails.bits &&& flags ≠ 0) :
    Field (K := K) (B := B) flags ['x'] fun s _ => lvec s.nbVar s.x := by
  intro o pb s sc skip w
  rw [iterTail_names (by decide)]
  simp
  exact fun _ => hf

theorem field_u {flags : BitVec 32} (hf : LogFlags.iterationBasicDetails.bits &&& flags ≠ 0) :
    Field (K := K) (B := B) flags ['u'] fun s b => lvec (if b then s.A.q + 1 else s.A.q) s.u := by
  intro o pb s sc skip w
  rw [iterTail_names (by decide)]
  simp
  exact fun _ => hf

theorem field_f {flags : BitVec 32} (hf : LogFlags.iterationBasicDetails.bits &&& flags ≠ 0) :
    Field (K := K) (B := B) flags ['f', '_'] fun s _ => .num (.inl s.f) := by
  intro o pb s sc skip w
  rw [iterTail_names (by decide)]
  simp
  exact fun _ => hf

theorem field_A {flags : BitVec 32} (hf : LogFlags.activeSetDetails.bits &&& flags ≠ 0) :
    Field (K := K) (B := B) flags ['A', '_'] fun s _ => .active ((List.range s.A.q).map fun k => (s.A.get k : Int)) := by
  intro o pb s sc skip w
  rw [iterTail_names (by decide)]
  simp
  exact fun _ => hf

theorem addInitialsLog_names {o : Opts K} {pb : Pb K B} {flags : BitVec 32} {nm : Word} {w : LVal (K ⊕ B)} {c : LogCall (K ⊕ B)} (l : List SC) :
    ∀ {s : State K}, c ∈ addInitialsLog o pb l s → Member flags nm w c → nm ∈ [['J'], ['R'], ['d']] := by
  induction l with
  | nil => intro s hc; simp [addInitialsLog] at hc
  | cons sc l ih =>
    intro s hc h
    simp only [addInitialsLog, List.mem_append] at hc
    rcases hc with hc | hc
    · exact stepDbg_names hc h
    · split at hc
      · simp at hc
      · exact ih hc h

theorem initLog_names {o : Opts K} {pb : Pb K B} {s : State K} {flags : BitVec 32} {nm : Word} {w : LVal (K ⊕ B)} {c : LogCall (K ⊕ B)}
    (hc : c ∈ initLog o pb s) (h : Member flags nm w c) : nm ∈ [['J'], ['R'], ['d']] := by
  unfold initLog at hc
  simp only [] at hc
  split_ifs at hc
  · simp at hc
  · exact addInitialsLog_names _ hc h

theorem termLog_member {t : Term} {flags : BitVec 32} {nm : Word} {w : LVal (K ⊕ B)} {c : LogCall (K ⊕ B)} (hc : c ∈ termLog t) :
    ¬ Member flags nm w c := by
  rintro ⟨f, vals, rfl, -⟩
  unfold termLog at hc
  split at hc <;> simp at hc

/-- The parts of a solve that returns after the main loop. -/
theorem solve_parts {o : Opts K} {pb : Pb K B} {s s' : State K} {t : Term} (h : solve o pb s = .ok (t, s')) (ht : t ≠ .nonPosHessian) :
    ∃ s0, init_ o pb (preInit o (resize s pb.n pb.m pb.useBnd)) = .ok (.success, s0) ∧ s0.it = 0 ∧
      loop o pb o.maxIter s0 ⟨0, .inactive⟩ false = .ok (t, s') := by
  unfold solve dualSolve at h
  cases hi : init_ o pb (preInit o (resize s pb.n pb.m pb.useBnd)) with
  | error e => simp [hi] at h
  | ok r =>
    obtain ⟨t0, s0⟩ := r
    have h0 := init_it hi
    have hz : s0.it = 0 := h0.1
    simp only [hi] at h
    rcases h0.2 with rfl | rfl
    · refine ⟨s0, rfl, hz, ?_⟩
      simp only [ne_eq, not_true_eq_false, if_false, hz, Nat.sub_zero] at h
      cases hl : loop o pb o.maxIter s0 ⟨0, .inactive⟩ false with
      | error e => simp [hl] at h
      | ok r =>
        obtain ⟨t1, s1⟩ := r
        simp only [hl] at h
        rcases loop_it _ hl with ⟨rfl, -⟩ | ⟨rfl | rfl, -⟩ <;> simpa [terminate] using h
    · simp [terminate] at h
      exact absurd h.1.symm ht

theorem solveLog_loop {shw : K ⊕ B → Word} {flags : BitVec 32} {pre : List (Word × Int)} {id : Word} {o : Opts K} {pb : Pb K B} {s s0 s' : State K}
    {t : Term} (h0 : init_ o pb (preInit o (resize s pb.n pb.m pb.useBnd)) = .ok (.success, s0)) (hz : s0.it = 0)
    (h1 : loop o pb o.maxIter s0 ⟨0, .inactive⟩ false = .ok (t, s')) {nm : Word} (hnm : nm ∉ [['J'], ['R'], ['d']]) (iter i : Int) (v : Val) :
    Stmt.assign (pathOf pre id i nm) v ∈ expectedAll shw flags pre id iter (solveLog o pb s) ↔
      Stmt.assign (pathOf pre id i nm) v ∈ expectedAll shw flags pre id (-1) (loopLog o pb o.maxIter s0 ⟨0, .inactive⟩ false) := by
  simp only [solveLog, dualSolveLog, h0, hz, h1, Nat.sub_zero, ne_eq, not_true_eq_false, if_false, List.cons_append, List.nil_append,
    expectedAll, List.mem_append, expectedAll_append]
  have e1 : ¬ Stmt.assign (pathOf pre id i nm) v ∈ expected shw flags pre id iter (LogCall.startIter (K := K ⊕ B) (-1)) := by
    rw [mem_expected]
    rintro ⟨-, w, ⟨f, vals, e, -⟩, -⟩; cases e
  have e2 : ∀ iter, ¬ Stmt.assign (pathOf pre id i nm) v ∈ expected shw flags pre id iter
      (LogCall.log (LogFlags.input.bits ||| LogFlags.noIter.bits) (inputLog pb)) := by
    intro iter
    rw [mem_expected]
    rintro ⟨-, w, ⟨f, vals, e, -, h, -⟩, -⟩
    injection e with e1
    rw [← e1] at h
    exact absurd h (by decide)
  have e3 : ∀ iter, ¬ Stmt.assign (pathOf pre id i nm) v ∈ expectedAll shw flags pre id iter (initLog o pb (preInit o (resize s pb.n pb.m pb.useBnd))) := by
    intro iter
    rw [mem_expectedAll fun c hc => (initLog_plain _ _ _ c hc).1]
    rintro ⟨-, w, ⟨c, hc, h⟩, -⟩
    exact hnm (initLog_names hc h)
  have e4 : ∀ iter, ¬ Stmt.assign (pathOf pre id i nm) v ∈ expectedAll shw flags pre id iter (termLog (K := K) (B := B) t) := by
    intro iter
    rw [mem_expectedAll fun c hc => (termLog_plain _ c hc).1]
    rintro ⟨-, w, ⟨c, hc, h⟩, -⟩
    exact termLog_member hc h
  have e5 : nextAll (LogCall.next (LogCall.next iter (LogCall.startIter (K := K ⊕ B) (-1))) (LogCall.log (LogFlags.input.bits ||| LogFlags.noIter.bits) (inputLog pb)))
      (initLog o pb (preInit o (resize s pb.n pb.m pb.useBnd))) = -1 := nextAll_plain (fun c hc => (initLog_plain _ _ _ c hc).1) _
  simp only [e1, e2, e3, e4, e5, false_or, or_false]

theorem iterBody_cont_nbVar {o : Opts K} {pb : Pb K B} {s s' : State K} {sc sc' : SC} {b : Bool}
    (h : iterBody o pb s sc = .ok (.cont s' sc' b)) : s'.nbVar = s.nbVar := by
  unfold iterBody at h
  simp only [] at h
  split_ifs at h <;> cases h <;> rfl

theorem iterate_cont_nbVar {o : Opts K} {pb : Pb K B} {s s' : State K} {sc sc' : SC} {skip b : Bool}
    (h : iterate o pb s sc skip = .ok (.cont s' sc' b)) : s'.nbVar = s.nbVar := by
  unfold iterate at h
  simp only [] at h
  split_ifs at h
  · exact iterBody_cont_nbVar h
  · simp at h
  · have := iterBody_cont_nbVar h
    exact this

theorem ent_nbVar {o : Opts K} {pb : Pb K B} (k : Nat) : ∀ {s : State K} {sc : SC} {skip : Bool} {sk : State K} {b : Bool},
    ent o pb k s sc skip = some (sk, b) → sk.nbVar = s.nbVar := by
  induction k with
  | zero => intro s sc skip sk b h; simp only [ent, Option.some.injEq, Prod.mk.injEq] at h; rw [← h.1]
  | succ k ih =>
    intro s sc skip sk b h
    simp only [ent] at h
    split at h
    · rename_i s1 sc1 b1 hr
      have := ih h
      simp only at this
      rw [this, iterate_cont_nbVar hr]
    · simp at h

theorem addInitials_nbVar {o : Opts K} {pb : Pb K B} (l : List SC) : ∀ {s s' : State K}, addInitials o pb l s = .ok s' → s'.nbVar = s.nbVar := by
  induction l with
  | nil => intro s s' h; simp [addInitials] at h; rw [h]
  | cons sc l ih =>
    intro s s' h
    simp only [addInitials] at h
    cases hr : addInitialConstraint o pb s sc with
    | error e => simp [hr] at h
    | ok s1 =>
      simp only [hr] at h
      rw [ih h]
      unfold addInitialConstraint at hr
      simp only [] at hr
      split_ifs at hr
      cases hr; rfl

theorem init_nbVar {o : Opts K} {pb : Pb K B} {s s' : State K} {t} (h : init_ o pb s = .ok (t, s')) : s'.nbVar = s.nbVar := by
  unfold init_ at h
  simp only [] at h
  split_ifs at h
  · cases h; rfl
  · unfold initActiveSet at h
    split_ifs at h
    split at h
    · cases h
    · rename_i s1 hs1
      cases h
      rw [addInitials_nbVar _ hs1]; rfl

theorem addInitials_setMaxIter (o : Opts K) (N : Nat) (pb : Pb K B) (l : List SC) : ∀ (s : State K),
    addInitials { o with maxIter := N } pb l s = addInitials o pb l s := by
  induction l with
  | nil => intro s; rfl
  | cons sc l ih =>
    intro s
    simp only [addInitials]
    have : addInitialConstraint { o with maxIter := N } pb s sc = addInitialConstraint o pb s sc := rfl
    rw [this]
    cases addInitialConstraint o pb s sc with
    | error e => rfl
    | ok s' => exact ih s'

theorem init_setMaxIter (o : Opts K) (N : Nat) (pb : Pb K B) (s : State K) :
    init_ { o with maxIter := N } pb s = init_ o pb s := by
  unfold init_ initActiveSet
  simp only [addInitials_setMaxIter]
  rfl

theorem loop_setMaxIter (o : Opts K) (N : Nat) (pb : Pb K B) (fuel : Nat) : ∀ (s : State K) (sc : SC) (skip : Bool),
    loop { o with maxIter := N } pb fuel s sc skip = loop o pb fuel s sc skip := by
  induction fuel with
  | zero => intro _ _ _; rfl
  | succ fuel ih =>
    intro s sc skip
    have : iterate { o with maxIter := N } pb s sc skip = iterate o pb s sc skip := rfl
    simp only [loop, this, ih]

/-- The same solve, stopped after `k` iterations. -/
theorem solve_stop {o : Opts K} {pb : Pb K B} {s s0 sk : State K} {b : Bool} {k : Nat}
    (h0 : init_ o pb (preInit o (resize s pb.n pb.m pb.useBnd)) = .ok (.success, s0)) (hz : s0.it = 0)
    (hk : ent o pb k s0 ⟨0, .inactive⟩ false = some (sk, b)) : solve { o with maxIter := k } pb s = .ok (.maxIterReached, sk) := by
  have h1 : init_ { o with maxIter := k } pb (preInit { o with maxIter := k } (resize s pb.n pb.m pb.useBnd)) = .ok (.success, s0) := by
    rw [init_setMaxIter]; exact h0
  unfold solve dualSolve
  rw [h1]
  simp only [ne_eq, not_true_eq_false, if_false, hz, Nat.sub_zero]
  rw [loop_setMaxIter, (ent_loop k hk).1]
  rfl

theorem loop_ent {o : Opts K} {pb : Pb K B} (k : Nat) : ∀ {fuel : Nat} {s : State K} {sc : SC} {skip : Bool} {t : Term} {s' : State K},
    loop o pb fuel s sc skip = .ok (t, s') → k ≤ fuel → s.it + k ≤ s'.it → ∃ sk b, ent o pb k s sc skip = some (sk, b) := by
  induction k with
  | zero => intro fuel s sc skip t s' _ _ _; exact ⟨s, skip, rfl⟩
  | succ k ih =>
    intro fuel s sc skip t s' h hk hle
    obtain ⟨fuel, rfl⟩ : ∃ f, fuel = f + 1 := ⟨fuel - 1, by omega⟩
    simp only [loop] at h
    cases hr : iterate o pb s sc skip with
    | error e => rw [hr] at h; cases h
    | ok r =>
      rw [hr] at h
      cases r with
      | done t1 s1 =>
        simp only [Except.ok.injEq, Prod.mk.injEq] at h
        obtain ⟨rfl, rfl⟩ := h
        have := (iterate_it hr).2
        omega
      | cont s1 sc1 b1 =>
        simp only at h
        have hi : s1.it = s.it := iterate_it hr
        obtain ⟨sk, b, hs⟩ := ih h (by omega) (by simp only; omega)
        exact ⟨sk, b, by simp only [ent, hr]; exact hs⟩

/-- The script assigns a value to the path, and no other value. -/
def Assigned (S : List Stmt) (p : List (Word × Option Int)) (v : Val) : Prop := ∀ w, Stmt.assign p w ∈ S ↔ w = v

/-- The column vector with the given coefficients. -/
def column (shw : K ⊕ B → Word) (n : Nat) (x : Nat → K) : Val := .mat ((List.range n).map fun i => [shw (.inl (x i))])

theorem value_lvec (shw : K ⊕ B → Word) (n : Nat) (x : Nat → K) : LVal.value shw (lvec n x) = column shw n x := by
  unfold lvec LVal.value column rowsOf
  by_cases h : n = 0
  · simp [h]
  · simp [h]

theorem assigned_of_field {flags : BitVec 32} {nm : Word} {F : State K → Bool → LVal (K ⊕ B)} (hF : Field flags nm F) (hnm : nm ∉ [['J'], ['R'], ['d']])
    {shw : K ⊕ B → Word} {pre : List (Word × Int)} {id : Word} {o : Opts K} {pb : Pb K B} {s s0 s' sk : State K} {t : Term} {b : Bool} {k : Nat}
    (h0 : init_ o pb (preInit o (resize s pb.n pb.m pb.useBnd)) = .ok (.success, s0)) (hz : s0.it = 0)
    (h1 : loop o pb o.maxIter s0 ⟨0, .inactive⟩ false = .ok (t, s')) (hk : k ≤ s'.it) (hkm : k < o.maxIter)
    (hs : ent o pb k s0 ⟨0, .inactive⟩ false = some (sk, b)) (iter : Int) :
    Assigned (expectedAll shw flags pre id iter (solveLog o pb s)) (pathOf pre id (k + 1) nm) ((F sk b).value shw) := by
  intro w
  rw [solveLog_loop h0 hz h1 hnm, loopLog_field hF _ h1]
  constructor
  · rintro ⟨k', -, -, h4, sk', b', h5, rfl⟩
    have : k' = k := by rw [hz] at h4; push_cast at h4; omega
    subst this
    rw [hs] at h5
    simp only [Option.some.injEq, Prod.mk.injEq] at h5
    rw [h5.1, h5.2]
  · rintro rfl
    exact ⟨k, hkm, by omega, by rw [hz]; push_cast; ring, sk, b, hs, rfl⟩

/-- **C73.** The log shows the iterates. When `solve` returns another status than `NON_POS_HESSIAN`, for each iteration `k` (at
most `iterations()`, less than `maxIter`): what the script assigns to the members `x`, `f_` (with `ITERATION_BASIC_DETAILS`) and
`A_` (with `ACTIVE_SET_DETAILS`) of the index `k + 1` is exactly `solution()`, `objectiveValue()` and the active constraints that
the same solve returns when it is stopped after `k` iterations with `maxIter = k`; the vector `u` are the multipliers of the
active constraints, followed by the one of the constraint that is being added, if any. -/
theorem C73_iterates {shw : K ⊕ B → Word} (hs : ∀ x, Clean (shw x)) {g : Logger} {pre : List (Word × Int)} {id : Word} (hg : Named g pre id)
    {o : Opts K} {pb : Pb K B} {s s' : State K} {t : Term} (h : solve o pb s = .ok (t, s')) (ht : t ≠ .nonPosHessian) :
    ∃ S, readScript (script shw g (solveLog o pb s)) = some S ∧ ∀ k ≤ s'.it, k < o.maxIter →
      ∃ sk, solve { o with maxIter := k } pb s = .ok (.maxIterReached, sk) ∧
        (LogFlags.iterationBasicDetails.bits &&& g.flags ≠ 0 →
          Assigned S (pathOf pre id (k + 1) ['x']) (column shw pb.n sk.x) ∧
          Assigned S (pathOf pre id (k + 1) ['f', '_']) (.mat [[shw (.inl sk.f)]]) ∧
          (Assigned S (pathOf pre id (k + 1) ['u']) (column shw sk.A.q sk.u) ∨ Assigned S (pathOf pre id (k + 1) ['u']) (column shw (sk.A.q + 1) sk.u))) ∧
        (LogFlags.activeSetDetails.bits &&& g.flags ≠ 0 →
          Assigned S (pathOf pre id (k + 1) ['A', '_']) (rowInts ((List.range sk.A.q).map fun j => (sk.A.get j : Int)))) := by
  refine ⟨_, C71_script hs hg _ (solveLog_ok o pb s), ?_⟩
  obtain ⟨s0, h0, hz, h1⟩ := solve_parts h ht
  intro k hk hkm
  obtain ⟨sk, b, hsk⟩ := loop_ent k h1 (by omega) (by omega)
  have hn : sk.nbVar = pb.n := by
    rw [ent_nbVar _ hsk, init_nbVar h0, (preInit_dims _ _).1, (resize_dims _ _ _ _).1]
  refine ⟨sk, solve_stop h0 hz hsk, fun hf => ⟨?_, ?_, ?_⟩, fun hf => ?_⟩
  · have := assigned_of_field (shw := shw) (pre := pre) (id := id) (field_x hf) (by decide) h0 hz h1 hk hkm hsk g.iter
    simpa only [value_lvec, hn] using this
  · exact assigned_of_field (shw := shw) (pre := pre) (id := id) (field_f hf) (by decide) h0 hz h1 hk hkm hsk g.iter
  · have := assigned_of_field (shw := shw) (pre := pre) (id := id) (field_u hf) (by decide) h0 hz h1 hk hkm hsk g.iter
    simp only [value_lvec] at this
    cases b with
    | false => exact .inl (by simpa using this)
    | true => exact .inr (by simpa using this)
  · exact assigned_of_field (shw := shw) (pre := pre) (id := id) (field_A hf) (by decide) h0 hz h1 hk hkm hsk g.iter

/-- **C73, no other iterate.** The member `x` is only assigned for the iterations of the solve. -/
theorem C73_only {shw : K ⊕ B → Word} (hs : ∀ x, Clean (shw x)) {g : Logger} {pre : List (Word × Int)} {id : Word} (hg : Named g pre id)
    {o : Opts K} {pb : Pb K B} {s s' : State K} {t : Term} (h : solve o pb s = .ok (t, s')) (ht : t ≠ .nonPosHessian)
    (hf : LogFlags.iterationBasicDetails.bits &&& g.flags ≠ 0) :
    ∃ S, readScript (script shw g (solveLog o pb s)) = some S ∧
      ∀ i v, Stmt.assign (pathOf pre id i ['x']) v ∈ S → ∃ k : Nat, i = k + 1 ∧ k ≤ s'.it ∧ k < o.maxIter := by
  refine ⟨_, C71_script hs hg _ (solveLog_ok o pb s), ?_⟩
  obtain ⟨s0, h0, hz, h1⟩ := solve_parts h ht
  intro i v hv
  rw [solveLog_loop h0 hz h1 (by decide), loopLog_field (field_x hf) _ h1] at hv
  obtain ⟨k, h2, h3, h4, -⟩ := hv
  exact ⟨k, by rw [h4, hz]; push_cast; ring, by omega, h2⟩

/-- **C73, last iterate.** When `solve` returns `SUCCESS` or `INFEASIBLE`, the last iterate of the log is `solution()` and
`objectiveValue()`, and the last active set is the final one. -/
theorem C73_last {shw : K ⊕ B → Word} (hs : ∀ x, Clean (shw x)) {g : Logger} {pre : List (Word × Int)} {id : Word} (hg : Named g pre id)
    {o : Opts K} {pb : Pb K B} {s s' : State K} {t : Term} (h : solve o pb s = .ok (t, s')) (ht : t = .success ∨ t = .infeasible) :
    ∃ S, readScript (script shw g (solveLog o pb s)) = some S ∧
      (LogFlags.iterationBasicDetails.bits &&& g.flags ≠ 0 →
        Assigned S (pathOf pre id (s'.it + 1) ['x']) (column shw pb.n s'.x) ∧
        Assigned S (pathOf pre id (s'.it + 1) ['f', '_']) (.mat [[shw (.inl s'.f)]])) ∧
      (LogFlags.activeSetDetails.bits &&& g.flags ≠ 0 →
        Assigned S (pathOf pre id (s'.it + 1) ['A', '_']) (rowInts ((List.range s'.A.q).map fun j => (s'.A.get j : Int)))) := by
  refine ⟨_, C71_script hs hg _ (solveLog_ok o pb s), ?_⟩
  obtain ⟨s0, h0, hz, h1⟩ := solve_parts h (by rcases ht with rfl | rfl <;> simp)
  obtain ⟨sk, b, hsk, e1, e2, e3, e4⟩ := (loop_le _ h1).2.resolve_left (by rcases ht with rfl | rfl <;> simp)
  rw [hz, Nat.sub_zero] at hsk
  have hkm : s'.it < o.maxIter := by
    have := loop_it _ h1
    rw [hz] at this
    rcases this with ⟨rfl, -⟩ | ⟨-, this⟩
    · rcases ht with ht | ht <;> cases ht
    · omega
  have hn : sk.nbVar = pb.n := by
    rw [ent_nbVar _ hsk, init_nbVar h0, (preInit_dims _ _).1, (resize_dims _ _ _ _).1]
  refine ⟨fun hf => ⟨?_, ?_⟩, fun hf => ?_⟩
  · have := assigned_of_field (shw := shw) (pre := pre) (id := id) (field_x hf) (by decide) h0 hz h1 le_rfl hkm hsk g.iter
    rw [e1]
    simpa only [value_lvec, hn] using this
  · rw [e2]
    exact assigned_of_field (shw := shw) (pre := pre) (id := id) (field_f hf) (by decide) h0 hz h1 le_rfl hkm hsk g.iter
  · rw [e3]
    exact assigned_of_field (shw := shw) (pre := pre) (id := id) (field_A hf) (by decide) h0 hz h1 le_rfl hkm hsk g.iter

/-- The comments of different statuses are different. -/
theorem termText_injective {t t' : Term} {c : String} (h : termText t = some c) (h' : termText t' = some c) : t = t' := by
  cases t <;> cases t' <;> first | rfl | (exfalso; have k := h.trans h'.symm; revert k h h'; simp [termText])

/-- **C73, status.** With `TERMINATION`, the last line of the log is the comment of the status returned by `solve`. -/
theorem C73_status {shw : K ⊕ B → Word} (hs : ∀ x, Clean (shw x)) {g : Logger} {pre : List (Word × Int)} {id : Word} (hg : Named g pre id)
    {o : Opts K} {pb : Pb K B} {s s' : State K} {t : Term} (h : solve o pb s = .ok (t, s')) (hf : LogFlags.termination.bits &&& g.flags ≠ 0) :
    ∃ S c, readScript (script shw g (solveLog o pb s)) = some S ∧ S.getLast? = some (.comment (' ' :: c)) ∧
      ∀ t' text, termText t' = some text → (c = text.toList ↔ t' = t) := by
  have hst : t = .success ∨ t = .nonPosHessian ∨ t = .infeasible ∨ t = .maxIterReached := (C05_status_and_iterations o pb s s' t h).1
  obtain ⟨text, htext⟩ : ∃ text, termText t = some text := by
    rcases hst with rfl | rfl | rfl | rfl <;> exact ⟨_, rfl⟩
  have hlog : ∃ l, solveLog o pb s = l ++ [LogCall.comment LogFlags.termination.bits text.toList] := by
    have hterm : termLog (K := K) (B := B) t = [.comment LogFlags.termination.bits text.toList] := by
      unfold termLog; rw [htext]
    by_cases ht : t = .nonPosHessian
    · subst ht
      unfold solve dualSolve at h
      unfold solveLog dualSolveLog
      cases hi : init_ o pb (preInit o (resize s pb.n pb.m pb.useBnd)) with
      | error e => simp [hi] at h
      | ok r =>
        obtain ⟨t0, s0⟩ := r
        rcases (init_it hi).2 with rfl | rfl
        · exfalso
          simp only [hi, ne_eq, not_true_eq_false, if_false] at h
          cases hl : loop o pb (o.maxIter - s0.it) s0 ⟨0, .inactive⟩ false with
          | error e => simp [hl] at h
          | ok r =>
            obtain ⟨t1, s1⟩ := r
            simp only [hl] at h
            rcases loop_it _ hl with ⟨rfl, -⟩ | ⟨rfl | rfl, -⟩ <;> simp [terminate] at h
        · simp only [ne_eq, reduceCtorEq, not_false_eq_true, if_true, hterm]
          exact ⟨_, by rw [← List.append_assoc]⟩
    · obtain ⟨s0, h0, hz, h1⟩ := solve_parts h ht
      unfold solveLog dualSolveLog
      simp only [h0, hz, h1, Nat.sub_zero, ne_eq, not_true_eq_false, if_false, hterm]
      exact ⟨_, by rw [← List.append_assoc, ← List.append_assoc]⟩
  obtain ⟨l, hl⟩ := hlog
  refine ⟨_, text.toList, C71_script hs hg _ (solveLog_ok o pb s), ?_, ?_⟩
  · rw [hl, expectedAll_append]
    simp only [expectedAll, expected, if_neg hf]
    simp
  · intro t' text' ht'
    constructor
    · intro e
      have : text = text' := String.toList_injective e
      subst this
      exact termText_injective ht' htext
    · rintro rfl
      rw [ht'] at htext
      rw [Option.some.inj htext]

end Log
end JrlQp
