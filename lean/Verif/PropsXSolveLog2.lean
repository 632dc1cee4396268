import Verif.PropsXSolveLog

/-!
# C75: what the log of the warm-started solver shows
-/

namespace JrlQp
namespace Log

open NumOps Matlab

section Calls

variable {V : Type}

/-- Specification: value of a path after the statements, starting from the value `r`. -/
def valueFrom (p : List (Word × Option Int)) (r : Option Val) (S : List Stmt) : Option Val :=
  S.foldl (fun r st => match st with | .assign q v => if q = p then some v else r | .comment _ => r) r

theorem valueFrom_append (p : List (Word × Option Int)) (r : Option Val) (S S' : List Stmt) :
    valueFrom p r (S ++ S') = valueFrom p (valueFrom p r S) S' := List.foldl_append

theorem valueFrom_none {p : List (Word × Option Int)} {S : List Stmt} (h : ∀ v, Stmt.assign p v ∉ S) : ∀ r, valueFrom p r S = r := by
  induction S with
  | nil => intro r; rfl
  | cons st S ih =>
    intro r
    show valueFrom p _ S = r
    rw [ih fun v hv => h v (by simp [hv])]
    cases st with
    | comment c => rfl
    | assign q v =>
      show (if q = p then some v else r) = r
      rw [if_neg]
      rintro rfl
      exact h v (by simp)

/-- The path of the member `nm` of the data. -/
def dataPath (pre : List (Word × Int)) (id nm : Word) : List (Word × Option Int) :=
  pre.map (fun s => (s.1, some s.2)) ++ [(dataOf id, none), (nm, none)]

/-- Nothing logged in the data. -/
def LogCall.noData (c : LogCall V) : Prop := ¬ ∃ f vals, c = .log f vals ∧ f &&& noIterationFlag ≠ 0

theorem expected_noData {shw : V → Word} {flags : BitVec 32} {pre : List (Word × Int)} {id nm : Word} (hn : nm ≠ ['i', 't']) {iter : Int}
    {c : LogCall V} (hc : c.noData) (v : Val) : Stmt.assign (dataPath pre id nm) v ∉ expected shw flags pre id iter c := by
  intro h
  cases c with
  | comment f t => simp only [expected] at h; split_ifs at h <;> simp at h
  | startIter j =>
    simp only [expected] at h
    split_ifs at h
    · simp at h
    · simp only [List.mem_singleton, Stmt.assign.injEq, dataPath, List.append_cancel_left_eq, List.cons.injEq, Prod.mk.injEq, and_true, true_and] at h
      exact hn h.1
  | log f vals =>
    simp only [expected] at h
    by_cases hf : f &&& flags = 0
    · rw [if_pos hf] at h; simp at h
    · rw [if_neg hf] at h
      have h0 : f &&& noIterationFlag = 0 := by
        by_contra h0; exact hc ⟨f, vals, rfl, h0⟩
      simp only [h0, if_true, List.mem_map, List.mem_filter, Stmt.assign.injEq, dataPath, List.append_cancel_left_eq, List.cons.injEq,
        Prod.mk.injEq, reduceCtorEq, and_false, false_and, exists_false] at h

theorem expectedAll_noData {shw : V → Word} {flags : BitVec 32} {pre : List (Word × Int)} {id nm : Word} (hn : nm ≠ ['i', 't'])
    {l : List (LogCall V)} (h : ∀ c ∈ l, c.noData) : ∀ {iter : Int} (v : Val), Stmt.assign (dataPath pre id nm) v ∉ expectedAll shw flags pre id iter l := by
  induction l with
  | nil => intro iter v hv; simp [expectedAll] at hv
  | cons c l ih =>
    intro iter v hv
    simp only [expectedAll, List.mem_append] at hv
    rcases hv with hv | hv
    · exact expected_noData hn (h c (by simp)) v hv
    · exact ih (fun d hd => h d (by simp [hd])) v hv

end Calls

variable {K B : Type} [Zero K] [One K] [Add K] [Sub K] [Neg K] [Mul K] [Div K] [NumOps K B] [SumOps K]

/-! ## The initialisation -/

theorem dropLoop_nbVar {o : Opts K} {pb : Pb K B} (fuel : Nat) : ∀ {xs ys : XState K}, dropLoop o pb fuel xs = .ok ys → ys.s.nbVar = xs.s.nbVar := by
  induction fuel with
  | zero =>
    intro xs ys h
    simp only [dropLoop] at h
    split_ifs at h
    cases h; rfl
  | succ fuel ih =>
    intro xs ys h
    simp only [dropLoop] at h
    split at h
    · cases h; rfl
    · split_ifs at h
      rw [ih h]; rfl

/-- The state of `init_` after the factorisation of the Hessian. -/
def xfact (o : Opts K) (pb : Pb K B) (xs : XState K) (A : ActiveSet) : XState K :=
  { xs with s := { xs.s with R := if o.dbg then fun _ _ => 0 else xs.s.R, A := A, G := (chol xs.s.nbVar pb.G xs.s.nbVar).1 } }

theorem xinit_parts {o : Opts K} {pb : Pb K B} {xs xs' : XState K} {t : Term} (h : xinit o pb xs = .ok (t, xs')) :
    ∃ t0 A, processInitial o pb xs.s.nbVar xs.as xs.s.A = .ok (t0, A) ∧
      (t0 ≠ .success ∧ t = t0 ∧ xs'.s.nbVar = xs.s.nbVar ∨
       t0 = .success ∧ (chol xs.s.nbVar pb.G xs.s.nbVar).2.isSome = true ∧ t = .nonPosHessian ∧ xs'.s.nbVar = xs.s.nbVar ∨
       t0 = .success ∧ ¬ (chol xs.s.nbVar pb.G xs.s.nbVar).2.isSome = true ∧ t = .success ∧
         dropLoop o pb (initData o pb (xfact o pb xs A)).s.A.q (initPoints pb (initData o pb (xfact o pb xs A))) = .ok xs') := by
  unfold xinit at h
  unfold xfact
  simp only [] at h
  generalize (if o.dbg = true then fun _ _ => (0 : K) else xs.s.R) = R0 at h ⊢
  split at h
  · split at h
    · cases h
    · rename_i t0 A hP
      refine ⟨t0, A, hP, ?_⟩
      split at h
      · rename_i ht
        cases h
        exact .inl ⟨ht, rfl, rfl⟩
      · rename_i ht
        have ht : t0 = .success := not_not.1 ht
        split at h
        · rename_i hc
          cases h
          exact .inr (.inl ⟨ht, hc, rfl, rfl⟩)
        · rename_i hc
          refine .inr (.inr ⟨ht, hc, ?_⟩)
          split at h
          · split at h
            · split at h
              · cases h
              · rename_i ys hd
                cases h
                exact ⟨rfl, hd⟩
            · cases h
          · cases h
  · cases h

theorem xinit_nbVar {o : Opts K} {pb : Pb K B} {xs xs' : XState K} {t} (h : xinit o pb xs = .ok (t, xs')) : xs'.s.nbVar = xs.s.nbVar := by
  obtain ⟨t0, A, -, ⟨-, -, e⟩ | ⟨-, -, -, e⟩ | ⟨-, -, -, e⟩⟩ := xinit_parts h
  · exact e
  · exact e
  · rw [dropLoop_nbVar _ e]; rfl

theorem dropLoop_setMaxIter (o : Opts K) (N : Nat) (pb : Pb K B) (fuel : Nat) : ∀ xs : XState K,
    dropLoop { o with maxIter := N } pb fuel xs = dropLoop o pb fuel xs := by
  induction fuel with
  | zero => intro xs; rfl
  | succ fuel ih =>
    intro xs
    have h1 : dropPos { o with maxIter := N } xs = dropPos o xs := rfl
    have h2 : ∀ l, dropAt { o with maxIter := N } xs l = dropAt o xs l := fun l => rfl
    simp only [dropLoop, h1, h2, ih]

theorem xinit_setMaxIter (o : Opts K) (N : Nat) (pb : Pb K B) (xs : XState K) : xinit { o with maxIter := N } pb xs = xinit o pb xs := by
  unfold xinit
  have h1 : ∀ n as A, processInitial { o with maxIter := N } pb n as A = processInitial o pb n as A := fun _ _ _ => rfl
  have h2 : ∀ ys, initData { o with maxIter := N } pb ys = initData o pb ys := fun _ => rfl
  simp only [h1, h2, dropLoop_setMaxIter]

/-- The loop of `init_` leaves the last values logged. -/
theorem dropLog_value {o : Opts K} {pb : Pb K B} {shw : K ⊕ B → Word} {flags : BitVec 32} (hf : initFlags &&& flags ≠ 0) {pre : List (Word × Int)} {id nm : Word}
    {F : XState K → LVal (K ⊕ B)}
    (hF : ∀ xs iter r, valueFrom (dataPath pre id nm) r (expectedAll shw flags pre id iter (pointsLog pb xs)) = some ((F (initPoints pb xs)).value shw))
    (fuel : Nat) : ∀ {xs ys : XState K} {iter : Int}, dropLoop o pb fuel xs = .ok ys →
    valueFrom (dataPath pre id nm) (some ((F xs).value shw)) (expectedAll shw flags pre id iter (dropLog o pb fuel xs)) = some ((F ys).value shw) := by
  induction fuel with
  | zero =>
    intro xs ys iter h
    simp only [dropLoop] at h
    split_ifs at h
    cases h; rfl
  | succ fuel ih =>
    intro xs ys iter h
    simp only [dropLoop] at h
    simp only [dropLog]
    cases hd : dropPos o xs with
    | none => simp only [hd] at h; cases h; rfl
    | some l =>
      simp only [hd] at h ⊢
      split_ifs at h
      rw [expectedAll_append, valueFrom_append, hF]
      exact ih h

theorem pointsLog_value {pb : Pb K B} {shw : K ⊕ B → Word} {flags : BitVec 32} (hf : initFlags &&& flags ≠ 0) {pre : List (Word × Int)} {id nm : Word}
    {w : XState K → LVal (K ⊕ B)} (h : nm = ['x'] ∧ w = (fun ys => lvec ys.s.nbVar ys.s.x) ∨ nm = ['u'] ∧ w = (fun ys => lvec ys.s.A.q ys.s.u) ∨
      nm = ['f', '_'] ∧ w = fun ys => .num (.inl ys.s.f)) (xs : XState K) (iter : Int) (r : Option Val) :
    valueFrom (dataPath pre id nm) r (expectedAll shw flags pre id iter (pointsLog pb xs)) = some ((w (initPoints pb xs)).value shw) := by
  have h0 : ¬ initFlags &&& noIterationFlag = 0 := by decide
  have e : expectedAll shw flags pre id iter (pointsLog pb xs) = (
      [("alpha".toList, lvec xs.s.nbVar fun j => esum (.init 0 j) (fun a => xs.s.J a j * pb.a a) xs.s.nbVar), ("beta".toList, lvec xs.s.A.q (initPoints pb xs).s.r),
    (['x'], lvec xs.s.nbVar (initPoints pb xs).s.x), (['u'], lvec xs.s.A.q (initPoints pb xs).s.u), (['f', '_'], .num (.inl (initPoints pb xs).s.f))] :
      List (Word × LVal (K ⊕ B))).map fun v => Stmt.assign (dataPath pre id v.1) (v.2.value shw) := by
    simp only [pointsLog, expectedAll, expected, if_neg hf, if_neg h0, List.append_nil]
    rfl
  rw [e]
  have hd : ∀ a b : Word, dataPath pre id a = dataPath pre id b ↔ a = b := by
    intro a b; simp [dataPath]
  simp only [List.map_cons, List.map_nil, valueFrom, List.foldl_cons, List.foldl_nil, hd]
  rcases h with ⟨rfl, rfl⟩ | ⟨rfl, rfl⟩ | ⟨rfl, rfl⟩
  · rw [if_neg (by decide), if_neg (by decide), if_pos rfl]; rfl
  · rw [if_neg (by decide), if_pos rfl]; rfl
  · rw [if_pos rfl]

/-- The log of `init_` leaves the initial point in the data. -/
theorem xinitLog_value {o : Opts K} {pb : Pb K B} {shw : K ⊕ B → Word} {flags : BitVec 32} (hf : initFlags &&& flags ≠ 0) {pre : List (Word × Int)} {id nm : Word}
    {F : XState K → LVal (K ⊕ B)}
    (hF : ∀ xs iter r, valueFrom (dataPath pre id nm) r (expectedAll shw flags pre id iter (pointsLog pb xs)) = some ((F (initPoints pb xs)).value shw))
    {xs xs' : XState K} (h : xinit o pb xs = .ok (.success, xs')) (iter : Int) (r : Option Val) :
    valueFrom (dataPath pre id nm) r (expectedAll shw flags pre id iter (xinitLog o pb xs)) = some ((F xs').value shw) := by
  obtain ⟨t0, A, hP, ⟨h1, h2, -⟩ | ⟨-, -, h2, -⟩ | ⟨rfl, hc, -, hd⟩⟩ := xinit_parts h
  · exact absurd h2.symm h1
  · cases h2
  · unfold xinitLog
    simp only [hP, ne_eq, not_true_eq_false, if_false]
    rw [if_neg hc, expectedAll_append, expectedAll_append, expectedAll_append, valueFrom_append, valueFrom_append, valueFrom_append, hF]
    exact dropLog_value hf hF _ hd

theorem loopLog_noData (o : Opts K) (pb : Pb K B) (fuel : Nat) : ∀ (s : State K) (sc : SC) (skip : Bool), ∀ c ∈ loopLog o pb fuel s sc skip, c.noData := by
  have hlog : ∀ (f : LogFlags) (vals : List (Word × LVal (K ⊕ B))), f.bits &&& noIterationFlag = 0 → (LogCall.log f.bits vals).noData := by
    rintro f vals h ⟨f', v, e, h'⟩
    injection e with e1
    rw [← e1] at h'
    exact h' h
  have hcom : ∀ f t, (LogCall.comment (K := K ⊕ B) f t).noData := by rintro f t ⟨f', v, e, -⟩; cases e
  have hstep : ∀ s : State K, ∀ c ∈ stepDbg (B := B) o s, c.noData := by
    intro s c hc
    unfold stepDbg at hc
    split_ifs at hc
    · simp only [List.mem_singleton] at hc
      subst hc; exact hlog _ _ (by decide)
    · simp at hc
  have hbody : ∀ (s : State K) (sc : SC), ∀ c ∈ bodyLog o pb s sc, c.noData := by
    intro s sc c hc
    unfold bodyLog at hc
    simp only [List.mem_append] at hc
    rcases hc with (hc | hc) | hc
    · exact hstep _ c hc
    · simp only [List.mem_cons, List.not_mem_nil, or_false] at hc
      rcases hc with rfl | rfl
      · exact hcom _ _
      · exact hlog _ _ (by decide)
    · split_ifs at hc
      · simp at hc
      · simp only [List.mem_singleton] at hc
        subst hc; exact hlog _ _ (by decide)
  induction fuel with
  | zero => intro s sc skip c hc; simp [loopLog] at hc
  | succ fuel ih =>
    intro s sc skip c hc
    simp only [loopLog, iterLog, List.mem_append, List.mem_cons, List.not_mem_nil, or_false] at hc
    rcases hc with ((rfl | rfl | rfl) | hc) | hc
    · rintro ⟨f', v, e, -⟩; cases e
    · exact hlog _ _ (by decide)
    · exact hlog _ _ (by decide)
    · cases skip with
      | true => exact hbody _ _ c (by simpa using hc)
      | false =>
        simp only [Bool.false_eq_true, if_false] at hc
        split_ifs at hc
        · simp at hc
        · rcases List.mem_cons.1 hc with rfl | hc
          · exact hlog _ _ (by decide)
          · exact hbody _ _ c hc
    · split at hc
      · exact ih _ _ _ c hc
      · simp at hc

theorem termLog_noData (t : Term) : ∀ c ∈ termLog (K := K) (B := B) t, c.noData := by
  intro c hc
  unfold termLog at hc
  split at hc
  · simp only [List.mem_singleton] at hc
    subst hc
    rintro ⟨f', v, e, -⟩; cases e
  · simp at hc

/-! ## A call of `solve` -/

theorem xinit_status {o : Opts K} {pb : Pb K B} {xs xs' : XState K} {t} (h : xinit o pb xs = .ok (t, xs')) :
    t = .success ∨ t = .overconstrainedProblem ∨ t = .nonPosHessian := by
  obtain ⟨t0, A, hP, ⟨h1, rfl, -⟩ | ⟨-, -, h2, -⟩ | ⟨-, -, h2, -⟩⟩ := xinit_parts h
  · refine .inr (.inl ?_)
    unfold processInitial at hP
    simp only [] at hP
    split at hP
    · cases hP
    · split at hP
      · cases hP
      · split_ifs at hP
        · cases hP; rfl
        · split at hP
          · cases hP
          · cases hP; exact absurd rfl h1
        · cases hP; exact absurd rfl h1
  · exact .inr (.inr h2)
  · exact .inl h2

/-- Parts of a call that reaches the main loop. -/
theorem xsolve_parts {o : Opts K} {pb : Pb K B} {as : List Status} {xs xs' : XState K} {t : Term} (h : xsolve o pb as xs = .ok (t, xs'))
    (ht : t ≠ .nonPosHessian) (ht' : t ≠ .overconstrainedProblem) :
    ∃ x0 : XState K, xinit o pb (xsolveStart o pb as xs) = .ok (.success, x0) ∧
      loop o pb (o.maxIter - x0.s.it) x0.s ⟨0, .inactive⟩ false = .ok (t, xs'.s) ∧ xs' = { x0 with s := xs'.s } := by
  have ha : (as.length = pb.m + pb.nb ∨ as = []) ∧ (o.warmStart = true ∨ as = []) := by
    by_contra hn
    unfold xsolve at h
    rw [if_neg hn] at h
    cases h
  rw [xsolve_eq ha] at h
  cases hi : xinit o pb (xsolveStart o pb as xs) with
  | error e => rw [hi] at h; cases h
  | ok r =>
    obtain ⟨t0, x0⟩ := r
    rw [hi] at h
    rcases xinit_status hi with rfl | rfl | rfl
    · refine ⟨x0, rfl, ?_⟩
      simp only [ne_eq, not_true_eq_false, if_false] at h
      cases hl : loop o pb (o.maxIter - x0.s.it) x0.s ⟨0, .inactive⟩ false with
      | error e => simp [hl] at h
      | ok r =>
        obtain ⟨t1, s1⟩ := r
        simp only [hl] at h
        rcases loop_it _ hl with ⟨rfl, -⟩ | ⟨rfl | rfl, -⟩ <;> simp only [terminate, Except.ok.injEq, Prod.mk.injEq] at h <;>
          obtain ⟨rfl, rfl⟩ := h <;> exact ⟨rfl, rfl⟩
    · exfalso
      simp only [ne_eq, reduceCtorEq, not_false_eq_true, if_true, terminate] at h
      cases hd : o.dbg <;> simp [hd] at h
      exact ht' h.1.symm
    · exfalso
      simp only [ne_eq, reduceCtorEq, not_false_eq_true, if_true, terminate, Except.ok.injEq, Prod.mk.injEq] at h
      exact ht h.1.symm

theorem xsolve_args {o : Opts K} {pb : Pb K B} {as : List Status} {xs xs' : XState K} {t : Term} (h : xsolve o pb as xs = .ok (t, xs')) :
    (as.length = pb.m + pb.nb ∨ as = []) ∧ (o.warmStart = true ∨ as = []) := by
  by_contra hn
  unfold xsolve at h
  rw [if_neg hn] at h
  cases h

/-- The same call, stopped when the number of iterations is `k`. -/
theorem xsolve_stop {o : Opts K} {pb : Pb K B} {as : List Status} {xs x0 : XState K} {sk : State K} {b : Bool} {j k : Nat}
    (ha : (as.length = pb.m + pb.nb ∨ as = []) ∧ (o.warmStart = true ∨ as = []))
    (h0 : xinit o pb (xsolveStart o pb as xs) = .ok (.success, x0)) (hj : k - x0.s.it = j)
    (hk : ent o pb j x0.s ⟨0, .inactive⟩ false = some (sk, b)) :
    xsolve { o with maxIter := k } pb as xs = .ok (.maxIterReached, { x0 with s := sk }) := by
  rw [xsolve_eq (o := { o with maxIter := k }) ha]
  have h1 : xinit { o with maxIter := k } pb (xsolveStart { o with maxIter := k } pb as xs) = .ok (.success, x0) := by
    rw [xinit_setMaxIter]; exact h0
  rw [h1]
  simp only [ne_eq, not_true_eq_false, if_false, hj]
  rw [loop_setMaxIter, (ent_loop j hk).1]
  rfl

theorem xsolveLog_loop {shw : K ⊕ B → Word} {flags : BitVec 32} {pre : List (Word × Int)} {id : Word} {o : Opts K} {pb : Pb K B} {as : List Status}
    {xs x0 : XState K} {s' : State K} {t : Term} (h0 : xinit o pb (xsolveStart o pb as xs) = .ok (.success, x0))
    (h1 : loop o pb (o.maxIter - x0.s.it) x0.s ⟨0, .inactive⟩ false = .ok (t, s')) {nm : Word} (iter i : Int) (v : Val) :
    Stmt.assign (pathOf pre id i nm) v ∈ expectedAll shw flags pre id iter (xsolveLog o pb as xs) ↔
      Stmt.assign (pathOf pre id i nm) v ∈ expectedAll shw flags pre id (-1) (loopLog o pb (o.maxIter - x0.s.it) x0.s ⟨0, .inactive⟩ false) := by
  rw [xsolveLog_eq, h0]
  simp only [h1, ne_eq, not_true_eq_false, if_false, xhead, List.cons_append, List.nil_append, expectedAll, List.mem_append, expectedAll_append]
  have e1 : ¬ Stmt.assign (pathOf pre id i nm) v ∈ expected shw flags pre id iter (LogCall.startIter (K := K ⊕ B) (-1)) := by
    rw [mem_expected]
    rintro ⟨-, w, ⟨f, vals, e, -⟩, -⟩; cases e
  have e2 : ∀ iter vals, ¬ Stmt.assign (pathOf pre id i nm) v ∈ expected shw flags pre id iter
      (LogCall.log (K := K ⊕ B) (LogFlags.input.bits ||| LogFlags.noIter.bits) vals) := by
    intro iter vals
    rw [mem_expected]
    rintro ⟨-, w, ⟨f, vals, e, -, h, -⟩, -⟩
    injection e with e1
    rw [← e1] at h
    exact absurd h (by decide)
  have e3 : ∀ iter, ¬ Stmt.assign (pathOf pre id i nm) v ∈ expectedAll shw flags pre id iter (xinitLog o pb (xsolveStart o pb as xs)) := by
    intro iter
    rw [mem_expectedAll fun c hc => (xinitLog_quiet _ _ _ c hc).1.1]
    rintro ⟨-, w, h, -⟩
    exact quiet_member (fun c hc => (xinitLog_quiet _ _ _ c hc).1) h
  have e4 : ∀ iter, ¬ Stmt.assign (pathOf pre id i nm) v ∈ expectedAll shw flags pre id iter (termLog (K := K) (B := B) t) := by
    intro iter
    rw [mem_expectedAll fun c hc => (termLog_plain _ c hc).1]
    rintro ⟨-, w, ⟨c, hc, h⟩, -⟩
    exact termLog_member hc h
  have e5 : ∀ iter, nextAll iter (xinitLog o pb (xsolveStart o pb as xs)) = iter :=
    fun iter => nextAll_plain (fun c hc => (xinitLog_quiet _ _ _ c hc).1.1) _
  simp only [e1, e2, e3, e4, e5, false_or, or_false]
  rfl

theorem xassigned {flags : BitVec 32} {nm : Word} {F : State K → Bool → LVal (K ⊕ B)} (hF : Field flags nm F)
    {shw : K ⊕ B → Word} {pre : List (Word × Int)} {id : Word} {o : Opts K} {pb : Pb K B} {as : List Status} {xs x0 : XState K} {s' sk : State K} {t : Term}
    {b : Bool} {j k : Nat} (h0 : xinit o pb (xsolveStart o pb as xs) = .ok (.success, x0))
    (h1 : loop o pb (o.maxIter - x0.s.it) x0.s ⟨0, .inactive⟩ false = .ok (t, s')) (hj : k = x0.s.it + j) (hk : k ≤ s'.it) (hkm : k < o.maxIter)
    (hs : ent o pb j x0.s ⟨0, .inactive⟩ false = some (sk, b)) (iter : Int) :
    Assigned (expectedAll shw flags pre id iter (xsolveLog o pb as xs)) (pathOf pre id (k + 1) nm) ((F sk b).value shw) := by
  intro w
  rw [xsolveLog_loop h0 h1, loopLog_field hF _ h1]
  constructor
  · rintro ⟨j', -, -, h4, sk', b', h5, rfl⟩
    have : j' = j := by push_cast at h4; omega
    subst this
    rw [hs] at h5
    simp only [Option.some.injEq, Prod.mk.injEq] at h5
    rw [h5.1, h5.2]
  · rintro rfl
    exact ⟨j, by omega, by omega, by rw [hj], sk, b, hs, rfl⟩

theorem xstart_nbVar (o : Opts K) (pb : Pb K B) (as : List Status) (xs : XState K) : (xsolveStart o pb as xs).s.nbVar = pb.n :=
  ((preInit_dims o (resize xs.s pb.n pb.m pb.useBnd)).1).trans (resize_dims xs.s pb.n pb.m pb.useBnd).1

/-- **C75.** The log of the warm-started solver shows the initial point and the iterates. When `solve` reaches the iterations
(another status than `NON_POS_HESSIAN` and `OVERCONSTRAINED_PROBLEM`), let `x0` be what the same call returns with
`maxIter = 0`: the initial point, after `x0.it` removals of constraints with a negative multiplier. With the flag `INIT`, the
script leaves the initial point, its multipliers and its objective value in the members `x`, `u`, `f_` of the data. For each
iteration `k` from `x0.it` to `iterations()` (less than `maxIter`), what it assigns to the members `x`, `f_`, `u`
(`ITERATION_BASIC_DETAILS`) and `A_` (`ACTIVE_SET_DETAILS`) of the index `k + 1` is what the same call returns with `maxIter = k`
(`u` has one more element when a constraint is being added); `x` is assigned for no other index. -/
theorem C75_iterates {shw : K ⊕ B → Word} (hs : ∀ x, Clean (shw x)) {g : Logger} {pre : List (Word × Int)} {id : Word} (hg : Named g pre id)
    {o : Opts K} {pb : Pb K B} {as : List Status} {xs xs' : XState K} {t : Term} (h : xsolve o pb as xs = .ok (t, xs'))
    (ht : t ≠ .nonPosHessian) (ht' : t ≠ .overconstrainedProblem) :
    ∃ S x0, readScript (script shw g (xsolveLog o pb as xs)) = some S ∧ xsolve { o with maxIter := 0 } pb as xs = .ok (.maxIterReached, x0) ∧
      ((LogFlags.init.bits ||| LogFlags.noIter.bits) &&& g.flags ≠ 0 →
        valueFrom (dataPath pre id ['x']) none S = some (column shw pb.n x0.s.x) ∧
        valueFrom (dataPath pre id ['u']) none S = some (column shw x0.s.A.q x0.s.u) ∧
        valueFrom (dataPath pre id ['f', '_']) none S = some (.mat [[shw (.inl x0.s.f)]])) ∧
      (∀ k, x0.s.it ≤ k → k ≤ xs'.s.it → k < o.maxIter →
        ∃ xk, xsolve { o with maxIter := k } pb as xs = .ok (.maxIterReached, xk) ∧
          (LogFlags.iterationBasicDetails.bits &&& g.flags ≠ 0 →
            Assigned S (pathOf pre id (k + 1) ['x']) (column shw pb.n xk.s.x) ∧
            Assigned S (pathOf pre id (k + 1) ['f', '_']) (.mat [[shw (.inl xk.s.f)]]) ∧
            (Assigned S (pathOf pre id (k + 1) ['u']) (column shw xk.s.A.q xk.s.u) ∨ Assigned S (pathOf pre id (k + 1) ['u']) (column shw (xk.s.A.q + 1) xk.s.u))) ∧
          (LogFlags.activeSetDetails.bits &&& g.flags ≠ 0 →
            Assigned S (pathOf pre id (k + 1) ['A', '_']) (rowInts ((List.range xk.s.A.q).map fun j => (xk.s.A.get j : Int))))) ∧
      (LogFlags.iterationBasicDetails.bits &&& g.flags ≠ 0 →
        ∀ i v, Stmt.assign (pathOf pre id i ['x']) v ∈ S → ∃ k : Nat, i = k + 1 ∧ x0.s.it ≤ k ∧ k ≤ xs'.s.it ∧ k < o.maxIter) := by
  obtain ⟨x0, h0, h1, -⟩ := xsolve_parts h ht ht'
  have ha := xsolve_args h
  have hn0 : x0.s.nbVar = pb.n := (xinit_nbVar h0).trans (xstart_nbVar o pb as xs)
  refine ⟨_, x0, C71_script hs hg _ (xsolveLog_ok o pb as xs),
    (xsolve_stop (sk := x0.s) (b := false) (j := 0) ha h0 (by simp) rfl).trans rfl, ?_, ?_, ?_⟩
  · intro hf
    have key : ∀ (nm : Word) (w : XState K → LVal (K ⊕ B)), (nm = ['x'] ∧ w = (fun ys => lvec ys.s.nbVar ys.s.x) ∨
        nm = ['u'] ∧ w = (fun ys => lvec ys.s.A.q ys.s.u) ∨ nm = ['f', '_'] ∧ w = fun ys => .num (.inl ys.s.f)) →
        valueFrom (dataPath pre id nm) none (expectedAll shw g.flags pre id g.iter (xsolveLog o pb as xs)) = some ((w x0).value shw) := by
      intro nm w hw
      have hit : nm ≠ ['i', 't'] := by rcases hw with ⟨rfl, -⟩ | ⟨rfl, -⟩ | ⟨rfl, -⟩ <;> decide
      rw [xsolveLog_eq, h0]
      simp only [h1, ne_eq, not_true_eq_false, if_false]
      rw [expectedAll_append, expectedAll_append, valueFrom_append, valueFrom_append,
        xinitLog_value hf (pointsLog_value hf hw) h0, valueFrom_none]
      intro v
      refine expectedAll_noData hit ?_ v
      intro c hc
      rcases List.mem_append.1 hc with hc | hc
      · exact loopLog_noData _ _ _ _ _ _ c hc
      · exact termLog_noData _ c hc
    refine ⟨?_, ?_, ?_⟩
    · have := key ['x'] _ (.inl ⟨rfl, rfl⟩)
      simpa only [value_lvec, hn0] using this
    · have := key ['u'] _ (.inr (.inl ⟨rfl, rfl⟩))
      simpa only [value_lvec] using this
    · exact key ['f', '_'] _ (.inr (.inr ⟨rfl, rfl⟩))
  · intro k hk0 hk hkm
    obtain ⟨sk, b, hsk⟩ := loop_ent (k - x0.s.it) h1 (by omega) (by omega)
    have hn : sk.nbVar = pb.n := (ent_nbVar _ hsk).trans hn0
    refine ⟨{ x0 with s := sk }, xsolve_stop ha h0 rfl hsk, fun hf => ⟨?_, ?_, ?_⟩, fun hf => ?_⟩
    · have := xassigned (shw := shw) (pre := pre) (id := id) (field_x hf) h0 h1 (by omega : k = x0.s.it + (k - x0.s.it)) hk hkm hsk g.iter
      simpa only [value_lvec, hn] using this
    · exact xassigned (shw := shw) (pre := pre) (id := id) (field_f hf) h0 h1 (by omega : k = x0.s.it + (k - x0.s.it)) hk hkm hsk g.iter
    · have := xassigned (shw := shw) (pre := pre) (id := id) (field_u hf) h0 h1 (by omega : k = x0.s.it + (k - x0.s.it)) hk hkm hsk g.iter
      simp only [value_lvec] at this
      cases b with
      | false => exact .inl (by simpa using this)
      | true => exact .inr (by simpa using this)
    · exact xassigned (shw := shw) (pre := pre) (id := id) (field_A hf) h0 h1 (by omega : k = x0.s.it + (k - x0.s.it)) hk hkm hsk g.iter
  · intro hf i v hv
    rw [xsolveLog_loop h0 h1, loopLog_field (field_x hf) _ h1] at hv
    obtain ⟨k, h2, h3, h4, -⟩ := hv
    exact ⟨x0.s.it + k, by rw [h4], by omega, by omega, by omega⟩

/-- **C75, last iterate.** When `solve` returns `SUCCESS` or `INFEASIBLE`, the last iterate of the log is `solution()` and
`objectiveValue()`, and the last active set is the final one. -/
theorem C75_last {shw : K ⊕ B → Word} (hs : ∀ x, Clean (shw x)) {g : Logger} {pre : List (Word × Int)} {id : Word} (hg : Named g pre id)
    {o : Opts K} {pb : Pb K B} {as : List Status} {xs xs' : XState K} {t : Term} (h : xsolve o pb as xs = .ok (t, xs'))
    (ht : t = .success ∨ t = .infeasible) :
    ∃ S, readScript (script shw g (xsolveLog o pb as xs)) = some S ∧
      (LogFlags.iterationBasicDetails.bits &&& g.flags ≠ 0 →
        Assigned S (pathOf pre id (xs'.s.it + 1) ['x']) (column shw pb.n xs'.s.x) ∧
        Assigned S (pathOf pre id (xs'.s.it + 1) ['f', '_']) (.mat [[shw (.inl xs'.s.f)]])) ∧
      (LogFlags.activeSetDetails.bits &&& g.flags ≠ 0 →
        Assigned S (pathOf pre id (xs'.s.it + 1) ['A', '_']) (rowInts ((List.range xs'.s.A.q).map fun j => (xs'.s.A.get j : Int)))) := by
  refine ⟨_, C71_script hs hg _ (xsolveLog_ok o pb as xs), ?_⟩
  obtain ⟨x0, h0, h1, -⟩ := xsolve_parts h (by rcases ht with rfl | rfl <;> simp) (by rcases ht with rfl | rfl <;> simp)
  obtain ⟨hle, h2⟩ := loop_le _ h1
  obtain ⟨sk, b, hsk, e1, e2, e3, e4⟩ := h2.resolve_left (by rcases ht with rfl | rfl <;> simp)
  have hkm : xs'.s.it < o.maxIter := by
    rcases loop_it _ h1 with ⟨rfl, -⟩ | ⟨-, this⟩
    · rcases ht with ht | ht <;> cases ht
    · omega
  have hn : sk.nbVar = pb.n := (ent_nbVar _ hsk).trans ((xinit_nbVar h0).trans (xstart_nbVar o pb as xs))
  have hj : xs'.s.it = x0.s.it + (xs'.s.it - x0.s.it) := by omega
  refine ⟨fun hf => ⟨?_, ?_⟩, fun hf => ?_⟩
  · have := xassigned (shw := shw) (pre := pre) (id := id) (field_x hf) h0 h1 hj le_rfl hkm hsk g.iter
    rw [e1]
    simpa only [value_lvec, hn] using this
  · rw [e2]
    exact xassigned (shw := shw) (pre := pre) (id := id) (field_f hf) h0 h1 hj le_rfl hkm hsk g.iter
  · rw [e3]
    exact xassigned (shw := shw) (pre := pre) (id := id) (field_A hf) h0 h1 hj le_rfl hkm hsk g.iter

/-- **C75, status.** With `TERMINATION`, the last line of the log is the comment of the status returned by `solve`, except for
`OVERCONSTRAINED_PROBLEM`, for which the log has no comment on the termination. -/
theorem C75_status {shw : K ⊕ B → Word} (hs : ∀ x, Clean (shw x)) {g : Logger} {pre : List (Word × Int)} {id : Word} (hg : Named g pre id)
    {o : Opts K} {pb : Pb K B} {as : List Status} {xs xs' : XState K} {t : Term} (h : xsolve o pb as xs = .ok (t, xs'))
    (hf : LogFlags.termination.bits &&& g.flags ≠ 0) :
    ∃ S, readScript (script shw g (xsolveLog o pb as xs)) = some S ∧
      (t ≠ .overconstrainedProblem → ∃ c, S.getLast? = some (.comment (' ' :: c)) ∧ ∀ t' text, termText t' = some text → (c = text.toList ↔ t' = t)) ∧
      (t = .overconstrainedProblem → ∀ t' text, termText t' = some text → Stmt.comment (' ' :: text.toList) ∉ S) := by
  refine ⟨_, C71_script hs hg _ (xsolveLog_ok o pb as xs), ?_, ?_⟩
  · intro ht'
    have hlog : ∃ l, xsolveLog o pb as xs = l ++ termLog t ∧ (∃ text, termText t = some text) := by
      by_cases ht : t = .nonPosHessian
      · subst ht
        have ha := xsolve_args h
        rw [xsolve_eq ha] at h
        rw [xsolveLog_eq]
        cases hi : xinit o pb (xsolveStart o pb as xs) with
        | error e => rw [hi] at h; cases h
        | ok r =>
          obtain ⟨t0, x0⟩ := r
          rw [hi] at h
          rcases xinit_status hi with rfl | rfl | rfl
          · exfalso
            simp only [ne_eq, not_true_eq_false, if_false] at h
            cases hl : loop o pb (o.maxIter - x0.s.it) x0.s ⟨0, .inactive⟩ false with
            | error e => simp [hl] at h
            | ok r =>
              obtain ⟨t1, s1⟩ := r
              simp only [hl] at h
              rcases loop_it _ hl with ⟨rfl, -⟩ | ⟨rfl | rfl, -⟩ <;> simp [terminate] at h
          · exfalso
            simp only [ne_eq, reduceCtorEq, not_false_eq_true, if_true, terminate] at h
            cases hd : o.dbg <;> simp [hd] at h
          · refine ⟨xhead pb as ++ xinitLog o pb (xsolveStart o pb as xs), ?_, _, rfl⟩
            simp only [ne_eq, reduceCtorEq, not_false_eq_true, if_true, List.append_assoc]
      · obtain ⟨x0, h0, h1, -⟩ := xsolve_parts h ht ht'
        rw [xsolveLog_eq, h0]
        simp only [h1, ne_eq, not_true_eq_false, if_false]
        refine ⟨xhead pb as ++ xinitLog o pb (xsolveStart o pb as xs) ++ loopLog o pb (o.maxIter - x0.s.it) x0.s ⟨0, .inactive⟩ false, ?_, ?_⟩
        · simp only [List.append_assoc]
        · rcases loop_it _ h1 with ⟨rfl, -⟩ | ⟨rfl | rfl, -⟩ <;> exact ⟨_, rfl⟩
    obtain ⟨l, hl, text, htext⟩ := hlog
    have hterm : termLog (K := K) (B := B) t = [.comment LogFlags.termination.bits text.toList] := by
      unfold termLog; rw [htext]
    refine ⟨text.toList, ?_, ?_⟩
    · rw [hl, hterm, expectedAll_append]
      simp only [expectedAll, expected, if_neg hf]
      simp
    · intro t' text' h5
      constructor
      · intro e
        have : text = text' := String.toList_injective e
        subst this
        exact termText_injective h5 htext
      · rintro rfl
        rw [h5] at htext
        rw [Option.some.inj htext]
  · rintro rfl t' text htext hmem
    rw [mem_comment_expectedAll] at hmem
    obtain ⟨f, hmem, -⟩ := hmem
    have hi : ∃ x0, xinit o pb (xsolveStart o pb as xs) = .ok (.overconstrainedProblem, x0) := by
      rw [xsolve_eq (xsolve_args h)] at h
      cases hi : xinit o pb (xsolveStart o pb as xs) with
      | error e => rw [hi] at h; cases h
      | ok r =>
        obtain ⟨t0, x0⟩ := r
        rw [hi] at h
        rcases xinit_status hi with rfl | rfl | rfl
        · exfalso
          simp only [ne_eq, not_true_eq_false, if_false] at h
          cases hl : loop o pb (o.maxIter - x0.s.it) x0.s ⟨0, .inactive⟩ false with
          | error e => simp [hl] at h
          | ok r =>
            obtain ⟨t1, s1⟩ := r
            simp only [hl] at h
            rcases loop_it _ hl with ⟨rfl, -⟩ | ⟨rfl | rfl, -⟩ <;> simp [terminate] at h
        · exact ⟨x0, rfl⟩
        · simp [terminate] at h
    obtain ⟨x0, hi⟩ := hi
    rw [xsolveLog_eq, hi] at hmem
    simp only [ne_eq, reduceCtorEq, not_false_eq_true, if_true, termLog, termText, List.append_nil, List.mem_append] at hmem
    rcases hmem with hmem | hmem
    · simp [xhead] at hmem
    · -- the comments of the initialisation start with `Ignoring`
      have hpre : ∃ w, text.toList = "Ignoring".toList ++ w := by
        have h2 : ∀ c ∈ xinitLog o pb (xsolveStart o pb as xs), ∀ f t, c = .comment f t → ∃ w, t = "Ignoring".toList ++ w := by
          intro c hc f t e
          subst e
          unfold xinitLog at hc
          simp only [] at hc
          rcases List.mem_append.1 hc with hc | hc
          · unfold processLog at hc
            simp only [List.mem_append, List.mem_flatMap, List.mem_range] at hc
            rcases hc with ⟨i, -, hc⟩ | ⟨i, -, hc⟩
            · rcases (mem_bndNote.1 hc).2.2.2 with ⟨rfl, -⟩ | ⟨rfl, -⟩
              · exact ⟨_, rfl⟩
              · exact ⟨_, rfl⟩
            · rcases (mem_genNote.1 hc).2.2.2 with ⟨rfl, -⟩ | ⟨rfl, -⟩
              · exact ⟨_, rfl⟩
              · exact ⟨_, rfl⟩
          · exfalso
            split at hc
            · simp at hc
            · rename_i t1 A _
              by_cases ht : t1 = .success
              · rw [if_neg (not_not.2 ht)] at hc
                split at hc
                · simp at hc
                simp only [List.mem_append] at hc
                rcases hc with (hc | hc) | hc
                · simp [dataLog] at hc
                · simp [pointsLog] at hc
                · have hdrop : ∀ fuel (ys : XState K), LogCall.comment f t ∉ dropLog o pb fuel ys := by
                    intro fuel
                    induction fuel with
                    | zero => intro ys h; simp [dropLog] at h
                    | succ fuel ih =>
                      intro ys h
                      simp only [dropLog] at h
                      split at h
                      · simp at h
                      · rcases List.mem_append.1 h with h | h
                        · simp [pointsLog] at h
                        · exact ih _ h
                  exact hdrop _ _ hc
              · rw [if_pos ht] at hc; simp at hc
        exact h2 _ hmem f _ rfl
      obtain ⟨w, hw⟩ := hpre
      have hw := congrArg (List.take 8) hw
      rw [List.take_left' (by decide)] at hw
      cases t' <;> simp only [termText, Option.some.injEq, reduceCtorEq] at htext <;> subst htext <;> exact absurd hw (by decide +kernel)

end Log
end JrlQp
