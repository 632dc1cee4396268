import Verif.Machine
import Verif.PropsExpEx
import Verif.PropsCounter

/-!
# C76, C77 for the warm-started solver
-/

namespace JrlQp

open NumOps

variable {K B : Type} [Zero K] [One K] [Add K] [Sub K] [Neg K] [Mul K] [Div K] [NumOps K B] [SumOps K]

/-! ## Sizes are only changed by `resize` -/

theorem activateBy_dims {st : Nat → Except Fault Status} : ∀ (l : List Nat) {A A' : ActiveSet}, activateBy st l A = .ok A' →
    A'.nbCstr = A.nbCstr ∧ A'.nbBnd = A.nbBnd := by
  intro l
  induction l with
  | nil => intro A A' h; simp only [activateBy, Except.ok.injEq] at h; subst h; exact ⟨rfl, rfl⟩
  | cons i l ih =>
    intro A A' h
    simp only [activateBy] at h
    split at h
    · simp at h
    · exact ih h
    · split at h
      · obtain ⟨h1, h2⟩ := ih h
        exact ⟨h1.trans (activate_dims _ _ _).1, h2.trans (activate_dims _ _ _).2⟩
      · simp at h

theorem trim_dims {n : Nat} : ∀ (i : Nat) {A A' : ActiveSet}, trim n i A = .ok A' → A'.nbCstr = A.nbCstr ∧ A'.nbBnd = A.nbBnd := by
  intro i
  induction i with
  | zero =>
    intro A A' h
    simp only [trim] at h
    split at h
    · simp only [Except.ok.injEq] at h; subst h; exact ⟨rfl, rfl⟩
    · simp at h
  | succ i ih =>
    intro A A' h
    simp only [trim] at h
    split at h
    · simp only [Except.ok.injEq] at h; subst h; exact ⟨rfl, rfl⟩
    · split at h
      · exact ih h
      · obtain ⟨h1, h2⟩ := ih h
        exact ⟨h1.trans (deactivate_dims _ _).1, h2.trans (deactivate_dims _ _).2⟩

theorem processInitial_dims {o : Opts K} {pb : Pb K B} {n : Nat} {as : List Status} {A A' : ActiveSet} {t : Term}
    (h : processInitial o pb n as A = .ok (t, A')) : A'.nbCstr = A.nbCstr ∧ A'.nbBnd = A.nbBnd := by
  unfold processInitial at h
  simp only [] at h
  split at h
  · simp at h
  · rename_i A1 h1
    split at h
    · simp at h
    · rename_i A2 h2
      obtain ⟨a1, a2⟩ := activateBy_dims _ h1
      obtain ⟨b1, b2⟩ := activateBy_dims _ h2
      have e : A2.nbCstr = A.nbCstr ∧ A2.nbBnd = A.nbBnd := ⟨b1.trans a1, b2.trans a2⟩
      split at h
      · split at h
        · simp only [Except.ok.injEq, Prod.mk.injEq] at h; rw [← h.2]; exact e
        · split at h
          · simp at h
          · rename_i A3 h3
            simp only [Except.ok.injEq, Prod.mk.injEq] at h
            rw [← h.2]
            obtain ⟨c1, c2⟩ := trim_dims _ h3
            exact ⟨c1.trans e.1, c2.trans e.2⟩
      · simp only [Except.ok.injEq, Prod.mk.injEq] at h; rw [← h.2]; exact e

/-- The sizes of the members of the warm-started solver: those of the base class, `work_bact_`, `work_tmp_`, `work_hCoeffs_`. -/
def XState.bufs (xs : XState K) : List Nat := xs.s.bufs ++ [xs.szB, xs.szT, xs.szH]

theorem dropLoop_bufs {o : Opts K} {pb : Pb K B} : ∀ (fuel : Nat) {xs xs' : XState K}, dropLoop o pb fuel xs = .ok xs' → xs'.bufs = xs.bufs := by
  intro fuel
  induction fuel with
  | zero =>
    intro xs xs' h
    simp only [dropLoop] at h
    split at h
    · simp only [Except.ok.injEq] at h; rw [h]
    · simp at h
  | succ k ih =>
    intro xs xs' h
    simp only [dropLoop] at h
    split at h
    · simp only [Except.ok.injEq] at h; rw [h]
    · rename_i l _
      split at h
      · split at h
        · rw [ih h]
          unfold XState.bufs
          have e : (initPoints pb (dropAt o xs l)).s.bufs = xs.s.bufs := by
            unfold State.bufs
            have : (initPoints pb (dropAt o xs l)).s.A = xs.s.A.deactivate l := rfl
            rw [this, (deactivate_dims _ _).1, (deactivate_dims _ _).2]
            rfl
          rw [e]; rfl
        · simp at h
      · simp at h

theorem xinit_bufs {o : Opts K} {pb : Pb K B} {xs xs' : XState K} {t : Term} (h : xinit o pb xs = .ok (t, xs')) : xs'.bufs = xs.bufs := by
  unfold xinit at h
  simp only [] at h
  generalize (if o.dbg = true then fun _ _ => 0 else xs.s.R : Nat → Nat → K) = R0 at h
  split at h
  · split at h
    · simp at h
    · rename_i t1 A h1
      obtain ⟨a1, a2⟩ := processInitial_dims h1
      have hA : ∀ G R : Nat → Nat → K, ({ xs with s := { xs.s with A := A, G := G, R := R } } : XState K).bufs = xs.bufs := by
        intro G R
        simp only [XState.bufs, State.bufs, a1, a2]
      split at h
      · simp only [Except.ok.injEq, Prod.mk.injEq] at h
        rw [← h.2]; exact hA xs.s.G _
      · split at h
        · simp only [Except.ok.injEq, Prod.mk.injEq] at h
          rw [← h.2]; exact hA _ _
        · split at h
          · split at h
            · split at h
              · simp at h
              · rename_i xs2 h2
                simp only [Except.ok.injEq, Prod.mk.injEq] at h
                rw [← h.2, dropLoop_bufs _ h2]
                exact hA (chol xs.s.nbVar pb.G xs.s.nbVar).1 R0
            · simp at h
          · simp at h
  · simp at h

theorem xdualSolve_bufs {o : Opts K} {pb : Pb K B} {xs xs' : XState K} {t : Term} (h : xdualSolve o pb xs = .ok (t, xs')) :
    xs'.bufs = xs.bufs := by
  have hp : ({ xs with s := preInit o xs.s } : XState K).bufs = xs.bufs := by
    unfold preInit XState.bufs State.bufs
    cases o.warmStart <;> rfl
  unfold xdualSolve at h
  split at h
  · simp at h
  · rename_i t1 xs1 h1
    have e1 := xinit_bufs h1
    rw [hp] at e1
    rw [← e1]
    split at h
    · split at h
      · simp at h
      · rename_i t2 s2 h2
        simp only [Except.ok.injEq, Prod.mk.injEq] at h
        rw [← h.2, terminate_state h2]
    · split at h
      · simp at h
      · rename_i t2 s2 h2
        split at h
        · simp at h
        · rename_i t3 s3 h3
          simp only [Except.ok.injEq, Prod.mk.injEq] at h
          rw [← h.2, terminate_state h3]
          unfold XState.bufs
          simp only [loop_bufs _ h2]

theorem xsolve_bufs {o : Opts K} {pb : Pb K B} {as : List Status} {xs xs' : XState K} {t : Term} (h : xsolve o pb as xs = .ok (t, xs')) :
    xs'.bufs = (xresize xs pb.n pb.m pb.useBnd).bufs := by
  unfold xsolve at h
  split at h
  · rw [xdualSolve_bufs h]
    cases o.warmStart <;> rfl
  · simp at h

/-! ## Memory -/

/-- The buffers are large enough for the current sizes. -/
structure XState.Fits (xs : XState K) : Prop where
  s : xs.s.Fits
  b : xs.s.nbVar ≤ xs.szB
  t : xs.s.nbVar ≤ xs.szT
  h : xs.s.nbVar ≤ xs.szH

theorem xresize_bufs {xs : XState K} (h : xs.Fits) (n m : Nat) (b : Bool) : (xresize xs n m b).bufs =
    [n, m, if b then n else 0, max xs.s.szX n, max xs.s.szZ n, max xs.s.szU (m + if b then n else 0), max xs.s.szR (m + if b then n else 0),
      max xs.s.szD n, max xs.s.szJ (n * n), max xs.s.szRm (n * n), max xs.szB n, max xs.szT n, max xs.szH n] := by
  have e := resize_bufs h.s n m b
  have h1 := h.b
  have h2 := h.t
  have h3 := h.h
  unfold XState.bufs
  have e1 : (xresize xs n m b).s = resize xs.s n m b := by unfold xresize; split <;> rfl
  rw [e1, e]
  unfold xresize
  by_cases hn : n = xs.s.nbVar
  · subst hn; simp [*]
  · simp [hn, wsResize_eq]

theorem XState.Fits.of_bufs {xs xs' : XState K} (h : xs.Fits) (e : xs'.bufs = xs.bufs) : xs'.Fits := by
  have e' := e
  simp only [XState.bufs, State.bufs, List.cons_append, List.nil_append, List.cons.injEq, and_true] at e'
  obtain ⟨e1, -, -, -, -, -, -, -, -, -, e11, e12, e13⟩ := e'
  refine ⟨h.s.of_bufs ?_, ?_, ?_, ?_⟩
  · have := congrArg (List.take 10) e
    exact this
  · rw [e1, e11]; exact h.b
  · rw [e1, e12]; exact h.t
  · rw [e1, e13]; exact h.h

theorem XFits.resize {xs : XState K} (h : xs.Fits) (n m : Nat) (b : Bool) : (xresize xs n m b).Fits := by
  have e := xresize_bufs h n m b
  simp only [XState.bufs, State.bufs, List.cons_append, List.nil_append, List.cons.injEq, and_true] at e
  obtain ⟨e1, -, -, -, -, -, -, -, -, -, e11, e12, e13⟩ := e
  have e0 : (xresize xs n m b).s = JrlQp.resize xs.s n m b := by unfold xresize; split <;> rfl
  refine ⟨by rw [e0]; exact Fits.resize h.s n m b, ?_, ?_, ?_⟩
  · rw [e1, e11]; exact le_max_right _ _
  · rw [e1, e12]; exact le_max_right _ _
  · rw [e1, e13]; exact le_max_right _ _

/-- Specification: the sizes (variables, general constraints, bounds) a call asks for. -/
def XCall.dims : XCall K B → Option (Nat × Nat × Nat)
  | .resize n m b => some (n, m, if b then n else 0)
  | .solve _ pb _ => some (pb.n, pb.m, pb.nb)
  | _ => none

/-- Specification: the largest value of a size over the calls made so far. -/
def xlargest (f : Nat × Nat × Nat → Nat) (cs : List (XCall K B)) : Nat := ((cs.filterMap XCall.dims).map f).foldr max 0

/-- Specification: the memory of the solver: that of the base class, `work_bact_`, `work_tmp_`, `work_hCoeffs_`. -/
def XState.memory (xs : XState K) : List Nat := xs.s.memory ++ [xs.szB, xs.szT, xs.szH]

theorem xmemory_of_bufs {xs xs' : XState K} (e : xs'.bufs = xs.bufs) : xs'.memory = xs.memory := by
  simp only [XState.bufs, State.bufs, List.cons_append, List.nil_append, List.cons.injEq, and_true] at e
  obtain ⟨-, -, -, e4, e5, e6, e7, e8, e9, e10, e11, e12, e13⟩ := e
  simp only [XState.memory, State.memory, e4, e5, e6, e7, e8, e9, e10, e11, e12, e13]

theorem xcall_bufs {xs xs' : XState K} (h : xs.Fits) {c : XCall K B} (hc : xcall xs c = .ok xs') : xs'.Fits ∧
    match XCall.dims c with
    | some d => xs'.memory = [max xs.s.szX d.1, max xs.s.szZ d.1, max xs.s.szD d.1, max xs.s.szU (d.2.1 + d.2.2), max xs.s.szR (d.2.1 + d.2.2),
        max xs.s.szJ (d.1 * d.1), max xs.s.szRm (d.1 * d.1), max xs.szB d.1, max xs.szT d.1, max xs.szH d.1]
    | none => xs'.memory = xs.memory := by
  cases c with
  | resize n m b =>
    simp only [xcall, Except.ok.injEq] at hc
    subst hc
    refine ⟨XFits.resize h n m b, ?_⟩
    have e := xresize_bufs h n m b
    simp only [XState.bufs, State.bufs, List.cons_append, List.nil_append, List.cons.injEq, and_true] at e
    obtain ⟨-, -, -, e4, e5, e6, e7, e8, e9, e10, e11, e12, e13⟩ := e
    simp only [XCall.dims, XState.memory, State.memory, e4, e5, e6, e7, e8, e9, e10, e11, e12, e13, List.cons_append, List.nil_append]
  | solve o pb as =>
    simp only [xcall] at hc
    cases hs : xsolve o pb as xs with
    | error e => rw [hs] at hc; simp [Except.map] at hc
    | ok ts =>
      rw [hs] at hc
      simp only [Except.map, Except.ok.injEq] at hc
      subst hc
      have e0 := xsolve_bufs (t := ts.1) (xs' := ts.2) hs
      refine ⟨(XFits.resize h pb.n pb.m pb.useBnd).of_bufs e0, ?_⟩
      have e := xresize_bufs h pb.n pb.m pb.useBnd
      rw [← e0] at e
      simp only [XState.bufs, State.bufs, List.cons_append, List.nil_append, List.cons.injEq, and_true] at e
      obtain ⟨-, -, -, e4, e5, e6, e7, e8, e9, e10, e11, e12, e13⟩ := e
      simp only [XCall.dims, XState.memory, State.memory, e4, e5, e6, e7, e8, e9, e10, e11, e12, e13, List.cons_append, List.nil_append, Pb.nb]
  | multipliers =>
    simp only [xcall] at hc
    split at hc
    · simp only [Except.ok.injEq] at hc
      subst hc
      have e : ({ xs with s := multipliers xs.s } : XState K).bufs = xs.bufs := by
        unfold multipliers XState.bufs; split <;> rfl
      exact ⟨h.of_bufs e, xmemory_of_bufs e⟩
    · simp at hc
  | resetActiveSet =>
    simp only [xcall, Except.ok.injEq] at hc
    subst hc
    exact ⟨h.of_bufs (xs' := { xs with s := resetActiveSet xs.s }) rfl, rfl⟩

theorem xlargest_cons (f : Nat × Nat × Nat → Nat) (c : XCall K B) (cs : List (XCall K B)) :
    xlargest f (c :: cs) = match XCall.dims c with
      | some d => max (f d) (xlargest f cs)
      | none => xlargest f cs := by
  unfold xlargest
  cases h : XCall.dims c <;> simp [List.filterMap_cons, h]

theorem xcalls_memory : ∀ (cs : List (XCall K B)) {xs xs' : XState K}, xs.Fits → xcalls cs xs = .ok xs' → xs'.Fits ∧
    xs'.memory = [max xs.s.szX (xlargest (·.1) cs), max xs.s.szZ (xlargest (·.1) cs), max xs.s.szD (xlargest (·.1) cs),
      max xs.s.szU (xlargest (fun d => d.2.1 + d.2.2) cs), max xs.s.szR (xlargest (fun d => d.2.1 + d.2.2) cs),
      max xs.s.szJ (xlargest (fun d => d.1 * d.1) cs), max xs.s.szRm (xlargest (fun d => d.1 * d.1) cs),
      max xs.szB (xlargest (·.1) cs), max xs.szT (xlargest (·.1) cs), max xs.szH (xlargest (·.1) cs)] := by
  intro cs
  induction cs with
  | nil =>
    intro s s' h hc
    simp only [xcalls, Except.ok.injEq] at hc
    subst hc
    exact ⟨h, by simp [xlargest, XState.memory, State.memory]⟩
  | cons c cs ih =>
    intro s s' h hc
    simp only [xcalls] at hc
    split at hc
    · simp at hc
    · rename_i s1 h1
      obtain ⟨f1, e1⟩ := xcall_bufs h h1
      obtain ⟨f2, e2⟩ := ih f1 hc
      refine ⟨f2, e2.trans ?_⟩
      simp only [xlargest_cons]
      cases hd : XCall.dims c with
      | none =>
        rw [hd] at e1
        simp only [XState.memory, State.memory, List.cons_append, List.nil_append, List.cons.injEq, and_true] at e1
        obtain ⟨g1, g2, g3, g4, g5, g6, g7, g8, g9, g10⟩ := e1
        simp only [g1, g2, g3, g4, g5, g6, g7, g8, g9, g10]
      | some d =>
        rw [hd] at e1
        simp only [XState.memory, State.memory, List.cons_append, List.nil_append, List.cons.injEq, and_true] at e1
        obtain ⟨g1, g2, g3, g4, g5, g6, g7, g8, g9, g10⟩ := e1
        simp only [g1, g2, g3, g4, g5, g6, g7, g8, g9, g10, max_assoc]

theorem xfits_empty : (XState.empty : XState K).Fits := ⟨fits_empty, Nat.zero_le _, Nat.zero_le _, Nat.zero_le _⟩

/-- **C76 for the warm-started solver.** After any history of calls, each buffer has exactly the size needed by the largest problem
so far. -/
theorem C76_xmemory {cs : List (XCall K B)} {xs : XState K} (h : xcalls cs XState.empty = .ok xs) :
    xs.memory = memoryFor (xlargest (·.1) cs) (xlargest (fun d => d.2.1 + d.2.2) cs) (xlargest (fun d => d.1 * d.1) cs) ++
      [xlargest (·.1) cs, xlargest (·.1) cs, xlargest (·.1) cs] := by
  rw [(xcalls_memory cs xfits_empty h).2]
  simp [XState.empty, State.empty, memoryFor]

theorem le_xlargest {f : Nat × Nat × Nat → Nat} {cs : List (XCall K B)} {c : XCall K B} (hc : c ∈ cs) {d : Nat × Nat × Nat}
    (hd : XCall.dims c = some d) : f d ≤ xlargest f cs := by
  induction cs with
  | nil => simp at hc
  | cons c' cs ih =>
    rw [xlargest_cons]
    rcases List.mem_cons.1 hc with rfl | hc
    · rw [hd]; exact le_max_left _ _
    · cases XCall.dims c' with
      | none => exact ih hc
      | some d' => exact (ih hc).trans (le_max_right _ _)

/-- **C76, no reallocation, for the warm-started solver.** -/
theorem C76_xno_growth {cs : List (XCall K B)} {xs xs' : XState K} (h : xcalls cs XState.empty = .ok xs) {c c1 c2 : XCall K B}
    {d d1 d2 : Nat × Nat × Nat} (hd : XCall.dims c = some d) (h1 : c1 ∈ cs) (hd1 : XCall.dims c1 = some d1) (h2 : c2 ∈ cs) (hd2 : XCall.dims c2 = some d2)
    (hn : d.1 ≤ d1.1) (hm : d.2.1 + d.2.2 ≤ d2.2.1 + d2.2.2) (hc : xcall xs c = .ok xs') : xs'.memory = xs.memory := by
  have e := C76_xmemory h
  obtain ⟨-, e'⟩ := xcall_bufs (xcalls_memory cs xfits_empty h).1 hc
  rw [hd] at e'
  rw [e']
  simp only [XState.memory, State.memory, memoryFor, List.cons_append, List.nil_append, List.cons.injEq, and_true] at e
  obtain ⟨g1, g2, g3, g4, g5, g6, g7, g8, g9, g10⟩ := e
  have a1 := (le_xlargest (f := (·.1)) h1 hd1)
  have a2 := (le_xlargest (f := fun d => d.2.1 + d.2.2) h2 hd2)
  have a3 := (le_xlargest (f := fun d => d.1 * d.1) h1 hd1)
  have a4 : d.1 * d.1 ≤ d1.1 * d1.1 := Nat.mul_le_mul hn hn
  rw [XState.memory, State.memory, max_eq_left (by omega), max_eq_left (by omega), max_eq_left (by omega), max_eq_left (by omega),
    max_eq_left (by omega), max_eq_left (by omega), max_eq_left (by omega), max_eq_left (by omega), max_eq_left (by omega), max_eq_left (by omega)]
  rfl

/-! ## `int` arithmetic -/

/-- `experimental::GoldfarbIdnaniSolver::resize_`, src/experimental/GoldfarbIdnaniSolver.cpp:293-304, with sizes computed with `int`,
then `DualSolver::resize_p`. The buffers of size `nbVar` need no computation. -/
def xresizeI (ar : IntArith) (xs : XState K) (nbVar nbCstr : Nat) (useBounds : Bool) : Option (XState K) :=
  (resizeI ar xs.s nbVar nbCstr useBounds).map fun s =>
    let xs' := if nbVar ≠ xs.s.nbVar then
      { xs with szT := wsResizeI xs.szT nbVar, szH := wsResizeI xs.szH nbVar, szB := wsResizeI xs.szB nbVar } else xs
    { xs' with s := s }

/-- `experimental::GoldfarbIdnaniSolver::solve`, src/experimental/GoldfarbIdnaniSolver.cpp:20-64. -/
def xsolveI (ar : IntArith) (o : Opts K) (pb : Pb K B) (as : List Status) (xs : XState K) : Except IFault (Term × XState K) :=
  if (as.length = pb.m + pb.nb ∨ as = []) ∧ (o.warmStart = true ∨ as = []) then
    match xresizeI ar xs pb.n pb.m pb.useBnd with
    | none => .error .overflow
    | some xs => lift (xdualSolve o pb (if o.warmStart then { xs with as := if as = [] then xs.s.A.status else as } else xs))
  else .error (.fault .assertFailed)

/-- The calls, as in `xcall`. -/
def xcallI (ar : IntArith) (xs : XState K) : XCall K B → Except IFault (XState K)
  | .resize n m b =>
    match xresizeI ar xs n m b with
    | none => .error .overflow
    | some xs => .ok xs
  | .solve o pb as => (xsolveI ar o pb as xs).map Prod.snd
  | .multipliers =>
    if decide (xs.s.A.nbAll ≤ xs.s.szU) && decide (xs.s.A.q ≤ xs.s.szR) then .ok { xs with s := multipliers xs.s }
    else .error (.fault .outOfBounds)
  | .resetActiveSet => .ok { xs with s := resetActiveSet xs.s }

/-- A sequence of calls. -/
def xcallsI (ar : IntArith) : List (XCall K B) → XState K → Except IFault (XState K)
  | [], xs => .ok xs
  | c :: cs, xs =>
    match xcallI ar xs c with
    | .error e => .error e
    | .ok xs => xcallsI ar cs xs

theorem xresizeI_eq (ar : IntArith) {xs : XState K} (hs : xs.s.A.nbCstr + xs.s.A.nbBnd < 2 ^ 31) {n m : Nat} {b : Bool}
    (h : SmallDims (n, m, if b then n else 0)) : xresizeI ar xs n m b = some (xresize xs n m b) := by
  unfold xresizeI xresize
  rw [resizeI_eq ar hs h]
  simp only [Option.map_some, wsResizeI_nat]

theorem xsolveI_eq (ar : IntArith) {xs : XState K} (hs : xs.s.A.nbCstr + xs.s.A.nbBnd < 2 ^ 31) (o : Opts K) {pb : Pb K B} (as : List Status)
    (h : SmallDims (pb.n, pb.m, pb.nb)) : xsolveI ar o pb as xs = lift (xsolve o pb as xs) := by
  unfold xsolveI xsolve
  rw [xresizeI_eq ar hs (b := pb.useBnd) h]
  split <;> rfl

theorem xcallI_eq (ar : IntArith) {xs : XState K} (hs : xs.s.A.nbCstr + xs.s.A.nbBnd < 2 ^ 31) (c : XCall K B)
    (h : ∀ d, XCall.dims c = some d → SmallDims d) : xcallI ar xs c = lift (xcall xs c) := by
  cases c with
  | resize n m b => simp only [xcallI, xcall]; rw [xresizeI_eq ar hs (h _ rfl)]; rfl
  | solve o pb as =>
    simp only [xcallI, xcall]
    rw [xsolveI_eq ar hs o as (h _ rfl)]
    cases xsolve o pb as xs <;> rfl
  | multipliers => simp only [xcallI, xcall]; split <;> rfl
  | resetActiveSet => rfl

theorem xcall_nbAll {xs xs' : XState K} (hf : xs.Fits) (hs : xs.s.A.nbCstr + xs.s.A.nbBnd < 2 ^ 31) {c : XCall K B}
    (h : ∀ d, XCall.dims c = some d → SmallDims d) (hc : xcall xs c = .ok xs') : xs'.s.A.nbCstr + xs'.s.A.nbBnd < 2 ^ 31 := by
  cases c with
  | resize n m b =>
    simp only [xcall, Except.ok.injEq] at hc
    subst hc
    have e := xresize_bufs hf n m b
    simp only [XState.bufs, State.bufs, List.cons_append, List.nil_append, List.cons.injEq, and_true] at e
    rw [e.2.1, e.2.2.1]; exact (h _ rfl).2
  | solve o pb as =>
    simp only [xcall] at hc
    cases hs' : xsolve o pb as xs with
    | error e => rw [hs'] at hc; simp [Except.map] at hc
    | ok ts =>
      rw [hs'] at hc
      simp only [Except.map, Except.ok.injEq] at hc
      subst hc
      have e := xresize_bufs hf pb.n pb.m pb.useBnd
      rw [← xsolve_bufs (t := ts.1) (xs' := ts.2) hs'] at e
      simp only [XState.bufs, State.bufs, List.cons_append, List.nil_append, List.cons.injEq, and_true] at e
      rw [e.2.1, e.2.2.1]; exact (h _ rfl).2
  | multipliers =>
    simp only [xcall] at hc
    split at hc
    · simp only [Except.ok.injEq] at hc
      subst hc
      show (multipliers xs.s).A.nbCstr + (multipliers xs.s).A.nbBnd < 2 ^ 31
      unfold multipliers; split <;> exact hs
    · simp at hc
  | resetActiveSet => simp only [xcall, Except.ok.injEq] at hc; subst hc; exact hs

/-- **C77, small problems, for the warm-started solver.** -/
theorem C77_xsmall (ar : IntArith) {cs : List (XCall K B)} (h : ∀ c ∈ cs, ∀ d, XCall.dims c = some d → SmallDims d) :
    xcallsI ar cs XState.empty = lift (xcalls cs XState.empty) := by
  have key : ∀ (cs : List (XCall K B)) {xs : XState K}, xs.Fits → xs.s.A.nbCstr + xs.s.A.nbBnd < 2 ^ 31 →
      (∀ c ∈ cs, ∀ d, XCall.dims c = some d → SmallDims d) → xcallsI ar cs xs = lift (xcalls cs xs) := by
    intro cs
    induction cs with
    | nil => intro s _ _ _; rfl
    | cons c cs ih =>
      intro xs hf hs h
      simp only [xcallsI, xcalls]
      rw [xcallI_eq ar hs c (h c (by simp))]
      cases hc : xcall xs c with
      | error e => rfl
      | ok s' => exact ih (xcall_bufs hf hc).1 (xcall_nbAll hf hs (h c (by simp)) hc) fun c' hc' => h c' (by simp [hc'])
  exact key cs xfits_empty (by show 0 + 0 < 2 ^ 31; norm_num) h

/-- **C77, overflow, for the warm-started solver.** -/
theorem C77_xoverflow (o : Opts K) {pb : Pb K B} {as : List Status} (ha : (as.length = pb.m + pb.nb ∨ as = []) ∧ (o.warmStart = true ∨ as = []))
    {xs : XState K} (hn : 46340 < pb.n) (hs : xs.s.nbVar ≠ pb.n) : xsolveI .trap o pb as xs = .error .overflow := by
  have h : IntArith.trap.ev ((pb.n : Int) * pb.n) = none := by
    have : 46341 * 46341 ≤ pb.n * pb.n := Nat.mul_le_mul hn hn
    rw [← Nat.cast_mul]
    generalize pb.n * pb.n = N at this
    simp only [IntArith.trap]
    rw [if_neg (by omega)]
  have h1 : resizeI .trap xs.s pb.n pb.m pb.useBnd = none := by
    unfold resizeI resizeI_
    rw [if_pos (Ne.symm hs), h]
    rfl
  unfold xsolveI xresizeI
  rw [if_pos ha, h1]
  rfl

theorem xresizeI_szJ {xs xs' : XState K} {n m : Nat} {b : Bool} (hs : xs.s.szJ < 2 ^ 31) (h : xresizeI .wrap xs n m b = some xs') :
    xs'.s.szJ < 2 ^ 31 ∧ xs'.s.nbVar = n := by
  obtain ⟨s1, h1, rfl⟩ := Option.map_eq_some_iff.1 h
  exact resizeI_szJ hs h1

theorem xcallI_szJ {xs xs' : XState K} (hs : xs.s.szJ < 2 ^ 31) {c : XCall K B} (h : xcallI .wrap xs c = .ok xs') : xs'.s.szJ < 2 ^ 31 := by
  cases c with
  | resize n m b =>
    simp only [xcallI] at h
    split at h
    · simp at h
    · rename_i s1 h1
      simp only [Except.ok.injEq] at h
      subst h
      exact (xresizeI_szJ hs h1).1
  | solve o pb as =>
    simp only [xcallI, xsolveI] at h
    split at h
    · split at h
      · simp [Except.map] at h
      · rename_i s1 h1
        have e1 := (xresizeI_szJ hs h1).1
        generalize hx : (if o.warmStart = true then { s1 with as := if as = [] then s1.s.A.status else as } else s1) = s2 at h
        have e2 : s2.s = s1.s := by rw [← hx]; split <;> rfl
        cases hd : xdualSolve o pb s2 with
        | error e => rw [hd] at h; simp [Except.map, lift] at h
        | ok ts =>
          rw [hd] at h
          simp only [Except.map, lift, Except.ok.injEq] at h
          subst h
          have e := xdualSolve_bufs (t := ts.1) (xs' := ts.2) hd
          simp only [XState.bufs, State.bufs, List.cons_append, List.nil_append, List.cons.injEq, and_true] at e
          rw [e.2.2.2.2.2.2.2.2.1, e2]
          exact e1
    · simp [Except.map] at h
  | multipliers =>
    simp only [xcallI] at h
    split at h
    · simp only [Except.ok.injEq] at h
      subst h
      show (multipliers xs.s).szJ < 2 ^ 31
      unfold multipliers; split <;> exact hs
    · simp at h
  | resetActiveSet => simp only [xcallI, Except.ok.injEq] at h; subst h; exact hs

theorem xcallsI_szJ : ∀ (cs : List (XCall K B)) {xs xs' : XState K}, xs.s.szJ < 2 ^ 31 → xcallsI .wrap cs xs = .ok xs' → xs'.s.szJ < 2 ^ 31 := by
  intro cs
  induction cs with
  | nil => intro s s' hs h; simp only [xcallsI, Except.ok.injEq] at h; subst h; exact hs
  | cons c cs ih =>
    intro s s' hs h
    simp only [xcallsI] at h
    split at h
    · simp at h
    · rename_i s1 h1
      exact ih (xcallI_szJ hs h1) h

/-- **C77, wrap-around, for the warm-started solver.** In the usual builds, after any history, `solve` with more than 46340 variables
never gives a point: it can only reject the Hessian or the number of equalities; otherwise it uses the buffer of `J` out of bounds. -/
theorem C77_xwrap {cs : List (XCall K B)} {xs : XState K} (h : xcallsI .wrap cs XState.empty = .ok xs) (o : Opts K) {pb : Pb K B}
    {as : List Status} (hn : 46340 < pb.n) {t : Term} {xs' : XState K} (hs : xsolveI .wrap o pb as xs = .ok (t, xs')) :
    t = .nonPosHessian ∨ t = .overconstrainedProblem := by
  have hJ := xcallsI_szJ cs (by show 0 < 2 ^ 31; norm_num) h
  have hlt : 46341 * 46341 ≤ pb.n * pb.n := Nat.mul_le_mul hn hn
  unfold xsolveI at hs
  split at hs
  · split at hs
    · simp at hs
    · rename_i s1 h1
      obtain ⟨e1, e2⟩ := xresizeI_szJ hJ h1
      generalize hx : (if o.warmStart = true then { s1 with as := if as = [] then s1.s.A.status else as } else s1) = s2 at hs
      have e3 : s2.s = s1.s := by rw [← hx]; split <;> rfl
      rw [← e3] at e1 e2
      unfold xdualSolve at hs
      have f1 : ({ s2 with s := preInit o s2.s } : XState K).s.nbVar = pb.n := e2
      have f2 : ({ s2 with s := preInit o s2.s } : XState K).s.szJ < 2 ^ 31 := e1
      generalize ({ s2 with s := preInit o s2.s } : XState K) = s3 at f1 f2 hs
      cases hi : xinit o pb s3 with
      | error e => rw [hi] at hs; simp [lift] at hs
      | ok ti =>
        obtain ⟨ti, s4⟩ := ti
        rw [hi] at hs
        have ht : ti = .nonPosHessian ∨ ti = .overconstrainedProblem := by
          unfold xinit at hi
          simp only [] at hi
          generalize (if o.dbg = true then fun _ _ => 0 else s3.s.R : Nat → Nat → K) = R0 at hi
          split at hi
          · split at hi
            · simp at hi
            · rename_i t1 A hA
              split at hi
              · rename_i hne
                simp only [Except.ok.injEq, Prod.mk.injEq] at hi
                rw [← hi.1]
                right
                unfold processInitial at hA
                simp only [] at hA
                split at hA
                · simp at hA
                · split at hA
                  · simp at hA
                  · split at hA
                    · split at hA
                      · simp only [Except.ok.injEq, Prod.mk.injEq] at hA; exact hA.1.symm
                      · split at hA
                        · simp at hA
                        · simp only [Except.ok.injEq, Prod.mk.injEq] at hA; exact absurd hA.1.symm hne
                    · simp only [Except.ok.injEq, Prod.mk.injEq] at hA; exact absurd hA.1.symm hne
              · split at hi
                · simp only [Except.ok.injEq, Prod.mk.injEq] at hi; exact .inl hi.1.symm
                · split at hi
                  · rename_i hok
                    exfalso
                    unfold initDataOk at hok
                    simp only [Bool.and_eq_true, decide_eq_true_eq, f1] at hok
                    have := hok.1.1.1.1.2
                    generalize pb.n * pb.n = N at hlt this
                    omega
                  · simp at hi
          · simp at hi
        dsimp only at hs
        rw [if_pos (by rcases ht with rfl | rfl <;> simp)] at hs
        cases hm : terminate o ti s4.s with
        | error e => rw [hm] at hs; simp [lift] at hs
        | ok ts =>
          rw [hm] at hs
          simp only [lift, Except.ok.injEq, Prod.mk.injEq] at hs
          rw [← hs.1]
          have : ts.1 = ti := by
            unfold terminate at hm
            rcases ht with rfl | rfl <;> simp at hm
            · rw [← hm]
            · split at hm
              · simp at hm
              · simp only [Except.ok.injEq] at hm; rw [← hm]
          rw [this]; exact ht
  · simp at hs

/-! ## Examples -/

/-- A history: a problem with 3 variables, 2 constraints and bounds, then one with 4 variables and no bounds. -/
example : ∃ s : State ℝ, calls ([.resize 3 2 true, .resize 4 0 false, .resetActiveSet] : List (Call ℝ EReal)) State.empty = .ok s ∧
    s.memory = [4, 4, 4, 5, 5, 16, 16] := by
  refine ⟨_, rfl, ?_⟩
  rw [C76_memory (B := EReal) (cs := [.resize 3 2 true, .resize 4 0 false, .resetActiveSet]) rfl]
  rfl

/-- Hypotheses of `C76_xno_growth` met by warm-started solves of `exPbW`: after any history that starts with a solver constructed for
5 variables, 3 constraints and bounds, the solve returns the minimiser and does not change the buffers. -/
example : ∃ o : Opts ℝ, ∀ cs : List (XCall ℝ EReal), (∀ c ∈ cs, c.Admissible) → ∃ xs xs',
    xcalls (.resize 5 3 true :: cs) (XState.empty : XState ℝ) = .ok xs ∧ xcall xs (.solve o exPbW exAs) = .ok xs' ∧ xs'.memory = xs.memory := by
  obtain ⟨o, -, h⟩ := exPbW_solved
  refine ⟨o, fun cs hcs => ?_⟩
  obtain ⟨xs, xs', h1, h2, -⟩ := h (.resize 5 3 true :: cs) (by
    intro c hc
    rcases List.mem_cons.1 hc with rfl | hc
    · trivial
    · exact hcs c hc)
  have h3 : xcall xs (XCall.solve o exPbW exAs) = .ok xs' := by simp only [xcall, h2]; rfl
  refine ⟨xs, xs', h1, h3, ?_⟩
  exact C76_xno_growth h1 (c := .solve o exPbW exAs) rfl (List.mem_cons_self ..) rfl (List.mem_cons_self ..) rfl (by decide) (by decide) h3

/-- `min ½ xᵀx` without constraints, for `n` variables. -/
noncomputable def exBig (n : Nat) : Pb ℝ EReal :=
  ⟨n, 0, false, fun i j => if i = j then 1 else 0, fun _ => 0, fun _ _ => 0, fun _ => 0, fun _ => 0, fun _ => 0, fun _ => 0⟩

/-- With 46341 variables a new solver writes out of bounds, although the problem is `min ½ xᵀx`; with 65536 variables its buffer
for `J` is empty. -/
example (o : Opts ℝ) : solveI .wrap o (exBig 46341) State.empty = .error (.fault .outOfBounds) ∧
    (∃ s, resizeI .wrap (State.empty : State ℝ) 65536 0 false = some s ∧ s.szJ = 0 ∧ s.nbVar = 65536) ∧
    solveI .trap o (exBig 46341) State.empty = .error .overflow :=
  ⟨C77_wrap (cs := []) rfl o (by show 46340 < 46341; norm_num) (cholOk_of_posDefN (posDef_id fun _ _ => rfl)),
    ⟨_, rfl, rfl, rfl⟩, C77_overflow o (by show 46340 < 46341; norm_num) (by show 0 ≠ 46341; norm_num)⟩

/-- With 46340 variables, the sizes are right. -/
example (ar : IntArith) (o : Opts ℝ) : solveI ar o (exBig 46340) State.empty = lift (solve o (exBig 46340) State.empty) :=
  solveI_eq ar (by show 0 + 0 < 2 ^ 31; norm_num) o ⟨le_rfl, by show 0 + 0 < 2 ^ 31; norm_num⟩

end JrlQp
