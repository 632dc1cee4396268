import Verif.PropsSizes

/-!
# `int` arithmetic on the sizes

The sizes are computed with `int`: `rows * cols` (include/jrl-qp/internal/Workspace.h:29, :52-55) and `nbCstr + nbBnd`
(src/DualSolver.cpp:260, :267-268; include/jrl-qp/internal/ActiveSet.h:108-111). The model of the solvers uses natural numbers; this
file models `resize` again, with the sizes computed by an arbitrary implementation of `int`, and relates the two.

Simplification: the sizes of the arguments are those of matrices with less than `2^31` rows and columns, so that the casts to `int` of
src/GoldfarbIdnaniSolver.cpp:26-27 are exact.
-/

namespace JrlQp

open NumOps

variable {K B : Type} [Zero K] [One K] [Add K] [Sub K] [Neg K] [Mul K] [Div K] [NumOps K B] [SumOps K]

/-- An implementation of `int` on 32 bits: value of an expression, given its mathematical value. It is exact when the value fits;
otherwise the behaviour is not defined by C++. `none` stands for a trap. -/
structure IntArith where
  ev : Int → Option Int
  exact : ∀ x, -2 ^ 31 ≤ x → x < 2 ^ 31 → ev x = some x

/-- Overflow stops the program (`-ftrapv`, undefined behaviour sanitizer). -/
def IntArith.trap : IntArith := ⟨fun x => if -2 ^ 31 ≤ x ∧ x < 2 ^ 31 then some x else none, fun x h1 h2 => if_pos ⟨h1, h2⟩⟩

/-- Overflow wraps around, as in the usual builds. -/
def IntArith.wrap : IntArith := ⟨fun x => some (x.bmod (2 ^ 32)), fun x h1 h2 => by
  rw [Int.bmod_eq_of_le] <;> omega⟩

/-- `Workspace::resize(int size)` with `fit = false`, include/jrl-qp/internal/Workspace.h:37-43. The size is compared with the size of
the buffer, which has 64 bits. -/
def wsResizeI (size : Nat) (want : Int) : Nat := if want > (size : Int) then want.toNat else size

/-- `GoldfarbIdnaniSolver::resize_`, src/GoldfarbIdnaniSolver.cpp:258-266, with `Workspace::resize(int rows, int cols)`,
include/jrl-qp/internal/Workspace.h:52-55. -/
def resizeI_ (ar : IntArith) (s : State K) (nbVar : Nat) : Option (State K) :=
  if nbVar ≠ s.nbVar then
    (ar.ev (nbVar * nbVar)).map fun n2 => { s with szD := wsResizeI s.szD nbVar, szJ := wsResizeI s.szJ n2, szRm := wsResizeI s.szRm n2 }
  else some s

/-- `DualSolver::resize_p`, src/DualSolver.cpp:251-274; `nbAll()`, include/jrl-qp/internal/ActiveSet.h:108-111. `ActiveSet::resize`
adds the sizes with `size_t` (src/internal/ActiveSet.cpp:35). -/
def resizePI (ar : IntArith) (s : State K) (nbVar nbCstr : Nat) (useBounds : Bool) : Option (State K) :=
  let s := if nbVar ≠ s.nbVar then
      { s with nbVar := nbVar, szX := wsResizeI s.szX nbVar, szZ := wsResizeI s.szZ nbVar } else s
  let nbBnd := if useBounds then nbVar else 0
  (ar.ev (nbCstr + nbBnd)).bind fun c =>
  (ar.ev (s.A.nbCstr + s.A.nbBnd)).map fun all =>
    let s := if c ≠ all then { s with szU := wsResizeI s.szU c, szR := wsResizeI s.szR c } else s
    if nbCstr ≠ s.A.nbCstr ∨ nbBnd ≠ s.A.nbBnd then { s with A := s.A.resize nbCstr nbBnd } else s

/-- `DualSolver::resize`, src/DualSolver.cpp:18-24. -/
def resizeI (ar : IntArith) (s : State K) (nbVar nbCstr : Nat) (useBounds : Bool) : Option (State K) :=
  (resizeI_ ar s nbVar).bind fun s => resizePI ar s nbVar nbCstr useBounds

/-- What can go wrong: an overflow that is trapped, or one of the faults of the model. -/
inductive IFault
  | overflow
  | fault (f : Fault)
  deriving DecidableEq

/-- `GoldfarbIdnaniSolver::solve`, src/GoldfarbIdnaniSolver.cpp:18-54. -/
def solveI (ar : IntArith) (o : Opts K) (pb : Pb K B) (s : State K) : Except IFault (Term × State K) :=
  match resizeI ar s pb.n pb.m pb.useBnd with
  | none => .error .overflow
  | some s =>
    match dualSolve (init_ o pb) o pb s with
    | .error e => .error (.fault e)
    | .ok ts => .ok ts

/-- The calls, as in `call`. -/
def callI (ar : IntArith) (s : State K) : Call K B → Except IFault (State K)
  | .resize n m b =>
    match resizeI ar s n m b with
    | none => .error .overflow
    | some s => .ok s
  | .solve o pb => (solveI ar o pb s).map Prod.snd
  | .multipliers =>
    if decide (s.A.nbAll ≤ s.szU) && decide (s.A.q ≤ s.szR) then .ok (multipliers s) else .error (.fault .outOfBounds)
  | .resetActiveSet => .ok (resetActiveSet s)

/-- A sequence of calls. -/
def callsI (ar : IntArith) : List (Call K B) → State K → Except IFault (State K)
  | [], s => .ok s
  | c :: cs, s =>
    match callI ar s c with
    | .error e => .error e
    | .ok s => callsI ar cs s

/-! ## Specification -/

/-- The outcome of the model, as an outcome of the program with `int`. -/
def lift {α : Type} : Except Fault α → Except IFault α
  | .error e => .error (.fault e)
  | .ok a => .ok a

/-- Specification: the sizes are small enough: at most 46340 variables (`46340 * 46340 < 2^31`), less than `2^31` constraints and bounds. -/
def SmallDims (d : Nat × Nat × Nat) : Prop := d.1 ≤ 46340 ∧ d.2.1 + d.2.2 < 2 ^ 31

/-! ## Small sizes -/

theorem wsResizeI_nat (a b : Nat) : wsResizeI a (b : Int) = wsResize a b := by
  unfold wsResizeI wsResize
  by_cases h : b > a
  · rw [if_pos h, if_pos (by omega)]; rfl
  · rw [if_neg h, if_neg (by omega)]

theorem resizeI_eq (ar : IntArith) {s : State K} (hs : s.A.nbCstr + s.A.nbBnd < 2 ^ 31) {n m : Nat} {b : Bool}
    (h : SmallDims (n, m, if b then n else 0)) : resizeI ar s n m b = some (resize s n m b) := by
  obtain ⟨h1, h2⟩ := h
  simp only at h1 h2
  have hn : ar.ev ((n : Int) * n) = some ((n * n : Nat) : Int) := by
    have : n * n ≤ 46340 * 46340 := Nat.mul_le_mul h1 h1
    rw [← Nat.cast_mul]
    exact ar.exact _ (by omega) (by omega)
  have hm : ar.ev ((m : Int) + ((if b then n else 0 : Nat) : Int)) = some ((m + if b then n else 0 : Nat) : Int) := by
    rw [← Nat.cast_add]
    exact ar.exact _ (by omega) (by omega)
  have ha : ar.ev ((s.A.nbCstr : Int) + (s.A.nbBnd : Int)) = some ((s.A.nbAll : Nat) : Int) := by
    rw [← Nat.cast_add]
    exact ar.exact _ (by omega) (by omega)
  unfold resizeI resizeI_ resize resize_
  rw [hn]
  simp only [Option.map_some, wsResizeI_nat]
  have key : ∀ s1 : State K, s1.A = s.A → resizePI ar s1 n m b = some (resizeP s1 n m b) := by
    intro s1 e
    unfold resizePI resizeP
    simp only [wsResizeI_nat]
    have e2 : (if n ≠ s1.nbVar then { s1 with nbVar := n, szX := wsResize s1.szX n, szZ := wsResize s1.szZ n } else s1).A = s.A := by
      split <;> exact e
    rw [hm, e2, ha]
    simp only [Option.bind_some, Option.map_some, wsResizeI_nat, ne_eq, Nat.cast_inj]
  split
  · rw [Option.bind_some, key]; rfl
  · rw [Option.bind_some, key]; rfl

theorem solveI_eq (ar : IntArith) {s : State K} (hs : s.A.nbCstr + s.A.nbBnd < 2 ^ 31) (o : Opts K) {pb : Pb K B}
    (h : SmallDims (pb.n, pb.m, pb.nb)) : solveI ar o pb s = lift (solve o pb s) := by
  unfold solveI solve
  rw [resizeI_eq ar hs (b := pb.useBnd) h]
  dsimp only
  generalize dualSolve (init_ o pb) o pb (resize s pb.n pb.m pb.useBnd) = e
  cases e <;> rfl

theorem callI_eq (ar : IntArith) {s : State K} (hs : s.A.nbCstr + s.A.nbBnd < 2 ^ 31) (c : Call K B)
    (h : ∀ d, Call.dims c = some d → SmallDims d) : callI ar s c = lift (call s c) := by
  cases c with
  | resize n m b => simp only [callI, call]; rw [resizeI_eq ar hs (h _ rfl)]; rfl
  | solve o pb =>
    simp only [callI, call]
    rw [solveI_eq ar hs o (h _ rfl)]
    cases solve o pb s <;> rfl
  | multipliers => simp only [callI, call]; split <;> rfl
  | resetActiveSet => rfl

theorem call_nbAll {s s' : State K} (hf : s.Fits) (hs : s.A.nbCstr + s.A.nbBnd < 2 ^ 31) {c : Call K B}
    (h : ∀ d, Call.dims c = some d → SmallDims d) (hc : call s c = .ok s') : s'.A.nbCstr + s'.A.nbBnd < 2 ^ 31 := by
  cases c with
  | resize n m b =>
    simp only [call, Except.ok.injEq] at hc
    subst hc
    have e := resize_bufs hf n m b
    simp only [State.bufs, List.cons.injEq, and_true] at e
    rw [e.2.1, e.2.2.1]; exact (h _ rfl).2
  | solve o pb =>
    simp only [call] at hc
    cases hs' : solve o pb s with
    | error e => rw [hs'] at hc; simp [Except.map] at hc
    | ok ts =>
      rw [hs'] at hc
      simp only [Except.map, Except.ok.injEq] at hc
      subst hc
      have e := resize_bufs hf pb.n pb.m pb.useBnd
      rw [← solve_bufs (t := ts.1) (s' := ts.2) hs'] at e
      simp only [State.bufs, List.cons.injEq, and_true] at e
      rw [e.2.1, e.2.2.1]; exact (h _ rfl).2
  | multipliers =>
    simp only [call] at hc
    split at hc
    · simp only [Except.ok.injEq] at hc
      subst hc
      unfold multipliers; split <;> exact hs
    · simp at hc
  | resetActiveSet => simp only [call, Except.ok.injEq] at hc; subst hc; exact hs

theorem callsI_eq (ar : IntArith) : ∀ (cs : List (Call K B)) {s : State K}, s.Fits → s.A.nbCstr + s.A.nbBnd < 2 ^ 31 →
    (∀ c ∈ cs, ∀ d, Call.dims c = some d → SmallDims d) → callsI ar cs s = lift (calls cs s) := by
  intro cs
  induction cs with
  | nil => intro s _ _ _; rfl
  | cons c cs ih =>
    intro s hf hs h
    simp only [callsI, calls]
    rw [callI_eq ar hs c (h c (by simp))]
    cases hc : call s c with
    | error e => rfl
    | ok s' =>
      exact ih (call_bufs hf hc).1 (call_nbAll hf hs (h c (by simp)) hc) fun c' hc' => h c' (by simp [hc'])

/-- **C77, small problems.** For all histories of calls with at most 46340 variables and less than `2^31` constraints and bounds, the
sizes computed with `int` are exact: whatever the implementation does on overflow, the solver goes through the states of the model. -/
theorem C77_small (ar : IntArith) {cs : List (Call K B)} (h : ∀ c ∈ cs, ∀ d, Call.dims c = some d → SmallDims d) :
    callsI ar cs State.empty = lift (calls cs State.empty) :=
  callsI_eq ar cs fits_empty (by show 0 + 0 < 2 ^ 31; norm_num) h

/-! ## Large sizes -/

/-- **C77, overflow.** With more than 46340 variables, the first solve of a solver that had another number of variables overflows. -/
theorem C77_overflow (o : Opts K) {pb : Pb K B} {s : State K} (hn : 46340 < pb.n) (hs : s.nbVar ≠ pb.n) :
    solveI .trap o pb s = .error .overflow := by
  have h : IntArith.trap.ev ((pb.n : Int) * pb.n) = none := by
    have : 46341 * 46341 ≤ pb.n * pb.n := Nat.mul_le_mul hn hn
    rw [← Nat.cast_mul]
    generalize pb.n * pb.n = N at this
    simp only [IntArith.trap]
    rw [if_neg (by omega)]
  unfold solveI resizeI resizeI_
  rw [if_pos (Ne.symm hs), h]
  rfl

/-- The sizes of the matrix buffers are values of `int`. -/
theorem wrap_lt (x : Int) : ∀ y, IntArith.wrap.ev x = some y → y < 2 ^ 31 := by
  intro y h
  simp only [IntArith.wrap, Option.some.injEq] at h
  have := Int.bmod_lt (x := x) (m := 2 ^ 32) (by norm_num)
  omega

theorem resizeI_szJ {s s' : State K} {n m : Nat} {b : Bool} (hs : s.szJ < 2 ^ 31) (h : resizeI .wrap s n m b = some s') :
    s'.szJ < 2 ^ 31 ∧ s'.nbVar = n := by
  unfold resizeI at h
  obtain ⟨s1, h1, h2⟩ := Option.bind_eq_some_iff.1 h
  have e1 : s1.szJ < 2 ^ 31 ∧ s1.nbVar = s.nbVar := by
    unfold resizeI_ at h1
    split at h1
    · obtain ⟨n2, h3, rfl⟩ := Option.map_eq_some_iff.1 h1
      refine ⟨?_, rfl⟩
      have := wrap_lt _ _ h3
      show wsResizeI s.szJ n2 < 2 ^ 31
      unfold wsResizeI
      split <;> omega
    · simp only [Option.some.injEq] at h1; subst h1; exact ⟨hs, rfl⟩
  unfold resizePI at h2
  simp only [] at h2
  obtain ⟨c, -, h3⟩ := Option.bind_eq_some_iff.1 h2
  obtain ⟨all, -, rfl⟩ := Option.map_eq_some_iff.1 h3
  generalize (if b then n else 0) = nb
  have e2 : ∀ s2 : State K, s2.szJ < 2 ^ 31 ∧ s2.nbVar = n →
      ((if m ≠ s2.A.nbCstr ∨ nb ≠ s2.A.nbBnd then { s2 with A := s2.A.resize m nb } else s2).szJ < 2 ^ 31 ∧
       (if m ≠ s2.A.nbCstr ∨ nb ≠ s2.A.nbBnd then { s2 with A := s2.A.resize m nb } else s2).nbVar = n) := by
    intro s2 h
    split <;> exact h
  apply e2
  have e3 : ∀ s2 : State K, s2.szJ < 2 ^ 31 ∧ s2.nbVar = n →
      ((if c ≠ all then { s2 with szU := wsResizeI s2.szU c, szR := wsResizeI s2.szR c } else s2).szJ < 2 ^ 31 ∧
       (if c ≠ all then { s2 with szU := wsResizeI s2.szU c, szR := wsResizeI s2.szR c } else s2).nbVar = n) := by
    intro s2 h
    split <;> exact h
  apply e3
  split
  · exact ⟨e1.1, rfl⟩
  · rename_i e
    exact ⟨e1.1, (not_not.1 e).symm⟩

theorem callI_szJ {s s' : State K} (hs : s.szJ < 2 ^ 31) {c : Call K B} (h : callI .wrap s c = .ok s') : s'.szJ < 2 ^ 31 := by
  cases c with
  | resize n m b =>
    simp only [callI] at h
    split at h
    · simp at h
    · rename_i s1 h1
      simp only [Except.ok.injEq] at h
      subst h
      exact (resizeI_szJ hs h1).1
  | solve o pb =>
    simp only [callI, solveI] at h
    split at h
    · simp [Except.map] at h
    · rename_i s1 h1
      cases hd : dualSolve (init_ o pb) o pb s1 with
      | error e => rw [hd] at h; simp [Except.map] at h
      | ok ts =>
        rw [hd] at h
        simp only [Except.map, Except.ok.injEq] at h
        subst h
        have e := dualSolve_bufs (t := ts.1) (s' := ts.2) hd
        simp only [State.bufs, List.cons.injEq, and_true] at e
        rw [e.2.2.2.2.2.2.2.2.1]
        exact (resizeI_szJ hs h1).1
  | multipliers =>
    simp only [callI] at h
    split at h
    · simp only [Except.ok.injEq] at h
      subst h
      unfold multipliers; split <;> exact hs
    · simp at h
  | resetActiveSet => simp only [callI, Except.ok.injEq] at h; subst h; exact hs

theorem callsI_szJ : ∀ (cs : List (Call K B)) {s s' : State K}, s.szJ < 2 ^ 31 → callsI .wrap cs s = .ok s' → s'.szJ < 2 ^ 31 := by
  intro cs
  induction cs with
  | nil => intro s s' hs h; simp only [callsI, Except.ok.injEq] at h; subst h; exact hs
  | cons c cs ih =>
    intro s s' hs h
    simp only [callsI] at h
    split at h
    · simp at h
    · rename_i s1 h1
      exact ih (callI_szJ hs h1) h

/-- **C77, wrap-around.** In the usual builds, after any history, `solve` with more than 46340 variables and a Hessian that can be
factorised writes outside of the buffer of `J`. (Smallest sizes that pass unnoticed elsewhere: for `65536` variables the product is 0.) -/
theorem C77_wrap {cs : List (Call K B)} {s : State K} (h : callsI .wrap cs State.empty = .ok s) (o : Opts K) {pb : Pb K B}
    (hn : 46340 < pb.n) (hg : cholOk pb) : solveI .wrap o pb s = .error (.fault .outOfBounds) := by
  have hs := callsI_szJ cs (by show 0 < 2 ^ 31; norm_num) h
  have hr : ∃ s1, resizeI .wrap s pb.n pb.m pb.useBnd = some s1 := by
    unfold resizeI resizeI_
    split
    · exact ⟨_, rfl⟩
    · exact ⟨_, rfl⟩
  obtain ⟨s1, h1⟩ := hr
  obtain ⟨e1, e2⟩ := resizeI_szJ hs h1
  have hlt : 46341 * 46341 ≤ pb.n * pb.n := Nat.mul_le_mul hn hn
  have hi : init_ o pb (preInit o s1) = .error .outOfBounds := by
    have f1 : (preInit o s1).nbVar = pb.n := e2
    have f2 : (preInit o s1).szJ < 2 ^ 31 := e1
    generalize preInit o s1 = s2 at f1 f2
    unfold cholOk at hg
    have g1 : decide (s2.nbVar ≤ pb.n) = true := by rw [f1]; simp
    have g2 : (chol s2.nbVar pb.G s2.nbVar).2.isSome = false := by rw [f1, hg]; rfl
    have g3 : (decide (s2.nbVar * s2.nbVar ≤ s2.szJ) && decide (s2.nbVar ≤ s2.szX)) = false := by
      rw [f1, show decide (pb.n * pb.n ≤ s2.szJ) = false by rw [decide_eq_false_iff_not]; generalize pb.n * pb.n = N at hlt ⊢; omega]
      rfl
    unfold init_
    rw [g1, if_pos rfl]
    simp only [g2, g3, Bool.false_eq_true, if_false]
  unfold solveI dualSolve
  rw [h1]
  simp only [hi]

end JrlQp
