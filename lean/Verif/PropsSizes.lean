import Verif.Sizes

/-!
# C76: the buffers have the sizes of the largest problem so far
-/

namespace JrlQp

open NumOps

variable {K B : Type} [Zero K] [One K] [Add K] [Sub K] [Neg K] [Mul K] [Div K] [NumOps K B] [SumOps K]

/-- The buffers are large enough for the current sizes. -/
structure State.Fits (s : State K) : Prop where
  x : s.nbVar ≤ s.szX
  z : s.nbVar ≤ s.szZ
  u : s.A.nbCstr + s.A.nbBnd ≤ s.szU
  r : s.A.nbCstr + s.A.nbBnd ≤ s.szR
  d : s.nbVar ≤ s.szD
  J : s.nbVar * s.nbVar ≤ s.szJ
  R : s.nbVar * s.nbVar ≤ s.szRm

theorem State.Fits.of_bufs {s s' : State K} (h : s.Fits) (e : s'.bufs = s.bufs) : s'.Fits := by
  simp only [State.bufs, List.cons.injEq, and_true] at e
  obtain ⟨e1, e2, e3, e4, e5, e6, e7, e8, e9, e10⟩ := e
  constructor <;> simp only [e1, e2, e3, e4, e5, e6, e7, e8, e9, e10]
  exacts [h.x, h.z, h.u, h.r, h.d, h.J, h.R]

theorem wsResize_eq (a b : Nat) : wsResize a b = max a b := by
  unfold wsResize; split <;> omega

theorem resize_bufs {s : State K} (h : s.Fits) (n m : Nat) (b : Bool) : (resize s n m b).bufs =
    [n, m, if b then n else 0, max s.szX n, max s.szZ n, max s.szU (m + if b then n else 0), max s.szR (m + if b then n else 0),
      max s.szD n, max s.szJ (n * n), max s.szRm (n * n)] := by
  obtain ⟨h1, h2, h3, h4, h5, h6, h7⟩ := h
  unfold resize resizeP resize_
  generalize (if b then n else 0) = nb
  simp only [wsResize_eq]
  by_cases e1 : n = s.nbVar
  · subst e1
    by_cases e2 : m + nb = s.A.nbCstr + s.A.nbBnd
    · by_cases e3 : m ≠ s.A.nbCstr ∨ nb ≠ s.A.nbBnd
      · simp [State.bufs, ActiveSet.nbAll, ActiveSet.resize, ActiveSet.reset, e2, e3, *]
      · rw [not_or, not_not, not_not] at e3
        obtain ⟨rfl, rfl⟩ := e3
        simp [State.bufs, ActiveSet.nbAll, *]
    · have e3 : m ≠ s.A.nbCstr ∨ nb ≠ s.A.nbBnd := by
        by_contra hc; rw [not_or, not_not, not_not] at hc; apply e2; rw [hc.1, hc.2]
      simp [State.bufs, ActiveSet.nbAll, ActiveSet.resize, ActiveSet.reset, e2, e3, *]
  · by_cases e2 : m + nb = s.A.nbCstr + s.A.nbBnd
    · by_cases e3 : m ≠ s.A.nbCstr ∨ nb ≠ s.A.nbBnd
      · simp [State.bufs, ActiveSet.nbAll, ActiveSet.resize, ActiveSet.reset, e1, e2, e3, *]
      · rw [not_or, not_not, not_not] at e3
        obtain ⟨rfl, rfl⟩ := e3
        simp [State.bufs, ActiveSet.nbAll, e1, *]
    · have e3 : m ≠ s.A.nbCstr ∨ nb ≠ s.A.nbBnd := by
        by_contra hc; rw [not_or, not_not, not_not] at hc; apply e2; rw [hc.1, hc.2]
      simp [State.bufs, ActiveSet.nbAll, ActiveSet.resize, ActiveSet.reset, e1, e2, e3, *]

theorem Fits.resize {s : State K} (h : s.Fits) (n m : Nat) (b : Bool) : (resize s n m b).Fits := by
  have e := resize_bufs h n m b
  simp only [State.bufs, List.cons.injEq, and_true] at e
  obtain ⟨e1, e2, e3, e4, e5, e6, e7, e8, e9, e10⟩ := e
  constructor <;> simp only [e1, e2, e3, e4, e5, e6, e7, e8, e9, e10] <;> exact le_max_right _ _

/-! ## Specification -/

/-- Specification: the sizes (variables, general constraints, bounds) a call asks for. -/
def Call.dims : Call K B → Option (Nat × Nat × Nat)
  | .resize n m b => some (n, m, if b then n else 0)
  | .solve _ pb => some (pb.n, pb.m, pb.nb)
  | _ => none

/-- Specification: the largest value of a size over the calls made so far. -/
def largest (f : Nat × Nat × Nat → Nat) (cs : List (Call K B)) : Nat := ((cs.filterMap Call.dims).map f).foldr max 0

/-- Specification: the memory of the solver: `work_x_`, `work_z_`, `work_d_`, `work_u_`, `work_r_`, `work_J_`, `work_R_`. -/
def State.memory (s : State K) : List Nat := [s.szX, s.szZ, s.szD, s.szU, s.szR, s.szJ, s.szRm]

/-- The memory for `n` variables, `c` constraints and bounds, `n2` coefficients of a square matrix. -/
def memoryFor (n c n2 : Nat) : List Nat := [n, n, n, c, c, n2, n2]

theorem memory_of_bufs {s s' : State K} (e : s'.bufs = s.bufs) : s'.memory = s.memory := by
  simp only [State.bufs, List.cons.injEq, and_true] at e
  obtain ⟨e1, e2, e3, e4, e5, e6, e7, e8, e9, e10⟩ := e
  simp only [State.memory, e4, e5, e6, e7, e8, e9, e10]

theorem call_bufs {s s' : State K} (h : s.Fits) {c : Call K B} (hc : call s c = .ok s') : s'.Fits ∧
    match Call.dims c with
    | some d => s'.memory = [max s.szX d.1, max s.szZ d.1, max s.szD d.1, max s.szU (d.2.1 + d.2.2), max s.szR (d.2.1 + d.2.2),
        max s.szJ (d.1 * d.1), max s.szRm (d.1 * d.1)]
    | none => s'.memory = s.memory := by
  cases c with
  | resize n m b =>
    simp only [call, Except.ok.injEq] at hc
    subst hc
    refine ⟨Fits.resize h n m b, ?_⟩
    have e := resize_bufs h n m b
    simp only [State.bufs, List.cons.injEq, and_true] at e
    obtain ⟨e1, e2, e3, e4, e5, e6, e7, e8, e9, e10⟩ := e
    simp only [Call.dims, State.memory, e4, e5, e6, e7, e8, e9, e10]
  | solve o pb =>
    simp only [call] at hc
    cases hs : solve o pb s with
    | error e => rw [hs] at hc; simp [Except.map] at hc
    | ok ts =>
      rw [hs] at hc
      simp only [Except.map, Except.ok.injEq] at hc
      subst hc
      have e0 := solve_bufs (t := ts.1) (s' := ts.2) hs
      refine ⟨(Fits.resize h pb.n pb.m pb.useBnd).of_bufs e0, ?_⟩
      have e := resize_bufs h pb.n pb.m pb.useBnd
      rw [← e0] at e
      simp only [State.bufs, List.cons.injEq, and_true] at e
      obtain ⟨e1, e2, e3, e4, e5, e6, e7, e8, e9, e10⟩ := e
      simp only [Call.dims, State.memory, e4, e5, e6, e7, e8, e9, e10, Pb.nb]
  | multipliers =>
    simp only [call] at hc
    split at hc
    · simp only [Except.ok.injEq] at hc
      subst hc
      have e : (multipliers s).bufs = s.bufs := by unfold multipliers; split <;> rfl
      exact ⟨h.of_bufs e, memory_of_bufs e⟩
    · simp at hc
  | resetActiveSet =>
    simp only [call, Except.ok.injEq] at hc
    subst hc
    exact ⟨h.of_bufs (s' := resetActiveSet s) rfl, rfl⟩

theorem largest_cons (f : Nat × Nat × Nat → Nat) (c : Call K B) (cs : List (Call K B)) :
    largest f (c :: cs) = match Call.dims c with
      | some d => max (f d) (largest f cs)
      | none => largest f cs := by
  unfold largest
  cases h : Call.dims c <;> simp [List.filterMap_cons, h]

theorem calls_memory : ∀ (cs : List (Call K B)) {s s' : State K}, s.Fits → calls cs s = .ok s' → s'.Fits ∧
    s'.memory = [max s.szX (largest (·.1) cs), max s.szZ (largest (·.1) cs), max s.szD (largest (·.1) cs),
      max s.szU (largest (fun d => d.2.1 + d.2.2) cs), max s.szR (largest (fun d => d.2.1 + d.2.2) cs),
      max s.szJ (largest (fun d => d.1 * d.1) cs), max s.szRm (largest (fun d => d.1 * d.1) cs)] := by
  intro cs
  induction cs with
  | nil =>
    intro s s' h hc
    simp only [calls, Except.ok.injEq] at hc
    subst hc
    exact ⟨h, by simp [largest, State.memory]⟩
  | cons c cs ih =>
    intro s s' h hc
    simp only [calls] at hc
    split at hc
    · simp at hc
    · rename_i s1 h1
      obtain ⟨f1, e1⟩ := call_bufs h h1
      obtain ⟨f2, e2⟩ := ih f1 hc
      refine ⟨f2, e2.trans ?_⟩
      simp only [largest_cons]
      cases hd : Call.dims c with
      | none =>
        rw [hd] at e1
        simp only [State.memory, List.cons.injEq, and_true] at e1
        obtain ⟨g1, g2, g3, g4, g5, g6, g7⟩ := e1
        simp only [g1, g2, g3, g4, g5, g6, g7]
      | some d =>
        rw [hd] at e1
        simp only [State.memory, List.cons.injEq, and_true] at e1
        obtain ⟨g1, g2, g3, g4, g5, g6, g7⟩ := e1
        simp only [g1, g2, g3, g4, g5, g6, g7, max_assoc]

theorem fits_empty : (State.empty : State K).Fits := by
  constructor <;> exact Nat.zero_le _

/-- **C76, memory of the solver.** After any history of calls on a default-constructed solver (the constructor with sizes is
`resize`), each buffer has exactly the size needed by the largest problem so far: the largest number of variables, of constraints
and bounds, of coefficients of a square matrix of variables. -/
theorem C76_memory {cs : List (Call K B)} {s : State K} (h : calls cs State.empty = .ok s) :
    s.memory = memoryFor (largest (·.1) cs) (largest (fun d => d.2.1 + d.2.2) cs) (largest (fun d => d.1 * d.1) cs) := by
  rw [(calls_memory cs fits_empty h).2]
  simp [State.empty, memoryFor]

theorem le_largest {f : Nat × Nat × Nat → Nat} {cs : List (Call K B)} {c : Call K B} (hc : c ∈ cs) {d : Nat × Nat × Nat}
    (hd : Call.dims c = some d) : f d ≤ largest f cs := by
  induction cs with
  | nil => simp at hc
  | cons c' cs ih =>
    rw [largest_cons]
    rcases List.mem_cons.1 hc with rfl | hc
    · rw [hd]; exact le_max_left _ _
    · cases Call.dims c' with
      | none => exact ih hc
      | some d' => exact (ih hc).trans (le_max_right _ _)

/-- **C76, no reallocation.** After a call for `N` variables and a call for `M` constraints and bounds (possibly the same), a call
for no more variables and no more constraints and bounds leaves all the buffers as they are, whatever was called in between. -/
theorem C76_no_growth {cs : List (Call K B)} {s s' : State K} (h : calls cs State.empty = .ok s) {c c1 c2 : Call K B}
    {d d1 d2 : Nat × Nat × Nat} (hd : Call.dims c = some d) (h1 : c1 ∈ cs) (hd1 : Call.dims c1 = some d1) (h2 : c2 ∈ cs) (hd2 : Call.dims c2 = some d2)
    (hn : d.1 ≤ d1.1) (hm : d.2.1 + d.2.2 ≤ d2.2.1 + d2.2.2) (hc : call s c = .ok s') : s'.memory = s.memory := by
  have e := C76_memory h
  obtain ⟨-, e'⟩ := call_bufs (calls_memory cs fits_empty h).1 hc
  rw [hd] at e'
  rw [e']
  simp only [State.memory, memoryFor, List.cons.injEq, and_true] at e
  obtain ⟨g1, g2, g3, g4, g5, g6, g7⟩ := e
  have a1 := (le_largest (f := (·.1)) h1 hd1)
  have a2 := (le_largest (f := fun d => d.2.1 + d.2.2) h2 hd2)
  have a3 := (le_largest (f := fun d => d.1 * d.1) h1 hd1)
  have a4 : d.1 * d.1 ≤ d1.1 * d1.1 := Nat.mul_le_mul hn hn
  rw [State.memory, max_eq_left (by omega), max_eq_left (by omega), max_eq_left (by omega), max_eq_left (by omega),
    max_eq_left (by omega), max_eq_left (by omega), max_eq_left (by omega)]

end JrlQp
