import Verif.Structured
import Verif.BlockCholProofs

/-!
# Which matrices `BlockGISolver` works on

`BlockGISolver::solve` stores its argument with `pb_.G = G` (src/experimental/BlockGISolver.cpp:47). `StructuredG` has no
assignment operator of its own: its two `std::vector<MatrixRef>` are assigned, and an `Eigen::Ref` is assigned by copying the
coefficients in the matrix it refers to. The matrices are then factorised in place (`lltInPlace`). This file models the memory
the references refer to; the rest of the model works on values. `StructuredC` has its own `operator=`, modelled as well.
-/

namespace JrlQp

/-- A matrix in memory. -/
structure MemMat (K : Type) where
  rows : Nat
  cols : Nat
  val : Nat → Nat → K

/-- Memory: the matrices alive, by address. Matrices at different addresses do not overlap. -/
abbrev Heap (K : Type) := Nat → Option (MemMat K)

/-- A `std::vector<MatrixRef>`: the addresses the references are bound to, and the capacity of the vector. -/
structure RefVec where
  refs : List Nat
  cap : Nat

/-- `Ref::operator=(const Ref &)`: copy of the coefficients; the sizes must be the same (an `Eigen::Ref` cannot be resized: assert).
Both matrices must be alive. -/
def refAssign {K : Type} (h : Heap K) (dst src : Nat) : Except Fault (Heap K) :=
  match h dst, h src with
  | some d, some s =>
    if d.rows = s.rows ∧ d.cols = s.cols then .ok (fun a => if a = dst then some s else h a) else .error .assertFailed
  | _, _ => .error .outOfBounds

/-- `std::copy` on the elements of two vectors of references, up to the shortest one. -/
def refAssigns {K : Type} : Heap K → List Nat → List Nat → Except Fault (Heap K)
  | h, d :: ds, s :: ss =>
    match refAssign h d s with
    | .error e => .error e
    | .ok h => refAssigns h ds ss
  | h, _, _ => .ok h

/-- `std::vector<MatrixRef>::operator=(const std::vector<MatrixRef> &)`, as in the standard library: a new array with
copy-constructed references (which refer to the matrices of the right-hand side) if the capacity is too small; otherwise the
existing references are assigned, the missing ones copy-constructed and the ones in excess destroyed. -/
def vecAssign {K : Type} (h : Heap K) (v : RefVec) (w : List Nat) : Except Fault (Heap K × RefVec) :=
  if v.cap < w.length then .ok (h, ⟨w, w.length⟩)
  else
    match refAssigns h v.refs w with
    | .error e => .error e
    | .ok h => .ok (h, ⟨v.refs.take w.length ++ w.drop v.refs.length, v.cap⟩)

/-- `StructuredG`, include/jrl-qp/structured/StructuredG.h:66-73: what its references are bound to. -/
structure GRef where
  type : GType
  diag : RefVec
  off : RefVec

/-- The implicit copy assignment of `StructuredG`, used at src/experimental/BlockGISolver.cpp:47. -/
def GRef.assign {K : Type} (h : Heap K) (g : GRef) (ty : GType) (diag off : List Nat) : Except Fault (Heap K × GRef) :=
  match vecAssign h g.diag diag with
  | .error e => .error e
  | .ok (h, d) =>
    match vecAssign h g.off off with
    | .error e => .error e
    | .ok (h, o) => .ok (h, ⟨ty, d, o⟩)

/-- `StructuredC::operator=`, src/structured/StructuredC.cpp:28-39: `clear()` destroys the references, `push_back` copy-constructs
the new ones. The matrices are not written. -/
def assignC {K : Type} (h : Heap K) (v : RefVec) (w : List Nat) : Heap K × RefVec := (h, ⟨w, max v.cap w.length⟩)

section
variable {K B : Type} [Zero K] [One K] [Add K] [Sub K] [Neg K] [Mul K] [Div K] [NumOps K B] [SumOps K]

/-- The blocks read through references. -/
def loadBlocks (h : Heap K) (refs : List Nat) : Blocks K := fun i r c =>
  match (refs[i]?).bind h with
  | some m => m.val r c
  | none => 0

/-- Sizes of the diagonal blocks. -/
def loadSizes (h : Heap K) (refs : List Nat) : Nat → Nat := fun i =>
  match (refs[i]?).bind h with
  | some m => m.cols
  | none => 0

/-- The value of a `StructuredG`. -/
def GRef.load (h : Heap K) (g : GRef) : SG K :=
  ⟨g.type, g.diag.refs.length, loadSizes h g.diag.refs, loadBlocks h g.diag.refs, loadBlocks h g.off.refs, false⟩

/-- Write blocks through references, first to last. -/
def storeBlocks (h : Heap K) (M : Blocks K) : Nat → List Nat → Heap K
  | _, [] => h
  | i, r :: rs => storeBlocks (fun a => if a = r then (h a).map fun m => { m with val := M i } else h a) M (i + 1) rs

/-- `lltInPlace` on memory: the factor replaces the blocks, src/structured/StructuredG.cpp:22-45. -/
def GRef.llt (h : Heap K) (g : GRef) : Heap K :=
  storeBlocks (storeBlocks h (g.load h).llt.D 0 g.diag.refs) (g.load h).llt.S 0 g.off.refs

/-- What `BlockGISolver::solve` does to memory up to the end of `init_` (nothing is written in the matrices after): assignment of
`G` and factorisation. -/
def solveMem (h : Heap K) (g : GRef) (ty : GType) (diag off : List Nat) : Except Fault (Heap K × GRef) :=
  match g.assign h ty diag off with
  | .error e => .error e
  | .ok (h, g) => .ok (g.llt h, g)

end

/-- `pb_.G` of a new solver. -/
def GRef.empty : GRef := ⟨.tri, ⟨[], 0⟩, ⟨[], 0⟩⟩

/-! ## Proofs -/

theorem refAssign_ok {K : Type} {h h' : Heap K} {d s : Nat} (e : refAssign h d s = .ok h') :
    (∀ a, h' a = if a = d then h s else h a) ∧ (h d).isSome ∧ (h s).isSome := by
  unfold refAssign at e
  split at e
  · rename_i m n h1 h2
    split_ifs at e
    simp only [Except.ok.injEq] at e
    refine ⟨fun a => ?_, by rw [h1]; rfl, by rw [h2]; rfl⟩
    rw [← e, h2]
  · cases e

/-- Nothing is written outside of the destination. -/
theorem refAssigns_frame {K : Type} (ds : List Nat) : ∀ (ss : List Nat) {h h' : Heap K}, refAssigns h ds ss = .ok h' →
    ∀ a, a ∉ ds → h' a = h a := by
  induction ds with
  | nil => intro ss h h' e a _; simp only [refAssigns, Except.ok.injEq] at e; rw [e]
  | cons d ds ih =>
    intro ss h h' e a ha
    cases ss with
    | nil => simp only [refAssigns, Except.ok.injEq] at e; rw [e]
    | cons s ss =>
      rw [refAssigns] at e
      split at e
      · cases e
      · rename_i h1 e1
        rw [ih ss e a (fun hm => ha (List.mem_cons_of_mem _ hm)), (refAssign_ok e1).1 a, if_neg]
        rintro rfl; exact ha List.mem_cons_self

/-- Distinct destinations, none of them among the sources: each destination gets its source. -/
theorem refAssigns_get {K : Type} (ds : List Nat) : ∀ (ss : List Nat) {h h' : Heap K}, refAssigns h ds ss = .ok h' → ds.Nodup →
    (∀ d ∈ ds, d ∉ ss) → ∀ k (hk : k < ds.length) (hs : k < ss.length), h' ds[k] = h ss[k] := by
  induction ds with
  | nil => intro ss h h' _ _ _ k hk; simp at hk
  | cons d ds ih =>
    intro ss h h' e hn hd k hk hs
    cases ss with
    | nil => simp at hs
    | cons s ss =>
      rw [refAssigns] at e
      split at e
      · cases e
      · rename_i h1 e1
        obtain ⟨f1, _⟩ := refAssign_ok e1
        have hnd := List.nodup_cons.1 hn
        cases k with
        | zero =>
          simp only [List.getElem_cons_zero]
          rw [refAssigns_frame ds ss e d hnd.1, f1 d, if_pos rfl]
        | succ k =>
          simp only [List.getElem_cons_succ]
          simp only [List.length_cons, Nat.add_lt_add_iff_right] at hk hs
          rw [ih ss e hnd.2 (fun x hx hm => hd x (List.mem_cons_of_mem _ hx) (List.mem_cons_of_mem _ hm)) k hk hs, f1, if_neg]
          intro h
          exact hd d List.mem_cons_self (by rw [← h]; exact List.mem_cons_of_mem _ (List.getElem_mem hs))

/-- The copies succeed when the matrices are alive and of the same sizes. -/
theorem refAssigns_total {K : Type} (ds : List Nat) : ∀ (ss : List Nat) {h : Heap K}, ds.Nodup → (∀ d ∈ ds, d ∉ ss) →
    (∀ k (hk : k < ds.length) (hs : k < ss.length), ∃ m n, h ds[k] = some m ∧ h ss[k] = some n ∧ m.rows = n.rows ∧ m.cols = n.cols) →
    ∃ h', refAssigns h ds ss = .ok h' := by
  induction ds with
  | nil => intro ss h _ _ _; exact ⟨h, by cases ss <;> rfl⟩
  | cons d ds ih =>
    intro ss h hn hd ha
    cases ss with
    | nil => exact ⟨h, rfl⟩
    | cons s ss =>
      obtain ⟨m, n, e1, e2, e3⟩ := ha 0 (by simp) (by simp)
      simp only [List.getElem_cons_zero] at e1 e2
      have hnd := List.nodup_cons.1 hn
      have hr : refAssign h d s = .ok (fun a => if a = d then some n else h a) := by
        unfold refAssign; rw [e1, e2]; simp only [if_pos e3]
      rw [refAssigns, hr]
      refine ih ss hnd.2 (fun x hx hm => hd x (List.mem_cons_of_mem _ hx) (List.mem_cons_of_mem _ hm)) ?_
      intro k hk hs
      obtain ⟨m, n, e1, e2, e3⟩ := ha (k + 1) (by simpa using hk) (by simpa using hs)
      simp only [List.getElem_cons_succ] at e1 e2
      refine ⟨m, n, ?_, ?_, e3⟩
      · rw [if_neg, e1]; intro h'; exact hnd.1 (by rw [← h']; exact List.getElem_mem hk)
      · rw [if_neg, e2]
        intro h'
        exact hd d List.mem_cons_self (by rw [← h']; exact List.mem_cons_of_mem _ (List.getElem_mem hs))

theorem storeBlocks_frame {K : Type} (M : Blocks K) (rs : List Nat) : ∀ (h : Heap K) (i a : Nat), a ∉ rs →
    storeBlocks h M i rs a = h a := by
  induction rs with
  | nil => intro h i a _; rfl
  | cons r rs ih =>
    intro h i a ha
    rw [storeBlocks, ih _ _ _ (fun hm => ha (List.mem_cons_of_mem _ hm)), if_neg]
    rintro rfl; exact ha List.mem_cons_self

theorem storeBlocks_get {K : Type} (M : Blocks K) (rs : List Nat) : ∀ (h : Heap K) (i : Nat), rs.Nodup → ∀ k (hk : k < rs.length),
    storeBlocks h M i rs rs[k] = (h rs[k]).map fun m => { m with val := M (i + k) } := by
  induction rs with
  | nil => intro h i _ k hk; simp at hk
  | cons r rs ih =>
    intro h i hn k hk
    have hnd := List.nodup_cons.1 hn
    cases k with
    | zero =>
      simp only [List.getElem_cons_zero, storeBlocks, Nat.add_zero]
      rw [storeBlocks_frame M rs _ _ _ hnd.1, if_pos rfl]
    | succ k =>
      simp only [List.length_cons, Nat.add_lt_add_iff_right] at hk
      simp only [List.getElem_cons_succ, storeBlocks]
      rw [ih _ _ hnd.2 k hk, if_neg]
      · congr 2; funext m; rw [Nat.add_assoc, Nat.add_comm 1 k]
      · intro h; exact hnd.1 (by rw [← h]; exact List.getElem_mem hk)

section
variable {K B : Type} [Zero K] [One K] [Add K] [Sub K] [Neg K] [Mul K] [Div K] [NumOps K B] [SumOps K]

/-- **C42, first call.** On a new solver, `solve` writes only in the matrices of its argument. -/
theorem C42_first_solve_frame (h : Heap K) (ty : GType) (diag off : List Nat) (hd : 0 < diag.length) (ho : 0 < off.length) :
    ∃ h' g', solveMem h GRef.empty ty diag off = .ok (h', g') ∧ g'.diag.refs = diag ∧ g'.off.refs = off ∧
      ∀ a, a ∉ diag → a ∉ off → h' a = h a := by
  have e : GRef.empty.assign h ty diag off = .ok (h, ⟨ty, ⟨diag, diag.length⟩, ⟨off, off.length⟩⟩) := by
    simp [GRef.assign, GRef.empty, vecAssign, hd, ho]
  refine ⟨_, _, by rw [solveMem, e], rfl, rfl, fun a h1 h2 => ?_⟩
  unfold GRef.llt
  rw [storeBlocks_frame _ _ _ _ _ h2, storeBlocks_frame _ _ _ _ _ h1]

/-- **C42, what is factorised**: the Hessian read by `solve` (`GRef.load` in the theorem below) has the blocks found in memory at the
addresses of the references, the diagonal blocks in the first list, the off-diagonal ones in the second. -/
theorem C42_load (h : Heap K) (ty : GType) (d o : List Nat) (c c' : Nat) :
    (GRef.load h ⟨ty, ⟨d, c⟩, ⟨o, c'⟩⟩).type = ty ∧ (GRef.load h ⟨ty, ⟨d, c⟩, ⟨o, c'⟩⟩).b = d.length ∧
    (∀ k (hk : k < d.length) m, h d[k] = some m →
      (GRef.load h ⟨ty, ⟨d, c⟩, ⟨o, c'⟩⟩).D k = m.val ∧ (GRef.load h ⟨ty, ⟨d, c⟩, ⟨o, c'⟩⟩).sz k = m.cols) ∧
    (∀ k (hk : k < o.length) m, h o[k] = some m → (GRef.load h ⟨ty, ⟨d, c⟩, ⟨o, c'⟩⟩).S k = m.val) := by
  refine ⟨rfl, rfl, fun k hk m hm => ⟨?_, ?_⟩, fun k hk m hm => ?_⟩
  · funext r a
    show loadBlocks h d k r a = _
    unfold loadBlocks
    rw [List.getElem?_eq_getElem hk, Option.bind_some, hm]
  · show loadSizes h d k = _
    unfold loadSizes
    rw [List.getElem?_eq_getElem hk, Option.bind_some, hm]
  · funext r a
    show loadBlocks h o k r a = _
    unfold loadBlocks
    rw [List.getElem?_eq_getElem hk, Option.bind_some, hm]

/-- **C42 fails for the Hessian.** Let a solver have solved a problem whose blocks are at addresses `d1`, `o1`, and let it solve
another problem of the same shape, with blocks at other addresses `d2`, `o2`. Then the second call overwrites every block of
the *first* problem (with the factor of the second one), leaves the matrices of the second problem as they are, and keeps
referring to the matrices of the first one. -/
theorem C42_second_solve_overwrites_first (h : Heap K) (ty : GType) (d1 o1 d2 o2 : List Nat) (cap cap' : Nat)
    (hcap : d2.length ≤ cap) (hcap' : o2.length ≤ cap') (hl : d1.length = d2.length) (hl' : o1.length = o2.length)
    (hn : (d1 ++ o1).Nodup) (hdis : ∀ a ∈ d1 ++ o1, a ∉ d2 ++ o2)
    (hs : ∀ k (h1 : k < d1.length) (h2 : k < d2.length), ∃ m n, h d1[k] = some m ∧ h d2[k] = some n ∧ m.rows = n.rows ∧ m.cols = n.cols)
    (hs' : ∀ k (h1 : k < o1.length) (h2 : k < o2.length), ∃ m n, h o1[k] = some m ∧ h o2[k] = some n ∧ m.rows = n.rows ∧ m.cols = n.cols) :
    ∃ h' g', solveMem h ⟨ty, ⟨d1, cap⟩, ⟨o1, cap'⟩⟩ ty d2 o2 = .ok (h', g') ∧ g'.diag.refs = d1 ∧ g'.off.refs = o1 ∧
      (∀ a ∈ d2 ++ o2, h' a = h a) ∧
      (∀ k (h1 : k < d1.length), ∃ m, h' d1[k] = some m ∧
        m.val = (GRef.load h ⟨ty, ⟨d2, cap⟩, ⟨o2, cap'⟩⟩).llt.D k) ∧
      (∀ k (h1 : k < o1.length), ∃ m, h' o1[k] = some m ∧
        m.val = (GRef.load h ⟨ty, ⟨d2, cap⟩, ⟨o2, cap'⟩⟩).llt.S k) := by
  rw [List.nodup_append] at hn
  obtain ⟨n1, n2, n3⟩ := hn
  have hdis1 : ∀ a ∈ d1, a ∉ d2 ∧ a ∉ o2 := fun a ha => by
    have := hdis a (List.mem_append_left _ ha)
    exact ⟨fun h => this (List.mem_append_left _ h), fun h => this (List.mem_append_right _ h)⟩
  have hdis2 : ∀ a ∈ o1, a ∉ d2 ∧ a ∉ o2 := fun a ha => by
    have := hdis a (List.mem_append_right _ ha)
    exact ⟨fun h => this (List.mem_append_left _ h), fun h => this (List.mem_append_right _ h)⟩
  obtain ⟨h1, e1⟩ := refAssigns_total d1 d2 n1 (fun a ha => (hdis1 a ha).1) hs
  have f1 := refAssigns_frame d1 d2 e1
  have g1 := refAssigns_get d1 d2 e1 n1 (fun a ha => (hdis1 a ha).1)
  obtain ⟨h2, e2⟩ := refAssigns_total (h := h1) o1 o2 n2 (fun a ha => (hdis2 a ha).2) (by
    intro k hk hk'
    obtain ⟨m, n, a1, a2, a3⟩ := hs' k hk hk'
    refine ⟨m, n, ?_, ?_, a3⟩
    · rw [f1 _ (fun hm => n3 _ hm _ (List.getElem_mem hk) rfl)]; exact a1
    · rw [f1 _ (fun hm => (hdis1 _ hm).2 (List.getElem_mem hk'))]; exact a2)
  have f2 := refAssigns_frame o1 o2 e2
  have g2 := refAssigns_get o1 o2 e2 n2 (fun a ha => (hdis2 a ha).2)
  have ha : GRef.assign h ⟨ty, ⟨d1, cap⟩, ⟨o1, cap'⟩⟩ ty d2 o2 = .ok (h2, ⟨ty, ⟨d1, cap⟩, ⟨o1, cap'⟩⟩) := by
    simp only [GRef.assign, vecAssign]
    rw [if_neg (by omega), e1]
    simp only []
    rw [if_neg (by omega), e2]
    simp only [← hl, ← hl', List.take_length]
    simp [hl, hl']
  -- the value factorised is that of the second problem
  have vd : ∀ k : Nat, (d1[k]?).bind h2 = (d2[k]?).bind h := by
    intro k
    by_cases hk : k < d1.length
    · have hk2 : k < d2.length := by omega
      rw [List.getElem?_eq_getElem hk, List.getElem?_eq_getElem hk2]
      simp only [Option.bind_some]
      rw [f2 _ (fun hm => n3 _ (List.getElem_mem hk) _ hm rfl)]
      exact g1 k hk hk2
    · rw [List.getElem?_eq_none (by omega), List.getElem?_eq_none (by omega)]; rfl
  have vo : ∀ k : Nat, (o1[k]?).bind h2 = (o2[k]?).bind h := by
    intro k
    by_cases hk : k < o1.length
    · have hk2 : k < o2.length := by omega
      rw [List.getElem?_eq_getElem hk, List.getElem?_eq_getElem hk2]
      simp only [Option.bind_some]
      rw [g2 k hk hk2, f1 _ (fun hm => (hdis1 _ hm).2 (List.getElem_mem hk2))]
    · rw [List.getElem?_eq_none (by omega), List.getElem?_eq_none (by omega)]; rfl
  have hload : GRef.load h2 ⟨ty, ⟨d1, cap⟩, ⟨o1, cap'⟩⟩ = GRef.load h ⟨ty, ⟨d2, cap⟩, ⟨o2, cap'⟩⟩ := by
    have e3 : loadSizes h2 d1 = loadSizes h d2 := by funext i; unfold loadSizes; rw [vd]
    have e4 : loadBlocks h2 d1 = loadBlocks h d2 := by funext i r c; unfold loadBlocks; rw [vd]
    have e5 : loadBlocks h2 o1 = loadBlocks h o2 := by funext i r c; unfold loadBlocks; rw [vo]
    simp only [GRef.load, e3, e4, e5, hl]
  refine ⟨_, _, by rw [solveMem, ha], rfl, rfl, ?_, ?_, ?_⟩
  · intro a ha'
    have hd : a ∉ d1 := fun hm => hdis a (List.mem_append_left _ hm) ha'
    have ho : a ∉ o1 := fun hm => hdis a (List.mem_append_right _ hm) ha'
    unfold GRef.llt
    rw [storeBlocks_frame _ _ _ _ _ ho, storeBlocks_frame _ _ _ _ _ hd, f2 a ho, f1 a hd]
  · intro k hk
    have hk2 : k < d2.length := by omega
    obtain ⟨m, n, _, a2, _⟩ := hs k hk hk2
    have hv := vd k
    rw [List.getElem?_eq_getElem hk, List.getElem?_eq_getElem hk2] at hv
    simp only [Option.bind_some] at hv
    unfold GRef.llt
    rw [hload, storeBlocks_frame _ _ _ _ _ (fun hm => n3 _ (List.getElem_mem hk) _ hm rfl), storeBlocks_get _ _ _ _ n1 k hk, hv, a2]
    exact ⟨_, rfl, by rw [Nat.zero_add]⟩
  · intro k hk
    have hk2 : k < o2.length := by omega
    obtain ⟨m, n, _, a2, _⟩ := hs' k hk hk2
    have hv := vo k
    rw [List.getElem?_eq_getElem hk, List.getElem?_eq_getElem hk2] at hv
    simp only [Option.bind_some] at hv
    unfold GRef.llt
    rw [hload, storeBlocks_get _ _ _ _ n2 k hk, storeBlocks_frame _ _ _ _ _ (fun hm => n3 _ hm _ (List.getElem_mem hk) rfl), hv, a2]
    exact ⟨_, rfl, by rw [Nat.zero_add]⟩

/-- **C42, dangling reference.** If the matrix of the first block of the earlier problem is no longer alive, the next call (with no
more blocks) is an invalid access. -/
theorem C42_dangling (h : Heap K) (ty ty' : GType) (d : Nat) (d1 d2 o2 : List Nat) (cap : Nat) (off : RefVec) (hcap : d2.length ≤ cap)
    (hd2 : d2 ≠ []) (hdead : h d = none) :
    solveMem h ⟨ty, ⟨d :: d1, cap⟩, off⟩ ty' d2 o2 = .error .outOfBounds := by
  cases d2 with
  | nil => exact absurd rfl hd2
  | cons s ss =>
    have : refAssign h d s = .error .outOfBounds := by unfold refAssign; rw [hdead]
    simp only [solveMem, GRef.assign, vecAssign]
    rw [if_neg (by omega), refAssigns, this]

/-- **C42, other sizes.** If the first blocks have different sizes, the next call fails an assertion of Eigen. -/
theorem C42_size_mismatch (h : Heap K) (ty ty' : GType) (d s : Nat) (d1 d2 o2 : List Nat) (cap : Nat) (off : RefVec)
    (hcap : d2.length < cap) {m n : MemMat K} (h1 : h d = some m) (h2 : h s = some n) (hsz : m.rows ≠ n.rows) :
    solveMem h ⟨ty, ⟨d :: d1, cap⟩, off⟩ ty' (s :: d2) o2 = .error .assertFailed := by
  have : refAssign h d s = .error .assertFailed := by
    unfold refAssign; rw [h1, h2]; simp only [hsz, false_and, if_false]
  simp only [solveMem, GRef.assign, vecAssign]
  rw [if_neg (by simp only [List.length_cons]; omega), refAssigns, this]

/-- **C42 holds for the constraints**: whatever the history, the assignment of a `StructuredC` binds the references to the matrices of
the argument, and writes nothing. -/
theorem C42_constraints (h : Heap K) (v : RefVec) (w : List Nat) : (assignC h v w).1 = h ∧ (assignC h v w).2.refs = w := ⟨rfl, rfl⟩

end

/-- Two problems in memory: blocks 4, 4 and 0 at addresses 0, 1 and 2; blocks 9, 9 and 0 at addresses 10, 11 and 12. -/
noncomputable def exHeap : Heap ℝ := fun a => some ⟨1, 1, fun _ _ => if a = 2 ∨ a = 12 then 0 else if a < 10 then 4 else 9⟩

/-- The hypotheses of `C42_second_solve_overwrites_first` are met, and the overwriting is visible: two problems with two diagonal
blocks of size one; after the second call, the first block of the first problem is no longer 4 but the factor of 9. -/
theorem C42_example : ∃ (h h' : Heap ℝ) (g' : GRef),
    solveMem h ⟨.tri, ⟨[0, 1], 2⟩, ⟨[2], 1⟩⟩ .tri [10, 11] [12] = .ok (h', g') ∧
      (h 0).map (fun m => m.val 0 0) = some 4 ∧ (h' 0).map (fun m => m.val 0 0) = some 3 ∧
      (h' 10).map (fun m => m.val 0 0) = some 9 := by
  obtain ⟨h', g', e, _, _, e1, e2, _⟩ := C42_second_solve_overwrites_first (K := ℝ) exHeap .tri [0, 1] [2] [10, 11] [12] 2 1 (by simp)
    (by simp) rfl rfl (by simp) (by simp) (fun k _ _ => ⟨_, _, rfl, rfl, rfl, rfl⟩) (fun k _ _ => ⟨_, _, rfl, rfl, rfl, rfl⟩)
  refine ⟨exHeap, h', g', e, ?_, ?_, ?_⟩
  · simp [exHeap]
  · obtain ⟨m, m1, m2⟩ := e2 0 (by simp)
    simp only [List.getElem_cons_zero] at m1
    rw [m1]
    simp only [Option.map_some, m2, Option.some.injEq]
    have h0 : loadBlocks exHeap [10, 11] 0 = fun _ _ => (9 : ℝ) := by
      funext r c; simp [loadBlocks, exHeap]
    have hz : ∀ i, i < 2 → loadSizes exHeap [10, 11] i = 1 := by
      intro i hi; interval_cases i <;> simp [loadSizes, exHeap]
    have h9 : Real.sqrt 9 = 3 := by rw [show (9 : ℝ) = 3 ^ 2 by norm_num]; exact Real.sqrt_sq (by norm_num)
    simp only [GRef.load, SG.llt, triLLT, List.length_cons, List.length_nil, triLLTFrom, h0, hz 0 (by norm_num), chol, cholCol, esub_real, sumTo]
    norm_num [setBlk, retPos, h9]
    exact h9
  · rw [e1 10 (by simp)]; simp [exHeap]

end JrlQp
