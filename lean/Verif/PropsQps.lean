import Verif.QpsSem

/-!
# Properties of the reader of QPS files

`C67`: a layout of a description is read as a problem with the same feasible set and the same objective.
`C68`: indices. `C69`: reuse of a reader.
-/

namespace JrlQp.Qps

open Finset Classical

/-- The cost when only the lower triangle of `G` is used, as the solvers do. -/
noncomputable def lowCost (q : QpCost) : QpCost := { q with G := ⟨q.G.rows, q.G.cols, symLow q.G.at'⟩ }

/-! ### C67 -/

/-- **C67.** Whatever the description and the way it is laid out in the file, a new reader reads it without exception; the problem has one
variable per name of column, in the order of their first appearance, and one constraint per row that is not the objective; it has the
feasible set of the description, and its objective (with `fullObjMat`, or if only the lower triangle of `G` is used). -/
theorem C67_reader {num : Word → Option ℝ} {d : Desc} {file : List Line} (hd : d.Ok) (hl : Layout num d file) (full : Bool) :
    ∃ qp props r, read num full {} file = .ok ((qp, props), r) ∧
      qp.cstr.tr = false ∧ qp.cstr.C.cols = d.vars.length ∧ qp.cstr.C.rows = (d.rows.filter (fun e => e.2 ≠ .N)).length ∧
      qp.cstr.l.size = qp.cstr.C.rows ∧ qp.cstr.u.size = qp.cstr.C.rows ∧ qp.cstr.xl.size = d.vars.length ∧ qp.cstr.xu.size = d.vars.length ∧
      qp.cost.G.rows = d.vars.length ∧ qp.cost.G.cols = d.vars.length ∧ qp.cost.a.size = d.vars.length ∧
      (∀ (x : Word → ℝ) (X : Nat → ℝ), (∀ c ∈ d.vars, X (d.vars.idxOf c) = x c) →
        (qp.cstr.Holds X ↔ d.Feasible x) ∧ (lowCost qp.cost).value X = d.objective x ∧ (full = true → qp.cost.value X = d.objective x)) := by
  obtain ⟨r, hr, hc⟩ := reads_layout hd hl
  refine ⟨(r.problem full).1, (r.problem full).2, r, ?_, rfl, ?_, ?_, rfl, rfl, ?_, ?_, ?_, ?_, ?_, ?_⟩
  · unfold read; rw [hr]
  · show r.cols.length = _; rw [hc.cols]
  · show r.nRows = _; rw [hc.nRows]; rfl
  · show r.cols.length = _; rw [hc.cols]
  · show r.cols.length = _; rw [hc.cols]
  · show r.cols.length = _; rw [hc.cols]
  · show r.cols.length = _; rw [hc.cols]
  · show r.cols.length = _; rw [hc.cols]
  intro x X hX
  have hlow : (lowCost (r.problem full).1.cost).value X = d.objective x := by
    have hs : ∀ i j, symLow (r.problem full).1.cost.G.at' i j = symLow (fillM r.gVal) i j := by
      intro i j
      show symLow (fun i j => if full = true ∧ i < j then fillM r.gVal j i else fillM r.gVal i j) i j = _
      unfold symLow
      beta_reduce
      by_cases h : j ≤ i
      · rw [if_pos h, if_pos h, if_neg (by omega)]
      · rw [if_neg h, if_neg h, if_neg (by omega)]
    unfold QpCost.value lowCost
    simp only [hs]
    show 1 / 2 * ∑ i ∈ range r.cols.length, ∑ j ∈ range r.cols.length, X i * symLow (fillM r.gVal) i j * X j
      + ∑ i ∈ range r.cols.length, fillV r.aVal i * X i + r.objCst = _
    rw [hc.cols, quad_obj hd hc hX, a_obj hd hc hX, cst_obj hd hc]
    rfl
  refine ⟨?_, hlow, ?_⟩
  · show ((∀ i < r.nRows, r.cBox.l i ≤ ((Mx.val ⟨r.nRows, r.cols.length, fillM r.cVal⟩ false _ X i : ℝ) : EReal) ∧
      ((Mx.val ⟨r.nRows, r.cols.length, fillM r.cVal⟩ false _ X i : ℝ) : EReal) ≤ r.cBox.u i) ∧
      ∀ i < r.cols.length, r.xBox.l i ≤ ((X i : ℝ) : EReal) ∧ ((X i : ℝ) : EReal) ≤ r.xBox.u i) ↔ _
    have hval : ∀ n i t, (n, i, t) ∈ numFrom 0 d.rows → t ≠ .N →
        ((r.cBox.l i ≤ ((Mx.val ⟨r.nRows, r.cols.length, fillM r.cVal⟩ false r.cols.length X i : ℝ) : EReal) ∧
          ((Mx.val ⟨r.nRows, r.cols.length, fillM r.cVal⟩ false r.cols.length X i : ℝ) : EReal) ≤ r.cBox.u i) ↔ d.rowHolds x n t) := by
      intro n i t hm ht
      have h1 : Mx.val ⟨r.nRows, r.cols.length, fillM r.cVal⟩ false r.cols.length X i = d.act x n := by
        unfold Mx.val
        simp only [Bool.false_eq_true, if_false]
        rw [hc.cols]
        exact C_act hd hc hX hm ht
      have h2 := cBox_pr hd hc hm ht
      rw [h1, ← bnds_iff ht, ← h2]
      rfl
    unfold Desc.Feasible
    refine and_congr ?_ ?_
    · constructor
      · rintro h ⟨n, t⟩ he
        by_cases ht : t = .N
        · subst ht
          show d.rowHolds x n .N
          unfold Desc.rowHolds
          split <;> trivial
        · obtain ⟨i, hi⟩ := mem_numFrom (k := 0) he
          exact (hval n i t hi ht).1 (h i (hc.nRows ▸ idx_lt hi ht))
      · intro h i hi
        obtain ⟨n, t, hm, ht⟩ := exists_idx (d := d) (hc.nRows ▸ hi)
        exact (hval n i t hm ht).2 (h (n, t) (mem_rows hm))
    · rw [hc.cols]
      constructor
      · intro h c hcv
        obtain ⟨h1, h2⟩ := h _ (List.idxOf_lt_length_of_mem hcv)
        obtain ⟨g1, g2⟩ := xBox_of hd hc hcv
        rw [g1, hX c hcv] at h1
        rw [g2, hX c hcv] at h2
        exact ⟨lowOf_le.1 h1, le_upOf.1 h2⟩
      · intro h i hi
        have hcv : d.vars[i] ∈ d.vars := List.getElem_mem hi
        have hidx : d.vars.idxOf d.vars[i] = i := (vars_nodup d).idxOf_getElem i hi
        obtain ⟨g1, g2⟩ := xBox_of hd hc hcv
        have hx := hX _ hcv
        obtain ⟨h1, h2⟩ := h _ hcv
        rw [hidx] at g1 g2 hx
        rw [g1, g2, hx]
        exact ⟨lowOf_le.2 h1, le_upOf.2 h2⟩
  · intro hf
    rw [← hlow]
    unfold QpCost.value lowCost
    have : ∀ i j, symLow (r.problem full).1.cost.G.at' i j = (r.problem full).1.cost.G.at' i j := by
      intro i j
      show symLow (fun i j => if full = true ∧ i < j then fillM r.gVal j i else fillM r.gVal i j) i j =
        if full = true ∧ i < j then fillM r.gVal j i else fillM r.gVal i j
      unfold symLow
      beta_reduce
      by_cases h : j ≤ i
      · rw [if_pos h]
      · rw [if_neg h, if_neg (by omega), if_pos ⟨hf, by omega⟩]
    simp only [this]

/-- **C67, properties.** What the reader says of the problem: its sizes, the number of its rows of type `E`, whether a variable has a bound,
whether there is a line `FX`. -/
theorem C67_properties {num : Word → Option ℝ} {d : Desc} {file : List Line} (hd : d.Ok) (hl : Layout num d file) (full : Bool) :
    ∃ qp props r, read num full {} file = .ok ((qp, props), r) ∧
      props.nbVar = d.vars.length ∧ props.nbCstr = (d.rows.filter (fun e => e.2 ≠ .N)).length ∧
      props.nbEq = (d.rows.filter (fun e => e.2 = .E)).length ∧
      (props.useBounds ↔ ∃ c ∈ d.vars, d.lower c ≠ none ∨ d.upper c ≠ none) ∧
      (props.hasFixedVariables ↔ ∃ e ∈ d.bnd, e.1 = .FX) := by
  obtain ⟨r, hr, hc⟩ := reads_layout hd hl
  refine ⟨(r.problem full).1, (r.problem full).2, r, ?_, ?_, ?_, ?_, ?_, ?_⟩
  · unfold read; rw [hr]
  · show r.cols.length = _; rw [hc.cols]
  · show r.nRows = _; rw [hc.nRows]; rfl
  · show (r.rows.filter (fun e => e.2.2 = .E)).length = _
    rw [hc.rows]
    conv_rhs => rw [← numFrom_names d.rows 0]
    rw [List.filter_map, List.length_map]
    rfl
  · show ((∃ i < r.cols.length, ⊥ < r.xBox.l i) ∨ ∃ i < r.cols.length, r.xBox.u i < ⊤) ↔ _
    have hlo : ∀ o, ⊥ < lowOf o ↔ o ≠ none := by intro o; cases o <;> simp [lowOf]
    have hup : ∀ o, upOf o < ⊤ ↔ o ≠ none := by intro o; cases o <;> simp [upOf]
    rw [hc.cols]
    constructor
    · rintro (⟨i, hi, h⟩ | ⟨i, hi, h⟩)
      all_goals
        have hcv : d.vars[i] ∈ d.vars := List.getElem_mem hi
        have hidx : d.vars.idxOf d.vars[i] = i := (vars_nodup d).idxOf_getElem i hi
        obtain ⟨g1, g2⟩ := xBox_of hd hc hcv
        rw [hidx] at g1 g2
      · rw [g1] at h
        exact ⟨_, hcv, .inl ((hlo _).1 h)⟩
      · rw [g2] at h
        exact ⟨_, hcv, .inr ((hup _).1 h)⟩
    · rintro ⟨c, hcv, h⟩
      obtain ⟨g1, g2⟩ := xBox_of hd hc hcv
      rcases h with h | h
      · exact .inl ⟨_, List.idxOf_lt_length_of_mem hcv, by rw [g1]; exact (hlo _).2 h⟩
      · exact .inr ⟨_, List.idxOf_lt_length_of_mem hcv, by rw [g2]; exact (hup _).2 h⟩
  · show (∃ e ∈ r.xVal, e.2.2 = .FX) ↔ _
    rw [hc.xVal]
    constructor
    · rintro ⟨e, he, h⟩
      obtain ⟨e', he', rfl⟩ := List.mem_map.1 he
      exact ⟨e', he', h⟩
    · rintro ⟨e, he, h⟩
      exact ⟨_, List.mem_map.2 ⟨e, he, rfl⟩, h⟩

/-! #### An instance: two variables, two constraints one of which has a range, all sections -/

namespace Ex

/-- The value of a one digit number. -/
noncomputable def num : Word → Option ℝ
  | ['1'] => some 1
  | ['2'] => some 2
  | ['3'] => some 3
  | ['5'] => some 5
  | _ => none

noncomputable def desc : Desc where
  rows := [(['o'], .N), (['p'], .G), (['q'], .L)]
  coef := [(['x'], ['o'], 1), (['x'], ['p'], 1), (['x'], ['q'], 1), (['y'], ['o'], 2), (['y'], ['p'], 1)]
  rhs := [(['o'], 3), (['p'], 1), (['q'], 3)]
  rng := [(['p'], 2)]
  bnd := [(.UP, ['x'], 5), (.FR, ['y'], 0)]
  quad := [(['x'], ['x'], 2), (['x'], ['y'], 1), (['y'], ['y'], 2)]

def file : List Line :=
  [.text false [['*'], ['c']] false,
   .text false ["NAME".toList, ['T']] false,
   .text false ["ROWS".toList] false,
   .text true [['N'], ['o']] false,
   .text true [['g'], ['p']] false,
   .text true [['L', 'q']] true,
   .text false ["Columns".toList] false,
   .text true [['x'], ['o'], ['1'], ['p'], ['1']] false,
   .text true [['x'], ['q'], ['1']] true,
   .empty,
   .text true [['y'], ['o'], ['2'], ['p'], ['1'], ['z']] false,
   .text false ["RHS".toList] false,
   .text true [['b'], ['o'], ['3'], ['p'], ['1']] false,
   .text true [['b'], ['q'], ['3']] false,
   .text false ["RANGES".toList] false,
   .text true [['r'], ['p'], ['2']] false,
   .text false ["BOUNDS".toList] false,
   .text true [['U', 'P'], ['b'], ['x'], ['5']] false,
   .text true [['F', 'R'], ['b'], ['y']] false,
   .text false ["QUADOBJ".toList] false,
   .text true [['x'], ['x'], ['2'], ['y'], ['1']] false,
   .text true [['y'], ['y'], ['2']] false,
   .text false ["ENDATA".toList] false]

theorem vars : desc.vars = [['x'], ['y']] := by
  unfold Desc.vars desc
  simp [firstsFrom]

theorem ok : desc.Ok where
  names := by unfold desc; decide
  oneObj := by unfold desc; decide
  coefKeys := by unfold desc; simp
  rhsKeys := by unfold desc; simp
  rngKeys := by unfold desc; simp
  quadKeys := by unfold desc; simp
  coefRow := by unfold desc; simp
  rhsRow := by unfold desc; simp
  rngRow := by
    intro e he
    have : e = (['p'], 2) := by simpa [desc] using he
    subst this
    exact ⟨.G, by simp [desc], by decide⟩
  bndVar := by
    rw [vars]; unfold desc; simp
  quadVar := by
    rw [vars]; unfold desc; simp
  quadLow := by
    rw [vars]; unfold desc
    intro e he
    simp only [List.mem_cons, List.not_mem_nil, or_false] at he
    rcases he with rfl | rfl | rfl <;> decide

theorem layout : Layout num desc file := by
  have n1 : num ['1'] = some 1 := rfl
  have n2 : num ['2'] = some 2 := rfl
  have n3 : num ['3'] = some 3 := rfl
  have n5 : num ['5'] = some 5 := rfl
  have hdr : ∀ (s : String) (w : Word) (more : List Word) (tr : Bool), w.map Char.toLower = s.toList → IsHeader s (.text false (w :: more) tr) :=
    fun s w more tr h => ⟨w, more, tr, rfl, h⟩
  refine ⟨[.text false [['*'], ['c']] false], "NAME".toList, ['T'], [], false, [],
    .text false ["ROWS".toList] false,
    [.text true [['N'], ['o']] false, .text true [['g'], ['p']] false, .text true [['L', 'q']] true],
    .text false ["Columns".toList] false,
    [.text true [['x'], ['o'], ['1'], ['p'], ['1']] false, .text true [['x'], ['q'], ['1']] true, .empty,
     .text true [['y'], ['o'], ['2'], ['p'], ['1'], ['z']] false],
    [.text false ["RHS".toList] false, .text true [['b'], ['o'], ['3'], ['p'], ['1']] false, .text true [['b'], ['q'], ['3']] false],
    [.text false ["RANGES".toList] false, .text true [['r'], ['p'], ['2']] false],
    [.text false ["BOUNDS".toList] false, .text true [['U', 'P'], ['b'], ['x'], ['5']] false, .text true [['F', 'R'], ['b'], ['y']] false],
    [.text false ["QUADOBJ".toList] false, .text true [['x'], ['x'], ['2'], ['y'], ['1']] false, .text true [['y'], ['y'], ['2']] false],
    .text false ["ENDATA".toList] false, [], ?_, hdr _ _ _ _ (by decide), by simp, hdr _ _ _ _ (by decide), ?_, hdr _ _ _ _ (by decide), ?_,
    ?_, ?_, ?_, ?_, hdr _ _ _ _ (by decide), by simp, rfl⟩
  · intro l hl
    rw [List.mem_singleton] at hl
    exact .inr ⟨_, _, hl, by decide⟩
  · exact .spaced 'N' _ .N [] _ (by decide) (.spaced 'g' _ .G [] _ (by decide) (.touching 'L' _ .L [] _ (by decide) (by decide) .nil))
  · exact .two _ _ _ _ _ _ _ [] _ n1 n1 (.one _ _ _ _ _ n1 (.skip (.inl rfl) (.two _ _ _ _ _ _ _ [['z']] _ n2 n1 .nil)))
  · exact .inr ⟨_, _, hdr _ _ _ _ (by decide), ⟨['b'], .two _ _ _ _ _ _ _ [] _ n3 n1 (.one _ _ _ _ _ n3 .nil)⟩, rfl⟩
  · exact .inr ⟨_, _, hdr _ _ _ _ (by decide), ⟨['r'], .one _ _ _ _ _ n2 .nil⟩, rfl⟩
  · exact .inr ⟨_, _, hdr _ _ _ _ (by decide), .valued ['b'] ['x'] ['5'] .UP 5 [] _ (by decide) n5 (.free ['b'] ['y'] [] _ .nil), rfl⟩
  · exact .inr ⟨_, _, hdr _ _ _ _ (by decide), .two _ _ _ _ _ _ _ [] _ n2 n1 (.one _ _ _ _ _ n2 .nil), rfl⟩

/-- The hypotheses of `C67_reader` are met. -/
example : ∃ qp props r, read num true {} file = .ok ((qp, props), r) ∧ ∀ (x : Word → ℝ) (X : Nat → ℝ),
    (∀ c ∈ desc.vars, X (desc.vars.idxOf c) = x c) → (qp.cstr.Holds X ↔ desc.Feasible x) := by
  obtain ⟨qp, props, r, h, _, _, _, _, _, _, _, _, _, _, h'⟩ := C67_reader ok layout true
  exact ⟨qp, props, r, h, fun x X hX => (h' x X hX).1⟩

end Ex

/-! ### C68 -/

/-- All indices that have been collected are in the range of the vectors and matrices that `read` allocates. -/
structure InRange (r : Rd) : Prop where
  rows : ∀ e ∈ r.rows, e.2.2 ≠ .N → e.2.1 < r.nRows
  cVal : ∀ e ∈ r.cVal, e.1 < r.nRows ∧ e.2.1 < r.cols.length
  gVal : ∀ e ∈ r.gVal, e.1 < r.cols.length ∧ e.2.1 < r.cols.length
  aVal : ∀ e ∈ r.aVal, e.1 < r.cols.length
  bVal : ∀ e ∈ r.bVal, e.1 < r.nRows ∧ e.2.2 ≠ .N
  rVal : ∀ e ∈ r.rVal, e.1 < r.nRows ∧ e.2.2 ≠ .N
  xVal : ∀ e ∈ r.xVal, e.1 < r.cols.length

theorem rd_row_mem {r : Rd} {n i t} (h : r.row n = some (i, t)) : (n, i, t) ∈ r.rows := by
  unfold Rd.row at h
  rw [Option.map_eq_some_iff] at h
  obtain ⟨e, he, h⟩ := h
  have h1 := List.mem_of_find?_eq_some he
  have h2 := List.find?_some he
  simp only [decide_eq_true_eq] at h2
  obtain ⟨a, b⟩ := e
  simp only at h h2
  subst h2 h
  exact h1

theorem forall_snoc {α : Type} {P : α → Prop} {l : List α} {a : α} (h : ∀ e ∈ l, P e) (ha : P a) : ∀ e ∈ l ++ [a], P e := by
  intro e he
  rcases List.mem_append.1 he with he | he
  · exact h e he
  · rw [List.mem_singleton] at he; exact he ▸ ha

theorem addCol_inRange {r r' : Rd} {c p} (h : InRange r) (hc : c < r.cols.length) (he : addCol r c p = .ok r') :
    InRange r' ∧ r'.cols = r.cols := by
  unfold addCol at he
  cases hr : r.row p.1 with
  | none => rw [hr] at he; cases he
  | some q =>
    obtain ⟨i, t⟩ := q
    rw [hr] at he
    simp only at he
    split at he <;> injection he with he <;> subst he
    · exact ⟨{ h with aVal := forall_snoc h.aVal hc }, rfl⟩
    · rename_i ht
      exact ⟨{ h with cVal := forall_snoc h.cVal ⟨h.rows _ (rd_row_mem hr) ht, hc⟩ }, rfl⟩

theorem addRhs_inRange {r r' : Rd} {p} (h : InRange r) (he : addRhs r p = .ok r') : InRange r' := by
  unfold addRhs at he
  cases hr : r.row p.1 with
  | none => rw [hr] at he; cases he
  | some q =>
    obtain ⟨i, t⟩ := q
    rw [hr] at he
    simp only at he
    split at he <;> injection he with he <;> subst he
    · exact { h with }
    · rename_i ht
      exact { h with bVal := forall_snoc h.bVal ⟨h.rows _ (rd_row_mem hr) ht, ht⟩ }

theorem addRange_inRange {r r' : Rd} {p} (h : InRange r) (he : addRange r p = .ok r') : InRange r' := by
  unfold addRange at he
  cases hr : r.row p.1 with
  | none => rw [hr] at he; cases he
  | some q =>
    obtain ⟨i, t⟩ := q
    rw [hr] at he
    simp only at he
    split at he
    · cases he
    · rename_i ht
      injection he with he
      subst he
      exact { h with rVal := forall_snoc h.rVal ⟨h.rows _ (rd_row_mem hr) ht, ht⟩ }

theorem col_lt {r : Rd} {n i} (h : r.col n = some i) : i < r.cols.length := by
  unfold Rd.col at h
  split at h
  · rename_i hm
    injection h with h
    exact h ▸ List.idxOf_lt_length_of_mem hm
  · cases h

theorem addQuad_inRange {r r' : Rd} {c p} (h : InRange r) (hc : c < r.cols.length) (he : addQuad r c p = .ok r') :
    InRange r' ∧ r'.cols = r.cols := by
  unfold addQuad at he
  cases hr : r.col p.1 with
  | none => rw [hr] at he; cases he
  | some i =>
    rw [hr] at he
    injection he with he
    subst he
    exact ⟨{ h with gVal := forall_snoc h.gVal ⟨col_lt hr, hc⟩ }, rfl⟩

theorem addBoth_inRange {f : Rd → Word × ℝ → Except QErr Rd} {Q : Rd → Prop} (hf : ∀ r r' p, Q r → f r p = .ok r' → Q r')
    {r r' p p2} (h : Q r) (he : addBoth f r p p2 = .ok r') : Q r' := by
  unfold addBoth at he
  cases h1 : f r p with
  | error e => rw [h1] at he; cases he
  | ok r1 =>
    rw [h1] at he
    simp only at he
    cases p2 with
    | none => injection he with he; exact he ▸ hf _ _ _ h h1
    | some p2 => exact hf _ _ _ (hf _ _ _ h h1) he

theorem readRow_inRange {r r' : Rd} {ws} (h : InRange r) (he : readRow r ws = .ok r') : InRange r' := by
  unfold readRow at he
  cases hp : parseRow ws with
  | error e => rw [hp] at he; cases he
  | ok q =>
    obtain ⟨t, n⟩ := q
    rw [hp] at he
    simp only at he
    split at he
    · cases he
    · split at he
      · rename_i ht
        split at he
        · cases he
        · injection he with he
          subst he
          exact { h with rows := forall_snoc h.rows (fun h' => absurd ht h') }
      · injection he with he
        subst he
        exact { rows := forall_snoc (fun e he ht => Nat.lt_succ_of_lt (h.rows e he ht)) (fun _ => Nat.lt_succ_self _)
                cVal := fun e he => ⟨Nat.lt_succ_of_lt (h.cVal e he).1, (h.cVal e he).2⟩
                gVal := h.gVal
                aVal := h.aVal
                bVal := fun e he => ⟨Nat.lt_succ_of_lt (h.bVal e he).1, (h.bVal e he).2⟩
                rVal := fun e he => ⟨Nat.lt_succ_of_lt (h.rVal e he).1, (h.rVal e he).2⟩
                xVal := h.xVal }

theorem readColumn_inRange {num : Word → Option ℝ} {r r' : Rd} {ws tr} (h : InRange r) (he : readColumn num r ws tr = .ok r') : InRange r' := by
  unfold readColumn at he
  cases hp : parseValueLine num r.line ws tr with
  | error e => rw [hp] at he; cases he
  | ok q =>
    obtain ⟨k, p1, p2⟩ := q
    rw [hp] at he
    simp only at he
    have key := fun (r0 : Rd) (h0 : InRange r0 ∧ k ∈ r0.cols) =>
      addBoth_inRange (f := fun r p => addCol r (r.cols.idxOf k) p) (Q := fun r => InRange r ∧ k ∈ r.cols)
        (by
          intro r r' p hq hr
          have := addCol_inRange hq.1 (List.idxOf_lt_length_of_mem hq.2) hr
          exact ⟨this.1, this.2 ▸ hq.2⟩) (p := p1) (p2 := p2) (r' := r') h0
    by_cases hk : k ∈ r.cols
    · rw [if_pos hk] at he
      exact (key _ ⟨h, hk⟩ he).1
    · rw [if_neg hk] at he
      refine (key _ ⟨?_, by simp⟩ he).1
      have hl : ∀ {i : Nat}, i < r.cols.length → i < (r.cols ++ [k]).length := by
        intro i hi; rw [List.length_append]; omega
      exact { rows := h.rows
              cVal := fun e he => ⟨(h.cVal e he).1, hl (h.cVal e he).2⟩
              gVal := fun e he => ⟨hl (h.gVal e he).1, hl (h.gVal e he).2⟩
              aVal := fun e he => hl (h.aVal e he)
              bVal := h.bVal
              rVal := h.rVal
              xVal := fun e he => hl (h.xVal e he) }

theorem readRHS_inRange {num : Word → Option ℝ} {r r' : Rd} {ws tr} (h : InRange r) (he : readRHS num r ws tr = .ok r') : InRange r' := by
  unfold readRHS at he
  cases hp : parseValueLine num r.line ws tr with
  | error e => rw [hp] at he; cases he
  | ok q =>
    obtain ⟨k, p1, p2⟩ := q
    rw [hp] at he
    simp only at he
    split at he
    · cases he
    · refine addBoth_inRange (Q := InRange) (fun _ _ _ hq hr => addRhs_inRange hq hr) ?_ he
      exact { h with }

theorem readRanges_inRange {num : Word → Option ℝ} {r r' : Rd} {ws tr} (h : InRange r) (he : readRanges num r ws tr = .ok r') : InRange r' := by
  unfold readRanges at he
  cases hp : parseValueLine num r.line ws tr with
  | error e => rw [hp] at he; cases he
  | ok q =>
    obtain ⟨k, p1, p2⟩ := q
    rw [hp] at he
    simp only at he
    split at he
    · cases he
    · refine addBoth_inRange (Q := InRange) (fun _ _ _ hq hr => addRange_inRange hq hr) ?_ he
      exact { h with }

theorem readQuadObj_inRange {num : Word → Option ℝ} {r r' : Rd} {ws tr} (h : InRange r) (he : readQuadObj num r ws tr = .ok r') :
    InRange r' := by
  unfold readQuadObj at he
  cases hp : parseValueLine num r.line ws tr with
  | error e => rw [hp] at he; cases he
  | ok q =>
    obtain ⟨k, p1, p2⟩ := q
    rw [hp] at he
    simp only at he
    cases hk : r.col k with
    | none => rw [hk] at he; cases he
    | some c =>
      rw [hk] at he
      exact (addBoth_inRange (f := fun r p => addQuad r c p) (Q := fun r => InRange r ∧ c < r.cols.length)
        (fun r r' p hq hr => by
          have := addQuad_inRange hq.1 hq.2 hr
          exact ⟨this.1, this.2 ▸ hq.2⟩) ⟨h, col_lt hk⟩ he).1

theorem readBounds_inRange {num : Word → Option ℝ} {r r' : Rd} {ws} (h : InRange r) (he : readBounds num r ws = .ok r') : InRange r' := by
  unfold readBounds at he
  repeat' split at he
  all_goals first
    | cases he; done
    | (injection he with he
       subst he
       rename_i hc
       exact { h with xVal := forall_snoc h.xVal (col_lt hc) })

theorem readLine_inRange {num : Word → Option ℝ} {r r' : Rd} {l} (h : InRange r) (he : readLine num r l = .ok r') : InRange r' := by
  have h1 : InRange { r with line := r.line + 1 } := { h with }
  unfold readLine at he
  simp only at he
  split at he
  · injection he with he; exact he ▸ h1
  · injection he with he; exact he ▸ h1
  · unfold processLine at he
    split at he
    · cases he
    · exact readRow_inRange h1 he
    · exact readColumn_inRange h1 he
    · exact readRHS_inRange h1 he
    · exact readRanges_inRange h1 he
    · exact readBounds_inRange h1 he
    · exact readQuadObj_inRange h1 he
    · cases he
    · injection he with he; exact he ▸ h1
  · injection he with he; exact he ▸ h1
  · split at he
    · split at he
      · injection he with he; subst he; exact { h with }
      · cases he
    · injection he with he; subst he; exact { h with }

theorem readLines_inRange {num : Word → Option ℝ} : ∀ {file : List Line} {r r' : Rd}, InRange r → readLines num r file = .ok r' →
    InRange r' := by
  intro file
  induction file with
  | nil => intro r r' h he; injection he with he; exact he ▸ h
  | cons l file ih =>
    intro r r' h he
    rw [readLines] at he
    cases hl : readLine num r l with
    | error e => rw [hl] at he; cases he
    | ok r1 => rw [hl] at he; exact ih (readLine_inRange h hl) he

/-- **C68.** Whatever the file, if the reader returns a problem, all the indices it has used to fill its vectors and matrices are in their
range: an undeclared row or column is never used. -/
theorem C68_indices {num : Word → Option ℝ} {full : Bool} {file : List Line} {qp props r}
    (h : read num full {} file = .ok ((qp, props), r)) : InRange r ∧ qp.cstr.C.rows = r.nRows ∧ qp.cstr.C.cols = r.cols.length ∧
      qp.cost.G.rows = r.cols.length ∧ qp.cost.G.cols = r.cols.length ∧ qp.cost.a.size = r.cols.length ∧ qp.cstr.l.size = r.nRows ∧
      qp.cstr.u.size = r.nRows ∧ qp.cstr.xl.size = r.cols.length ∧ qp.cstr.xu.size = r.cols.length := by
  unfold read at h
  cases hl : readLines num {} file with
  | error e => rw [hl] at h; cases h
  | ok r1 =>
    rw [hl] at h
    simp only [Except.ok.injEq, Prod.mk.injEq] at h
    obtain ⟨h1, rfl⟩ := h
    have h0 : InRange {} := by constructor <;> (intro e he; cases he)
    refine ⟨readLines_inRange h0 hl, ?_⟩
    have : qp = (r1.problem full).1 := by rw [h1]
    subst this
    exact ⟨rfl, rfl, rfl, rfl, rfl, rfl, rfl, rfl, rfl⟩

/-! ### C69 -/

/-- **C69.** A reader that has read an objective row does not accept a second one: the section `ROWS` of another file throws, whatever
its other rows. -/
theorem C69_rows {num : Word → Option ℝ} : ∀ {es ls}, RowLines es ls → ∀ r : Rd, r.sec = .rows → r.objWasRead = true →
    (∃ e ∈ es, e.2 = .N) → ∀ tl, readLines num r (ls ++ tl) = .error .throws := by
  have main : ∀ es ls (n : Word) (t : RowT) (ws : List Word) (tr : Bool), parseRow ws = .ok (t, n) →
      (∀ r : Rd, r.sec = .rows → r.objWasRead = true → (∃ e ∈ es, e.2 = .N) → ∀ tl, readLines num r (ls ++ tl) = .error .throws) →
      ∀ r : Rd, r.sec = .rows → r.objWasRead = true → (∃ e ∈ (n, t) :: es, e.2 = RowT.N) →
        ∀ tl, readLines num r ((.text true ws tr :: ls) ++ tl) = .error .throws := by
    intro es ls n t ws tr hp ih r hs ho he tl
    rw [List.cons_append, readLines, readLine_text]
    unfold processLine
    rw [show (r.at (r.line + 1)).sec = .rows from hs]
    simp only
    unfold readRow
    rw [hp]
    simp only
    by_cases h1 : ((r.at (r.line + 1)).row n).isSome
    · rw [if_pos h1]
    · rw [if_neg h1]
      by_cases ht : t = .N
      · rw [if_pos ht, if_pos (show (r.at (r.line + 1)).objWasRead = true from ho)]
      · rw [if_neg ht]
        simp only
        refine ih _ (by exact hs) (by exact ho) ?_ tl
        obtain ⟨e, he, hN⟩ := he
        rcases List.mem_cons.1 he with rfl | he
        · exact absurd hN ht
        · exact ⟨e, he, hN⟩
  intro es ls h
  induction h with
  | nil => rintro r _ _ ⟨e, he, _⟩; cases he
  | @skip es l ls hl _ ih =>
    intro r hs ho he tl
    rw [List.cons_append, readLines, readLine_skip hl]
    exact ih _ (by exact hs) (by exact ho) he tl
  | @spaced es ls c n t rest tr hc _ ih => exact main _ _ _ _ _ _ (parse_spaced (rowType_letter hc)) ih
  | @touching es ls c n t rest tr hc hn _ ih => exact main _ _ _ _ _ _ (parse_touching (rowType_letter hc) hn) ih

/-- **C69.** Two files with an objective cannot be read with the same reader: the second call throws (the method that would reset the reader
is declared but neither defined nor called). -/
theorem C69_reuse {num : Word → Option ℝ} {d d' : Desc} {file file' : List Line} {full : Bool} (hd : d.Ok) (hl : Layout num d file)
    (hN : ∃ e ∈ d.rows, e.2 = .N) (hl' : Layout num d' file') (hN' : ∃ e ∈ d'.rows, e.2 = .N) :
    ∃ p r, read num full {} file = .ok (p, r) ∧ read num full r file' = .error .throws := by
  obtain ⟨r, hr, ho⟩ := reads_layout_obj hd hl hN
  refine ⟨r.problem full, r, ?_, ?_⟩
  · unfold read; rw [hr]
  · obtain ⟨pre, w, pn, more, tn, sk, hro, rowL, hc, colL, rhsL, rngL, bndL, quadL, he, post, hpre, hn2, hsk, hr1, hrow, _, _,
      _, _, _, _, _, _, rfl⟩ := hl'
    have a1 : Reads num r (pre ++ (Line.text false (w :: pn :: more) tn :: (sk ++ [hro]))) _ :=
      (reads_skips hpre).append (Reads.cons (readLine_name rfl (header_type .name hn2 (by decide))) ((reads_skips hsk).append (Reads.cons
        (readLine_header (header_type .rows hr1 (by decide)) (by decide) (by decide) (by decide) (by decide)) Reads.nil)))
    have := a1 (rowL ++ hc :: colL ++ rhsL ++ rngL ++ bndL ++ quadL ++ he :: post)
    unfold read
    simp only [List.append_assoc, List.cons_append, List.nil_append] at this ⊢
    rw [this, C69_rows hrow _ (by rfl) (by exact ho) hN']

example : ∃ p r, read Ex.num true {} Ex.file = .ok (p, r) ∧ read Ex.num true r Ex.file = .error .throws :=
  C69_reuse Ex.ok Ex.layout ⟨(['o'], .N), by simp [Ex.desc], rfl⟩ Ex.layout ⟨(['o'], .N), by simp [Ex.desc], rfl⟩

theorem parseValueLine_outOfRange {num : Word → Option ℝ} {ln ws tr} (h : parseValueLine num ln ws tr = .error .outOfRange) :
    ws = [] ∧ 11 ≤ ln := by
  unfold parseValueLine at h
  repeat' split at h
  all_goals first
    | (cases h; done)
    | (refine ⟨rfl, ?_⟩; omega)

theorem addBoth_throws {f : Rd → Word × ℝ → Except QErr Rd} (hf : ∀ r p, f r p ≠ .error .outOfRange) {r p p2} :
    addBoth f r p p2 ≠ .error .outOfRange := by
  unfold addBoth
  split
  · rename_i e he
    intro h
    exact hf r p (he.trans h)
  · split
    · exact fun h => by cases h
    · exact hf _ _

theorem addCol_throws {r : Rd} {c p} : addCol r c p ≠ .error .outOfRange := by
  unfold addCol
  repeat' split
  all_goals exact fun h => by cases h

theorem addRhs_throws {r : Rd} {p} : addRhs r p ≠ .error .outOfRange := by
  unfold addRhs
  repeat' split
  all_goals exact fun h => by cases h

theorem addRange_throws {r : Rd} {p} : addRange r p ≠ .error .outOfRange := by
  unfold addRange
  repeat' split
  all_goals exact fun h => by cases h

theorem addQuad_throws {r : Rd} {c p} : addQuad r c p ≠ .error .outOfRange := by
  unfold addQuad
  repeat' split
  all_goals exact fun h => by cases h

theorem readRow_throws {r : Rd} {ws} : readRow r ws ≠ .error .outOfRange := by
  unfold readRow
  split
  · rename_i e he
    intro h
    injection h with h
    subst h
    unfold parseRow at he
    repeat' split at he
    all_goals cases he
  · repeat' split
    all_goals exact fun h => by cases h

theorem readBounds_throws {num : Word → Option ℝ} {r : Rd} {ws} : readBounds num r ws ≠ .error .outOfRange := by
  unfold readBounds
  repeat' split
  all_goals exact fun h => by cases h

theorem header_normal (s : Word) : header s ≠ .normal := by
  unfold header
  repeat' split
  all_goals exact fun h => by cases h

theorem readLine_outOfRange {num : Word → Option ℝ} {r : Rd} {l} (h : readLine num r l = .error .outOfRange) :
    (∃ tr, l = .text true [] tr) ∧ 10 ≤ r.line := by
  unfold readLine at h
  simp only at h
  split at h
  · cases h
  · cases h
  · rename_i sp ws tr hlt
    have hsp : sp = true := by
      cases sp
      · exact absurd hlt (header_normal _)
      · rfl
    subst hsp
    have key : ws = [] ∧ 11 ≤ r.line + 1 → (∃ tr', Line.text true ws tr = .text true [] tr') ∧ 10 ≤ r.line := by
      rintro ⟨rfl, h⟩
      exact ⟨⟨tr, rfl⟩, by omega⟩
    unfold processLine at h
    split at h
    · cases h
    · exact absurd h readRow_throws
    · unfold readColumn at h
      split at h
      · rename_i e he
        injection h with h
        exact key (parseValueLine_outOfRange (h ▸ he))
      · exact absurd h (addBoth_throws (fun _ _ => addCol_throws))
    · unfold readRHS at h
      split at h
      · rename_i e he
        injection h with h
        exact key (parseValueLine_outOfRange (h ▸ he))
      · split at h
        · cases h
        · exact absurd h (addBoth_throws (fun _ _ => addRhs_throws))
    · unfold readRanges at h
      split at h
      · rename_i e he
        injection h with h
        exact key (parseValueLine_outOfRange (h ▸ he))
      · split at h
        · cases h
        · exact absurd h (addBoth_throws (fun _ _ => addRange_throws))
    · exact absurd h readBounds_throws
    · unfold readQuadObj at h
      split at h
      · rename_i e he
        injection h with h
        exact key (parseValueLine_outOfRange (h ▸ he))
      · split at h
        · cases h
        · exact absurd h (addBoth_throws (fun _ _ => addQuad_throws))
    · cases h
    · cases h
  · cases h
  · repeat' split at h
    all_goals cases h

theorem readLine_line {num : Word → Option ℝ} {r r' : Rd} {l} (h : readLine num r l = .ok r') : r'.line = r.line + 1 := by
  have hb : ∀ (f : Rd → Word × ℝ → Except QErr Rd), (∀ r r' p, f r p = .ok r' → r'.line = r.line) → ∀ (r r' : Rd) p p2,
      addBoth f r p p2 = .ok r' → r'.line = r.line := by
    intro f hf r r' p p2 h
    exact addBoth_inRange (Q := fun q => q.line = r.line) (fun a b p ha hb => (hf a b p hb).trans ha) rfl h
  have a1 : ∀ (c : Rd → Nat) (r r' : Rd) p, addCol r (c r) p = .ok r' → r'.line = r.line := by
    intro c r r' p h
    unfold addCol at h
    repeat' split at h
    all_goals first | (cases h; done) | (injection h with h; subst h; rfl)
  have a2 : ∀ (r r' : Rd) p, addRhs r p = .ok r' → r'.line = r.line := by
    intro r r' p h
    unfold addRhs at h
    repeat' split at h
    all_goals first | (cases h; done) | (injection h with h; subst h; rfl)
  have a3 : ∀ (r r' : Rd) p, addRange r p = .ok r' → r'.line = r.line := by
    intro r r' p h
    unfold addRange at h
    repeat' split at h
    all_goals first | (cases h; done) | (injection h with h; subst h; rfl)
  have a4 : ∀ (c : Nat) (r r' : Rd) p, addQuad r c p = .ok r' → r'.line = r.line := by
    intro c r r' p h
    unfold addQuad at h
    repeat' split at h
    all_goals first | (cases h; done) | (injection h with h; subst h; rfl)
  unfold readLine at h
  simp only at h
  split at h
  · injection h with h; subst h; rfl
  · injection h with h; subst h; rfl
  · unfold processLine at h
    split at h
    · cases h
    · unfold readRow at h
      repeat' split at h
      all_goals first | (cases h; done) | (injection h with h; subst h; rfl)
    · unfold readColumn at h
      split at h
      · cases h
      · rename_i k p1 p2 _
        simp only at h
        by_cases hk : k ∈ r.cols
        · rw [if_pos hk] at h
          exact hb _ (a1 (fun r => r.cols.idxOf k)) _ _ _ _ h
        · rw [if_neg hk] at h
          exact hb _ (a1 (fun r => r.cols.idxOf k)) _ _ _ _ h
    · unfold readRHS at h
      repeat' split at h
      all_goals first | (cases h; done) | exact hb _ a2 _ _ _ _ h
    · unfold readRanges at h
      repeat' split at h
      all_goals first | (cases h; done) | exact hb _ a3 _ _ _ _ h
    · unfold readBounds at h
      repeat' split at h
      all_goals first | (cases h; done) | (injection h with h; subst h; rfl)
    · unfold readQuadObj at h
      repeat' split at h
      all_goals first | (cases h; done) | exact hb _ (a4 _) _ _ _ _ h
    · cases h
    · injection h with h; subst h; rfl
  · injection h with h; subst h; rfl
  · repeat' split at h
    all_goals first | (cases h; done) | (injection h with h; subst h; rfl)

theorem readLines_outOfRange {num : Word → Option ℝ} : ∀ {file : List Line} {r : Rd}, readLines num r file = .error .outOfRange →
    ∃ k tr, file[k]? = some (.text true [] tr) ∧ 10 ≤ r.line + k := by
  intro file
  induction file with
  | nil => intro r h; cases h
  | cons l file ih =>
    intro r h
    rw [readLines] at h
    cases hl : readLine num r l with
    | error e =>
      rw [hl] at h
      injection h with h
      subst h
      obtain ⟨⟨tr, rfl⟩, h2⟩ := readLine_outOfRange hl
      exact ⟨0, tr, rfl, h2⟩
    | ok r1 =>
      rw [hl] at h
      obtain ⟨k, tr, h1, h2⟩ := ih h
      rw [readLine_line hl] at h2
      exact ⟨k + 1, tr, h1, by omega⟩

/-- **C68, messages.** The only access outside of an array is the one that builds the message of the exception for a line that only contains
spaces and begins with one, and comes after the tenth line. -/
theorem C68_message {num : Word → Option ℝ} {full : Bool} {file : List Line} (h : read num full {} file = .error .outOfRange) :
    ∃ k tr, 10 ≤ k ∧ file[k]? = some (.text true [] tr) := by
  unfold read at h
  cases hl : readLines num {} file with
  | ok r => rw [hl] at h; cases h
  | error e =>
    rw [hl] at h
    injection h with h
    subst h
    obtain ⟨k, tr, h1, h2⟩ := readLines_outOfRange hl
    exact ⟨k, tr, by simpa using h2, h1⟩

/-- A blank line that begins with a space, after the tenth line and in a section of values, makes the reader access an array outside of its
range (to build the message of the exception). -/
theorem C68_message_false : ∃ (num : Word → Option ℝ) (file : List Line), read num true {} file = .error .outOfRange := by
  refine ⟨fun _ => none, .text false ["COLUMNS".toList] false :: List.replicate 9 .empty ++ [.text true [] true], ?_⟩
  simp [read, readLines, readLine, List.replicate, lineType, header, processLine, readColumn, parseValueLine]

end JrlQp.Qps
