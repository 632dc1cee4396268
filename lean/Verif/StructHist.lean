import Verif.StructSafe

/-!
# `BlockGISolver` in any arithmetic: two runs on the same problem go through the same steps, and none of them fails
-/

set_option linter.unusedSectionVars false

namespace JrlQp

open NumOps

variable {K B : Type} [Zero K] [One K] [Add K] [Sub K] [Neg K] [Mul K] [Div K] [NumOps K B] [SumOps K]

/-! ## `StructuredC` -/

theorem StrC.col_seg (c : StrC K) {i : Nat} (hi : i < c.nbCstr) :
    (c.col i).start + (c.col i).len ≤ (c.col i).size ∧ (c.col i).size = c.nbVar := by
  have hbi : c.toBlock.getD i 0 = blkOf c.cols c.nb i := toBlock_getD c.cols c.nb i hi
  obtain ⟨h1, _, _⟩ := blkOf_spec hi
  have hle : off c.rows (blkOf c.cols c.nb i) + c.rows (blkOf c.cols c.nb i) ≤ off c.rows c.nb := off_le (sz := c.rows) h1
  refine ⟨?_, rfl⟩
  unfold StrC.col
  simp only [hbi]
  exact hle

theorem StrC.dot_congr (c : StrC K) {i : Nat} (hi : i < c.nbCstr) {x x' : Nat → K} (h : VEq c.nbVar x x') :
    (c.col i).dot x = (c.col i).dot x' := by
  obtain ⟨h1, h2⟩ := c.col_seg hi
  unfold SegVec.dot
  apply esum_congr
  intro a ha
  rw [h _ (by omega)]

theorem StrC.transposeMult_congr (c : StrC K) {x x' : Nat → K} (out out' : Nat → K) (h : VEq c.nbVar x x') :
    VEq c.nbCstr (c.transposeMult out x) (c.transposeMult out' x') := by
  intro i hi
  obtain ⟨h1, _, _⟩ := blkOf_spec hi
  have hle : off c.rows (blkOf c.cols c.nb i) + c.rows (blkOf c.cols c.nb i) ≤ off c.rows c.nb := off_le (sz := c.rows) h1
  unfold StrC.transposeMult
  rw [c.multStep_fold, c.multStep_fold, if_pos (show i < off c.cols c.nb from hi), if_pos (show i < off c.cols c.nb from hi)]
  apply esum_congr
  intro a ha
  rw [h _ (by unfold StrC.nbVar; omega)]

/-! ## Selection -/

theorem bselect_congr (pb : BPb K B) (hC : pb.C.nbVar = pb.n) (A : ActiveSet) (hm : A.nbCstr ≤ pb.m) (hb : A.nbBnd ≤ pb.n)
    {x x' : Nat → K} (h : VEq pb.n x x') (cx cx' : Nat → K) :
    (bselect pb A x cx).1 = (bselect pb A x' cx').1 := by
  unfold bselect
  simp only []
  have hcx := pb.C.transposeMult_congr cx cx' (hC ▸ h)
  rw [foldl_congr' (selGenCx pb A (pb.C.transposeMult cx x)) (selGenCx pb A (pb.C.transposeMult cx' x')) (List.range A.nbCstr)]
  · rw [foldl_congr' (selBnd pb.sides A x) (selBnd pb.sides A x') (List.range A.nbBnd)]
    intro i hi acc
    have hi := List.mem_range.1 hi
    unfold selBnd
    rw [h i (by omega)]
  · intro i hi acc
    have hi := List.mem_range.1 hi
    unfold selGenCx
    rw [hcx i (lt_of_lt_of_le hi hm)]

theorem bselect_cand (pb : BPb K B) (A : ActiveSet) (x cx : Nat → K) :
    (bselect pb A x cx).1.status = .inactive ∨ Cand A (bselect pb A x cx).1 := by
  have hgen : ∀ (cx : Nat → K) (l : List Nat) (acc : Sel B), (∀ i ∈ l, i < A.nbCstr) →
      (acc.sc.status = .inactive ∨ Cand A acc.sc) →
      ((l.foldl (selGenCx pb A cx) acc).sc.status = .inactive ∨ Cand A (l.foldl (selGenCx pb A cx) acc).sc) := by
    intro cx l
    induction l with
    | nil => intro acc _ h; exact h
    | cons i l ih =>
      intro acc hl h
      apply ih _ (fun j hj => hl j (List.mem_cons_of_mem _ hj))
      have hi := hl i List.mem_cons_self
      by_cases hA : A.isActive i
      · simp only [selGenCx, hA, if_true]; exact h
      · have hA' : A.statusAt i = .inactive := by simpa [ActiveSet.isActive] using hA
        simp only [selGenCx, hA]
        have key : ∀ s : Status, s.isGeneral = true → s.isEq = false → Cand A ⟨i, s⟩ := by
          intro s hs he
          refine ⟨?_, he⟩
          rw [ActiveSet.activatePre_iff]
          refine ⟨by simp only; omega, hA', ?_, Or.inl ⟨hi, hs⟩⟩
          rintro rfl; simp [Status.isGeneral] at hs
        simp only [Bool.false_eq_true, if_false]
        split_ifs
        · exact Or.inr (key _ rfl rfl)
        · exact Or.inr (key _ rfl rfl)
        · exact h
  have hbnd : ∀ (l : List Nat) (acc : Sel B), (∀ i ∈ l, i < A.nbBnd) →
      (acc.sc.status = .inactive ∨ Cand A acc.sc) →
      ((l.foldl (selBnd pb.sides A x) acc).sc.status = .inactive ∨ Cand A (l.foldl (selBnd pb.sides A x) acc).sc) := by
    intro l
    induction l with
    | nil => intro acc _ h; exact h
    | cons i l ih =>
      intro acc hl h
      apply ih _ (fun j hj => hl j (List.mem_cons_of_mem _ hj))
      have hi := hl i List.mem_cons_self
      by_cases hA : A.isActiveBnd i
      · simp only [selBnd, hA, if_true]; exact h
      · have hA' : A.statusAt (A.nbCstr + i) = .inactive := by
          by_contra hne
          exact hA (by simp only [ActiveSet.isActiveBnd, ActiveSet.statusAtBnd]; exact decide_eq_true hne)
        simp only [selBnd, hA]
        have key : ∀ s : Status, s.isBound = true → s.isEq = false → Cand A ⟨A.nbCstr + i, s⟩ := by
          intro s hs he
          refine ⟨?_, he⟩
          rw [ActiveSet.activatePre_iff]
          refine ⟨by simp only; omega, hA', ?_, Or.inr ⟨by simp, hs⟩⟩
          rintro rfl; simp [Status.isBound] at hs
        simp only [Bool.false_eq_true, if_false]
        split_ifs
        · exact Or.inr (key _ rfl rfl)
        · exact Or.inr (key _ rfl rfl)
        · exact h
  exact hbnd _ _ (fun i hi => List.mem_range.1 hi) (hgen _ _ _ (fun i hi => List.mem_range.1 hi) (Or.inl rfl))

/-! ## The states compared -/

/-- Forget the fields of `State` that `BlockGISolver` does not have. -/
def State.clr (s : State K) : State K := { s with J := fun _ _ => 0, R := fun _ _ => 0 }

/-- Two structured solvers at the same step of a run on `pb`. -/
structure StSim (pb : BPb K B) (e : Nat) (bs bs' : BState K) : Prop where
  core : Sim e bs.s.clr bs'.s.clr
  inv : BInv bs
  inv' : BInv bs'
  nbVar : bs.s.nbVar = pb.n
  nbCstr : bs.s.A.nbCstr = pb.m
  nbBnd : bs.s.A.nbBnd = pb.nb
  g : bs'.g = bs.g
  gok : bs.g.ok
  gdec : bs.g.decomposed = true
  gn : bs.g.nbVar = pb.n
  qr : QSim pb.n bs.qr bs'.qr
  q : bs.qr.q = bs.s.A.q

/-- `StSim`, with the same `d`, `z`, `r`. -/
structure StSim2 (pb : BPb K B) (bs bs' : BState K) : Prop extends StSim pb 1 bs bs' where
  c2 : Sim2 bs.s.clr bs'.s.clr

theorem StSim.A {pb : BPb K B} {e : Nat} {bs bs' : BState K} (h : StSim pb e bs bs') : bs'.s.A = bs.s.A := h.core.A
theorem StSim.nbVar' {pb : BPb K B} {e : Nat} {bs bs' : BState K} (h : StSim pb e bs bs') : bs'.s.nbVar = pb.n :=
  h.core.nbVar.trans h.nbVar
theorem StSim.q_le {pb : BPb K B} {e : Nat} {bs bs' : BState K} (h : StSim pb e bs bs') : bs.s.A.q ≤ pb.n := by
  rw [← h.q]; exact h.qr.qn

theorem StSim.weaken {pb : BPb K B} {bs bs' : BState K} (h : StSim pb 1 bs bs') : StSim pb 0 bs bs' :=
  { h with core := h.core.weaken }

/-- A candidate designates a constraint of the problem. -/
theorem bcand_idx {pb : BPb K B} {A : ActiveSet} {sc : SC} (h1 : A.nbCstr = pb.m) (h2 : A.nbBnd = pb.nb)
    (hc : A.activatePre sc.p sc.status = true) :
    bscOk pb sc = true ∧ (sc.status.isBound = true → sc.p - pb.m < pb.n) ∧ (sc.status.isBound = false → sc.p < pb.m) := by
  have h3 := Cand.scOk (pb := pb.sides) hc h1 h2
  have h4 := (ActiveSet.activatePre_iff _ _ _).1 hc
  refine ⟨h3, fun hb => ?_, fun hb => ?_⟩
  · have : pb.nb ≤ pb.n := by unfold BPb.nb; split_ifs <;> omega
    rcases h4.2.2.2 with ⟨_, h⟩ | ⟨h5, _⟩
    · cases hs : sc.status <;> rw [hs] at h hb <;> simp [Status.isGeneral, Status.isBound] at h hb
    · have := h4.1; omega
  · rcases h4.2.2.2 with ⟨h5, _⟩ | ⟨_, h⟩
    · omega
    · rw [hb] at h; cases h

/-! ## `computeStep_` -/

theorem premultByJt_sim {pb : BPb K B} (hC : pb.C.nbVar = pb.n) {e : Nat} {bs bs' : BState K} (h : StSim pb e bs bs') {sc : SC}
    (hc : bs.s.A.activatePre sc.p sc.status = true) (u u' : Nat → K) :
    ∃ X X', premultByJt bs.g bs.qr pb.C pb.n sc u = some X ∧ premultByJt bs'.g bs'.qr pb.C pb.n sc u' = some X' ∧ VEq pb.n X X' := by
  obtain ⟨_, i1, i2⟩ := bcand_idx h.nbCstr h.nbBnd hc
  have hgn := h.gn
  have key : ∃ X X', (if sc.status.isBound then
      bs.g.solveLSeg u ⟨sc.p - pb.C.nbCstr, 1, pb.n, fun _ => if sc.status = .upperBound then -1 else 1⟩
    else
      (bs.g.solveLSeg u (pb.C.col sc.p)).map fun v => if sc.status = .upper then (fun i => if i < pb.n then v i * -1 else v i) else v)
        = some X ∧ (if sc.status.isBound then
      bs.g.solveLSeg u' ⟨sc.p - pb.C.nbCstr, 1, pb.n, fun _ => if sc.status = .upperBound then -1 else 1⟩
    else
      (bs.g.solveLSeg u' (pb.C.col sc.p)).map fun v => if sc.status = .upper then (fun i => if i < pb.n then v i * -1 else v i) else v)
        = some X' ∧ VEq pb.n X X' := by
    cases hb : sc.status.isBound with
    | true =>
      simp only [if_true]
      have hp := i1 hb
      obtain ⟨X, X', a, b, c⟩ := SG.solveLSeg_sim h.gok h.gdec
        (s := ⟨sc.p - pb.C.nbCstr, 1, pb.n, fun _ => if sc.status = .upperBound then (-1 : K) else 1⟩)
        (by have : sc.p - pb.C.nbCstr < pb.n := hp
            simp only; omega) hgn.symm u u'
      exact ⟨X, X', a, b, hgn ▸ c⟩
    | false =>
      simp only [Bool.false_eq_true, if_false]
      obtain ⟨j1, j2⟩ := pb.C.col_seg (i2 hb)
      obtain ⟨X, X', a, b, c⟩ := SG.solveLSeg_sim h.gok h.gdec j1 (by rw [j2, hC, hgn]) u u'
      rw [a, b]
      refine ⟨_, _, rfl, rfl, ?_⟩
      rw [hgn] at c
      intro i hi
      split_ifs with hu
      · simp only [if_pos hi]; rw [c i hi]
      · exact c i hi
  obtain ⟨X, X', a, b, c⟩ := key
  unfold premultByJt
  rw [h.g, a, b]
  exact ⟨_, _, rfl, rfl, (OSeq.apply_rel LinRel.eq _ h.qr.Q c).2⟩

theorem premultByJ2_sim {pb : BPb K B} {e : Nat} {bs bs' : BState K} (h : StSim pb e bs bs') {v v' : Nat → K}
    (hv : VEq (pb.n - bs.s.A.q) v v') (u u' : Nat → K) :
    ∃ X X', premultByJ2 bs.g bs.qr pb.n (pb.n - bs.s.A.q) u v = some X ∧ premultByJ2 bs'.g bs'.qr pb.n (pb.n - bs.s.A.q) u' v' = some X' ∧
      VEq pb.n X X' ∧
      ∀ nul : K → Prop, LinRel (fun a _ : K => nul a) → bs.s.A.q = pb.n → ∀ i < pb.n, nul (X i) := by
  have hq := h.q
  have hq' := h.qr.qe
  have hn := h.qr.sz.nbVar
  have hn' := h.qr.sz'.nbVar
  unfold premultByJ2
  rw [if_pos (by rw [hn, hq]), if_pos (by rw [hn', hq', hq]), h.g, hq', hq]
  have a1 := (OSeq.apply_rel LinRel.eq _ h.qr.Q (v := fun i => if i < bs.s.A.q then 0 else if i < pb.n then v (i - bs.s.A.q) else u i)
    (w := fun i => if i < bs.s.A.q then 0 else if i < pb.n then v' (i - bs.s.A.q) else u' i) (by
      intro i hi
      simp only []
      split_ifs with h1
      · rfl
      · exact hv _ (by omega))).1
  obtain ⟨X, X', b1, b2, b3⟩ := SG.solveLT_rel LinRel.eq h.gok h.gdec (by rw [h.gn]; exact a1)
  refine ⟨X, X', b1, b2, h.gn ▸ b3, fun nul hnul hqn => ?_⟩
  have c1 := (OSeq.apply_rel hnul _ h.qr.Q (v := fun i => if i < bs.s.A.q then 0 else if i < pb.n then v (i - bs.s.A.q) else u i)
    (w := fun _ => 0) (by
      intro i hi
      simp only []
      rw [if_pos (by omega)]
      exact hnul.zero)).1
  obtain ⟨Y, Y', d1, d2, d3⟩ := SG.solveLT_rel hnul h.gok h.gdec (by rw [h.gn]; exact c1)
  rw [b1] at d1
  simp only [Option.some.injEq] at d1
  rw [h.gn] at d3
  rw [d1]; exact d3

theorem bComputeStep_sim {pb : BPb K B} (hC : pb.C.nbVar = pb.n) {bs bs' : BState K} (h : StSim pb 1 bs bs') {sc : SC}
    (hc : bs.s.A.activatePre sc.p sc.status = true) :
    ∃ b b', bComputeStep pb bs sc = some b ∧ bComputeStep pb bs' sc = some b' ∧ StSim2 pb b b' ∧ b.s.A = bs.s.A ∧ b.s.it = bs.s.it ∧
      b.s.szU = bs.s.szU ∧ b'.s.szU = bs'.s.szU ∧ b.s.f = bs.s.f ∧
      ∀ nul : K → Prop, LinRel (fun a _ : K => nul a) → bs.s.A.q = pb.n → ∀ i < pb.n, nul (b.s.z i) := by
  obtain ⟨d, d', a1, a2, a3⟩ := premultByJt_sim hC h hc bs.s.d bs'.s.d
  have hql := h.q_le
  obtain ⟨z, z', b1, b2, b3, b4⟩ := premultByJ2_sim h (v := fun i => d (bs.s.A.q + i)) (v' := fun i => d' (bs.s.A.q + i))
    (fun i hi => a3 _ (by omega)) bs.s.z bs'.s.z
  obtain ⟨p, p', c1, c2, c3, c4, c5⟩ := h.qr.RSolve a3
  rw [h.q] at c1 c2 c4 c5
  have e1 : bComputeStep pb bs sc = some { bs with qr := p.1, s := { bs.s with d := d, z := z, r := wr bs.s.A.q p.2 bs.s.r } } := by
    unfold bComputeStep
    simp only [h.nbVar]
    rw [a1]
    simp only [Option.bind_some]
    rw [b1]
    simp only [Option.bind_some]
    rw [c1]; rfl
  have e2 : bComputeStep pb bs' sc = some { bs' with qr := p'.1, s := { bs'.s with d := d', z := z', r := wr bs.s.A.q p'.2 bs'.s.r } } := by
    unfold bComputeStep
    simp only [h.nbVar', h.A]
    rw [a2]
    simp only [Option.bind_some]
    rw [b2]
    simp only [Option.bind_some]
    rw [c2]; rfl
  have hcore := h.core
  have hnv : bs.s.clr.nbVar = pb.n := h.nbVar
  have h2 : Sim2 { bs.s with d := d, z := z, r := wr bs.s.A.q p.2 bs.s.r }.clr { bs'.s with d := d', z := z', r := wr bs.s.A.q p'.2 bs'.s.r }.clr := by
    refine { nbVar := hcore.nbVar, A := hcore.A, it := hcore.it, f := hcore.f, need := hcore.need, x := hcore.x, u := hcore.u,
             J := hcore.J, R := hcore.R, d := ?_, z := ?_, r := ?_ }
    · intro i hi; exact a3 i (hnv ▸ hi)
    · intro i hi; exact b3 i (hnv ▸ hi)
    · intro i hi
      have hi' : i < bs.s.A.q := hi
      show wr bs.s.A.q p.2 bs.s.r i = wr bs.s.A.q p'.2 bs'.s.r i
      simp only [wr, hi', if_true]
      exact c5 i hi'
  refine ⟨_, _, e1, e2, ⟨⟨h2.toSim, h.inv.keep (bComputeStep_keep e1), h.inv'.keep (bComputeStep_keep e2), h.nbVar, h.nbCstr, h.nbBnd,
    h.g, h.gok, h.gdec, h.gn, c3, c4⟩, h2⟩, rfl, rfl, rfl, rfl, rfl, b4⟩

/-! ## The rest of an iteration -/

theorem bFullStep_congr {pb : BPb K B} (hC : pb.C.nbVar = pb.n) {sc : SC} (h1 : sc.status.isBound = true → sc.p - pb.m < pb.n)
    (h2 : sc.status.isBound = false → sc.p < pb.m) {x x' z z' : Nat → K} (hx : VEq pb.n x x') (hz : VEq pb.n z z') :
    bFullStep pb x z sc = bFullStep pb x' z' sc := by
  have hd : sc.status.isBound = false → ∀ {v v'}, VEq pb.n v v' → (pb.C.col sc.p).dot v = (pb.C.col sc.p).dot v' :=
    fun hb v v' hv => pb.C.dot_congr (h2 hb) (hC ▸ hv)
  unfold bFullStep
  cases hs : sc.status <;> rw [hs] at h1 hd <;> simp only []
  · rw [hd rfl hx, hd rfl hz]
  · rw [hd rfl hx, hd rfl hz]
  · rw [hx _ (h1 rfl), hz _ (h1 rfl)]
  · rw [hx _ (h1 rfl), hz _ (h1 rfl)]

theorem bDot_congr {pb : BPb K B} (hC : pb.C.nbVar = pb.n) {sc : SC} (h1 : sc.status.isBound = true → sc.p - pb.m < pb.n)
    (h2 : sc.status.isBound = false → sc.p < pb.m) {z z' : Nat → K} (hz : VEq pb.n z z') : bDot pb sc z = bDot pb sc z' := by
  have hd : sc.status.isBound = false → ∀ {v v'}, VEq pb.n v v' → (pb.C.col sc.p).dot v = (pb.C.col sc.p).dot v' :=
    fun hb v v' hv => pb.C.dot_congr (h2 hb) (hC ▸ hv)
  unfold bDot
  cases hs : sc.status <;> rw [hs] at h1 hd <;> simp only []
  · rw [hd rfl hz]
  · rw [hd rfl hz]
  · rw [hd rfl hz]
  · rw [hz _ (h1 rfl)]
  · rw [hz _ (h1 rfl)]
  · rw [hz _ (h1 rfl)]

theorem bStepLength_sim {o o' : Opts K} (ho : OEq o o') {pb : BPb K B} (hC : pb.C.nbVar = pb.n) {bs bs' : BState K} (h : StSim2 pb bs bs')
    {sc : SC} (hc : bs.s.A.activatePre sc.p sc.status = true) :
    bComputeStepLength o' pb bs'.s sc = bComputeStepLength o pb bs.s sc := by
  obtain ⟨_, i1, i2⟩ := bcand_idx h.nbCstr h.nbBnd hc
  have hx : VEq pb.n bs'.s.x bs.s.x := fun i hi => (h.core.x i (h.nbVar.symm ▸ hi)).symm
  have hz : VEq pb.n bs'.s.z bs.s.z := fun i hi => (h.c2.z i (h.nbVar.symm ▸ hi)).symm
  unfold bComputeStepLength
  simp only [h.A, h.nbVar, h.nbVar', ho.bigBnd, ho.tiny]
  rw [normn_congr hz, bFullStep_congr hC i1 i2 hx hz]
  rw [foldl_congr' (ratioStep bs.s.A bs'.s.u bs'.s.r) (ratioStep bs.s.A bs.s.u bs.s.r) (List.range bs.s.A.q)]
  intro k hk acc
  have hk := List.mem_range.1 hk
  have e1 : bs'.s.u k = bs.s.u k := (h.core.u k (by show k < bs.s.A.q + 1; omega)).symm
  have e2 : bs'.s.r k = bs.s.r k := (h.c2.r k hk).symm
  simp only [ratioStep, e1, e2]

theorem bstepLength_l (o : Opts K) (pb : BPb K B) (s : State K) (sc : SC) :
    (bComputeStepLength o pb s sc).t1 = o.bigBnd ∨ (bComputeStepLength o pb s sc).l < s.A.q := by
  have := ratio_fold s.A s.u s.r o.bigBnd (List.range s.A.q) (o.bigBnd, 0) s.A.q
    (fun k hk => List.mem_range.1 hk) (Or.inl rfl)
  rcases this with h | h
  · left; simp [bComputeStepLength, h]
  · right; exact h

/-- Replace the scalars and vectors of both solvers. -/
theorem StSim2.setS {pb : BPb K B} {bs bs' : BState K} (h : StSim2 pb bs bs') {s s' : State K} (h2 : Sim2 s.clr s'.clr)
    (k : BKeep bs { bs with s := s }) (k' : BKeep bs' { bs' with s := s' }) (hA : s.A = bs.s.A) :
    StSim2 pb { bs with s := s } { bs' with s := s' } :=
  ⟨⟨h2.toSim, h.inv.keep k, h.inv'.keep k', k.nbVar.trans h.nbVar, k.nbCstr.trans h.nbCstr, k.nbBnd.trans h.nbBnd, h.g, h.gok,
    h.gdec, h.gn, h.qr, by simp only; rw [hA]; exact h.q⟩, h2⟩

theorem bdual_sim {pb : BPb K B} {bs bs' : BState K} (h : StSim2 pb bs bs') (t : K) :
    StSim2 pb { bs with s := dualUpdate bs.s t } { bs' with s := dualUpdate bs'.s t } :=
  h.setS (dualUpdate_sim h.c2 t) ⟨rfl, rfl, rfl, rfl, rfl, rfl, rfl, rfl, rfl, id, id⟩
    ⟨rfl, rfl, rfl, rfl, rfl, rfl, rfl, rfl, rfl, id, id⟩ rfl

theorem bfull_sim {pb : BPb K B} (hC : pb.C.nbVar = pb.n) {bs bs' : BState K} (h : StSim2 pb bs bs') {sc : SC}
    (hc : bs.s.A.activatePre sc.p sc.status = true) (t : K) :
    StSim2 pb { bs with s := bFullUpdate pb bs.s sc t } { bs' with s := bFullUpdate pb bs'.s sc t } := by
  obtain ⟨_, i1, i2⟩ := bcand_idx h.nbCstr h.nbBnd hc
  have hc2 := h.c2
  refine h.setS ?_ ⟨rfl, rfl, rfl, rfl, rfl, rfl, rfl, rfl, rfl, id, id⟩ ⟨rfl, rfl, rfl, rfl, rfl, rfl, rfl, rfl, rfl, id, id⟩ rfl
  have hz : VEq pb.n bs.s.z bs'.s.z := fun i hi => h.c2.z i (h.nbVar.symm ▸ hi)
  have key : Sim2 ({ bs.s with x := wr bs.s.nbVar (fun i => bs.s.x i + t * bs.s.z i) bs.s.x, f := bs.s.f + t * bDot pb sc bs.s.z * (half * t + bs.s.u bs.s.A.q) } : State K).clr
      ({ bs'.s with x := wr bs'.s.nbVar (fun i => bs'.s.x i + t * bs'.s.z i) bs'.s.x, f := bs'.s.f + t * bDot pb sc bs'.s.z * (half * t + bs'.s.u bs'.s.A.q) } : State K).clr := by
    refine { nbVar := hc2.nbVar, A := hc2.A, it := hc2.it, f := ?_, need := hc2.need, x := ?_, u := hc2.u, J := hc2.J, R := hc2.R,
             d := hc2.d, z := hc2.z, r := hc2.r }
    · show bs'.s.f + t * bDot pb sc bs'.s.z * (half * t + bs'.s.u bs'.s.A.q) = bs.s.f + t * bDot pb sc bs.s.z * (half * t + bs.s.u bs.s.A.q)
      have hf : bs'.s.f = bs.s.f := hc2.f
      have hu : bs.s.u bs.s.A.q = bs'.s.u bs.s.A.q := hc2.u bs.s.A.q (by show bs.s.A.q < bs.s.A.q + 1; omega)
      rw [hf, h.A, bDot_congr hC i1 i2 hz, hu]
    · intro i hi
      have hi' : i < bs.s.nbVar := hi
      have hv : bs'.s.nbVar = bs.s.nbVar := hc2.nbVar
      have hx : bs.s.x i = bs'.s.x i := hc2.x i hi
      have hz : bs.s.z i = bs'.s.z i := hc2.z i hi
      show wr bs.s.nbVar (fun i => bs.s.x i + t * bs.s.z i) bs.s.x i = wr bs'.s.nbVar (fun i => bs'.s.x i + t * bs'.s.z i) bs'.s.x i
      rw [hv]
      simp only [wr, hi', if_true]
      rw [hx, hz]
  exact dualUpdate_sim key t

theorem bAdd_sim {pb : BPb K B} {bs bs' : BState K} (h : StSim2 pb bs bs') {sc : SC}
    (hc : bs.s.A.activatePre sc.p sc.status = true) (hq : bs.s.A.q < pb.n) :
    ∃ b b', bAdd bs sc = some b ∧ bAdd bs' sc = some b' ∧ StSim pb 0 b b' ∧ b.s.it = bs.s.it := by
  have hd : VEq pb.n bs.s.d bs'.s.d := fun i hi => h.c2.d i (h.nbVar.symm ▸ hi)
  obtain ⟨p, p', a1, a2, a3, a4⟩ := h.qr.add (by rw [h.q]; exact hq) hd
  have hqa := h.inv.wf.q_activate hc
  have e1 : bAdd bs sc = some { bs with qr := p, s := { bs.s with A := bs.s.A.activate sc.p sc.status } } := by
    unfold bAdd
    rw [if_pos (by simp [hc, h.inv.szD]), a1]; rfl
  have e2 : bAdd bs' sc = some { bs' with qr := p', s := { bs'.s with A := bs.s.A.activate sc.p sc.status } } := by
    unfold bAdd
    rw [h.A, if_pos (by simp [hc, h.inv'.szD]), a2]; rfl
  have hcore := h.core
  refine ⟨_, _, e1, e2, ⟨?_, h.inv.keep (bAdd_keep e1), h.inv'.keep (bAdd_keep e2), h.nbVar,
    (ActiveSet.activate_nbCstr _ _ _).trans h.nbCstr, (ActiveSet.activate_nbBnd _ _ _).trans h.nbBnd, h.g, h.gok, h.gdec, h.gn, a3,
    by rw [a4, h.q]; exact hqa.symm⟩, rfl⟩
  refine { nbVar := hcore.nbVar, A := rfl, it := hcore.it, f := hcore.f, need := hcore.need, x := hcore.x, u := ?_,
           J := fun _ _ _ _ => rfl, R := fun _ _ _ _ => rfl }
  intro i hi
  have hi' : i < (bs.s.A.activate sc.p sc.status).q + 0 := hi
  exact hcore.u i (by show i < bs.s.A.q + 1; omega)

theorem bRemove_sim {o o' : Opts K} {pb : BPb K B} {bs bs' : BState K} (h : StSim pb 1 bs bs') {l : Nat} (hl : l < bs.s.A.q)
    (hu : bs.s.A.q < bs.s.szU) (hu' : bs.s.A.q < bs'.s.szU) :
    ∃ b b', bRemove o bs l = some b ∧ bRemove o' bs' l = some b' ∧ StSim pb 1 b b' ∧ b.s.it = bs.s.it ∧ b.s.A = bs.s.A.deactivate l := by
  have hw := h.inv.wf
  have hp : bs.s.A.deactivatePre l = true := by
    rw [hw.q_eq] at hl; simpa [ActiveSet.deactivatePre] using hl
  have hqd := hw.q_deactivate hp
  obtain ⟨p, p', a1, a2, a3, a4⟩ := h.qr.remove o.dbg o'.dbg (l := l) (by rw [h.q]; exact hl)
  have e1 : bRemove o bs l = some { bs with qr := p, s := { bs.s with u := if o.dbg then upd (fun j => if l ≤ j ∧ j < bs.s.A.q then bs.s.u (j + 1) else bs.s.u j) bs.s.A.q 0 else (fun j => if l ≤ j ∧ j < bs.s.A.q then bs.s.u (j + 1) else bs.s.u j), A := bs.s.A.deactivate l } } := by
    unfold bRemove
    simp only []
    rw [if_pos (by simp [hl, hp]; omega), a1]; rfl
  have e2 : bRemove o' bs' l = some { bs' with qr := p', s := { bs'.s with u := if o'.dbg then upd (fun j => if l ≤ j ∧ j < bs.s.A.q then bs'.s.u (j + 1) else bs'.s.u j) bs.s.A.q 0 else (fun j => if l ≤ j ∧ j < bs.s.A.q then bs'.s.u (j + 1) else bs'.s.u j), A := bs.s.A.deactivate l } } := by
    unfold bRemove
    simp only [h.A]
    rw [if_pos (by simp [hl, hp]; omega), a2]; rfl
  have hcore := h.core
  refine ⟨_, _, e1, e2, ⟨?_, h.inv.keep (bRemove_keep e1), h.inv'.keep (bRemove_keep e2), h.nbVar,
    (ActiveSet.deactivate_nbCstr _ _).trans h.nbCstr, (ActiveSet.deactivate_nbBnd _ _).trans h.nbBnd, h.g, h.gok, h.gdec, h.gn, a3,
    ?_⟩, rfl, rfl⟩
  · refine { nbVar := hcore.nbVar, A := rfl, it := hcore.it, f := hcore.f, need := hcore.need, x := hcore.x, u := ?_,
             J := fun _ _ _ _ => rfl, R := fun _ _ _ _ => rfl }
    intro i hi
    have hi' : i < (bs.s.A.deactivate l).q + 1 := hi
    have hne : i ≠ bs.s.A.q := by omega
    have key : ∀ (b : Bool) (v : Nat → K), (if b = true then upd v bs.s.A.q 0 else v) i = v i := by
      intro b v; split_ifs
      · simp [upd, hne]
      · rfl
    show (if o.dbg = true then upd (fun j => if l ≤ j ∧ j < bs.s.A.q then bs.s.u (j + 1) else bs.s.u j) bs.s.A.q 0
        else (fun j => if l ≤ j ∧ j < bs.s.A.q then bs.s.u (j + 1) else bs.s.u j)) i
      = (if o'.dbg = true then upd (fun j => if l ≤ j ∧ j < bs.s.A.q then bs'.s.u (j + 1) else bs'.s.u j) bs.s.A.q 0
        else (fun j => if l ≤ j ∧ j < bs.s.A.q then bs'.s.u (j + 1) else bs'.s.u j)) i
    rw [key, key]
    have hu1 : ∀ j, j < bs.s.A.q + 1 → bs.s.u j = bs'.s.u j := fun j hj => hcore.u j hj
    split_ifs
    · exact hu1 _ (by omega)
    · exact hu1 _ (by omega)
  · show p.q = (bs.s.A.deactivate l).q
    rw [a4, h.q]; omega

/-- What two runs of an iteration have in common. -/
def StISim (pb : BPb K B) (it : Nat) : BIter K → BIter K → Prop
  | .done t s, .done t' s' => t = t' ∧ (t = .success ∨ t = .infeasible) ∧ StSim pb 0 s s' ∧ s.s.it = it
  | .cont s sc skip, .cont s' sc' skip' => sc = sc' ∧ skip = skip' ∧ StSim pb (if skip then 1 else 0) s s' ∧ s.s.it = it ∧
      (skip = true → Cand s.s.A sc)
  | _, _ => False

theorem cand_deactivate {A : ActiveSet} (hw : A.WF) {sc : SC} {l : Nat} (hl : l < A.q) (hc : Cand A sc) : Cand (A.deactivate l) sc := by
  have hk : l < A.active.length := by rw [← hw.q_eq]; exact hl
  refine ⟨?_, hc.ineq⟩
  have h := (ActiveSet.activatePre_iff _ _ _).1 hc.pre
  rw [ActiveSet.activatePre_iff]
  rw [ActiveSet.deactivate_nbCstr, ActiveSet.deactivate_nbBnd, ActiveSet.deactivate_statusAt _ hw _ _ hk]
  refine ⟨h.1, ?_, h.2.2.1, h.2.2.2⟩
  split_ifs
  · rfl
  · exact h.2.1

theorem body_sim {o o' : Opts K} (ho : OEq o o') (law : FpLaws K o) {nul : K → Prop} (hnul : NulLaws o nul) {pb : BPb K B}
    (hC : pb.C.nbVar = pb.n) {bs bs' : BState K} (h : StSim pb 1 bs bs') {sc : SC} (hc : Cand bs.s.A sc) :
    ∃ r r', biterBody o pb bs sc = .ok r ∧ biterBody o' pb bs' sc = .ok r' ∧ StISim pb bs.s.it r r' := by
  obtain ⟨i0, i1, i2⟩ := bcand_idx h.nbCstr h.nbBnd hc.pre
  have hp := (ActiveSet.activatePre_iff _ _ _).1 hc.pre
  have hqlt := h.inv.wf.q_lt hp.1 hp.2.1
  have hsz : ∀ {b : BState K}, BInv b → b.s.A = bs.s.A → b.s.nbVar = pb.n →
      (bComputeStepOk pb b sc && decide (b.s.A.q < b.s.szU) && decide (b.s.nbVar ≤ b.s.szX)) = true := by
    intro b hb hA hn
    have h1 := hb.szU
    have h2 := hb.szR
    rw [hA] at h1 h2
    have h3 := h.q_le
    simp only [bComputeStepOk, Bool.and_eq_true, decide_eq_true_eq, hA]
    exact ⟨⟨⟨⟨⟨⟨by omega, hb.szD⟩, hb.szZ⟩, by omega⟩, i0⟩, by omega⟩, hb.szX⟩
  have hqU : bs.s.A.q < bs.s.szU := lt_of_lt_of_le hqlt h.inv.szU
  have hqU' : bs.s.A.q < bs'.s.szU := by
    have := h.inv'.szU
    rw [h.A] at this
    exact lt_of_lt_of_le hqlt this
  obtain ⟨b, b', e1, e2, h2, hA1, hit1, hU1, hU1', _, hz⟩ := bComputeStep_sim hC h hc.pre
  unfold biterBody
  rw [if_pos (hsz h.inv rfl h.nbVar), if_pos (hsz h.inv' h.A h.nbVar'), e1, e2]
  have hc1 : Cand b.s.A sc := by rw [hA1]; exact hc
  have hst := bStepLength_sim ho hC h2 hc1.pre
  have hslo : ∀ (o : Opts K) (s : State K), stepLenOk o s sc = true := by
    intro o s
    simp only [stepLenOk, hc.ineq]
    have := hp.2.2.1
    simp [this]
  have hfull : b.s.A.q = pb.n → (bComputeStepLength o pb b.s sc).t2 = o.bigBnd := by
    intro hq
    have hn : b.s.nbVar = pb.n := h2.nbVar
    unfold bComputeStepLength
    simp only [hn]
    rw [hnul.norm (hz nul hnul.rel (hA1 ▸ hq))]
    simp
  simp only []
  rw [if_pos (hslo o b.s), if_pos (hslo o' b'.s), hst, ho.bigBnd]
  have hl := bstepLength_l o pb b.s sc
  generalize bComputeStepLength o pb b.s sc = sl at *
  by_cases hbig : leb o.bigBnd (stdMin sl.t1 sl.t2) = true
  · rw [if_pos hbig, if_pos hbig]
    exact ⟨_, _, rfl, rfl, rfl, Or.inr rfl, h2.toStSim.weaken, hit1⟩
  rw [if_neg hbig, if_neg hbig]
  have hcases : sl.l < b.s.A.q ∨ (stdMin sl.t1 sl.t2 = sl.t2 ∧ eqb sl.t2 sl.t2 = true) := by
    rcases hl with h | h
    · right
      unfold stdMin at hbig ⊢
      by_cases hlt : ltb sl.t2 sl.t1 = true
      · rw [if_pos hlt]; exact ⟨rfl, law.ltEq _ _ hlt⟩
      · rw [if_neg hlt, h] at hbig; exact absurd law.bigRefl hbig
    · exact Or.inl h
  have hbU : b.s.A.q < b.s.szU := by rw [hA1, hU1]; exact hqU
  have hbU' : b.s.A.q < b'.s.szU := by rw [hA1, hU1']; exact hqU'
  by_cases hb2 : leb o.bigBnd sl.t2 = true
  · rw [if_pos hb2, if_pos hb2]
    have hl' : sl.l < b.s.A.q := by
      rcases hcases with h | ⟨h, _⟩
      · exact h
      · rw [h] at hbig; exact absurd hb2 hbig
    obtain ⟨c, c', f1, f2, f3, f4, f5⟩ := bRemove_sim (o := o) (o' := o') (bdual_sim h2 (stdMin sl.t1 sl.t2)).toStSim hl' hbU hbU'
    rw [f1, f2]
    refine ⟨_, _, rfl, rfl, rfl, rfl, f3, f4.trans hit1, fun _ => ?_⟩
    rw [f5]; exact cand_deactivate h2.inv.wf hl' hc1
  · rw [if_neg hb2, if_neg hb2]
    by_cases he : eqb (stdMin sl.t1 sl.t2) sl.t2 = true
    · rw [if_pos he, if_pos he]
      have hqn : b.s.A.q < pb.n := by
        rcases Nat.lt_or_ge b.s.A.q pb.n with h | h
        · exact h
        · exfalso
          have := h2.q_le
          rw [hfull (by omega)] at hb2
          exact hb2 law.bigRefl
      obtain ⟨c, c', f1, f2, f3, f4⟩ := bAdd_sim (bfull_sim hC h2 hc1.pre (stdMin sl.t1 sl.t2)) (sc := sc) hc1.pre hqn
      rw [f1, f2]
      exact ⟨_, _, rfl, rfl, rfl, rfl, f3, f4.trans hit1, fun h => by cases h⟩
    · rw [if_neg he, if_neg he]
      have hl' : sl.l < b.s.A.q := by
        rcases hcases with h | ⟨h, h'⟩
        · exact h
        · rw [h] at he; exact absurd h' he
      obtain ⟨c, c', f1, f2, f3, f4, f5⟩ := bRemove_sim (o := o) (o' := o') (bfull_sim hC h2 hc1.pre (stdMin sl.t1 sl.t2)).toStSim hl' hbU hbU'
      rw [f1, f2]
      refine ⟨_, _, rfl, rfl, rfl, rfl, f3, f4.trans hit1, fun _ => ?_⟩
      rw [f5]; exact cand_deactivate h2.inv.wf hl' hc1

theorem biterate_sim {o o' : Opts K} (ho : OEq o o') (law : FpLaws K o) {nul : K → Prop} (hnul : NulLaws o nul) {pb : BPb K B}
    (hC : pb.C.nbVar = pb.n) {bs bs' : BState K} {sc : SC} {skip : Bool} (h : StSim pb (if skip then 1 else 0) bs bs')
    (hc : skip = true → Cand bs.s.A sc) :
    ∃ r r', biterate o pb bs sc skip = .ok r ∧ biterate o' pb bs' sc skip = .ok r' ∧ StISim pb bs.s.it r r' := by
  unfold biterate
  cases skip with
  | true => simp only [if_true] at h ⊢; exact body_sim ho law hnul hC h (hc rfl)
  | false =>
    simp only [Bool.false_eq_true, if_false] at h ⊢
    have hsok : ∀ {b : BState K}, BInv b → b.s.A = bs.s.A → b.s.nbVar = pb.n → bselectOk pb b = true := by
      intro b hb hA hn
      have h1 := hb.szCx
      have h2 := hb.szX
      have h3 := h.inv.wf.size
      rw [hA, h.nbCstr] at h1
      simp only [bselectOk, Bool.and_eq_true, decide_eq_true_eq, hA, h.nbCstr, h.nbBnd, hC, hn]
      rw [hn] at h2
      rw [h.nbCstr, h.nbBnd] at h3
      exact ⟨⟨⟨⟨⟨le_rfl, le_rfl⟩, trivial⟩, h2⟩, h1⟩, h3⟩
    rw [if_pos (hsok h.inv rfl h.nbVar), if_pos (hsok h.inv' h.A h.nbVar')]
    have hnb : bs.s.A.nbBnd ≤ pb.n := by rw [h.nbBnd]; unfold BPb.nb; split_ifs <;> omega
    have hx : VEq pb.n bs'.s.x bs.s.x := fun i hi => (h.core.x i (h.nbVar.symm ▸ hi)).symm
    rw [h.A]
    have hsel := bselect_cand pb bs.s.A bs.s.x bs.cx
    rw [bselect_congr pb hC bs.s.A h.nbCstr.le hnb hx bs'.cx bs.cx]
    generalize (bselect pb bs.s.A bs.s.x bs.cx).2 = cx1
    generalize (bselect pb bs.s.A bs'.s.x bs'.cx).2 = cx2
    generalize (bselect pb bs.s.A bs.s.x bs.cx).1 = sc' at *
    have hk : ∀ (b : BState K) (cx : Nat → K), BKeep b { b with cx := cx } := fun b cx => ⟨rfl, rfl, rfl, rfl, rfl, rfl, rfl, rfl, rfl, id, id⟩
    have h0 : StSim pb 0 { bs with cx := cx1 } { bs' with cx := cx2 } :=
      ⟨h.core, h.inv.keep (hk _ _), h.inv'.keep (hk _ _), h.nbVar, h.nbCstr, h.nbBnd, h.g, h.gok, h.gdec, h.gn, h.qr, h.q⟩
    by_cases hi : sc'.status = .inactive
    · rw [if_pos hi, if_pos hi]
      exact ⟨_, _, rfl, rfl, rfl, Or.inl rfl, h0, rfl⟩
    · rw [if_neg hi, if_neg hi]
      have hc' : Cand bs.s.A sc' := hsel.resolve_left hi
      have hp := (ActiveSet.activatePre_iff _ _ _).1 hc'.pre
      have hqlt := h.inv.wf.q_lt hp.1 hp.2.1
      have a1 := h.inv.szU
      have a2 := h.inv.szR
      have a3 := h.inv'.szU
      have a4 := h.inv'.szR
      rw [h.A] at a3 a4
      rw [if_pos (by simp only [Bool.and_eq_true, decide_eq_true_eq]; omega),
        if_pos (by simp only [Bool.and_eq_true, decide_eq_true_eq]; omega)]
      refine body_sim ho law hnul hC (bs := { bs with cx := cx1, s := { bs.s with u := upd bs.s.u bs.s.A.q 0 } })
        (bs' := { bs' with cx := cx2, s := { bs'.s with A := bs.s.A, u := upd bs'.s.u bs.s.A.q 0 } }) ?_ hc'
      have hu := upd_sim h.core
      have hu' : Sim 1 ({ bs.s with u := upd bs.s.u bs.s.A.q 0 } : State K).clr ({ bs'.s with A := bs.s.A, u := upd bs'.s.u bs.s.A.q 0 } : State K).clr := by
        have e : bs'.s.clr.A = bs.s.clr.A := h.A
        rw [e] at hu
        exact { nbVar := hu.nbVar, A := rfl, it := hu.it, f := hu.f, need := hu.need, x := hu.x, u := hu.u, J := hu.J, R := hu.R }
      have hk2 : ∀ (b : BState K) (A : ActiveSet) (cx u : Nat → K), b.s.A = A → BKeep b { b with cx := cx, s := { b.s with A := A, u := u } } :=
        fun b A cx u e => ⟨rfl, rfl, rfl, rfl, rfl, rfl, rfl, by simp only [e], by simp only [e], fun hw => by simp only [← e]; exact hw, id⟩
      exact ⟨hu', h.inv.keep (hk2 _ _ _ _ rfl), h.inv'.keep (hk2 _ _ _ _ h.A), h.nbVar, h.nbCstr, h.nbBnd, h.g, h.gok, h.gdec, h.gn, h.qr, h.q⟩

theorem bloop_sim {o o' : Opts K} (ho : OEq o o') (law : FpLaws K o) {nul : K → Prop} (hnul : NulLaws o nul) {pb : BPb K B}
    (hC : pb.C.nbVar = pb.n) (fuel : Nat) : ∀ {bs bs' : BState K} {sc : SC} {skip : Bool}, StSim pb (if skip then 1 else 0) bs bs' →
    (skip = true → Cand bs.s.A sc) →
    ∃ t b b', bloop o pb fuel bs sc skip = .ok (t, b) ∧ bloop o' pb fuel bs' sc skip = .ok (t, b') ∧ StSim pb 0 b b' ∧
      (t = .success ∨ t = .infeasible ∨ t = .maxIterReached) ∧ b.s.it ≤ bs.s.it + fuel ∧
      (t = .maxIterReached → b.s.it = bs.s.it + fuel) := by
  induction fuel with
  | zero =>
    intro bs bs' sc skip h _
    refine ⟨_, _, _, rfl, rfl, ?_, Or.inr (Or.inr rfl), le_rfl, fun _ => rfl⟩
    cases skip with
    | true => exact StSim.weaken h
    | false => exact h
  | succ fuel ih =>
    intro bs bs' sc skip h hc
    obtain ⟨r, r', h1, h2, h3⟩ := biterate_sim ho law hnul hC h hc
    cases r with
    | done t s =>
      cases r' with
      | cont => exact h3.elim
      | done t' s' =>
        obtain ⟨rfl, ht, k, hit⟩ := h3
        simp only [bloop, h1, h2]
        refine ⟨t, s, s', rfl, rfl, k, ?_, by omega, ?_⟩
        · rcases ht with h | h
          · exact Or.inl h
          · exact Or.inr (Or.inl h)
        · rcases ht with h | h <;> rw [h] <;> intro h' <;> cases h'
    | cont s sc1 sk =>
      cases r' with
      | done => exact h3.elim
      | cont s' sc' sk' =>
        obtain ⟨rfl, rfl, k, hit, hcd⟩ := h3
        simp only [bloop, h1, h2]
        have k' : StSim pb (if sk then 1 else 0) { s with s := { s.s with it := s.s.it + 1 } } { s' with s := { s'.s with it := s'.s.it + 1 } } := by
          have hcore := k.core
          have hk : ∀ b : BState K, BKeep b { b with s := { b.s with it := b.s.it + 1 } } := fun b => ⟨rfl, rfl, rfl, rfl, rfl, rfl, rfl, rfl, rfl, id, id⟩
          refine ⟨?_, k.inv.keep (hk _), k.inv'.keep (hk _), k.nbVar, k.nbCstr, k.nbBnd, k.g, k.gok, k.gdec, k.gn, k.qr, k.q⟩
          have hie : s'.s.it = s.s.it := hcore.it
          exact { nbVar := hcore.nbVar, A := hcore.A, it := by show s'.s.it + 1 = s.s.it + 1; rw [hie], f := hcore.f, need := hcore.need, x := hcore.x,
                  u := hcore.u, J := hcore.J, R := hcore.R }
        obtain ⟨t, b, b', f1, f2, f3, f4, f5, f6⟩ := ih k' hcd
        refine ⟨t, b, b', f1, f2, f3, f4, ?_, fun ht => ?_⟩
        · simp only at f5; omega
        · have := f6 ht; simp only at this; omega

end JrlQp
