import Verif.StructSim
import Verif.PropsSim
import Verif.ExactInit
import Verif.ExactSolve

/-!
# `BlockGISolver::solve` against the dense solver

A problem without equality constraint, solved from a cold start by `BlockGISolver`, gives exactly what the dense
`GoldfarbIdnaniSolver` gives on the assembled problem.
-/

namespace JrlQp

open NumOps Finset Spec

section

variable {K : Type} [Zero K] [One K] [Add K] [Sub K] [Neg K] [Mul K] [Div K] [SumOps K]

/-- What holds between two calls on a `BlockGISolver`: the workspaces are large enough for the current sizes. -/
structure BInv (bs : BState K) : Prop where
  wf : bs.s.A.WF
  szX : bs.s.nbVar ≤ bs.s.szX
  szZ : bs.s.nbVar ≤ bs.s.szZ
  szD : bs.s.nbVar ≤ bs.s.szD
  szU : bs.s.A.nbCstr + bs.s.A.nbBnd ≤ bs.s.szU
  szR : bs.s.A.nbCstr + bs.s.A.nbBnd ≤ bs.s.szR
  szCx : bs.s.A.nbCstr ≤ bs.szCx
  qn : bs.qr.nbVar = bs.s.nbVar
  ld : 0 < bs.s.nbVar → 0 < bs.qr.ldR ∧ bs.qr.ldR ≤ bs.s.nbVar
  size : bs.s.nbVar * bs.s.nbVar ≤ bs.qr.R.size
  szE : bs.s.nbVar ≤ bs.qr.szE

theorem binv_empty : BInv (BState.empty : BState K) := by
  have := inv_empty (K := K)
  exact ⟨this.wf, this.szX, this.szZ, this.szD, this.szU, this.szR, le_rfl, rfl, by intro h; exact absurd h (lt_irrefl _),
    le_rfl, le_rfl⟩

/-- A state of the dense solver with the same vectors. -/
def BState.base (bs : BState K) : State K :=
  { bs.s with szJ := bs.s.nbVar * bs.s.nbVar, szRm := bs.s.nbVar * bs.s.nbVar }

theorem BInv.base {bs : BState K} (h : BInv bs) : Inv bs.base :=
  ⟨h.wf, h.szX, h.szZ, h.szD, h.szU, h.szR, le_rfl, le_rfl⟩

/-- `resize` acts on the members of `DualSolver` as for the dense solver. -/
theorem bresize_s (bs : BState K) (n m : Nat) (ub : Bool) (fresh : Nat → K) :
    (bresize bs n m ub fresh).s = { resize bs.base n m ub with szJ := bs.s.szJ, szRm := bs.s.szRm } := by
  by_cases h1 : n = bs.s.nbVar
  · by_cases h2 : m = bs.s.A.nbCstr <;> simp only [bresize, resize, resize_, resizeP, BState.base, h1, h2, ne_eq, not_true_eq_false,
      not_false_eq_true, if_true, if_false] <;> split_ifs <;> rfl
  · by_cases h2 : m = bs.s.A.nbCstr <;> simp only [bresize, resize, resize_, resizeP, BState.base, h1, h2, ne_eq, not_true_eq_false,
      not_false_eq_true, if_true, if_false] <;> split_ifs <;> rfl

theorem bresize_inv {bs : BState K} (h : BInv bs) (n m : Nat) (ub : Bool) (fresh : Nat → K) :
    BInv (bresize bs n m ub fresh) ∧ (bresize bs n m ub fresh).s.nbVar = n ∧ (bresize bs n m ub fresh).s.A.nbCstr = m ∧
      (bresize bs n m ub fresh).s.A.nbBnd = if ub then n else 0 := by
  obtain ⟨hi, a, b, c⟩ := resize_dim h.base n m ub
  have e := bresize_s bs n m ub fresh
  have hn : (bresize bs n m ub fresh).s.nbVar = n := by rw [e]; exact a
  have hm : (bresize bs n m ub fresh).s.A.nbCstr = m := by rw [e]; exact b
  refine ⟨?_, hn, hm, by rw [e]; exact c⟩
  have hq : (bresize bs n m ub fresh).qr = if n ≠ bs.s.nbVar then bs.qr.resize n fresh else bs.qr := by
    unfold bresize; simp only []; split_ifs <;> rfl
  have hcx : (bresize bs n m ub fresh).szCx = if m ≠ bs.s.A.nbCstr then wsResize bs.szCx m else bs.szCx := by
    unfold bresize; simp only []; split_ifs <;> rfl
  constructor
  · rw [e]; exact hi.wf
  · rw [e]; exact hi.szX
  · rw [e]; exact hi.szZ
  · rw [e]; exact hi.szD
  · rw [e]; exact hi.szU
  · rw [e]; exact hi.szR
  · rw [hm, hcx]
    split_ifs with h1
    · exact le_wsResize _ _
    · rw [not_not.1 h1]; exact h.szCx
  · rw [hn, hq]
    split_ifs with h1
    · rfl
    · rw [not_not.1 h1]; exact h.qn
  · rw [hn, hq]
    intro hpos
    split_ifs with h1
    · simp only [SQR.resize]
      have h3 : 0 < Nat.sqrt n := Nat.sqrt_pos.2 hpos
      have h4 := Nat.sqrt_le_self n
      exact ⟨lt_min (by norm_num) h3, le_trans (min_le_right _ _) h4⟩
    · have h2 := not_not.1 h1
      rw [h2] at hpos ⊢; exact h.ld hpos
  · rw [hn, hq]
    split_ifs with h1
    · simp only [SQR.resize, WS.resize, Bool.false_eq_true, and_false, or_false]
      split_ifs with h2
      · exact le_rfl
      · exact not_lt.1 h2
    · rw [not_not.1 h1]; exact h.size
  · rw [hn, hq]
    split_ifs with h1
    · exact le_wsResize _ _
    · rw [not_not.1 h1]; exact h.szE

end

/-! ## Initialisation -/

/-- No equality constraint and no fixed variable. -/
def BPb.NoEq (pb : BPb ℝ EReal) : Prop :=
  (∀ i < pb.m, pb.bl i ≠ pb.bu i) ∧ ∀ i < pb.nb, pb.xl i ≠ pb.xu i

theorem activateBy_none (st : Nat → Except Fault Status) (l : List Nat) (A : ActiveSet) (h : ∀ i ∈ l, st i = .ok .inactive) :
    activateBy st l A = .ok A := by
  induction l with
  | nil => rfl
  | cons i l ih =>
    rw [activateBy, h i List.mem_cons_self]
    exact ih fun j hj => h j (List.mem_cons_of_mem _ hj)

theorem process_none {pb : BPb ℝ EReal} (he : pb.NoEq) {o : Opts ℝ} (hw : o.warmStart = false) {n : Nat} (as : List Status)
    {A : ActiveSet} (hm : A.nbCstr = pb.m) (hb : A.nbBnd = pb.nb) :
    processInitial o pb.sides n as A = .ok (.success, A.reset) := by
  unfold processInitial
  simp only []
  have h1 : A.reset.nbCstr = pb.m := hm
  have h2 : A.reset.nbBnd = pb.nb := hb
  rw [activateBy_none]
  · simp only []
    rw [activateBy_none]
    · simp only [ActiveSet.reset_q]
      rw [if_neg (by omega)]
    · intro i hi
      rw [h1, List.mem_range] at hi
      have := he.1 i hi
      simp [initGen, BPb.sides, this, hw]
  · intro p hp
    obtain ⟨i, hi, rfl⟩ := List.mem_map.1 hp
    rw [h2, List.mem_range] at hi
    have := he.2 i hi
    simp [initBnd, BPb.sides, this, hw, h1]

theorem eqList_none {pb : BPb ℝ EReal} (he : pb.NoEq) {A : ActiveSet} (hm : A.nbCstr = pb.m) (hb : A.nbBnd = pb.nb) :
    eqList pb.dense A = [] := by
  have h1 : (List.range A.nbCstr).filter (fun i => bEq ℝ (pb.dense.bl i) (pb.dense.bu i)) = [] := by
    rw [List.filter_eq_nil_iff]
    intro i hi
    rw [hm, List.mem_range] at hi
    simpa [BPb.dense] using he.1 i hi
  have h2 : (List.range A.nbBnd).filter (fun i => bEq ℝ (pb.dense.xl i) (pb.dense.xu i)) = [] := by
    rw [List.filter_eq_nil_iff]
    intro i hi
    rw [hb, List.mem_range] at hi
    simpa [BPb.dense] using he.2 i hi
  rw [eqList, h1, h2]
  rfl

theorem posDef_inj {n : Nat} {G : Nat → Nat → ℝ} (h : PosDefN n G) {v w : Nat → ℝ}
    (hvw : ∀ i < n, ∑ j ∈ range n, G i j * v j = ∑ j ∈ range n, G i j * w j) : ∀ i < n, v i = w i := by
  by_contra hcon
  push Not at hcon
  obtain ⟨i, hi, hne⟩ := hcon
  have h1 := h (fun j => v j - w j) ⟨i, hi, sub_ne_zero.2 hne⟩
  have h2 : ∑ i ∈ range n, ∑ j ∈ range n, (v i - w i) * G i j * (v j - w j) = 0 := by
    apply sum_eq_zero
    intro i hi
    have : ∑ j ∈ range n, (v i - w i) * G i j * (v j - w j)
        = (v i - w i) * (∑ j ∈ range n, G i j * v j - ∑ j ∈ range n, G i j * w j) := by
      rw [← sum_sub_distrib, mul_sum]
      apply sum_congr rfl; intro j _; ring
    rw [this, hvw i (mem_range.1 hi), sub_self, mul_zero]
  rw [h2] at h1
  exact lt_irrefl _ h1

/-- Both initialisations. -/
theorem init_brel {pb : BPb ℝ EReal} (hok : pb.G.ok) (hpd : PosDefN pb.n pb.G.dense) (he : pb.NoEq) {o : Opts ℝ}
    (hw : o.warmStart = false) {bs : BState ℝ} {s : State ℝ} (hi : BInv bs)
    (hg : bs.g = pb.G) (hn : bs.s.nbVar = pb.n) (hm : bs.s.A.nbCstr = pb.m) (hb : bs.s.A.nbBnd = pb.nb)
    (hd : Dim pb.dense s) (ex : bs.s.x = s.x) (eu : bs.s.u = s.u) (eA : bs.s.A = s.A) (eit : bs.s.it = s.it)
    (ene : bs.s.needToExpand = s.needToExpand) :
    ∃ bs1 s1 sl slt, bInit o pb bs = .ok (.success, bs1) ∧ init_ o pb.dense s = .ok (.success, s1) ∧
      BRel pb sl slt bs1 s1 ∧ BInv bs1 := by
  obtain ⟨hdec, sl, slt, hspec⟩ := SG_spec pb.G hok hpd
  have hch : chol pb.n pb.dense.G pb.n = ((chol pb.n pb.dense.G pb.n).1, none) := by
    rcases hc : chol pb.n pb.dense.G pb.n with ⟨P, c⟩
    cases c with
    | none => rfl
    | some c => exact absurd (by show PosDefN pb.n (hess pb.dense); rw [hess_dense']; exact hpd) (chol_not_posDef hc)
  have hdn : s.nbVar = pb.n := hd.nbVar
  have hdG : Dim pb.dense { s with G := (chol s.nbVar pb.dense.G s.nbVar).1 } := by
    obtain ⟨h0, h1, b, c, h2, h3, h4, h5, h6, h7, h8⟩ := hd
    exact ⟨h0, h1, b, c, h2, h3, h4, h5, h6, h7, h8⟩
  have halg := initPoint_alg (o := o) hdG (by simp only [hdn]; exact hch)
  obtain ⟨s1, hs1⟩ : ∃ s1, s1 = initPoint o pb.dense { s with G := (chol s.nbVar pb.dense.G s.nbVar).1 } := ⟨_, rfl⟩
  rw [← hs1] at halg
  have hq1 : s1.A.q = 0 := by rw [hs1]; exact ActiveSet.reset_q _
  have hA1 : s1.A = s.A.reset := by rw [hs1]; rfl
  have hx1 : ∀ i, pb.n ≤ i → s1.x i = s.x i := by
    intro i hi'
    rw [hs1]
    simp only [initPoint, wr]
    rw [if_neg (by rw [hdn]; omega)]
  have hf1 : s1.f = half * esum (.objective pb.n) (fun i => pb.a i * s1.x i) pb.n := by
    rw [hs1]; simp only [initPoint, hdn]; rfl
  -- the dense solver
  have hinit : init_ o pb.dense s = .ok (.success, s1) := by
    unfold init_
    rw [if_pos (by simp [hd.nbVar])]
    simp only []
    rw [if_neg (by rw [hdn, hch]; simp), if_pos (by simp [hd.szJ, hd.szX]), ← hs1]
    unfold initActiveSet
    rw [if_pos halg.good.selectOk, eqList_none he halg.good.dim.nbCstr halg.good.dim.nbBnd]
    rfl
  -- the structured solver
  obtain ⟨y, hy, hy'⟩ := hspec.solveL (wr pb.n pb.a bs.s.x)
  obtain ⟨w, hw1, hw2⟩ := hspec.solveLT y
  have hwx : ∀ i < pb.n, -w i = s1.x i := by
    refine posDef_inj hpd ?_
    intro i hi'
    have h1 := halg.stat i hi'
    rw [hq1, hess_dense'] at h1
    simp only [range_zero, sum_empty, zero_add] at h1
    have h2 := hspec.ops.inv (wr pb.n pb.a bs.s.x) i hi'
    have h3 : ∑ c ∈ range pb.n, pb.G.dense i c * w c = wr pb.n pb.a bs.s.x i := by
      rw [← h2]
      apply sum_congr rfl; intro c hc'
      have hcn := mem_range.1 hc'
      rw [hw2 c hcn, hspec.ops.slt_eq y c hcn, hspec.ops.slt_eq _ c hcn]
      congr 1
      apply sum_congr rfl; intro q hq'
      rw [hy' q (mem_range.1 hq')]
    have h4 : wr pb.n pb.a bs.s.x i = pb.a i := by simp [wr, hi']
    rw [h4] at h3
    have h5 : ∑ j ∈ range pb.n, pb.G.dense i j * -w j = -pb.a i := by
      rw [← h3, ← sum_neg_distrib]
      apply sum_congr rfl; intro j _; ring
    rw [h5]
    have : pb.dense.a = pb.a := rfl
    rw [this] at h1
    have h6 : pb.dense.n = pb.n := rfl
    rw [h6] at h1
    linarith
  obtain ⟨qr1, hqr1⟩ : ∃ qr1 : SQR ℝ, qr1 = { bs.qr with R := if o.dbg then ⟨bs.qr.R.size, fun _ => 0⟩ else bs.qr.R } := ⟨_, rfl⟩
  have hx2 : (wr pb.n (fun i => -w i) bs.s.x) = s1.x := by
    funext i
    unfold wr
    by_cases hi' : i < pb.n
    · rw [if_pos hi']; exact hwx i hi'
    · rw [if_neg hi', ex]; exact (hx1 i (by omega)).symm
  have hRs : qr1.R.size = bs.qr.R.size := by
    rw [hqr1]; simp only []; split_ifs <;> rfl
  refine ⟨{ bs with qr := qr1.reset, g := pb.G.llt,
                    s := { bs.s with x := s1.x, f := s1.f, A := bs.s.A.reset } }, s1, sl, slt, ?_, hinit, ?_, ?_⟩
  · unfold bInit
    simp only [hn, hm, hb, hi.wf.size, le_refl, decide_true, Bool.true_and, hw, Bool.not_false, Bool.true_or, if_true]
    rw [process_none he hw bs.as hm hb]
    simp only [ne_eq, not_true_eq_false, if_false, hg, hdec, Bool.true_eq_false]
    unfold bInitPoint
    simp only [ActiveSet.reset_q, true_and]
    rw [if_pos (by rw [← hn]; exact hn ▸ hi.szX)]
    simp only [hn, hy, Option.bind_some, hw1, Option.map_some, hx2, ← hqr1, ← hf1]
  · constructor
    · rfl
    · rw [hs1]; exact eu
    · rfl
    · rw [hA1, ← eA]
    · rw [hs1]; exact eit
    · rw [hs1]; exact hn.trans hdn.symm
    · exact halg.good
    · exact halg.fac
    · exact hspec
    · constructor
      · rw [hqr1]; exact hi.qn.trans hn
      · intro e he'; cases he'
      · exact Nat.zero_le _
      · exact Nat.zero_le _
      · rw [hqr1, ← hn]; exact hi.ld
      · simp only [SQR.reset, hRs, ← hn]; exact hi.size
      · rw [hqr1, ← hn]; exact hi.szE
      · intro k hk; exact absurd hk (Nat.not_lt_zero _)
      · intro k hk; exact absurd hk (Nat.not_lt_zero _)
    · exact hq1.symm
    · rw [← hn]; exact hi.szX
    · rw [← hn]; exact hi.szZ
    · rw [← hn]; exact hi.szD
    · rw [← hm, ← hb]; exact hi.szU
    · rw [← hm, ← hb]; exact hi.szR
    · rw [← hm]; exact hi.szCx
    · rw [hs1]; exact ene
  · constructor
    · exact ActiveSet.wf_reset _ hi.wf.size
    · exact hi.szX
    · exact hi.szZ
    · exact hi.szD
    · exact hi.szU
    · exact hi.szR
    · exact hi.szCx
    · rw [hqr1]; exact hi.qn
    · rw [hqr1]; exact hi.ld
    · simp only [SQR.reset, hRs]; exact hi.size
    · rw [hqr1]; exact hi.szE

/-- The two `solve`. -/
theorem bsolve_brel {pb : BPb ℝ EReal} (hok : pb.G.ok) (hpd : PosDefN pb.n pb.G.dense) (hc : pb.C.nbVar = pb.n) (he : pb.NoEq)
    {o : Opts ℝ} (ht0 : 0 ≤ o.tiny) (hw : o.warmStart = false) (fresh : Nat → ℝ) {bs : BState ℝ} (hi : BInv bs) :
    ∃ t bs' s' sl slt, bsolve o pb [] fresh bs = .ok (t, bs') ∧ solve o pb.dense bs.base = .ok (t, s') ∧
      BRel pb sl slt bs' s' := by
  obtain ⟨bs0, hbs0⟩ : ∃ bs0 : BState ℝ, bs0 = bresize { bs with g := pb.G } pb.n pb.m pb.useBnd fresh := ⟨_, rfl⟩
  obtain ⟨h1, h2, h3, h4⟩ := bresize_inv (bs := { bs with g := pb.G })
    ⟨hi.wf, hi.szX, hi.szZ, hi.szD, hi.szU, hi.szR, hi.szCx, hi.qn, hi.ld, hi.size, hi.szE⟩ pb.n pb.m pb.useBnd fresh
  have hs := bresize_s { bs with g := pb.G } pb.n pb.m pb.useBnd fresh
  have hgg : bs0.g = pb.G := by
    rw [hbs0]; unfold bresize; simp only []; split_ifs <;> rfl
  rw [← hbs0] at h1 h2 h3 h4 hs
  obtain ⟨s0, hs0⟩ : ∃ s0, s0 = resize bs.base pb.n pb.m pb.useBnd := ⟨_, rfl⟩
  have hs : bs0.s = { s0 with szJ := bs.s.szJ, szRm := bs.s.szRm } := by rw [hs, hs0]; rfl
  have hd : Dim pb.dense s0 := by rw [hs0]; exact resize_dim_pb hi.base pb.dense
  have hi0 : BInv { bs0 with s := preInit o bs0.s } := by
    refine ⟨?_, h1.szX, h1.szZ, h1.szD, ?_, ?_, ?_, h1.qn, h1.ld, h1.size, h1.szE⟩ <;>
      simp only [preInit, hw, Bool.false_eq_true, if_false]
    · exact ActiveSet.wf_reset _ h1.wf.size
    · exact h1.szU
    · exact h1.szR
    · exact h1.szCx
  obtain ⟨bs1, s1, sl, slt, e1, e2, e3, _⟩ := init_brel (bs := { bs0 with s := preInit o bs0.s }) (s := preInit o s0) hok hpd he hw
    hi0 hgg h2 (by simp only [preInit, hw, Bool.false_eq_true, if_false]; exact h3)
    (by simp only [preInit, hw, Bool.false_eq_true, if_false]; exact h4) (preInit_dim hd) (by rw [hs]; rfl) (by rw [hs]; rfl)
    (by rw [hs]; rfl) (by rw [hs]; rfl) (by rw [hs]; rfl)
  obtain ⟨t, bs2, s2, l1, l2, l3⟩ := loop_brel ht0 (by rw [hess_dense']; exact hpd) hc (o.maxIter - bs1.s.it) (sc := ⟨0, .inactive⟩)
    (skip := false) e3 (by simp)
  have hte : ∀ w : State ℝ, terminate o t w = .ok (t, w) := by
    intro w
    rcases loop_it _ l2 with ⟨rfl, _⟩ | ⟨rfl | rfl, _⟩ <;> rfl
  refine ⟨t, bs2, s2, sl, slt, ?_, ?_, l3⟩
  · unfold bsolve
    rw [if_pos ⟨hc, Or.inr rfl, Or.inr rfl⟩]
    simp only [hw, Bool.false_eq_true, if_false, ← hbs0]
    unfold bdualSolve
    rw [e1]
    simp only [ne_eq, not_true_eq_false, if_false]
    rw [l1]
    simp only []
    rw [hte]
    rfl
  · unfold solve dualSolve
    have : pb.dense.n = pb.n ∧ pb.dense.m = pb.m ∧ pb.dense.useBnd = pb.useBnd := ⟨rfl, rfl, rfl⟩
    rw [this.1, this.2.1, this.2.2, ← hs0, e2]
    simp only [ne_eq, not_true_eq_false, if_false]
    rw [← e3.it, l2]
    exact hte _

end JrlQp
