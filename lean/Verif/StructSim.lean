import Verif.StructStep
import Verif.SolverSim

/-!
# `BlockGISolver` follows the dense solver on the assembled problem
-/

namespace JrlQp

open NumOps Finset Spec

/-! ## Dependence on the first `n` components -/

theorem LinOps.sl_eq {n : Nat} {G : Nat → Nat → ℝ} {sl slt : (Nat → ℝ) → Nat → ℝ} (h : LinOps n G sl slt) (w : Nat → ℝ)
    {i : Nat} (hi : i < n) : sl w i = ∑ p ∈ range n, slt (kd i) p * w p := by
  rw [h.adj, sum_kd_left hi]

theorem LinOps.sl_congr {n : Nat} {G : Nat → Nat → ℝ} {sl slt : (Nat → ℝ) → Nat → ℝ} (h : LinOps n G sl slt) {v w : Nat → ℝ}
    (hvw : ∀ i < n, v i = w i) {i : Nat} (hi : i < n) : sl v i = sl w i := by
  rw [h.sl_eq v hi, h.sl_eq w hi]
  apply sum_congr rfl; intro p hp
  rw [hvw p (mem_range.1 hp)]

theorem LinOps.sl_neg {n : Nat} {G : Nat → Nat → ℝ} {sl slt : (Nat → ℝ) → Nat → ℝ} (h : LinOps n G sl slt) {v w : Nat → ℝ}
    (hvw : ∀ i < n, v i = -w i) {i : Nat} (hi : i < n) : sl v i = -sl w i := by
  rw [h.sl_eq v hi, h.sl_eq w hi, ← sum_neg_distrib]
  apply sum_congr rfl; intro p hp
  rw [hvw p (mem_range.1 hp)]; ring

theorem Iso.congr' {n : Nat} {f g : (Nat → ℝ) → Nat → ℝ} (h : Iso n f g) {v w : Nat → ℝ}
    (hvw : ∀ i < n, v i = w i) {i : Nat} (hi : i < n) : g v i = g w i := by
  rw [← sum_kd_left hi (g v), ← h.adj, ← sum_kd_left hi (g w), ← h.adj]
  apply sum_congr rfl; intro p hp
  rw [hvw p (mem_range.1 hp)]

/-! ## The direction -/

/-- `getR` does nothing when the leading dimension is large enough. -/
theorem QRInv.getR_same {n : Nat} {sl : (Nat → ℝ) → Nat → ℝ} {N : Nat → Nat → ℝ} {qr : SQR ℝ} (h : QRInv n sl N qr) :
    qr.getR qr.q = some qr := by
  unfold SQR.getR
  have := h.ld
  have := h.q_le
  rw [if_pos (by rw [h.nbVar]; exact h.q_le), if_neg (by omega)]
  simp only [Option.bind_some]
  rw [if_pos]
  simp only [WS.matOk, Bool.and_eq_true, decide_eq_true_eq]
  refine ⟨?_, h.ld⟩
  rcases Nat.eq_zero_or_pos n with h0 | h0
  · rw [show qr.q = 0 by omega]; simp
  · exact le_trans (Nat.mul_le_mul (h.ldn h0).2 h.q_le) h.size

/-- The normal, given to `solveL` as a segment. -/
theorem premultByJt_spec {pb : BPb ℝ EReal} {g : SG ℝ} {sl slt : (Nat → ℝ) → Nat → ℝ}
    (hs : SGSpec pb.n pb.G.dense g sl slt) {qr : SQR ℝ} (hQ : qr.Q.wf pb.n) (hc : pb.C.nbVar = pb.n) {sc : SC}
    (hsc : scOk pb.dense sc = true) (out : Nat → ℝ) :
    ∃ d, premultByJt g qr pb.C pb.n sc out = some d ∧ ∀ j < pb.n, d j = qr.Q.applyT (sl (normal pb.dense sc)) j := by
  have hiso := (oseq_iso hQ)
  have hgen := scOk_gen hsc
  have hbnd := scOk_bnd hsc
  have hmul : ∀ v : Nat → ℝ, (∀ i < pb.n, v i = sl (normal pb.dense sc) i) →
      ∀ j < pb.n, qr.Q.applyT v j = qr.Q.applyT (sl (normal pb.dense sc)) j := fun v hv j hj => hiso.congr' hv hj
  unfold premultByJt
  by_cases hb : sc.status.isBound = true
  · rw [if_pos hb]
    have hst : sc.status = .fixed ∨ sc.status = .lowerBound ∨ sc.status = .upperBound := by
      cases h : sc.status <;> simp_all [Status.isBound]
    obtain ⟨_, hm, hlt⟩ := hbnd hst
    have hm : pb.C.nbCstr ≤ sc.p := hm
    have hlt : sc.p - pb.C.nbCstr < pb.n := hlt
    obtain ⟨seg, hseg⟩ : ∃ seg : SegVec ℝ, seg = ⟨sc.p - pb.C.nbCstr, 1, pb.n, fun _ => if sc.status = .upperBound then -1 else 1⟩ := ⟨_, rfl⟩
    have hok : seg.ok := by rw [hseg]; unfold SegVec.ok; simp only; omega
    have hsz : seg.size = pb.n := by rw [hseg]
    obtain ⟨y, hy1, hy2⟩ := hs.seg out seg hok hsz
    rw [← hseg, hy1]
    refine ⟨_, rfl, hmul y ?_⟩
    intro i hi
    rw [hy2 i hi]
    refine hs.ops.sl_congr ?_ hi
    intro p hp
    rw [(C31_toFull seg hok out).1 p (by rw [hsz]; exact hp), SegVec.entry, hseg]
    simp only
    have hmm : pb.dense.m = pb.C.nbCstr := rfl
    by_cases hpp : p = sc.p - pb.C.nbCstr
    · rw [if_pos (by omega)]
      rcases hst with h | h | h <;> simp [normal, h, hmm, hpp]
    · rw [if_neg (by omega)]
      rcases hst with h | h | h <;> simp [normal, h, hmm, hpp]
  · rw [if_neg hb]
    have hne : sc.status ≠ .inactive := by
      intro h; simp [scOk, h] at hsc
    have hlt : sc.p < pb.C.nbCstr := hgen (by cases h : sc.status <;> simp_all [Status.isBound])
    obtain ⟨h1, h2, h3⟩ := pb.C.col_ok hlt
    obtain ⟨y, hy1, hy2⟩ := hs.seg out (pb.C.col sc.p) h1 (by rw [h2, hc])
    have hy3 : ∀ i < pb.n, y i = sl (fun a => pb.C.dense a sc.p) i := by
      intro i hi
      rw [hy2 i hi]
      refine hs.ops.sl_congr ?_ hi
      intro p hp
      rw [(C31_toFull _ h1 out).1 p (by rw [h2, hc]; exact hp), h3 p (by rw [hc]; exact hp)]
    rw [hy1]
    refine ⟨_, rfl, hmul _ ?_⟩
    intro i hi
    dsimp only
    by_cases hu : sc.status = .upper
    · rw [if_pos hu]
      simp only [hi, if_true]
      have e := hs.ops.sl_neg (v := normal pb.dense sc) (w := fun a => pb.C.dense a sc.p)
        (fun p hp => by simp only [normal, hu]; rfl) hi
      rw [hy3 i hi, e]; ring
    · rw [if_neg hu, hy3 i hi]
      refine hs.ops.sl_congr ?_ hi
      intro p hp
      cases h : sc.status <;> simp_all [normal, Status.isBound] <;> rfl

/-- The relation between the two solvers between two updates of the active set. -/
structure BRel (pb : BPb ℝ EReal) (sl slt : (Nat → ℝ) → Nat → ℝ) (bs : BState ℝ) (s : State ℝ) : Prop where
  x : bs.s.x = s.x
  u : bs.s.u = s.u
  f : bs.s.f = s.f
  A : bs.s.A = s.A
  it : bs.s.it = s.it
  nbVar : bs.s.nbVar = s.nbVar
  good : Good pb.dense s
  fac : Fac pb.n s.A.q (hess pb.dense) (fun k => normal pb.dense (s.A.act k)) s.J s.R
  spec : SGSpec pb.n pb.G.dense bs.g sl slt
  qr : QRInv pb.n sl (fun k => normal pb.dense (s.A.act k)) bs.qr
  q : bs.qr.q = s.A.q
  szX : pb.n ≤ bs.s.szX
  szZ : pb.n ≤ bs.s.szZ
  szD : pb.n ≤ bs.s.szD
  szU : pb.m + pb.nb ≤ bs.s.szU
  szR : pb.m + pb.nb ≤ bs.s.szR
  szCx : pb.m ≤ bs.szCx
  need : bs.s.needToExpand = s.needToExpand

theorem BRel.n {pb : BPb ℝ EReal} {sl slt : (Nat → ℝ) → Nat → ℝ} {bs : BState ℝ} {s : State ℝ} (h : BRel pb sl slt bs s) :
    s.nbVar = pb.n := h.good.dim.nbVar

theorem hess_dense' (pb : BPb ℝ EReal) : hess pb.dense = pb.G.dense := by
  funext p q; exact hess_dense pb p q

/-- Both solvers compute the same direction. -/
theorem bstep_spec {pb : BPb ℝ EReal} {sl slt : (Nat → ℝ) → Nat → ℝ} {bs : BState ℝ} {s : State ℝ} (h : BRel pb sl slt bs s)
    (hpd : PosDefN pb.n (hess pb.dense)) (hc : pb.C.nbVar = pb.n) {sc : SC} (hsc : scOk pb.dense sc = true) :
    ∃ d z r, bComputeStep pb bs sc = some { bs with s := { bs.s with d := d, z := z, r := r } } ∧
      (∀ j < pb.n, d j = bs.qr.Q.applyT (sl (normal pb.dense sc)) j) ∧
      (∀ i < pb.n, z i = (computeStep pb.dense s sc).z i) ∧ (∀ k < s.A.q, r k = (computeStep pb.dense s sc).r k) ∧
      ((∃ i < pb.n, z i ≠ 0) → ∃ j, s.A.q ≤ j ∧ j < pb.n ∧ d j ≠ 0) := by
  have hn := h.n
  have hn' : bs.s.nbVar = pb.n := h.nbVar.trans hn
  have hqn : s.A.q ≤ pb.n := by rw [← hn]; exact h.good.q_le
  obtain ⟨d, hd1, hd2⟩ := premultByJt_spec h.spec h.qr.wf hc hsc bs.s.d
  obtain ⟨v, hv⟩ : ∃ v : Nat → ℝ, v = fun i => if i < bs.qr.q then 0 else if i < bs.s.nbVar then d (s.A.q + (i - bs.qr.q)) else bs.s.z i := ⟨_, rfl⟩
  obtain ⟨z, hz1, hz2⟩ := h.spec.solveLT (bs.qr.Q.apply v)
  have hstep : bComputeStep pb bs sc = some { bs with s := { bs.s with d := d, z := z, r := wr s.A.q (backSub (bs.qr.R.mat bs.qr.ldR) s.A.q d) bs.s.r } } := by
    unfold bComputeStep
    simp only [hn', hd1, Option.bind_some, premultByJ2, h.A]
    rw [if_pos (by rw [h.qr.nbVar, h.q])]
    rw [hn'] at hv
    rw [← hv, hz1]
    simp only [Option.bind_some, SQR.RSolve]
    rw [if_pos h.q.symm, h.qr.getR_same]
    simp only [Option.map_some, h.q]
  -- the dense solver with the virtual factors
  obtain ⟨vs, hvs⟩ : ∃ vs : State ℝ, vs = { s with J := virtJ slt bs.qr.Q, R := bs.qr.R.mat bs.qr.ldR } := ⟨_, rfl⟩
  have hfv : Fac pb.n vs.A.q (hess pb.dense) (fun k => normal pb.dense (vs.A.act k)) vs.J vs.R := by
    have := h.qr.fac h.spec.ops
    rw [h.q] at this
    rw [hvs, hess_dense']
    exact this
  have hfact := computeStep_facts (pb := pb.dense) (s := vs) (sc := sc) (by rw [hvs]; exact hn) (by rw [hvs]; exact hqn) hfv hsc
  have hbase := computeStep_facts (pb := pb.dense) (s := s) (sc := sc) hn hqn h.fac hsc
  have hdv : ∀ j < pb.n, (computeStep pb.dense vs sc).d j = d j := by
    intro j hj
    rw [hfact.d j hj, hd2 j hj]
    show tmul pb.n vs.J _ j = _
    rw [hvs, ← tmul_virtJ h.spec.ops h.qr.wf _ hj]
  have hAv : (computeStep pb.dense vs sc).A = s.A := by rw [hvs]; rfl
  have hzv : ∀ i < pb.n, z i = (computeStep pb.dense vs sc).z i := by
    intro i hi
    rw [hz2 i hi, hfact.z i hi, virtJ_mul h.spec.ops h.qr.wf _ hi]
    apply sum_congr rfl; intro k hk
    have hk := mem_range.1 hk
    have hJ : (computeStep pb.dense vs sc).J = virtJ slt bs.qr.Q := by rw [hvs]; rfl
    rw [hAv, hJ, hv, hdv k hk]
    simp only [h.q, hn']
    by_cases hqk : s.A.q ≤ k
    · rw [if_neg (by omega), if_pos hk, if_pos hqk, show s.A.q + (k - s.A.q) = k by omega]
    · rw [if_pos (by omega), if_neg hqk, mul_zero]
  have hrv : ∀ k < s.A.q, wr s.A.q (backSub (bs.qr.R.mat bs.qr.ldR) s.A.q d) bs.s.r k = (computeStep pb.dense vs sc).r k := by
    intro k hk
    have e : (computeStep pb.dense vs sc).r = wr s.A.q (backSub (bs.qr.R.mat bs.qr.ldR) s.A.q (computeStep pb.dense vs sc).d) vs.r := by
      rw [hvs]; rfl
    rw [e]
    simp only [wr, hk, if_true]
    exact backSub_congr (fun _ _ _ _ => rfl) (fun i hi => (hdv i (by omega)).symm) k hk
  have huniq := saddle_zero (v := fun i => (computeStep pb.dense s sc).z i - (computeStep pb.dense vs sc).z i)
    (c := fun k => (computeStep pb.dense vs sc).r k - (computeStep pb.dense s sc).r k) h.fac hqn hpd ?_ ?_
  · refine ⟨d, z, _, hstep, hd2, ?_, ?_, ?_⟩
    · intro i hi; rw [hzv i hi]; exact (sub_eq_zero.1 (huniq.1 i hi)).symm
    · intro k hk; rw [hrv k hk]; exact sub_eq_zero.1 (huniq.2 k hk)
    · rintro ⟨i, hi, hne⟩
      obtain ⟨j, h1, h2, h3⟩ := hfact.d_ne ⟨i, hi, by rw [← hzv i hi]; exact hne⟩
      rw [hAv] at h1
      rw [hdv j h2] at h3
      exact ⟨j, h1, h2, h3⟩
  · intro a ha
    have e1 := hfact.split a ha
    have e2 := hbase.split a ha
    rw [hAv] at e1
    have hA2 : (computeStep pb.dense s sc).A = s.A := rfl
    rw [hA2] at e2
    have hpn : pb.dense.n = pb.n := rfl
    rw [hpn] at e1 e2
    simp only [mul_sub, sub_mul, sum_sub_distrib]
    linarith
  · intro k hk
    have e1 := hfact.orth k (by rw [hAv]; exact hk)
    have e2 := hbase.orth k hk
    rw [hAv] at e1
    have hA2 : (computeStep pb.dense s sc).A = s.A := rfl
    rw [hA2] at e2
    unfold ndot at e1 e2
    have hpn : pb.dense.n = pb.n := rfl
    rw [hpn] at e1 e2
    simp only [mul_sub, sum_sub_distrib]
    linarith

/-! ## Selection and step length -/

theorem bselect_eq (pb : BPb ℝ EReal) (hc : pb.C.nbVar = pb.n) (A : ActiveSet) (hA : A.nbCstr = pb.m) (x cx : Nat → ℝ) :
    (bselect pb A x cx).1 = select pb.dense pb.n A x := by
  unfold bselect select
  have e : (List.range A.nbCstr).foldl (selGenCx pb A (pb.C.transposeMult cx x)) ⟨bZero ℝ, ⟨0, .inactive⟩⟩
      = (List.range A.nbCstr).foldl (selGen pb.dense pb.n A x) ⟨bZero ℝ, ⟨0, .inactive⟩⟩ := by
    apply foldl_congr'
    intro i hi acc
    have hi : i < pb.C.nbCstr := by have := List.mem_range.1 hi; rw [hA] at this; exact this
    have ecx : pb.C.transposeMult cx x i = colDot pb.dense pb.n i x := by
      rw [pb.C.transposeMult_eq x cx hi, hc]
      exact (colDot_eq pb.dense i x).symm
    unfold selGenCx selGen
    simp only [ecx]
    rfl
  simp only [e]
  rfl

theorem ndotC {pb : BPb ℝ EReal} (hc : pb.C.nbVar = pb.n) {p : Nat} (hp : p < pb.m) (v : Nat → ℝ) :
    (pb.C.col p).dot v = colDot pb.dense pb.n p v := by
  rw [pb.C.dot_eq hp, hc]
  exact (colDot_eq pb.dense p v).symm

theorem colDot_congr' {pb : Pb ℝ EReal} {p : Nat} {v w : Nat → ℝ} (h : ∀ i < pb.n, v i = w i) :
    colDot pb pb.n p v = colDot pb pb.n p w := by
  unfold colDot
  exact esum_congr (fun i hi => by rw [h i hi])

theorem bFullStep_eq {pb : BPb ℝ EReal} (hc : pb.C.nbVar = pb.n) {sc : SC} (hsc : scOk pb.dense sc = true) (x : Nat → ℝ)
    {z z' : Nat → ℝ} (hz : ∀ i < pb.n, z i = z' i) : bFullStep pb x z sc = fullStep pb.dense pb.n x z' sc := by
  have hgen := scOk_gen hsc
  have hbnd := scOk_bnd hsc
  unfold bFullStep fullStep
  cases hs : sc.status with
  | inactive => rfl
  | equality => rfl
  | fixed => rfl
  | lower =>
    have hp : sc.p < pb.m := hgen (by simp [hs])
    simp only [ndotC hc hp]
    rw [show colDot pb.dense pb.n sc.p z = colDot pb.dense pb.n sc.p z' from colDot_congr' (pb := pb.dense) hz]; rfl
  | upper =>
    have hp : sc.p < pb.m := hgen (by simp [hs])
    simp only [ndotC hc hp]
    rw [show colDot pb.dense pb.n sc.p z = colDot pb.dense pb.n sc.p z' from colDot_congr' (pb := pb.dense) hz]; rfl
  | lowerBound =>
    have hp : sc.p - pb.m < pb.n := (hbnd (by simp [hs])).2.2
    simp only [hz _ hp]; rfl
  | upperBound =>
    have hp : sc.p - pb.m < pb.n := (hbnd (by simp [hs])).2.2
    simp only [hz _ hp]; rfl

theorem bDot_eq {pb : BPb ℝ EReal} (hc : pb.C.nbVar = pb.n) {sc : SC} (hsc : scOk pb.dense sc = true)
    {z z' : Nat → ℝ} (hz : ∀ i < pb.n, z i = z' i) : bDot pb sc z = normalDot pb.n pb.dense.m pb.dense.C sc z' := by
  have hgen := scOk_gen hsc
  have hbnd := scOk_bnd hsc
  have key : sc.p < pb.m → (pb.C.col sc.p).dot z = esum (.normalDot pb.n) (fun a => z' a * pb.dense.C a sc.p) pb.n := by
    intro hp
    rw [ndotC hc hp, show colDot pb.dense pb.n sc.p z = colDot pb.dense pb.n sc.p z' from colDot_congr' (pb := pb.dense) hz]
    unfold colDot
    exact esum_congr (fun i _ => mul_comm _ _)
  unfold bDot normalDot
  cases hs : sc.status with
  | inactive => rfl
  | equality => exact key (hgen (by simp [hs]))
  | lower => exact key (hgen (by simp [hs]))
  | upper => simp only [key (hgen (by simp [hs]))]
  | fixed => exact hz _ (hbnd (by simp [hs])).2.2
  | lowerBound => exact hz _ (hbnd (by simp [hs])).2.2
  | upperBound =>
    have := hz _ (hbnd (by simp [hs])).2.2
    simp only [this]
    exact congrArg Neg.neg this

theorem bStepLength_eq {o : Opts ℝ} {pb : BPb ℝ EReal} (hc : pb.C.nbVar = pb.n) {sc : SC} (hsc : scOk pb.dense sc = true)
    {s s' : State ℝ} (hn : s.nbVar = pb.n) (hn' : s'.nbVar = pb.n) (hx : s'.x = s.x) (hu : s'.u = s.u) (hA : s'.A = s.A)
    (hz : ∀ i < pb.n, s'.z i = s.z i) (hr : ∀ k < s.A.q, s'.r k = s.r k) :
    bComputeStepLength o pb s' sc = computeStepLength o pb.dense s sc := by
  unfold bComputeStepLength computeStepLength
  have e1 : (List.range s.A.q).foldl (ratioStep s.A s.u s'.r) (o.bigBnd, 0)
      = (List.range s.A.q).foldl (ratioStep s.A s.u s.r) (o.bigBnd, 0) := by
    apply foldl_congr'
    intro k hk a
    unfold ratioStep
    rw [hr k (List.mem_range.1 hk)]
  have e2 : normn pb.n s'.z = normn pb.n s.z := normn_congr hz
  simp only [hA, hu, hn, hn', hx, e1, e2, bFullStep_eq hc hsc s.x hz]

/-! ## Updates of the active set -/

section
variable {pb : BPb ℝ EReal} {sl slt : (Nat → ℝ) → Nat → ℝ}

/-- Removal on both sides. -/
theorem BRel.remove {bs : BState ℝ} {s : State ℝ} (h : BRel pb sl slt bs s) (o : Opts ℝ) {l : Nat} (hl : l < s.A.q)
    (hu : s.A.q + 1 ≤ bs.s.szU) :
    ∃ bs', bRemove o bs l = some bs' ∧ BRel pb sl slt bs' (removeConstraint o s l) := by
  have hw := h.good.dim.wf
  have hp : s.A.deactivatePre l = true := by
    rw [hw.q_eq] at hl; simpa [ActiveSet.deactivatePre] using hl
  have hact := act_deactivate hw hl
  have hqd := hw.q_deactivate hp
  have hn := h.n
  have hqle := h.good.q_le
  obtain ⟨qr', e1, e2, e3⟩ := h.qr.remove h.spec.ops o.dbg (l := l) (by rw [h.q]; exact hl)
    (N' := fun k => normal pb.dense ((s.A.deactivate l).act k)) (fun k hk a _ => by rw [h.q] at hk; simp only [hact k hk])
  unfold bRemove
  simp only [h.A]
  rw [if_pos (by simp [hl, hp, hu]), e1]
  simp only [Option.map_some]
  refine ⟨_, rfl, ?_⟩
  constructor
  · exact h.x
  · simp only [removeConstraint, h.u]
  · exact h.f
  · rfl
  · exact h.it
  · exact h.nbVar
  · exact good_remove h.good hl
  · have hf := h.fac
    rw [show s.A.q = (s.A.q - 1) + 1 by omega] at hf
    have := hf.remove (by omega) l (by omega) o.dbg
      (N' := fun k => normal pb.dense ((s.A.deactivate l).act k)) (fun k hk a _ => by simp only [hact k hk])
    have hq' : (removeConstraint o s l).A.q = s.A.q - 1 := hqd
    rw [hq']
    simp only [removeConstraint, hqd, hn]
    exact this
  · exact h.spec
  · exact e3
  · show qr'.q = (s.A.deactivate l).q
    rw [e2, hqd, h.q]
  · exact h.szX
  · exact h.szZ
  · exact h.szD
  · exact h.szU
  · exact h.szR
  · exact h.szCx
  · exact h.need

/-- Addition on both sides. -/
theorem BRel.add {bs : BState ℝ} {s : State ℝ} (h : BRel pb sl slt bs s) (o : Opts ℝ) {sc : SC}
    (hp : s.A.activatePre sc.p sc.status = true) (hq : s.A.q < pb.n)
    (hd : ∀ j < pb.n, bs.s.d j = bs.qr.Q.applyT (sl (normal pb.dense sc)) j)
    (hz : ∃ j, s.A.q ≤ j ∧ j < pb.n ∧ bs.s.d j ≠ 0)
    (hdb : ∀ j < pb.n, s.d j = tmul pb.n s.J (normal pb.dense sc) j)
    (hzb : ∃ j, s.A.q ≤ j ∧ j < pb.n ∧ s.d j ≠ 0) :
    ∃ bs', bAdd bs sc = some bs' ∧ BRel pb sl slt bs' (addConstraint o s sc) := by
  have hw := h.good.dim.wf
  have hn := h.n
  have hqa := hw.q_activate hp
  obtain ⟨ha1, ha2⟩ := act_activate hw hp
  obtain ⟨qr', e1, e2, e3⟩ := h.qr.add (by rw [h.q]; exact hq) hd (by rw [h.q]; exact hz)
    (N' := fun k => normal pb.dense ((s.A.activate sc.p sc.status).act k))
    (fun k hk i _ => by rw [h.q] at hk; simp only [ha1 k hk]) (fun i _ => by simp only [h.q, ha2])
  unfold bAdd
  simp only [h.A]
  rw [if_pos (by simp only [hp, Bool.true_and, decide_eq_true_eq, h.nbVar, hn]; exact h.szD), e1]
  simp only [Option.map_some]
  refine ⟨_, rfl, ?_⟩
  constructor
  · exact h.x
  · exact h.u
  · exact h.f
  · rfl
  · exact h.it
  · exact h.nbVar
  · exact good_add h.good hp (by rw [hn]; exact hq)
  · have := h.fac.add hq o.dbg s.d (normal pb.dense sc) hdb hzb
      (N' := fun k => normal pb.dense ((s.A.activate sc.p sc.status).act k))
      (fun k hk a _ => by simp only [ha1 k hk]) (fun a _ => by simp only [ha2])
    simp only [addConstraint, hqa, hn, Nat.add_sub_cancel]
    exact this
  · exact h.spec
  · exact e3
  · show qr'.q = (s.A.activate sc.p sc.status).q
    rw [e2, hqa, h.q]
  · exact h.szX
  · exact h.szZ
  · exact h.szD
  · exact h.szU
  · exact h.szR
  · exact h.szCx
  · exact h.need

/-! ## One iteration -/

/-- Both solvers stop with the same status, or go on in the same way. -/
def BOut (pb : BPb ℝ EReal) (sl slt : (Nat → ℝ) → Nat → ℝ) : BIter ℝ → Iter ℝ → Prop
  | .done t bs, .done t' s => t = t' ∧ BRel pb sl slt bs s
  | .cont bs sc skip, .cont s sc' skip' => sc = sc' ∧ skip = skip' ∧ BRel pb sl slt bs s ∧ (skip = true → Cand s.A sc)
  | _, _ => False

theorem body_brel {bs : BState ℝ} {s : State ℝ} (h : BRel pb sl slt bs s) {o : Opts ℝ} (ht0 : 0 ≤ o.tiny)
    (hpd : PosDefN pb.n (hess pb.dense)) (hc : pb.C.nbVar = pb.n) {sc : SC} (hcand : Cand s.A sc) :
    ∃ r r', biterBody o pb bs sc = .ok r ∧ iterBody o pb.dense s sc = .ok r' ∧ BOut pb sl slt r r' := by
  have hg := h.good
  have hn := h.n
  have hn' : bs.s.nbVar = pb.n := h.nbVar.trans hn
  have hp := (ActiveSet.activatePre_iff _ _ _).1 hcand.pre
  have hqlt := hg.dim.wf.q_lt hp.1 hp.2.1
  have hqU : s.A.q < s.szU := lt_of_lt_of_le hqlt hg.dim.szU
  have hmn : s.A.nbCstr + s.A.nbBnd = pb.m + pb.nb := by rw [hg.dim.nbCstr, hg.dim.nbBnd]; rfl
  have hqU' : s.A.q < bs.s.szU := by have := h.szU; omega
  have hsc := Cand.scOk (pb := pb.dense) hcand.pre hg.dim.nbCstr hg.dim.nbBnd
  have hqn : s.A.q ≤ pb.n := by rw [← hn]; exact hg.q_le
  have hne : sc.status ≠ .inactive := by intro h; simp [scOk, h] at hsc
  obtain ⟨d, z, r, hbs, hd, hz, hr, hdz⟩ := bstep_spec h hpd hc hsc
  have hfacts := computeStep_facts (pb := pb.dense) (s := s) (sc := sc) hn hqn h.fac hsc
  obtain ⟨bs1, hbs1⟩ : ∃ bs1 : BState ℝ, bs1 = { bs with s := { bs.s with d := d, z := z, r := r } } := ⟨_, rfl⟩
  obtain ⟨s1, hs1⟩ : ∃ s1, s1 = computeStep pb.dense s sc := ⟨_, rfl⟩
  rw [← hbs1] at hbs
  rw [← hs1] at hz hr hfacts
  have hrel1 : BRel pb sl slt bs1 s1 := by
    rw [hbs1, hs1]
    exact ⟨h.x, h.u, h.f, h.A, h.it, h.nbVar, hg.of_eq rfl rfl rfl rfl rfl rfl rfl rfl rfl, h.fac, h.spec, h.qr, h.q, h.szX, h.szZ,
      h.szD, h.szU, h.szR, h.szCx, h.need⟩
  have hA1 : s1.A = s.A := by rw [hs1]; rfl
  have hz1 : ∀ i < pb.n, bs1.s.z i = s1.z i := by rw [hbs1]; exact hz
  have hr1 : ∀ k < s1.A.q, bs1.s.r k = s1.r k := by rw [hbs1, hA1]; exact hr
  have hlen := bStepLength_eq (o := o) hc hsc hrel1.n (hrel1.nbVar.trans hrel1.n) hrel1.x hrel1.u hrel1.A hz1 hr1
  have hnorm : normn bs1.s.nbVar bs1.s.z = normn s1.nbVar s1.z := by
    rw [hrel1.nbVar, hrel1.n]; exact normn_congr hz1
  -- the two updates
  have hrelD : ∀ t, BRel pb sl slt { bs1 with s := dualUpdate bs1.s t } (dualUpdate s1 t) := by
    intro t
    refine ⟨hrel1.x, ?_, hrel1.f, hrel1.A, hrel1.it, hrel1.nbVar, hrel1.good.of_eq rfl rfl rfl rfl rfl rfl rfl rfl rfl, hrel1.fac,
      hrel1.spec, hrel1.qr, hrel1.q, hrel1.szX, hrel1.szZ, hrel1.szD, hrel1.szU, hrel1.szR, hrel1.szCx, hrel1.need⟩
    simp only [dualUpdate, hrel1.A, hrel1.u]
    funext j
    unfold dualStep
    by_cases hj : j < s1.A.q
    · rw [if_pos hj, if_pos hj, hr1 j hj]
    · rw [if_neg hj, if_neg hj]
  have hrelF : ∀ t, BRel pb sl slt { bs1 with s := bFullUpdate pb bs1.s sc t } (fullUpdate pb.dense s1 sc t) := by
    intro t
    have hD := hrelD t
    refine ⟨?_, hD.u, ?_, hrel1.A, hrel1.it, hrel1.nbVar, hrel1.good.of_eq rfl rfl rfl rfl rfl rfl rfl rfl rfl, hrel1.fac,
      hrel1.spec, hrel1.qr, hrel1.q, hrel1.szX, hrel1.szZ, hrel1.szD, hrel1.szU, hrel1.szR, hrel1.szCx, hrel1.need⟩
    · simp only [bFullUpdate, fullUpdate, dualUpdate, primalStep, hrel1.x, hrel1.nbVar, hrel1.n]
      funext i
      unfold wr
      by_cases hi : i < pb.n
      · rw [if_pos hi, if_pos hi]; dsimp only; rw [hz1 i hi]
      · rw [if_neg hi, if_neg hi]
    · simp only [bFullUpdate, fullUpdate, dualUpdate, primalStep, hrel1.f, hrel1.u, hrel1.A, hrel1.n]
      rw [bDot_eq hc hsc hz1]
  have hl1 := stepLength_l o pb.dense s1 sc
  have hqU1 : s1.A.q + 1 ≤ bs1.s.szU := by rw [hA1, hbs1]; exact hqU'
  have hqU2 : s1.A.q < s1.szU := by rw [hs1]; exact hqU
  have hcand1 : Cand s1.A sc := by rw [hA1]; exact hcand
  unfold biterBody iterBody
  rw [if_pos (by
    simp only [bComputeStepOk, bscOk, Bool.and_eq_true, decide_eq_true_eq, h.A, hn']
    exact ⟨⟨⟨⟨⟨⟨hqn, h.szD⟩, h.szZ⟩, by have := h.szR; omega⟩, hsc⟩, hqU'⟩, h.szX⟩)]
  rw [if_pos (by simp [hg.step_ok hcand.pre, hqU, hg.dim.szX]), hbs]
  simp only [← hs1, hlen]
  have hok : stepLenOk o s1 sc = true := by simp [stepLenOk, hcand.ineq, hne]
  have hok' : stepLenOk o bs1.s sc = true := by simp [stepLenOk, hcand.ineq, hne]
  rw [if_pos hok, if_pos hok']
  obtain ⟨sln, hsl⟩ : ∃ sln, sln = computeStepLength o pb.dense s1 sc := ⟨_, rfl⟩
  rw [← hsl] at hl1 ⊢
  obtain ⟨t, ht⟩ : ∃ t, t = stdMin sln.t1 sln.t2 := ⟨_, rfl⟩
  rw [← ht]
  have htc : t = sln.t1 ∨ t = sln.t2 := by
    rw [ht]; unfold stdMin; split_ifs
    · exact Or.inr rfl
    · exact Or.inl rfl
  by_cases h1 : leb o.bigBnd t = true
  · rw [if_pos h1, if_pos h1]
    exact ⟨_, _, rfl, rfl, rfl, hrel1⟩
  rw [if_neg h1, if_neg h1]
  have h1' : t < o.bigBnd := by simpa using h1
  have hlq : t ≠ sln.t2 → sln.l < s1.A.q := by
    intro hne
    rcases hl1 with e | e
    · rcases htc with e' | e'
      · rw [e', e] at h1'; exact absurd h1' (lt_irrefl _)
      · exact absurd e' hne
    · exact e
  have hrem : ∀ {b2 : BState ℝ} {s2 : State ℝ}, BRel pb sl slt b2 s2 → s2.A = s1.A → b2.s.szU = bs1.s.szU → s2.szU = s1.szU →
      sln.l < s1.A.q →
      ∃ b3, bRemove o b2 sln.l = some b3 ∧ removeOk s2 sln.l = true ∧ BRel pb sl slt b3 (removeConstraint o s2 sln.l) ∧
        Cand (removeConstraint o s2 sln.l).A sc := by
    intro b2 s2 hr2 hA2 hu2 hu2' hl
    rw [← hA2] at hl hqU1 hqU2
    obtain ⟨b3, e1, e2⟩ := hr2.remove o hl (by rw [hu2]; exact hqU1)
    exact ⟨b3, e1, removeOk_of hr2.good hl (by rw [hu2']; exact hqU2), e2,
      cand_remove hr2.good.dim.wf hl (by rw [hA2]; exact hcand1)⟩
  by_cases h2 : leb o.bigBnd sln.t2 = true
  · rw [if_pos h2, if_pos h2]
    have h2' : o.bigBnd ≤ sln.t2 := by simpa using h2
    obtain ⟨b3, e1, e2, e3, e4⟩ := hrem (hrelD t) rfl rfl rfl
      (hlq (by intro e; rw [e] at h1'; exact absurd h1' (not_lt.2 h2')))
    rw [e1, if_pos e2]
    exact ⟨_, _, rfl, rfl, rfl, rfl, e3, fun _ => e4⟩
  rw [if_neg h2, if_neg h2]
  have h2' : sln.t2 < o.bigBnd := by simpa using h2
  by_cases h3 : eqb t sln.t2 = true
  · rw [if_pos h3, if_pos h3]
    have hnz : ∃ i < pb.n, s1.z i ≠ 0 := by
      have : o.tiny < normn s1.nbVar s1.z := by
        by_contra hcon
        rw [hsl] at h2'
        simp only [computeStepLength] at h2'
        rw [if_neg (by simpa using hcon)] at h2'
        exact absurd h2' (lt_irrefl _)
      rw [hrel1.n] at this
      exact normn_pos.1 (lt_of_le_of_lt ht0 this)
    have hdzb := hfacts.d_ne hnz
    have hdzn := hdz (by obtain ⟨i, hi, e⟩ := hnz; exact ⟨i, hi, by rw [hz i hi]; exact e⟩)
    have hqlt' : s.A.q < pb.n := by obtain ⟨j, e1, e2, _⟩ := hdzn; omega
    have hJ : s1.J = s.J := by rw [hs1]; rfl
    obtain ⟨b3, e1, e2⟩ := (hrelF t).add o (sc := sc) hcand1.pre (by show s1.A.q < pb.n; rw [hA1]; exact hqlt')
      (by rw [hbs1]; exact hd) (by show ∃ j, s1.A.q ≤ j ∧ _; rw [hA1, hbs1]; exact hdzn) hfacts.d hdzb
    rw [e1, if_pos (addOk_of (hrelF t).good hcand1.pre (by show s1.A.q < s1.nbVar; rw [hA1, hrel1.n]; exact hqlt'))]
    exact ⟨_, _, rfl, rfl, rfl, rfl, e2, by simp⟩
  · rw [if_neg h3, if_neg h3]
    obtain ⟨b3, e1, e2, e3, e4⟩ := hrem (hrelF t) rfl rfl rfl (hlq (by simpa using h3))
    rw [e1, if_pos e2]
    exact ⟨_, _, rfl, rfl, rfl, rfl, e3, fun _ => e4⟩

theorem iterate_brel {bs : BState ℝ} {s : State ℝ} (h : BRel pb sl slt bs s) {o : Opts ℝ} (ht0 : 0 ≤ o.tiny)
    (hpd : PosDefN pb.n (hess pb.dense)) (hc : pb.C.nbVar = pb.n) {sc : SC} {skip : Bool} (hcand : skip = true → Cand s.A sc) :
    ∃ r r', biterate o pb bs sc skip = .ok r ∧ iterate o pb.dense s sc skip = .ok r' ∧ BOut pb sl slt r r' := by
  have hg := h.good
  have hn := h.n
  have hn' : bs.s.nbVar = pb.n := h.nbVar.trans hn
  unfold biterate iterate
  cases skip with
  | true => simp only [if_true]; exact body_brel h ht0 hpd hc (hcand rfl)
  | false =>
    simp only [Bool.false_eq_true, if_false]
    rw [if_pos (by
      simp only [bselectOk, Bool.and_eq_true, decide_eq_true_eq, h.A, hn']
      exact ⟨⟨⟨⟨⟨hg.dim.nbCstr.le, hg.dim.nbBnd.le⟩, hc⟩, h.szX⟩, h.szCx⟩, hg.dim.wf.size⟩)]
    rw [if_pos hg.selectOk]
    obtain ⟨bc, hbc⟩ : ∃ bc, bc = bselect pb bs.s.A bs.s.x bs.cx := ⟨_, rfl⟩
    have hsel : bc.1 = select pb.dense s.nbVar s.A s.x := by
      rw [hbc, h.A, h.x, hn]; exact bselect_eq pb hc s.A hg.dim.nbCstr s.x _
    rw [← hbc, ← hsel]
    by_cases hst : bc.1.status = .inactive
    · rw [if_pos hst, if_pos hst]
      exact ⟨_, _, rfl, rfl, rfl, ⟨h.x, h.u, h.f, h.A, h.it, h.nbVar, h.good, h.fac, h.spec, h.qr, h.q, h.szX, h.szZ, h.szD, h.szU,
        h.szR, h.szCx, h.need⟩⟩
    · rw [if_neg hst, if_neg hst]
      have hcd : Cand s.A bc.1 := by
        have := (select_cand pb.dense s.nbVar s.A s.x).resolve_left (by rw [← hsel]; exact hst)
        rw [hsel]; exact this
      have hp := (ActiveSet.activatePre_iff _ _ _).1 hcd.pre
      have hqlt := hg.dim.wf.q_lt hp.1 hp.2.1
      have hmn : s.A.nbCstr + s.A.nbBnd = pb.m + pb.nb := by rw [hg.dim.nbCstr, hg.dim.nbBnd]; rfl
      rw [if_pos (by
        simp only [Bool.and_eq_true, decide_eq_true_eq, h.A]
        have := h.szU; have := h.szR
        exact ⟨by omega, by omega⟩)]
      rw [if_pos (by
        simp only [Bool.and_eq_true, decide_eq_true_eq]
        have := hg.dim.szU; have := hg.dim.szR
        exact ⟨by omega, by omega⟩)]
      refine body_brel (s := { s with u := upd s.u s.A.q 0 }) ?_ ht0 hpd hc hcd
      exact ⟨h.x, by simp only [h.u, h.A], h.f, h.A, h.it, h.nbVar, hg.of_eq rfl rfl rfl rfl rfl rfl rfl rfl rfl, h.fac, h.spec, h.qr, h.q,
        h.szX, h.szZ, h.szD, h.szU, h.szR, h.szCx, h.need⟩

/-- The two loops. -/
theorem loop_brel {o : Opts ℝ} (ht0 : 0 ≤ o.tiny) (hpd : PosDefN pb.n (hess pb.dense)) (hc : pb.C.nbVar = pb.n) (fuel : Nat) :
    ∀ {bs : BState ℝ} {s : State ℝ} {sc : SC} {skip : Bool}, BRel pb sl slt bs s → (skip = true → Cand s.A sc) →
    ∃ t bs' s', bloop o pb fuel bs sc skip = .ok (t, bs') ∧ loop o pb.dense fuel s sc skip = .ok (t, s') ∧
      BRel pb sl slt bs' s' := by
  induction fuel with
  | zero => intro bs s sc skip h _; exact ⟨_, _, _, rfl, rfl, h⟩
  | succ fuel ih =>
    intro bs s sc skip h hcand
    obtain ⟨r, r', e1, e2, e3⟩ := iterate_brel h ht0 hpd hc hcand
    rw [bloop, loop, e1, e2]
    cases r with
    | done t b =>
      cases r' with
      | done t' s' =>
        obtain ⟨rfl, hr⟩ := e3
        exact ⟨_, _, _, rfl, rfl, hr⟩
      | cont => exact e3.elim
    | cont b sc' skip' =>
      cases r' with
      | done t' s' => exact e3.elim
      | cont s' sc'' skip'' =>
        obtain ⟨rfl, rfl, hr, hcd⟩ := e3
        simp only []
        refine ih ?_ hcd
        exact ⟨hr.x, hr.u, hr.f, hr.A, by simp only [hr.it], hr.nbVar, hr.good.of_eq rfl rfl rfl rfl rfl rfl rfl rfl rfl, hr.fac, hr.spec,
          hr.qr, hr.q, hr.szX, hr.szZ, hr.szD, hr.szU, hr.szR, hr.szCx, hr.need⟩

end

end JrlQp
