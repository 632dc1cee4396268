import Verif.ExactCert
import Verif.PropsBackward
import Verif.PropsStruct
import Verif.PropsExpEx

/-!
# What `INFEASIBLE` of the warm-started, structured and box solvers means for arbitrary thresholds (C64), backward error of the structured solver
-/

namespace JrlQp

open NumOps Finset Spec

/-- **C64, warm-started solver.** In exact arithmetic, whatever the thresholds of the main loop: for every legal warm start without wrong
`EQUALITY`, with equalities first, an independent initial active set and no multiplier of the initialisation in `[-tiny, 0)`,
`INFEASIBLE` comes with a certificate up to the thresholds, after any history. -/
theorem C64_certificate_warm {o : Opts ℝ} {pb : Pb ℝ EReal} (hp : Proper pb) (hx : NotCrossed pb) {as : List Status}
    {xs : XState ℝ} (h : XInv xs) (ha : ArgOk o pb as) (hf : NoFalseEq o pb (usedAs o pb as xs)) {e : Nat}
    (he : EqFirst pb e) (ho : EqActFirst o pb (usedAs o pb as xs) e) (ht0 : 0 ≤ o.tiny) (hb0 : 0 < o.bigBnd)
    (hind : ∀ A, processInitial o pb pb.n (usedAs o pb as xs) (xsolveStart o pb as xs).s.A = .ok (.success, A) → ActIndep pb A)
    (hdrop : ∀ xs1, xinit o pb (xsolveStart o pb as xs) = .ok (.success, xs1) →
      ∀ k < xs1.s.A.q, (xs1.s.A.statusAt (xs1.s.A.get k)).isEq = false → xs1.s.u k < 0 → xs1.s.u k < -o.tiny) {xs'}
    (hs : xsolve o pb as xs = .ok (.infeasible, xs')) :
    ∃ sc, scOk pb sc = true ∧ ndot pb sc xs'.s.x < rhs pb sc ∧
      (∃ z ρ, NearCert o pb xs'.s.x xs'.s.A.q xs'.s.A.act xs'.s.u sc z ρ) ∧ ∀ y, Feasible pb y →
      rhs pb sc - ndot pb sc xs'.s.x ≤
        max (o.tiny * normn pb.n (fun a => ∑ b ∈ range pb.n, hess pb a b * (y b - xs'.s.x b)))
          (Real.sqrt ((rhs pb sc - ndot pb sc xs'.s.x) * quad pb (fun a => y a - xs'.s.x a) / o.bigBnd))
        + (∑ k ∈ range xs'.s.A.q, if (xs'.s.A.act k).status.isEq then 0
            else xs'.s.u k * (ndot pb (xs'.s.A.act k) y - rhs pb (xs'.s.A.act k))) / o.bigBnd := by
  obtain ⟨xs1, e1, e2, e3⟩ := xsolve_run h ha hs (by simp) (by simp)
  obtain ⟨g1, g2, _, g3⟩ := xinit_exact hp (xsolveStart_dim h) (usedAs_warmOk h ha.kind) (usedAs_len h ha.len) hf hind e1
  have hpre := g3 e he ho
  have hD : DInv pb e xs1.s ⟨0, .inactive⟩ false := by
    refine ⟨hpre, fun k hk hek => ?_, by simp, by simp⟩
    have hs : (xs1.s.A.statusAt (xs1.s.A.get k)).isEq = false := by
      have := (hpre.act g1.good.good.dim.wf hk).not.2 (by omega)
      simpa [ActiveSet.act] using this
    by_contra hneg
    have h3 := hdrop xs1 e1 k hk hs (by linarith)
    have h4 := g1.done k hk hs
    linarith
  obtain ⟨sc, z, ρ, hc⟩ := loop_cert hp hx ht0 _ (BInvT.start g1.inv hD) e2
  obtain ⟨h1, h2, h3⟩ := hc.far hb0 (posDef_of_chol g2)
  exact ⟨sc, h1, h2, ⟨z, ρ, hc⟩, h3⟩

/-- `min ½x²` subject to `x ≥ 3` and `-x ≥ 0`. -/
noncomputable def exPbI : Pb ℝ EReal :=
  ⟨1, 2, false, fun _ _ => 1, fun _ => 0, fun _ i => if i = 0 then 1 else -1, fun i => if i = 0 then ((3 : ℝ) : EReal) else ((0 : ℝ) : EReal),
    fun _ => ⊤, fun _ => 0, fun _ => 0⟩

theorem exPbI_infeasible : ¬ ∃ y, Feasible exPbI y := by
  rintro ⟨y, hy⟩
  have h0 := (hy.gen 0 (by simp [exPbI])).1
  have h1 := (hy.gen 1 (by simp [exPbI])).1
  have e0 : row exPbI y 0 = y 0 := by simp [row, exPbI]
  have e1 : row exPbI y 1 = -y 0 := by simp [row, exPbI]
  rw [e0] at h0
  rw [e1] at h1
  have h0 : ((3 : ℝ) : EReal) ≤ ((y 0 : ℝ) : EReal) := h0
  have h1 : ((0 : ℝ) : EReal) ≤ ((-y 0 : ℝ) : EReal) := h1
  rw [EReal.coe_le_coe_iff] at h0 h1
  linarith

theorem exPbI_hyps (o : Opts ℝ) (hw : o.warmStart = true) : Proper exPbI ∧ NotCrossed exPbI ∧ cholOk exPbI ∧ EqFirst exPbI 0 ∧ ArgOk o exPbI [.lower, .inactive] ∧
    NoFalseEq o exPbI [.lower, .inactive] ∧ WarmIndep true exPbI [.lower, .inactive] := by
  have hf : exPbI.useBnd ≠ true := by show false ≠ true; simp
  have hbl : ∀ i, exPbI.bl i ≠ ⊤ := by intro i; simp only [exPbI]; split_ifs <;> exact EReal.coe_ne_top _
  have hnb : exPbI.nb = 0 := rfl
  refine ⟨⟨fun i _ => hbl i, fun i _ => ?_, fun h => absurd h hf, fun h => absurd h hf⟩, ⟨fun i _ => le_top, fun h => absurd h hf⟩,
    chol_one (by norm_num [exPbI]), ⟨Nat.zero_le _, ?_⟩, ⟨Or.inl rfl, Or.inl hw, ?_, ?_⟩, ?_, ?_⟩
  · show (⊤ : EReal) ≠ ⊥; simp
  · intro i hi
    rw [hnb] at hi
    have hi : i < exPbI.m := hi
    unfold isEqB
    rw [if_pos hi]
    have : bEq ℝ (exPbI.bl i) (exPbI.bu i) = false := decide_eq_false (hbl i)
    rw [this]; simp
  · intro _ _ i hi
    have : i < 2 := hi
    interval_cases i
    · right; rfl
    · left; rfl
  · intro _ _ i hi
    rw [hnb] at hi
    exact absurd hi (Nat.not_lt_zero _)
  · intro _ i hi h
    have : i < 2 := hi
    interval_cases i <;> cases h
  · intro c h1 h2
    have hz : ∀ i, 1 ≤ i → c i = 0 := by
      intro i hi
      apply h1
      rintro ⟨h, hor⟩
      rw [hnb] at h
      have h : i < 2 := h
      have : i = 1 := by omega
      subst this
      rcases hor with hor | ⟨_, hor⟩
      · rcases hor with ⟨_, hor⟩ | ⟨hor, _⟩
        · exact hbl 1 hor
        · have : 2 ≤ 1 := hor
          omega
      · exact hor rfl
    have e0 := h2 0 (by simp [exPbI])
    have hn : exPbI.m + exPbI.nb = 2 := rfl
    rw [hn] at e0
    simp [sum_range_succ, grad, exPbI, hz 1 le_rfl] at e0
    intro i
    rcases Nat.eq_zero_or_pos i with rfl | h
    · exact e0
    · exact hz i h

/-- The hypotheses of `C64_certificate_warm` are met: a warm start with an active constraint, after any history, for which `INFEASIBLE` is
returned. -/
theorem C64_warm_met : ∃ o : Opts ℝ, o.warmStart = true ∧ 0 ≤ o.tiny ∧ 0 < o.bigBnd ∧ ∀ cs : List (XCall ℝ EReal), (∀ c ∈ cs, c.Admissible) →
    ∃ xs xs', xcalls cs (XState.empty : XState ℝ) = .ok xs ∧ XInv xs ∧ xsolve o exPbI [.lower, .inactive] xs = .ok (.infeasible, xs') ∧
      NoFalseEq o exPbI (usedAs o exPbI [.lower, .inactive] xs) ∧ EqActFirst o exPbI (usedAs o exPbI [.lower, .inactive] xs) 0 ∧
      (∀ A, processInitial o exPbI exPbI.n (usedAs o exPbI [.lower, .inactive] xs) (xsolveStart o exPbI [.lower, .inactive] xs).s.A
        = .ok (.success, A) → ActIndep exPbI A) ∧
      (∀ xs1, xinit o exPbI (xsolveStart o exPbI [.lower, .inactive] xs) = .ok (.success, xs1) →
        ∀ k < xs1.s.A.q, (xs1.s.A.statusAt (xs1.s.A.get k)).isEq = false → xs1.s.u k < 0 → xs1.s.u k < -o.tiny) := by
  obtain ⟨h1, h2, h3, h4, h5, h6, h8⟩ := exPbI_hyps exOptsW rfl
  obtain ⟨ε, hε, β, hS⟩ := C24_thresholds_partial (o0 := exOptsW) h1 h2 ((cholOk_iff exPbI).1 h3) h4 (fun _ => by simp) h5 h6 (Or.inl rfl) h8
  obtain ⟨o, ho⟩ : ∃ o : Opts ℝ, o = ⟨1 + 2 * (7 ^ 2 + 1), |β| + 1, true, 0, false⟩ := ⟨_, rfl⟩
  have ht : o.tiny = 0 := by rw [ho]
  have hws : o.warmStart = true := by rw [ho]
  have hbig : o.bigBnd = |β| + 1 := by rw [ho]
  refine ⟨o, hws, ht.ge, by rw [hbig]; positivity, fun cs hcs => ?_⟩
  obtain ⟨xs, t, xs', g1, g2, g3, g4, g5, g6⟩ := hS o (by rw [hws]; rfl) ht.ge (by rw [ht]; exact hε)
    (by rw [hbig]; have := le_abs_self β; linarith) cs hcs
  have htt : t = .infeasible := by
    rcases g3 with h | h | h
    · exact absurd ⟨_, (g4 h).1.1.1⟩ exPbI_infeasible
    · exact h
    · have := g6 h
      have hn : exPbI.m + exPbI.nb = 2 := rfl
      have hn2 : exPbI.n = 1 := rfl
      rw [hn, hn2, ho] at this
      norm_num at this
  subst htt
  have hu : usedAs o exPbI [.lower, .inactive] xs = [.lower, .inactive] := usedAs_explicit hws (by simp)
  obtain ⟨_, _, _, _, k5, k6, _⟩ := exPbI_hyps o hws
  obtain ⟨xs0, j1, j2⟩ := C37_no_fault cs hcs
  rw [g1] at j1
  have j1 := Except.ok.inj j1
  subst j1
  refine ⟨xs, xs', g1, j2, g2, ?_⟩
  rw [hu]
  refine ⟨k6, Or.inl rfl, fun A hA => ?_, fun xs1 _ k _ _ hneg => by rw [ht]; simpa using hneg⟩
  have hd := (xsolveStart_dim (as := [.lower, .inactive]) (o := o) (pb := exPbI) j2).dim
  obtain ⟨t, A', e1, a1, a2, a3, e5⟩ := processInitial_spec k5.kind exPbI.n hd.wf hd.nbCstr hd.nbBnd
  rw [hA] at e1
  cases e1
  rcases e5 with ⟨a, _⟩ | ⟨_, b1, b2, b3, b4⟩
  · cases a
  exact actIndep_of_warm (by rw [hws]; exact h8) k5.kind ⟨a1, a2, a3, b1, b2, b3, b4⟩

/-! ### Structured solver -/

theorem noEq_idx {pb : BPb ℝ EReal} (he : pb.NoEq) : ∀ i < pb.dense.m + pb.dense.nb, ¬ IsEqIdx pb.dense i ∧ isEqB pb.dense i ≠ true := by
  intro i hi
  have hd : pb.dense.m = pb.m ∧ pb.dense.nb = pb.nb := ⟨rfl, rfl⟩
  rw [hd.1, hd.2] at hi
  unfold isEqB IsEqIdx
  rw [hd.1]
  by_cases h1 : i < pb.m
  · have h2 := he.1 i h1
    exact ⟨by rintro (⟨_, h⟩ | ⟨h, _⟩); exacts [h2 h, absurd h (by omega)], by rw [if_pos h1]; simpa [BPb.dense] using h2⟩
  · have h2 := he.2 (i - pb.m) (by omega)
    exact ⟨by rintro (⟨h, _⟩ | ⟨_, h⟩); exacts [h1 h, h2 h], by rw [if_neg h1]; simpa [BPb.dense] using h2⟩

theorem noEq_eqFirst {pb : BPb ℝ EReal} (he : pb.NoEq) : EqFirst pb.dense 0 :=
  ⟨Nat.zero_le _, fun i hi => ⟨fun h => absurd h (noEq_idx he i hi).2, fun h => absurd h (Nat.not_lt_zero _)⟩⟩

/-- **C45 for the structured solver.** In exact arithmetic, whatever the thresholds and after any history, `SUCCESS` means that the
solution is feasible for the assembled problem, and the exact solution for the linear term `a + δ`, `δ` as in C45. -/
theorem C64_backward_struct {pb : BPb ℝ EReal} (hok : pb.G.ok) (hpd : PosDefN pb.n pb.G.dense) (hc : pb.C.nbVar = pb.n) (he : pb.NoEq)
    (hp : Proper pb.dense) (hx : NotCrossed pb.dense) {o : Opts ℝ} (ht0 : 0 ≤ o.tiny) (hw : o.warmStart = false) (fresh : Nat → ℝ)
    {bs bs' : BState ℝ} (hb : BReach bs) (hs : bsolve o pb [] fresh bs = .ok (.success, bs')) :
    ∃ k ≤ bs'.s.it, ∃ δ, Pert o pb.dense k δ ∧ IsUniqueOptimal (shiftA pb.dense δ) bs'.s.x ∧ Feasible pb.dense bs'.s.x := by
  obtain ⟨t, bs1, s', sl, slt, e1, e2, e3⟩ := bsolve_brel hok hpd hc he ht0 hw fresh hb.inv
  rw [hs] at e1
  simp only [Except.ok.injEq, Prod.mk.injEq] at e1
  obtain ⟨rfl, rfl⟩ := e1
  obtain ⟨k, h1, δ, h2, h3, _, h4⟩ := C45_backward hp hx ht0 hb.inv.base (noEq_eqFirst he)
    (regInit_of_noEq (start_dim hb.inv.base) (fun i hi => (noEq_idx he i hi).1)) e2
  rw [e3.it, e3.x]
  exact ⟨k, h1, δ, h2, h3, h4⟩

/-- **C64, structured solver.** In exact arithmetic, whatever the thresholds and after any history, `INFEASIBLE` comes with a certificate up
to the thresholds for the assembled problem. -/
theorem C64_certificate_struct {pb : BPb ℝ EReal} (hok : pb.G.ok) (hpd : PosDefN pb.n pb.G.dense) (hc : pb.C.nbVar = pb.n) (he : pb.NoEq)
    (hp : Proper pb.dense) (hx : NotCrossed pb.dense) {o : Opts ℝ} (ht0 : 0 ≤ o.tiny) (hb0 : 0 < o.bigBnd) (hw : o.warmStart = false)
    (fresh : Nat → ℝ) {bs bs' : BState ℝ} (hb : BReach bs) (hs : bsolve o pb [] fresh bs = .ok (.infeasible, bs')) :
    ∃ sc, scOk pb.dense sc = true ∧ ndot pb.dense sc bs'.s.x < rhs pb.dense sc ∧
      (∃ z ρ, NearCert o pb.dense bs'.s.x bs'.s.A.q bs'.s.A.act bs'.s.u sc z ρ) ∧ ∀ y, Feasible pb.dense y →
      rhs pb.dense sc - ndot pb.dense sc bs'.s.x ≤
        max (o.tiny * normn pb.n (fun a => ∑ b ∈ range pb.n, hess pb.dense a b * (y b - bs'.s.x b)))
          (Real.sqrt ((rhs pb.dense sc - ndot pb.dense sc bs'.s.x) * quad pb.dense (fun a => y a - bs'.s.x a) / o.bigBnd))
        + (∑ k ∈ range bs'.s.A.q, if (bs'.s.A.act k).status.isEq then 0
            else bs'.s.u k * (ndot pb.dense (bs'.s.A.act k) y - rhs pb.dense (bs'.s.A.act k))) / o.bigBnd := by
  obtain ⟨t, bs1, s', sl, slt, e1, e2, e3⟩ := bsolve_brel hok hpd hc he ht0 hw fresh hb.inv
  rw [hs] at e1
  simp only [Except.ok.injEq, Prod.mk.injEq] at e1
  obtain ⟨rfl, rfl⟩ := e1
  obtain ⟨sc, z, ρ, h1⟩ := C46_certificate hp hx ht0 hb.inv.base (noEq_eqFirst he)
    (regInit_of_noEq (start_dim hb.inv.base) (fun i hi => (noEq_idx he i hi).1)) e2
  have hpd' : PosDefN pb.dense.n (hess pb.dense) := by
    show PosDefN pb.n (hess pb.dense)
    rw [hess_dense']; exact hpd
  obtain ⟨h2, h3, h4⟩ := h1.far hb0 hpd'
  rw [e3.x, e3.u, e3.A]
  exact ⟨sc, h2, h3, ⟨z, ρ, h1⟩, h4⟩

/-- Hessian `[2]` in one block, `x ≥ 1` and `-x ≥ 0`. -/
noncomputable def exBPbI : BPb ℝ EReal :=
  ⟨⟨.tri, 1, fun _ => 1, fun _ _ _ => 2, fun _ _ _ => 0, false⟩, fun _ => 0,
    ⟨1, fun _ => 1, fun _ => 2, fun _ _ i => if i = 0 then 1 else -1⟩,
    fun i => if i = 0 then ((1 : ℝ) : EReal) else ((0 : ℝ) : EReal), fun _ => ⊤, false, fun _ => 0, fun _ => 0⟩

/-- The hypotheses of `C64_certificate_struct` are met, after any history; those of `C64_backward_struct` by the problem of
`C40_hypotheses_met`. -/
theorem C64_struct_met : exBPbI.G.ok ∧ PosDefN exBPbI.n exBPbI.G.dense ∧ exBPbI.C.nbVar = exBPbI.n ∧ exBPbI.NoEq ∧
    Proper exBPbI.dense ∧ NotCrossed exBPbI.dense ∧ ∃ o : Opts ℝ, 0 ≤ o.tiny ∧ 0 < o.bigBnd ∧ o.warmStart = false ∧
      ∀ (fresh : Nat → ℝ) (bs : BState ℝ), BReach bs → ∃ bs', bsolve o exBPbI [] fresh bs = .ok (.infeasible, bs') := by
  have hm : exBPbI.m = 2 := by simp [BPb.m, exBPbI, StrC.nbCstr, off]
  have hn : exBPbI.n = 1 := by simp [BPb.n, exBPbI, SG.nbVar, off]
  have hbl : ∀ i, exBPbI.bl i ≠ ⊤ := by intro i; simp only [exBPbI]; split_ifs <;> exact EReal.coe_ne_top _
  have k1 : exBPbI.G.ok := ⟨by simp [exBPbI], by simp [exBPbI]⟩
  have k2 : PosDefN exBPbI.n exBPbI.G.dense := by
    rw [hn]
    rintro v ⟨i, hi, hv⟩
    have : i = 0 := by omega
    subst this
    have e : exBPbI.G.dense 0 0 = 2 := by simp [SG.dense, JrlQp.dense, SG.entry, exBPbI, blkOf, triMat, symLow]
    simp only [sum_range_succ, sum_range_zero, e]
    have := mul_self_pos.2 hv
    nlinarith
  have k3 : exBPbI.C.nbVar = exBPbI.n := by simp [BPb.n, exBPbI, SG.nbVar, StrC.nbVar, off]
  have k4 : exBPbI.NoEq := ⟨fun i _ => hbl i, fun i hi => by simp [BPb.nb, exBPbI] at hi⟩
  have k5 : Proper exBPbI.dense := by
    refine ⟨fun i _ => hbl i, fun i _ => ?_, fun h => ?_, fun h => ?_⟩
    · simp [exBPbI, BPb.dense]
    · simp [exBPbI, BPb.dense] at h
    · simp [exBPbI, BPb.dense] at h
  have k6 : NotCrossed exBPbI.dense := ⟨fun i _ => le_top, fun h => by simp [exBPbI, BPb.dense] at h⟩
  have hC : ∀ i < 2, exBPbI.dense.C 0 i = if i = 0 then 1 else -1 := by
    intro q hq
    interval_cases q <;> simp [BPb.dense, StrC.dense, exBPbI, blkOf, off]
  have hinf : ¬ ∃ y, Feasible exBPbI.dense y := by
    rintro ⟨y, hy⟩
    have hn' : exBPbI.dense.n = 1 := hn
    have h0 := (hy.gen 0 (by show 0 < exBPbI.m; omega)).1
    have h1 := (hy.gen 1 (by show 1 < exBPbI.m; omega)).1
    have e0 : row exBPbI.dense y 0 = y 0 := by simp [row, hn', hC 0 (by norm_num)]
    have e1 : row exBPbI.dense y 1 = -y 0 := by simp [row, hn', hC 1 (by norm_num)]
    rw [e0] at h0
    rw [e1] at h1
    have h0 : ((1 : ℝ) : EReal) ≤ ((y 0 : ℝ) : EReal) := h0
    have h1 : ((0 : ℝ) : EReal) ≤ ((-y 0 : ℝ) : EReal) := h1
    rw [EReal.coe_le_coe_iff] at h0 h1
    linarith
  obtain ⟨ε, hε, β, hS⟩ := C40_structured_solves k1 k2 k3 k4 k5 k6
  refine ⟨k1, k2, k3, k4, k5, k6, ⟨(exBPbI.n + 1) * (7 ^ (exBPbI.m + exBPbI.nb) + 1), |β| + 1, false, 0, false⟩, le_rfl,
    by show 0 < |β| + 1; positivity, rfl, fun fresh bs hb => ?_⟩
  obtain ⟨t, bs', e1, _, e2⟩ := hS ⟨(exBPbI.n + 1) * (7 ^ (exBPbI.m + exBPbI.nb) + 1), |β| + 1, false, 0, false⟩ le_rfl hε
    (by show β < |β| + 1; have := le_abs_self β; linarith) rfl le_rfl fresh bs hb
  have := e2 hinf
  subst this
  exact ⟨bs', e1⟩

/-! ### Box solver -/

variable {n : Nat} {x0 c : Nat → ℝ} {bl : EReal} {xl xu : Nat → EReal}

theorem boxSpec_gz (z : Nat → ℝ) {a : Nat} (ha : a < n) : ∑ b ∈ range n, hess (boxSpec n x0 c bl xl xu) a b * z b = z a := by
  simp only [boxSpec_hess]
  exact sum_kd ha z

theorem boxSpec_quad (z : Nat → ℝ) : quad (boxSpec n x0 c bl xl xu) z = ∑ a ∈ range n, z a ^ 2 := by
  unfold quad
  refine Finset.sum_congr rfl fun a ha => ?_
  simp only [mul_assoc, ← Finset.mul_sum]
  show z a * ∑ b ∈ range n, hess (boxSpec n x0 c bl xl xu) a b * z b = _
  rw [boxSpec_gz z (mem_range.1 ha)]; ring

/-- **C64, box solver.** In exact arithmetic, whatever the thresholds and after any history: if the box solver returns `INFEASIBLE` at the
point `x`, one of the sides of the constraint or of the box is violated at `x` by `viol > 0`, and every `y` in the box and the
half-space is far from `x` or has much slack: `viol ≤ max(tiny ‖y - x‖, √(viol/bigBnd) ‖y - x‖) + (∑ u k · slack k)/bigBnd`, the sum over
the constraints active at `x`. -/
theorem C64_certificate_box {o : Opts ℝ} (hd : BoxData n bl xl xu) (ht0 : 0 ≤ o.tiny) (hb0 : 0 < o.bigBnd) {s : State ℝ} (h : Inv s) {s'}
    (hs : boxSolve o n x0 c bl ⊤ xl xu s = .ok (.infeasible, s')) :
    ∃ sc, scOk (boxSpec n x0 c bl xl xu) sc = true ∧ ndot (boxSpec n x0 c bl xl xu) sc s'.x < rhs (boxSpec n x0 c bl xl xu) sc ∧
      ∀ y, BoxFeasible n c bl xl xu y →
      rhs (boxSpec n x0 c bl xl xu) sc - ndot (boxSpec n x0 c bl xl xu) sc s'.x ≤
        max (o.tiny * Real.sqrt (dist2 n y s'.x))
          (Real.sqrt ((rhs (boxSpec n x0 c bl xl xu) sc - ndot (boxSpec n x0 c bl xl xu) sc s'.x) * dist2 n y s'.x / o.bigBnd))
        + (∑ k ∈ range s'.A.q, if (s'.A.act k).status.isEq then 0 else s'.u k *
            (ndot (boxSpec n x0 c bl xl xu) (s'.A.act k) y - rhs (boxSpec n x0 c bl xl xu) (s'.A.act k))) / o.bigBnd := by
  obtain ⟨i1, i2⟩ := boxEntry_inv (x0 := x0) (c := c) o hd h
  have hl := boxEntry_loop h hs
  obtain ⟨sc, z, ρ, hc⟩ := loop_cert hd.proper hd.notCrossed ht0 _ (BInvT.start i1 i2) hl
  obtain ⟨h1, h2, h3⟩ := hc.far hb0 (posDefN_kd (boxSpec_hess n x0 c bl xl xu))
  refine ⟨sc, h1, h2, fun y hy => ?_⟩
  have hfe : Feasible (boxSpec n x0 c bl xl xu) y := (boxFeasible_iff y).2 hy
  refine (h3 y hfe).trans (le_of_eq ?_)
  congr 1
  congr 1
  · congr 1
    show normn n _ = _
    unfold normn dotn dist2
    rw [esum_eq]
    show Real.sqrt _ = _
    congr 1
    refine Finset.sum_congr rfl fun a ha => ?_
    show (∑ b ∈ range n, hess (boxSpec n x0 c bl xl xu) a b * (y b - s'.x b)) * (∑ b ∈ range n, hess (boxSpec n x0 c bl xl xu) a b * (y b - s'.x b)) = _
    rw [boxSpec_gz (fun b => y b - s'.x b) (mem_range.1 ha)]; ring
  · rw [boxSpec_quad]; rfl

/-- The hypotheses are met, by a problem that is feasible: `d x ≥ d` with `0 < d ≤ tiny`. -/
theorem C64_hypotheses_met {o : Opts ℝ} (hm : 1 ≤ o.maxIter) {d : ℝ} (hd : 0 < d) (hdt : d ≤ o.tiny) {s : State ℝ} (hi : Inv s) :
    BoxData 1 (d : EReal) (fun _ => ⊥) (fun _ => ⊤) ∧
    (∃ s', boxSolve o 1 (fun _ => 0) (fun _ => d) (d : EReal) ⊤ (fun _ => ⊥) (fun _ => ⊤) s = .ok (.infeasible, s')) ∧
    BoxFeasible 1 (fun _ => d) (d : EReal) (fun _ => ⊥) (fun _ => ⊤) (fun _ => 1) := C25_threshold_false hm hd hdt hi

end JrlQp
