import Verif.PropsWarmMeta
import Verif.PropsCert

/-!
# C104: `INFEASIBLE` if and only if some combination of the constraints is contradictory
-/

namespace JrlQp

open NumOps Finset Spec

/-! ### Specification -/

/-- The inequality `g · x ≥ b` is a combination, with nonnegative weights, of finite sides of constraints and bounds: `wl i` (`wu i`) is the weight of
the lower (upper) side of the general constraint `i`, `vl i` (`vu i`) that of the lower (upper) bound of the variable `i`. -/
structure Combination (pb : Pb ℝ EReal) (g : Nat → ℝ) (b : ℝ) (wl wu vl vu : Nat → ℝ) : Prop where
  nonneg : ∀ i, 0 ≤ wl i ∧ 0 ≤ wu i ∧ 0 ≤ vl i ∧ 0 ≤ vu i
  lower : ∀ i < pb.m, wl i ≠ 0 → ∃ r : ℝ, pb.bl i = (r : EReal)
  upper : ∀ i < pb.m, wu i ≠ 0 → ∃ r : ℝ, pb.bu i = (r : EReal)
  lowerBnd : pb.useBnd = true → ∀ i < pb.n, vl i ≠ 0 → ∃ r : ℝ, pb.xl i = (r : EReal)
  upperBnd : pb.useBnd = true → ∀ i < pb.n, vu i ≠ 0 → ∃ r : ℝ, pb.xu i = (r : EReal)
  left : ∀ a < pb.n, ∑ i ∈ range pb.m, (wl i - wu i) * pb.C a i + (if pb.useBnd then vl a - vu a else 0) = g a
  right : ∑ i ∈ range pb.m, (wl i * (pb.bl i).toReal - wu i * (pb.bu i).toReal)
    + (if pb.useBnd then ∑ i ∈ range pb.n, (vl i * (pb.xl i).toReal - vu i * (pb.xu i).toReal) else 0) = b

/-- The constraints are contradictory: some combination of them says `0 ≥ b` with `b > 0`. -/
def Contradictory (pb : Pb ℝ EReal) : Prop := ∃ b wl wu vl vu, 0 < b ∧ Combination pb (fun _ => 0) b wl wu vl vu

/-! ### Proofs -/

theorem Combination.le {pb : Pb ℝ EReal} {g b wl wu vl vu} (h : Combination pb g b wl wu vl vu) {y : Nat → ℝ} (hy : Feasible pb y) :
    b ≤ ∑ a ∈ range pb.n, g a * y a := by
  have key : ∀ w r v : ℝ, 0 ≤ w → (w ≠ 0 → r ≤ v) → w * r ≤ w * v := fun w r v h0 h1 => by
    rcases eq_or_ne w 0 with h | h
    · rw [h, zero_mul, zero_mul]
    · exact mul_le_mul_of_nonneg_left (h1 h) h0
  rw [sum_congr rfl fun a ha => by rw [← h.left a (mem_range.1 ha)], ← h.right]
  have e : ∑ a ∈ range pb.n, (∑ i ∈ range pb.m, (wl i - wu i) * pb.C a i + (if pb.useBnd then vl a - vu a else 0)) * y a =
      ∑ i ∈ range pb.m, (wl i * row pb y i - wu i * row pb y i) +
        (if pb.useBnd then ∑ a ∈ range pb.n, (vl a * y a - vu a * y a) else 0) := by
    simp only [add_mul, sum_add_distrib]
    congr 1
    · simp only [sum_mul]
      rw [sum_comm]
      refine sum_congr rfl fun i _ => ?_
      unfold row
      rw [mul_sum, mul_sum, ← sum_sub_distrib]
      exact sum_congr rfl fun a _ => by ring
    · split
      · exact sum_congr rfl fun a _ => by ring
      · simp
  rw [e]
  refine add_le_add (sum_le_sum fun i hi => ?_) ?_
  · have hi := mem_range.1 hi
    obtain ⟨h1, h2, _, _⟩ := h.nonneg i
    have f := hy.gen i hi
    refine sub_le_sub (key _ _ _ h1 fun hne => ?_) ?_
    · obtain ⟨r, hr⟩ := h.lower i hi hne
      rw [hr, EReal.coe_le_coe_iff] at f
      rw [hr, EReal.toReal_coe]; exact f.1
    · rcases eq_or_ne (wu i) 0 with hne | hne
      · rw [hne, zero_mul, zero_mul]
      · obtain ⟨r, hr⟩ := h.upper i hi hne
        rw [hr, EReal.coe_le_coe_iff] at f
        rw [hr, EReal.toReal_coe]; exact mul_le_mul_of_nonneg_left f.2 h2
  · split
    · rename_i hb
      refine sum_le_sum fun i hi => ?_
      have hi := mem_range.1 hi
      obtain ⟨_, _, h1, h2⟩ := h.nonneg i
      have f := hy.bnd hb i hi
      refine sub_le_sub (key _ _ _ h1 fun hne => ?_) ?_
      · obtain ⟨r, hr⟩ := h.lowerBnd hb i hi hne
        rw [hr, EReal.coe_le_coe_iff] at f
        rw [hr, EReal.toReal_coe]; exact f.1
      · rcases eq_or_ne (vu i) 0 with hne | hne
        · rw [hne, zero_mul, zero_mul]
        · obtain ⟨r, hr⟩ := h.upperBnd hb i hi hne
          rw [hr, EReal.coe_le_coe_iff] at f
          rw [hr, EReal.toReal_coe]; exact mul_le_mul_of_nonneg_left f.2 h2
    · exact le_rfl

/-- Contradictory constraints have no feasible point. -/
theorem Contradictory.infeasible {pb : Pb ℝ EReal} (h : Contradictory pb) : ¬ ∃ y, Feasible pb y := by
  rintro ⟨y, hy⟩
  obtain ⟨b, wl, wu, vl, vu, hb, hc⟩ := h
  have := hc.le hy
  simp at this
  linarith

/-- `g · x ≥ b` is a combination of the constraints. -/
def Combines (pb : Pb ℝ EReal) (g : Nat → ℝ) (b : ℝ) : Prop := ∃ wl wu vl vu, Combination pb g b wl wu vl vu

theorem Combines.zero (pb : Pb ℝ EReal) : Combines pb (fun _ => 0) 0 :=
  ⟨fun _ => 0, fun _ => 0, fun _ => 0, fun _ => 0, fun _ => by simp, by simp, by simp, by simp, by simp, by simp, by simp⟩

theorem Combines.add {pb : Pb ℝ EReal} {g g' : Nat → ℝ} {b b' : ℝ} (h : Combines pb g b) (h' : Combines pb g' b') :
    Combines pb (fun a => g a + g' a) (b + b') := by
  obtain ⟨wl, wu, vl, vu, h⟩ := h
  obtain ⟨wl', wu', vl', vu', h'⟩ := h'
  have hne : ∀ x y : ℝ, x + y ≠ 0 → x ≠ 0 ∨ y ≠ 0 := fun x y h => by
    by_contra hc
    push Not at hc
    rw [hc.1, hc.2, add_zero] at h
    exact h rfl
  refine ⟨fun i => wl i + wl' i, fun i => wu i + wu' i, fun i => vl i + vl' i, fun i => vu i + vu' i, fun i => ?_, fun i hi h0 => ?_,
    fun i hi h0 => ?_, fun hb i hi h0 => ?_, fun hb i hi h0 => ?_, fun a ha => ?_, ?_⟩
  · obtain ⟨a1, a2, a3, a4⟩ := h.nonneg i
    obtain ⟨b1, b2, b3, b4⟩ := h'.nonneg i
    exact ⟨add_nonneg a1 b1, add_nonneg a2 b2, add_nonneg a3 b3, add_nonneg a4 b4⟩
  · exact (hne _ _ h0).elim (h.lower i hi) (h'.lower i hi)
  · exact (hne _ _ h0).elim (h.upper i hi) (h'.upper i hi)
  · exact (hne _ _ h0).elim (h.lowerBnd hb i hi) (h'.lowerBnd hb i hi)
  · exact (hne _ _ h0).elim (h.upperBnd hb i hi) (h'.upperBnd hb i hi)
  · rw [← h.left a ha, ← h'.left a ha]
    have e : ∑ i ∈ range pb.m, (wl i + wl' i - (wu i + wu' i)) * pb.C a i =
        ∑ i ∈ range pb.m, (wl i - wu i) * pb.C a i + ∑ i ∈ range pb.m, (wl' i - wu' i) * pb.C a i := by
      rw [← sum_add_distrib]; exact sum_congr rfl fun i _ => by ring
    rw [e]
    split <;> ring
  · rw [← h.right, ← h'.right]
    have e : ∑ i ∈ range pb.m, ((wl i + wl' i) * (pb.bl i).toReal - (wu i + wu' i) * (pb.bu i).toReal) =
        ∑ i ∈ range pb.m, (wl i * (pb.bl i).toReal - wu i * (pb.bu i).toReal) +
          ∑ i ∈ range pb.m, (wl' i * (pb.bl i).toReal - wu' i * (pb.bu i).toReal) := by
      rw [← sum_add_distrib]; exact sum_congr rfl fun i _ => by ring
    have e' : ∑ i ∈ range pb.n, ((vl i + vl' i) * (pb.xl i).toReal - (vu i + vu' i) * (pb.xu i).toReal) =
        ∑ i ∈ range pb.n, (vl i * (pb.xl i).toReal - vu i * (pb.xu i).toReal) +
          ∑ i ∈ range pb.n, (vl' i * (pb.xl i).toReal - vu' i * (pb.xu i).toReal) := by
      rw [← sum_add_distrib]; exact sum_congr rfl fun i _ => by ring
    rw [e, e']
    split <;> ring

theorem Combines.congr {pb : Pb ℝ EReal} {g g' : Nat → ℝ} {b b' : ℝ} (h : Combines pb g b) (hg : ∀ a < pb.n, g a = g' a) (hb : b = b') :
    Combines pb g' b' := by
  obtain ⟨wl, wu, vl, vu, h⟩ := h
  exact ⟨wl, wu, vl, vu, h.nonneg, h.lower, h.upper, h.lowerBnd, h.upperBnd, fun a ha => (h.left a ha).trans (hg a ha), h.right.trans hb⟩

theorem Combines.lowerSide {pb : Pb ℝ EReal} {p : Nat} (hp : p < pb.m) {r : ℝ} (hr : pb.bl p = (r : EReal)) {w : ℝ} (hw : 0 ≤ w) :
    Combines pb (fun a => w * pb.C a p) (w * r) := by
  refine ⟨fun i => if i = p then w else 0, fun _ => 0, fun _ => 0, fun _ => 0, fun i => ⟨?_, le_rfl, le_rfl, le_rfl⟩, fun i _ h => ?_, by simp,
    by simp, by simp, fun a _ => ?_, ?_⟩
  · show (0 : ℝ) ≤ if i = p then w else 0
    split <;> first | exact hw | exact le_rfl
  · have : i = p := by by_contra hc; exact h (if_neg hc)
    exact ⟨r, by rw [this, hr]⟩
  · simp [ite_mul, hp]
  · simp [ite_mul, hp, hr]

theorem Combines.upperSide {pb : Pb ℝ EReal} {p : Nat} (hp : p < pb.m) {r : ℝ} (hr : pb.bu p = (r : EReal)) {w : ℝ} (hw : 0 ≤ w) :
    Combines pb (fun a => w * -pb.C a p) (w * -r) := by
  refine ⟨fun _ => 0, fun i => if i = p then w else 0, fun _ => 0, fun _ => 0, fun i => ⟨le_rfl, ?_, le_rfl, le_rfl⟩, by simp, fun i _ h => ?_,
    by simp, by simp, fun a _ => ?_, ?_⟩
  · show (0 : ℝ) ≤ if i = p then w else 0
    split <;> first | exact hw | exact le_rfl
  · have : i = p := by by_contra hc; exact h (if_neg hc)
    exact ⟨r, by rw [this, hr]⟩
  · simp [ite_mul, hp]
  · simp [ite_mul, hp, hr]

theorem Combines.lowerBound {pb : Pb ℝ EReal} (hb : pb.useBnd = true) {p : Nat} (hp : p < pb.n) {r : ℝ} (hr : pb.xl p = (r : EReal)) {w : ℝ}
    (hw : 0 ≤ w) : Combines pb (fun a => w * if a = p then 1 else 0) (w * r) := by
  refine ⟨fun _ => 0, fun _ => 0, fun i => if i = p then w else 0, fun _ => 0, fun i => ⟨le_rfl, le_rfl, ?_, le_rfl⟩, by simp, by simp,
    fun _ i _ h => ?_, by simp, fun a _ => ?_, ?_⟩
  · show (0 : ℝ) ≤ if i = p then w else 0
    split <;> first | exact hw | exact le_rfl
  · have : i = p := by by_contra hc; exact h (if_neg hc)
    exact ⟨r, by rw [this, hr]⟩
  · simp [hb]
  · simp [ite_mul, hb, hp, hr]

theorem Combines.upperBound {pb : Pb ℝ EReal} (hb : pb.useBnd = true) {p : Nat} (hp : p < pb.n) {r : ℝ} (hr : pb.xu p = (r : EReal)) {w : ℝ}
    (hw : 0 ≤ w) : Combines pb (fun a => w * if a = p then -1 else 0) (w * -r) := by
  refine ⟨fun _ => 0, fun _ => 0, fun _ => 0, fun i => if i = p then w else 0, fun i => ⟨le_rfl, le_rfl, le_rfl, ?_⟩, by simp, by simp,
    by simp, fun _ i _ h => ?_, fun a _ => ?_, ?_⟩
  · show (0 : ℝ) ≤ if i = p then w else 0
    split <;> first | exact hw | exact le_rfl
  · have : i = p := by by_contra hc; exact h (if_neg hc)
    exact ⟨r, by rw [this, hr]⟩
  · simp only [hb, if_true, sub_self, zero_mul, sum_const_zero, zero_add]
    split <;> simp
  · simp [ite_mul, hb, hp, hr]

/-- Active constraints of either kind, with any weight for the equalities. -/
theorem Combines.side {pb : Pb ℝ EReal} {sc : SC} (hok : scOk pb sc = true) (hf : BndFin pb sc) {w : ℝ} (hw : sc.status.isEq = false → 0 ≤ w) :
    Combines pb (fun a => w * normal pb sc a) (w * rhs pb sc) := by
  have hg := scOk_gen hok
  have hb := scOk_bnd hok
  obtain ⟨p, st⟩ := sc
  cases st <;> simp only [BndFin, Status.isEq, normal, rhs] at hf hw hg hb ⊢
  all_goals first | exact hf.elim | skip
  case lower =>
    obtain ⟨r, hr⟩ := hf
    rw [hr, EReal.toReal_coe]
    exact .lowerSide (hg (by simp)) hr (hw trivial)
  case upper =>
    obtain ⟨r, hr⟩ := hf
    rw [hr, EReal.toReal_coe]
    exact .upperSide (hg (by simp)) hr (hw trivial)
  case equality =>
    obtain ⟨r, hr, hr'⟩ := hf
    rw [hr, EReal.toReal_coe]
    rcases le_total 0 w with h | h
    · exact .lowerSide (hg (by simp)) hr h
    · exact (Combines.upperSide (hg (by simp)) hr' (neg_nonneg.2 h)).congr (fun a _ => by ring) (by ring)
  case lowerBound =>
    obtain ⟨r, hr⟩ := hf
    obtain ⟨h1, h2, h3⟩ := hb (by simp)
    rw [hr, EReal.toReal_coe]
    exact .lowerBound h1 h3 hr (hw trivial)
  case upperBound =>
    obtain ⟨r, hr⟩ := hf
    obtain ⟨h1, h2, h3⟩ := hb (by simp)
    rw [hr, EReal.toReal_coe]
    exact .upperBound h1 h3 hr (hw trivial)
  case fixed =>
    obtain ⟨r, hr, hr'⟩ := hf
    obtain ⟨h1, h2, h3⟩ := hb (by simp)
    rw [hr, EReal.toReal_coe]
    rcases le_total 0 w with h | h
    · exact .lowerBound h1 h3 hr h
    · exact (Combines.upperBound h1 h3 hr' (neg_nonneg.2 h)).congr (fun a _ => by split <;> ring) (by ring)

theorem Combines.sum {pb : Pb ℝ EReal} {act : Nat → SC} {w : Nat → ℝ} {q : Nat} (h : ∀ k < q, scOk pb (act k) = true ∧ BndFin pb (act k) ∧
    ((act k).status.isEq = false → 0 ≤ w k)) :
    Combines pb (fun a => ∑ k ∈ range q, w k * normal pb (act k) a) (∑ k ∈ range q, w k * rhs pb (act k)) := by
  induction q with
  | zero => simpa using Combines.zero pb
  | succ q ih =>
    simp only [sum_range_succ]
    obtain ⟨h1, h2, h3⟩ := h q (Nat.lt_succ_self q)
    exact (ih fun k hk => h k (Nat.lt_succ_of_lt hk)).add (.side h1 h2 h3)

/-- The iteration that answers `INFEASIBLE` has found a contradictory combination. -/
theorem stepR_contradictory {o : Opts ℝ} {pb : Pb ℝ EReal} {e : Nat} {s0 : State ℝ} {sc : SC} (h : LoopInv pb s0 sc true)
    (hD : DInv pb e s0 sc true) {t s'} (hr : StepR o pb (computeStep pb s0 sc) sc (.done t s')) : Contradictory pb := by
  have hcand := h.cand rfl
  have hg := h.alg.good
  have hsc := Cand.scOk (pb := pb) hcand.pre hg.dim.nbCstr hg.dim.nbBnd
  have hfacts := computeStep_facts (sc := sc) hg.dim.nbVar (by rw [← hg.dim.nbVar]; exact hg.q_le) h.alg.fac hsc
  have halg : Alg pb (computeStep pb s0 sc) (fun a => (computeStep pb s0 sc).u (computeStep pb s0 sc).A.q * normal pb sc a) :=
    (h.alg.step (sc := sc)).congr (by intro a _; simp [computeStep])
  have hfin1 : ∀ k < (computeStep pb s0 sc).A.q, BndFin pb ((computeStep pb s0 sc).A.act k) := h.fin
  have hfc := h.finc rfl
  have hD1 : DInv pb e (computeStep pb s0 sc) sc true := ⟨hD.pre, hD.pos, hD.cpos, hD.viol⟩
  generalize computeStep pb s0 sc = s at *
  clear hD h hg hcand
  have hw := halg.good.dim.wf
  have hel := hD1.pre.elig
  cases hr with
  | infeasible hz hr =>
    have hsp : ∀ a < pb.n, normal pb sc a = ∑ k ∈ range s'.A.q, s'.r k * normal pb (s'.A.act k) a := by
      intro a ha
      have := hfacts.split a ha
      rw [sum_eq_zero (s := range pb.n) (fun b hb => by rw [hz b (mem_range.1 hb), mul_zero]), add_zero] at this
      rw [this]
    have hx : ndot pb sc s'.x = ∑ k ∈ range s'.A.q, s'.r k * rhs pb (s'.A.act k) := by
      unfold ndot
      rw [sum_congr rfl fun a ha => by rw [hsp a (mem_range.1 ha), Finset.sum_mul], sum_comm]
      refine sum_congr rfl fun k hk => ?_
      have ht := halg.tight k (mem_range.1 hk)
      unfold ndot at ht
      rw [← ht, Finset.mul_sum]
      exact sum_congr rfl fun a _ => by ring
    have c1 : Combines pb (fun a => ∑ k ∈ range s'.A.q, -s'.r k * normal pb (s'.A.act k) a) (∑ k ∈ range s'.A.q, -s'.r k * rhs pb (s'.A.act k)) := by
      refine .sum fun k hk => ⟨halg.scOk hk, hfin1 k hk, fun hs => ?_⟩
      have hke : e ≤ k := by
        by_contra hc
        have := (hD1.pre.act hw hk).2 (by omega)
        rw [hs] at this; cases this
      have := hr k hk ((hel k).2 hke)
      linarith
    have c2 : Combines pb (fun a => 1 * normal pb sc a) (1 * rhs pb sc) := .side hsc hfc fun _ => zero_le_one
    obtain ⟨wl, wu, vl, vu, hc⟩ := (c1.add c2).congr (g' := fun _ => 0) (b' := rhs pb sc - ndot pb sc s'.x)
      (fun a ha => by
        show _ + 1 * normal pb sc a = 0
        rw [hsp a ha, one_mul, ← sum_add_distrib]
        exact sum_eq_zero fun k _ => by ring)
      (by rw [hx, one_mul, sub_eq_add_neg, ← sum_neg_distrib, add_comm]; congr 1; exact sum_congr rfl fun k _ => by ring)
    exact ⟨_, wl, wu, vl, vu, sub_pos.2 (hD1.viol rfl), hc⟩

theorem loop_contradictory {o : Opts ℝ} {pb : Pb ℝ EReal} (hp : Proper pb) (hx : NotCrossed pb) (ht0 : 0 ≤ o.tiny) {e fuel : Nat}
    {s : State ℝ} {sc : SC} {skip : Bool} (h : LoopInv pb s sc skip) (hD : DInv pb e s sc skip)
    (hr : RegLoop o pb fuel s sc skip) {t s'}
    (hl : loop o pb fuel s sc skip = .ok (t, s')) : t = .infeasible → Contradictory pb := by
  refine loop_induction (P := fun s1 sc skip => LoopInv pb s1 sc skip ∧ DInv pb e s1 sc skip)
    (Q := fun t _ => t = .infeasible → Contradictory pb) ?_ ?_ ?_ fuel ⟨h, hD⟩ hr hl
  · rintro s1 sc skip t s' ⟨h, hD⟩ hreg hi ht
    rcases iterate_exact hp hx ht0 h hreg hi with ⟨h1, _⟩ | ⟨s2, sc1, he, hst⟩
    · cases h1; cases ht
    · obtain ⟨hi, _⟩ := enter_inv hp hx h he
      obtain ⟨hd, _, _⟩ := enter_dual hp hx h hD he
      exact stepR_contradictory hi hd hst
  · rintro s1 sc skip s' sc' skip' ⟨h, hD⟩ hreg hi
    rcases iterate_dual hp hx ht0 h hD hreg hi with ⟨h1, _⟩ | ⟨sc1, h1, h2⟩
    · cases h1
    · obtain ⟨a1, a2, _⟩ := h1
      obtain ⟨b1, b2⟩ := h2
      refine ⟨?_, a1.setIt _⟩
      rw [b1]; exact b2.setIt _
  · rintro s1 sc skip _ h
    cases h

theorem solve_contradictory {o : Opts ℝ} {pb : Pb ℝ EReal} (hp : Proper pb) (hx : NotCrossed pb) {s : State ℝ} (hi : Inv s)
    {e : Nat} (he : EqFirst pb e) (hr : RegSolve o pb s) {s'} (h : solve o pb s = .ok (.infeasible, s')) : Contradictory pb := by
  have hd : Dim pb (solveStart o pb s) := start_dim hi
  rcases solve_cases h with ⟨t1, h1, h2, h3⟩ | ⟨s1, h1, h2⟩
  · rcases init_nonpos hd h2 with ⟨a, _⟩ | ⟨a, _⟩
    · exact absurd a h1
    · rw [a] at h3; cases h3
  · have hc : cholOk pb := by
      rcases init_nonpos hd h1 with ⟨_, a⟩ | ⟨a, _⟩
      · exact a
      · cases a
    obtain ⟨g2, g3⟩ := init_both hp hr.tiny hd hc hr.init he h1
    exact loop_contradictory hp hx hr.tiny g2 g3 (hr.loop s1 h1) h2 rfl

/-- **C104, theorem of the alternative.** A problem in the scope of the solver either has a feasible point or contradictory constraints, never both:
the solver finds the contradiction. -/
theorem C104_alternative {pb : Pb ℝ EReal} (h : StdPb pb) : (¬ ∃ y, Feasible pb y) ↔ Contradictory pb := by
  refine ⟨fun hno => ?_, Contradictory.infeasible⟩
  obtain ⟨e, he⟩ := h.eqFirst
  have hc : cholOk pb := (cholOk_iff pb).2 h.posDef
  obtain ⟨ε, hε, β, hev⟩ := ev_regSolve (dbg := false) h.proper h.notCrossed hc he h.indep (inv_empty (K := ℝ))
  obtain ⟨ε', hε', β', hh⟩ := C18_exact_solver_partial h.proper h.notCrossed h.posDef he h.indep
  obtain ⟨o, ho⟩ : ∃ o : Opts ℝ, o = ⟨(pb.n + 1) * (7 ^ (pb.m + pb.nb) + 1), max β β' + 1, false, 0, false⟩ := ⟨_, rfl⟩
  have e1 : o.tiny = 0 := by rw [ho]
  have e2 : o.bigBnd = max β β' + 1 := by rw [ho]
  have b1 := le_max_left β β'
  have b2 := le_max_right β β'
  obtain ⟨s, t, s', g1, g2, _, g3⟩ := hh o e1.ge (by rw [e1]; exact hε') (by rw [e2]; linarith) (by rw [ho]) [] (by simp)
  have hs : s = State.empty := by
    simp only [calls, Except.ok.injEq] at g1
    exact g1.symm
  rw [g3 hno, hs] at g2
  exact solve_contradictory h.proper h.notCrossed inv_empty he
    (hev o (by rw [ho]) e1.ge (by rw [e1]; exact hε) (by rw [e2]; linarith) (by rw [ho])) g2

/-- **C104.** With small thresholds and enough iterations, after any history, `solve` returns `INFEASIBLE` exactly when the constraints are
contradictory: each answer has a certificate, a feasible point or a combination of the constraints. -/
theorem C104_infeasible_iff {pb : Pb ℝ EReal} (h : StdPb pb) :
    ∃ ε > 0, ∃ β : ℝ, ∀ o, Fine ε β pb o → ∀ t s, Solves o pb t s → (t = .infeasible ↔ Contradictory pb) ∧ (t = .success ↔ Feasible pb s.x) := by
  obtain ⟨ε, hε, β, hh⟩ := h.answers
  refine ⟨ε, hε, β, fun o ho t s hs => ?_⟩
  have a := hh o ho t s hs
  rw [← C104_alternative h]
  refine ⟨⟨a.infeasible, fun hno => ?_⟩, fun ht => (a.optimal ht).1.1, fun hf => a.feasible_iff.2 ⟨_, hf⟩⟩
  rcases a.status with g | g
  · exact absurd (a.feasible_iff.1 g) hno
  · exact g

/-- **C104, warm start.** The same for warm-started solves. -/
theorem C104_warm {pb : Pb ℝ EReal} (h : StdPb pb) {warm : Bool} {as : List Status} (ha : GoodWarm warm pb as) :
    ∃ ε > 0, ∃ β : ℝ, ∀ o, WFine ε β warm pb o → ∀ t s, WarmSolves o pb as t s →
      (t = .infeasible ↔ Contradictory pb) ∧ (t = .success ↔ Feasible pb s.x) := by
  obtain ⟨ε, hε, β, hh⟩ := warm_answers h ha
  refine ⟨ε, hε, β, fun o ho t s hs => ?_⟩
  rw [← C104_alternative h]
  rcases hh o ho t s hs with ⟨rfl, a⟩ | ⟨rfl, hno⟩
  · exact ⟨⟨fun g => (nomatch g), fun hno => absurd ⟨_, (a.optimal rfl).1.1⟩ hno⟩, fun _ => (a.optimal rfl).1.1, fun _ => rfl⟩
  · exact ⟨⟨fun _ => hno, fun _ => rfl⟩, fun g => (nomatch g), fun hf => absurd ⟨_, hf⟩ hno⟩

/-- The hypotheses of C104 are met on both sides: a problem with contradictory constraints and a warm start with an active constraint, and a problem
with a feasible point and a warm start. -/
theorem C104_hypotheses_met : StdPb exPbI ∧ GoodWarm true exPbI [.lower, .inactive] ∧ Contradictory exPbI ∧
    StdPb exPbW ∧ GoodWarm true exPbW exAs ∧ ¬ Contradictory exPbW := by
  obtain ⟨h1, h2, h3, h4, h5, h6, h7⟩ := exPbI_hyps ⟨0, 0, true, 0, false⟩ rfl
  obtain ⟨w1, w2, w3, -⟩ := C98_hypotheses_met
  have hne : ∀ i < exPbI.m + exPbI.nb, isEqB exPbI i = false := by
    intro i hi
    have hi : i < exPbI.m := hi
    unfold isEqB
    rw [if_pos hi]
    refine decide_eq_false ?_
    show ¬ (exPbI.bl i = (⊤ : EReal))
    simp only [exPbI]; split_ifs <;> exact EReal.coe_ne_top _
  have hn : ∀ e, EqFirst exPbI e → e = 0 := by
    intro e he
    by_contra hc
    have h := he.2 0 (by simp [exPbI])
    rw [hne 0 (by simp [exPbI])] at h
    simp at h
    omega
  have hs : StdPb exPbI := by
    refine ⟨h1, h2, (cholOk_iff exPbI).1 h3, ⟨0, h4⟩, ?_⟩
    intro c hc h i
    refine hc i fun hh => ?_
    have h9 := hne i hh.1
    have h10 : isEqB exPbI i = true := (isEqC_iff (pb := exPbI) (i := i)).2 hh.2
    rw [h9] at h10
    cases h10
  refine ⟨hs, ⟨fun _ => by simp, ⟨h5.len, Or.inl rfl, h5.kind.1, h5.kind.2⟩, h6, ?_, h7⟩, ?_, w1, w2, fun h => h.infeasible w3⟩
  · intro e he; rw [hn e he]; exact Or.inl rfl
  · refine ⟨3, fun _ => 1, fun _ => 0, fun _ => 0, fun _ => 0, by norm_num, fun _ => by simp, ?_, by simp, by simp, by simp, ?_, ?_⟩
    · intro i _ _
      simp only [exPbI]
      split_ifs <;> exact ⟨_, rfl⟩
    · intro a _
      simp [exPbI, sum_range_succ]
    · simp [exPbI, sum_range_succ]

end JrlQp
