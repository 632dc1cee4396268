import Verif.ExecFrame

/-!
# The threshold on the direction can make the iterations cycle (C18)
-/

namespace JrlQp

open NumOps Finset Spec

/-- The five normals: entry `a` of the normal of constraint `i`. -/
def cycC : Nat → Nat → ℝ
  | 0, 0 => 1 | 0, 1 => -3 | 0, 2 => 2
  | 1, 2 => 4
  | 2, 0 => -13
  | 3, 0 => 4 | 3, 1 => 1
  | 4, 0 => -24 | 4, 1 => -1 | 4, 2 => 10
  | _, _ => 0

/-- The five lower bounds. -/
def cycB : Nat → ℝ
  | 1 => 1
  | 3 => 1
  | _ => 0

/-- `min κ/2 ‖x - x₀‖²` with `x₀ = (-4, 12, -8)`, subject to `x₀ - 3x₁ + 2x₂ ≥ 0`, `4x₂ ≥ 1`, `-13x₀ ≥ 0`, `4x₀ + x₁ ≥ 1`,
`-24x₀ - x₁ + 10x₂ ≥ 0`. -/
noncomputable def cycPb (κ : ℝ) : Pb ℝ EReal :=
  ⟨3, 5, false, fun i j => if i = j then κ else 0, fun a => κ * (4 * cycC 0 a), fun a i => cycC i a,
    fun i => (cycB i : EReal), fun _ => ⊤, fun _ => 0, fun _ => 0⟩

/-- The state has active constraints `L`, all at their lower bound, point `X` and multipliers `κ U`. -/
structure At (κ : ℝ) (s : State ℝ) (L : List Nat) (X : Nat → ℝ) (U : List ℝ) : Prop where
  frame : Frame (cycPb κ) s
  q : s.A.q = L.length
  act : ∀ k < L.length, s.A.act k = ⟨L.getD k 0, .lower⟩
  st : ∀ i, s.A.statusAt i = if i ∈ L then .lower else .inactive
  x : ∀ i < 3, s.x i = X i
  u : ∀ k < U.length, s.u k = κ * U.getD k 0

theorem cyc_posDef {κ : ℝ} (hκ : 0 < κ) : PosDefN (cycPb κ).n (hess (cycPb κ)) := by
  rintro v ⟨i, hi, hv⟩
  have e : ∀ a ∈ range 3, ∑ b ∈ range 3, v a * hess (cycPb κ) a b * v b = κ * (v a * v a) := by
    intro a ha
    have : a < 3 := mem_range.1 ha
    interval_cases a <;> simp [sum_range_succ, hess, symLow, cycPb] <;> ring
  show 0 < ∑ a ∈ range 3, ∑ b ∈ range 3, _
  rw [sum_congr rfl e]
  exact sum_pos' (fun a _ => mul_nonneg hκ.le (mul_self_nonneg _)) ⟨i, mem_range.2 hi, mul_pos hκ (mul_self_pos.2 hv)⟩

theorem cyc_normal (κ : ℝ) (p a : Nat) : normal (cycPb κ) ⟨p, .lower⟩ a = cycC p a := rfl
theorem cyc_rhs (κ : ℝ) (p : Nat) : rhs (cycPb κ) ⟨p, .lower⟩ = cycB p := rfl
theorem cyc_hess {κ : ℝ} (v : Nat → ℝ) (a : Nat) (ha : a < 3) : ∑ b ∈ range (cycPb κ).n, hess (cycPb κ) a b * v b = κ * v a := by
  show ∑ b ∈ range 3, _ = _
  interval_cases a <;> simp [sum_range_succ, hess, symLow, cycPb]

theorem At.cand {κ : ℝ} {s : State ℝ} {L X U} (h : At κ s L X U) {p : Nat} (hp : p < 5) (hL : p ∉ L) :
    Cand s.A ⟨p, .lower⟩ := by
  have h1 : s.A.nbCstr = 5 := h.frame.good.dim.nbCstr
  refine ⟨?_, rfl⟩
  rw [ActiveSet.activatePre_iff]
  have := h.st p
  rw [if_neg hL] at this
  have h2 : s.A.nbBnd = 0 := h.frame.good.dim.nbBnd
  simp only [this, h1, h2, hp]
  exact ⟨by simpa using hp, trivial, by simp, Or.inl ⟨trivial, rfl⟩⟩

theorem At.elig {κ : ℝ} {s : State ℝ} {L X U} (h : At κ s L X U) (k : Nat) : elig s.A k := by
  constructor <;> (rw [h.st k]; split_ifs <;> simp)

theorem At.data {κ : ℝ} (hκ : 0 < κ) {s : State ℝ} {L X U} (h : At κ s L X U) {p : Nat} {z r : Nat → ℝ}
    (hs : ∀ a < 3, cycC p a = ∑ k ∈ range L.length, r k * cycC (L.getD k 0) a + z a)
    (ho : ∀ k < L.length, ∑ a ∈ range 3, cycC (L.getD k 0) a * z a = 0) :
    StepData (cycPb κ) s ⟨p, .lower⟩ (fun a => z a / κ) r := by
  constructor
  · intro a ha
    rw [cyc_hess _ a ha, h.q, cyc_normal, hs a ha]
    congr 1
    · apply sum_congr rfl
      intro k hk
      rw [h.act k (mem_range.1 hk), cyc_normal]
    · rw [mul_div_cancel₀ _ hκ.ne']
  · intro k hk
    rw [h.q] at hk
    rw [h.act k hk]
    show ∑ a ∈ range 3, cycC (L.getD k 0) a * (z a / κ) = 0
    simp only [← mul_div_assoc, ← sum_div]
    rw [ho k hk, zero_div]

/-- A full step from a known state. -/
theorem At.full {o : Opts ℝ} (ht0 : 0 ≤ o.tiny) {κ : ℝ} (hκ : 0 < κ) {s : State ℝ} {L X U} (h : At κ s L X U)
    {p : Nat} (hp : p < 5) (hL : p ∉ L) (hU : U.length = L.length + 1) (z r : Nat → ℝ) (t : ℝ)
    (hs : ∀ a < 3, cycC p a = ∑ k ∈ range L.length, r k * cycC (L.getD k 0) a + z a)
    (ho : ∀ k < L.length, ∑ a ∈ range 3, cycC (L.getD k 0) a * z a = 0)
    (ht : cycB p - ∑ a ∈ range 3, cycC p a * X a = t * ∑ a ∈ range 3, cycC p a * z a)
    (hz : (o.tiny * κ) * (o.tiny * κ) < ∑ a ∈ range 3, z a * z a) (htb : κ * t < o.bigBnd)
    (hr : ∀ k < L.length, 0 < r k → t * r k ≤ U.getD k 0)
    {L' : List Nat} {X' : Nat → ℝ} {U' : List ℝ} (hL' : L' = L ++ [p]) (hX' : ∀ i < 3, X' i = X i + t * z i)
    (hU' : U'.length = L.length + 1) (hUk : ∀ k < L.length, U'.getD k 0 = U.getD k 0 - t * r k)
    (hUq : U'.getD L.length 0 = U.getD L.length 0 + t) :
    ∃ s', iterBody o (cycPb κ) s ⟨p, .lower⟩ = .ok (.cont s' ⟨p, .lower⟩ false) ∧ At κ s' L' X' U' := by
  have hc := h.cand hp hL
  have hx : ∀ v : Nat → ℝ, ndot (cycPb κ) ⟨p, .lower⟩ v = ∑ a ∈ range 3, cycC p a * v a := fun _ => rfl
  have hsx : ∑ a ∈ range 3, cycC p a * s.x a = ∑ a ∈ range 3, cycC p a * X a :=
    sum_congr rfl fun a ha => by rw [h.x a (mem_range.1 ha)]
  obtain ⟨s', g1, g2, g3, g4, g5, g6⟩ := frame_full (fpLaws_real o ht0) ht0 (cyc_posDef hκ) h.frame hc (h.data hκ hs ho) (t := κ * t)
    (by
      rw [cyc_rhs, hx, hx, hsx, ht]
      simp only [← mul_div_assoc, ← sum_div]
      field_simp)
    (lt_normn ht0 (by
      show _ < ∑ a ∈ range 3, z a / κ * (z a / κ)
      simp only [div_mul_div_comm, ← sum_div]
      rw [lt_div_iff₀ (mul_pos hκ hκ)]
      linarith)) htb (by
      intro k hk _ hrk
      rw [h.q] at hk
      rw [h.u k (by omega), le_div_iff₀ hrk, mul_assoc]
      exact mul_le_mul_of_nonneg_left (hr k hk hrk) hκ.le)
  refine ⟨s', g1, g2, ?_, ?_, ?_, ?_, ?_⟩
  · rw [g3, h.frame.good.dim.wf.q_activate hc.pre, h.q, hL']; simp
  · obtain ⟨a1, a2⟩ := act_activate h.frame.good.dim.wf hc.pre
    intro k hk
    rw [hL', List.length_append, List.length_singleton] at hk
    rw [g3]
    by_cases hkq : k < L.length
    · rw [a1 k (by rw [h.q]; exact hkq), h.act k hkq, hL', List.getD_append _ _ _ _ hkq]
    · have : k = L.length := by omega
      subst this
      rw [← h.q, a2, h.q, hL']
      simp
  · intro i
    have hp' := (ActiveSet.activatePre_iff _ _ _).1 hc.pre
    rw [g3, ActiveSet.activate_statusAt _ _ _ _ (by rw [h.frame.good.dim.wf.size]; exact hp'.1), h.st i, hL']
    simp only [List.mem_append, List.mem_singleton]
    by_cases h1 : i = p
    · simp [h1]
    · simp [h1]
  · intro i hi
    rw [g4 i hi, h.x i hi, hX' i hi]
    field_simp
  · intro k hk
    rw [hU'] at hk
    by_cases hkq : k < L.length
    · rw [g5 k (by rw [h.q]; exact hkq), h.u k (by omega), hUk k hkq]; ring
    · have : k = L.length := by omega
      subst this
      rw [hUq, ← h.q, g6, h.u _ (by rw [hU, h.q]; omega)]; ring

/-- A neglected direction at a known state. -/
theorem At.drop {o : Opts ℝ} (ht0 : 0 ≤ o.tiny) {κ : ℝ} (hκ : 0 < κ) {s : State ℝ} {L X U} (h : At κ s L X U)
    {p : Nat} (hp : p < 5) (hL : p ∉ L) (hU : U.length = L.length + 1) (z r : Nat → ℝ) (t : ℝ)
    (hs : ∀ a < 3, cycC p a = ∑ k ∈ range L.length, r k * cycC (L.getD k 0) a + z a)
    (ho : ∀ k < L.length, ∑ a ∈ range 3, cycC (L.getD k 0) a * z a = 0)
    (hz : ∑ a ∈ range 3, z a * z a ≤ (o.tiny * κ) * (o.tiny * κ)) {l : Nat} (hl : l < L.length) (hrl : 0 < r l)
    (ht : U.getD l 0 = t * r l) (htb : κ * t < o.bigBnd)
    (hr : ∀ k < L.length, 0 < r k → k = l ∨ t * r k < U.getD k 0)
    {L' : List Nat} {U' : List ℝ} (hL' : L' = L.eraseIdx l) (hnd : L.Nodup)
    (hU' : U'.length = L.length) (hUk : ∀ k < L.length - 1, U'.getD k 0 = U.getD (if k < l then k else k + 1) 0 - t * r (if k < l then k else k + 1))
    (hUq : U'.getD (L.length - 1) 0 = U.getD L.length 0 + t) :
    ∃ s', iterBody o (cycPb κ) s ⟨p, .lower⟩ = .ok (.cont s' ⟨p, .lower⟩ true) ∧ At κ s' L' X U' := by
  have hc := h.cand hp hL
  have htl : s.u l / r l = κ * t := by rw [h.u l (by omega), ht, ← mul_assoc, mul_div_assoc, div_self hrl.ne', mul_one]
  obtain ⟨s', g1, g2, g3, g4, g5, g6, g7⟩ := frame_drop (fpLaws_real o ht0) (cyc_posDef hκ) h.frame hc (h.data hκ hs ho)
    (by
      unfold normn
      rw [dotn_eq, sqrt_real]
      apply Real.sqrt_le_iff.2 ⟨ht0, ?_⟩
      show ∑ a ∈ range 3, z a / κ * (z a / κ) ≤ _
      simp only [div_mul_div_comm, ← sum_div]
      rw [div_le_iff₀ (mul_pos hκ hκ)]
      linarith) (l := l) (by rw [h.q]; exact hl) (h.elig l) hrl (by rw [htl]; exact htb) (by
      intro k hk _ hrk
      rw [h.q] at hk
      refine (hr k hk hrk).imp id fun h1 => ?_
      rw [htl, h.u k (by omega), lt_div_iff₀ hrk, mul_assoc]
      exact mul_lt_mul_of_pos_left h1 hκ)
  rw [h.q] at g6 g7
  have hw := h.frame.good.dim.wf
  have hq' : s'.A.q = L.length - 1 := by
    rw [g3, hw.q_deactivate (by have := hw.q_eq; have := h.q; simp [ActiveSet.deactivatePre]; omega), h.q]
  have hlen : L'.length = L.length - 1 := by rw [hL', List.length_eraseIdx, if_pos hl]
  refine ⟨s', g1, g2, ?_, ?_, ?_, ?_, ?_⟩
  · rw [hq', hlen]
  · intro k hk
    rw [g3, act_deactivate hw (by rw [h.q]; exact hl) k (by rw [h.q]; omega), h.act _ (by split_ifs <;> omega), hL']
    congr 1
    simp only [List.getD_eq_getElem?_getD, List.getElem?_eraseIdx]
    split_ifs <;> rfl
  · intro i
    have hlq : l < s.A.q := by rw [h.q]; exact hl
    rw [g3, ActiveSet.deactivate_statusAt _ hw _ _ (by rw [← hw.q_eq]; exact hlq), h.st i]
    have e : s.A.get l = L.getD l 0 := congrArg SC.p (h.act l hl)
    rw [e, hL', List.getD_eq_getElem _ _ hl]
    have hm : i ∈ L.eraseIdx l ↔ i ∈ L ∧ i ≠ L[l] := by
      rw [List.mem_eraseIdx_iff_getElem]
      constructor
      · rintro ⟨j, hj, hne, rfl⟩
        exact ⟨List.getElem_mem _, fun h1 => hne ((hnd.getElem_inj_iff).1 h1)⟩
      · rintro ⟨h1, h2⟩
        obtain ⟨j, hj, rfl⟩ := List.getElem_of_mem h1
        exact ⟨j, hj, fun h3 => h2 (by subst h3; rfl), rfl⟩
    by_cases h1 : i = L[l]
    · rw [if_pos h1, if_neg (by rw [hm]; simp [h1])]
    · rw [if_neg h1]; simp [h1, hm]
  · rw [g5]; exact h.x
  · intro k hk
    rw [hU'] at hk
    by_cases hkq : k < L.length - 1
    · rw [g6 k hkq, htl, h.u _ (by split_ifs <;> omega), hUk k hkq]; ring
    · have : k = L.length - 1 := by omega
      subst this
      rw [g7, htl, hUq, h.u _ (by omega)]; ring

/-- Selection among five general constraints. -/
theorem select_five {pb : Pb ℝ EReal} {A : ActiveSet} (hm : A.nbCstr = 5) (hb : A.nbBnd = 0) (n : Nat) (x : Nat → ℝ) :
    select pb n A x = (selGen pb n A x (selGen pb n A x (selGen pb n A x (selGen pb n A x (selGen pb n A x
      ⟨bZero ℝ, ⟨0, .inactive⟩⟩ 0) 1) 2) 3) 4).sc := by
  simp only [select, hm, hb, List.range_succ, List.range_zero, List.nil_append, List.foldl_cons, List.foldl_nil, List.cons_append]

theorem At.sel_in {κ : ℝ} {s : State ℝ} {L X U} (h : At κ s L X U) {i : Nat} (hi : i ∈ L) (acc : Sel EReal) :
    selGen (cycPb κ) (cycPb κ).n s.A s.x acc i = acc :=
  selGen_active (by rw [h.st i, if_pos hi]; simp) _ _ _

theorem At.row {κ : ℝ} {s : State ℝ} {L X U} (h : At κ s L X U) (i : Nat) :
    row (cycPb κ) s.x i = ∑ a ∈ range 3, cycC i a * X a := by
  show ∑ a ∈ range 3, _ = _
  apply sum_congr rfl
  intro a ha
  rw [h.x a (mem_range.1 ha)]
  rfl

theorem At.sel_lt {κ : ℝ} {s : State ℝ} {L X U} (h : At κ s L X U) {i : Nat} (hi : i ∉ L) {q : SC} (a d : ℝ)
    (hd : ∑ a ∈ range 3, cycC i a * X a - cycB i = d) (hlt : d < a) :
    selGen (cycPb κ) (cycPb κ).n s.A s.x ⟨(a : EReal), q⟩ i = ⟨(d : EReal), ⟨i, .lower⟩⟩ := by
  subst hd
  exact selGen_lower (by rw [h.st i, if_neg hi]) s.x ⟨(a : EReal), q⟩ (h.row i) rfl rfl hlt

theorem At.sel_ge {κ : ℝ} {s : State ℝ} {L X U} (h : At κ s L X U) {i : Nat} (hi : i ∉ L) {q : SC} (a : ℝ)
    (hle : a ≤ ∑ a ∈ range 3, cycC i a * X a - cycB i) :
    selGen (cycPb κ) (cycPb κ).n s.A s.x ⟨(a : EReal), q⟩ i = ⟨(a : EReal), q⟩ :=
  selGen_none (by rw [h.st i, if_neg hi]) s.x ⟨(a : EReal), q⟩ (h.row i) rfl rfl rfl hle

theorem At.setIt {κ : ℝ} {s : State ℝ} {L X U} (h : At κ s L X U) (k : Nat) : At κ { s with it := k } L X U :=
  ⟨⟨h.frame.good.of_eq rfl rfl rfl rfl rfl rfl rfl rfl rfl, h.frame.fac⟩, h.q, h.act, h.st, h.x, h.u⟩

/-- A new selection. -/
theorem At.enter {o : Opts ℝ} {κ : ℝ} {s : State ℝ} {L X U} (h : At κ s L X U) {p : Nat} {sc0 : SC} (hU : U.length = L.length)
    (hp : p < 5) (hL : p ∉ L)
    (hsel : select (cycPb κ) (cycPb κ).n s.A s.x = ⟨p, .lower⟩) :
    ∃ s1, At κ s1 L X (U ++ [0]) ∧ ∀ {r}, iterBody o (cycPb κ) s1 ⟨p, .lower⟩ = .ok r → iterate o (cycPb κ) s sc0 false = .ok r := by
  have hg := h.frame.good
  have hc := h.cand hp hL
  have hp' := (ActiveSet.activatePre_iff _ _ _).1 hc.pre
  have hqlt := hg.dim.wf.q_lt hp'.1 hp'.2.1
  refine ⟨{ s with u := upd s.u s.A.q 0 }, ⟨⟨hg.of_eq rfl rfl rfl rfl rfl rfl rfl rfl rfl, h.frame.fac⟩, h.q, h.act, h.st, h.x, ?_⟩, ?_⟩
  · intro k hk
    rw [List.length_append, List.length_singleton] at hk
    by_cases h1 : k < U.length
    · have : k ≠ s.A.q := by rw [h.q]; omega
      rw [List.getD_append _ _ _ _ h1, ← h.u k h1]
      simp [upd, this]
    · have : k = U.length := by omega
      subst this
      simp [upd, h.q, hU]
  · intro r hr
    unfold iterate
    rw [if_neg (by simp), if_pos hg.selectOk]
    simp only []
    rw [show select (cycPb κ) s.nbVar s.A s.x = ⟨p, .lower⟩ by rw [hg.dim.nbVar]; exact hsel, if_neg (by simp), if_pos, hr]
    simp only [Bool.and_eq_true, decide_eq_true_eq]
    exact ⟨lt_of_lt_of_le hqlt hg.dim.szU, (le_of_lt hqlt).trans hg.dim.szR⟩

/-- `n` successive iterations, none of which ends the loop. -/
inductive Chain (o : Opts ℝ) (pb : Pb ℝ EReal) : Nat → State ℝ → SC → Bool → State ℝ → SC → Bool → Prop
  | nil (s sc b) : Chain o pb 0 s sc b s sc b
  | cons {n s sc b s1 sc1 b1 s2 sc2 b2} (h : iterate o pb s sc b = .ok (.cont s1 sc1 b1))
      (t : Chain o pb n { s1 with it := s1.it + 1 } sc1 b1 s2 sc2 b2) : Chain o pb (n + 1) s sc b s2 sc2 b2

theorem Chain.loop {o : Opts ℝ} {pb : Pb ℝ EReal} {n : Nat} {s sc b s' sc' b'} (h : Chain o pb n s sc b s' sc' b') (N : Nat) :
    (N ≤ n → ∃ r, loop o pb N s sc b = .ok (.maxIterReached, r)) ∧
    (n ≤ N → JrlQp.loop o pb N s sc b = JrlQp.loop o pb (N - n) s' sc' b') := by
  induction h generalizing N with
  | nil s sc b =>
    refine ⟨fun h => ?_, fun _ => rfl⟩
    obtain rfl : N = 0 := by omega
    exact ⟨s, rfl⟩
  | cons h _ ih =>
    cases N with
    | zero => exact ⟨fun _ => ⟨_, rfl⟩, fun h => by omega⟩
    | succ N =>
      rw [loop_cont h, Nat.add_sub_add_right]
      exact ⟨fun h => (ih N).1 (by omega), fun h => (ih N).2 (by omega)⟩

/-- A point of the space. -/
def v3 (a b c : ℝ) : Nat → ℝ
  | 0 => a
  | 1 => b
  | _ => c

theorem iterate_skip (o : Opts ℝ) (pb : Pb ℝ EReal) (s : State ℝ) (sc : SC) : iterate o pb s sc true = iterBody o pb s sc := by
  simp [iterate]

local macro "cyc_lin" : tactic => `(tactic| (
  intro a ha
  try simp only [List.length_cons, List.length_nil] at ha
  interval_cases a <;> norm_num [sum_range_succ, cycC, cycB, v3] <;> ring))

local macro "cyc_rat" : tactic => `(tactic| (
  intro a ha hr
  try simp only [List.length_cons, List.length_nil] at ha
  interval_cases a <;> first | (exfalso; norm_num at hr; done) | (norm_num; done) | (norm_num; linarith)))

local macro "cyc_ratd" : tactic => `(tactic| (
  intro a ha hr
  try simp only [List.length_cons, List.length_nil] at ha
  interval_cases a <;> first | (left; rfl) | (exfalso; norm_num at hr; done) | (right; norm_num; linarith)))

set_option maxHeartbeats 2000000 in
/-- Ten iterations lead back to the same active set and the same point, with larger multipliers. -/
theorem cyc_ten {o : Opts ℝ} (ht0 : 0 ≤ o.tiny) {κ : ℝ} (hκ : 0 < κ) (hT : o.tiny * κ = 93 / 25) {s : State ℝ} {V : ℝ} (hV : 2 ≤ V)
    (h : At κ s [1] (v3 0 0 (1 / 4)) [V]) (hb : κ * (11 * (V + 1)) < o.bigBnd) (sc0 : SC) :
    ∃ s', Chain o (cycPb κ) 10 s sc0 false s' ⟨1, .lower⟩ false ∧ At κ s' [1] (v3 0 0 (1 / 4)) [1357 / 116 * V + 7259 / 4640] := by
  have sel0 : select (cycPb κ) (cycPb κ).n s.A s.x = ⟨3, .lower⟩ := by
    rw [select_five h.frame.good.dim.nbCstr h.frame.good.dim.nbBnd,
      show bZero ℝ = ((0 : ℝ) : EReal) from rfl,
      h.sel_ge (i := 0) (by simp) (0) (by norm_num [sum_range_succ, cycC, cycB, v3]),
      h.sel_in (i := 1) (by simp),
      h.sel_ge (i := 2) (by simp) (0) (by norm_num [sum_range_succ, cycC, cycB, v3]),
      h.sel_lt (i := 3) (by simp) (0) (-(1)) (by norm_num [sum_range_succ, cycC, cycB, v3]) (by norm_num),
      h.sel_ge (i := 4) (by simp) (-(1)) (by norm_num [sum_range_succ, cycC, cycB, v3])]
  obtain ⟨e0, he0, hi0⟩ := h.enter (o := o) (sc0 := sc0) (p := 3) rfl (by norm_num) (by simp) sel0
  obtain ⟨s0, g0, h0⟩ := he0.full ht0 hκ (p := 3) (by norm_num) (by simp) rfl (v3 (4) (1) (0)) (fun k => [0].getD k 0) (1 / 17)
    (by cyc_lin) (by cyc_lin) (by norm_num [sum_range_succ, cycC, cycB, v3]) (by rw [hT]; norm_num [sum_range_succ, v3]) (by nlinarith) (by cyc_rat)
    (L' := [1, 3]) (X' := (v3 (4 / 17) (1 / 17) (1 / 4))) (U' := [V, 1 / 17]) rfl (by cyc_lin) rfl (by cyc_lin) (by norm_num <;> ring)
  replace h0 := h0.setIt (s0.it + 1)
  have sel1 : select (cycPb κ) (cycPb κ).n { s0 with it := s0.it + 1 }.A { s0 with it := s0.it + 1 }.x = ⟨4, .lower⟩ := by
    rw [select_five h0.frame.good.dim.nbCstr h0.frame.good.dim.nbBnd,
      show bZero ℝ = ((0 : ℝ) : EReal) from rfl,
      h0.sel_ge (i := 0) (by simp) (0) (by norm_num [sum_range_succ, cycC, cycB, v3]),
      h0.sel_in (i := 1) (by simp),
      h0.sel_lt (i := 2) (by simp) (0) (-(52 / 17)) (by norm_num [sum_range_succ, cycC, cycB, v3]) (by norm_num),
      h0.sel_in (i := 3) (by simp),
      h0.sel_lt (i := 4) (by simp) (-(52 / 17)) (-(109 / 34)) (by norm_num [sum_range_succ, cycC, cycB, v3]) (by norm_num)]
  obtain ⟨e1, he1, hi1⟩ := h0.enter (o := o) (sc0 := ⟨3, .lower⟩) (p := 4) rfl (by norm_num) (by simp) sel1
  obtain ⟨s1, g1, h1⟩ := he1.full ht0 hκ (p := 4) (by norm_num) (by simp) rfl (v3 (-(20 / 17)) (80 / 17) (0)) (fun k => [5 / 2, -(97 / 17)].getD k 0) (109 / 800)
    (by cyc_lin) (by cyc_lin) (by norm_num [sum_range_succ, cycC, cycB, v3]) (by rw [hT]; norm_num [sum_range_succ, v3]) (by nlinarith) (by cyc_rat)
    (L' := [1, 3, 4]) (X' := (v3 (3 / 40) (7 / 10) (1 / 4))) (U' := [V - 109 / 320, 669 / 800, 109 / 800]) rfl (by cyc_lin) rfl (by cyc_lin) (by norm_num <;> ring)
  replace h1 := h1.setIt (s1.it + 1)
  have sel2 : select (cycPb κ) (cycPb κ).n { s1 with it := s1.it + 1 }.A { s1 with it := s1.it + 1 }.x = ⟨0, .lower⟩ := by
    rw [select_five h1.frame.good.dim.nbCstr h1.frame.good.dim.nbBnd,
      show bZero ℝ = ((0 : ℝ) : EReal) from rfl,
      h1.sel_lt (i := 0) (by simp) (0) (-(61 / 40)) (by norm_num [sum_range_succ, cycC, cycB, v3]) (by norm_num),
      h1.sel_in (i := 1) (by simp),
      h1.sel_ge (i := 2) (by simp) (-(61 / 40)) (by norm_num [sum_range_succ, cycC, cycB, v3]),
      h1.sel_in (i := 3) (by simp),
      h1.sel_in (i := 4) (by simp)]
  obtain ⟨e2, he2, hi2⟩ := h1.enter (o := o) (sc0 := ⟨4, .lower⟩) (p := 0) rfl (by norm_num) (by simp) sel2
  obtain ⟨s2, g2, h2⟩ := he2.drop ht0 hκ (p := 0) (by norm_num) (by simp) rfl (v3 (0) (0) (0)) (fun k => [17 / 8, -(73 / 20), -(13 / 20)].getD k 0) (8 / 17 * V - 109 / 680)
    (by cyc_lin) (by cyc_lin) (by rw [hT]; norm_num [sum_range_succ, v3]) (l := 0) (by norm_num) (by norm_num) (by norm_num <;> ring) (by nlinarith) (by cyc_ratd)
    (L' := [3, 4]) (U' := [146 / 85 * V + 427 / 1700, 26 / 85 * V + 109 / 3400, 8 / 17 * V - 109 / 680]) rfl (by decide) rfl (by cyc_lin) (by norm_num <;> ring)
  replace h2 := h2.setIt (s2.it + 1)
  obtain ⟨s3, g3, h3⟩ := h2.drop ht0 hκ (p := 0) (by norm_num) (by simp) rfl (v3 (17 / 21) (-(68 / 21)) (34 / 21)) (fun k => [29 / 105, 4 / 105].getD k 0) (3066 / 493 * V + 8967 / 9860)
    (by cyc_lin) (by cyc_lin) (by rw [hT]; norm_num [sum_range_succ, v3]) (l := 0) (by norm_num) (by norm_num) (by norm_num <;> ring) (by nlinarith) (by cyc_ratd)
    (L' := [4]) (U' := [2 / 29 * V - 3 / 1160, 194 / 29 * V + 869 / 1160]) rfl (by decide) rfl (by cyc_lin) (by norm_num <;> ring)
  replace h3 := h3.setIt (s3.it + 1)
  obtain ⟨s4, g4, h4⟩ := h3.full ht0 hκ (p := 0) (by norm_num) (by simp) rfl (v3 (653 / 677) (-(2032 / 677)) (1364 / 677)) (fun k => [-(1 / 677)].getD k 0) (41297 / 379080)
    (by cyc_lin) (by cyc_lin) (by norm_num [sum_range_succ, cycC, cycB, v3]) (by rw [hT]; norm_num [sum_range_succ, v3]) (by nlinarith) (by cyc_rat)
    (L' := [4, 0]) (X' := (v3 (8533 / 47385) (35351 / 94770) (88987 / 189540))) (U' := [2 / 29 * V - 13331 / 5496660, 194 / 29 * V + 4716563 / 5496660]) rfl (by cyc_lin) rfl (by cyc_lin) (by norm_num <;> ring)
  replace h4 := h4.setIt (s4.it + 1)
  have sel5 : select (cycPb κ) (cycPb κ).n { s4 with it := s4.it + 1 }.A { s4 with it := s4.it + 1 }.x = ⟨2, .lower⟩ := by
    rw [select_five h4.frame.good.dim.nbCstr h4.frame.good.dim.nbBnd,
      show bZero ℝ = ((0 : ℝ) : EReal) from rfl,
      h4.sel_in (i := 0) (by simp),
      h4.sel_ge (i := 1) (by simp) (0) (by norm_num [sum_range_succ, cycC, cycB, v3]),
      h4.sel_lt (i := 2) (by simp) (0) (-(8533 / 3645)) (by norm_num [sum_range_succ, cycC, cycB, v3]) (by norm_num),
      h4.sel_ge (i := 3) (by simp) (-(8533 / 3645)) (by norm_num [sum_range_succ, cycC, cycB, v3]),
      h4.sel_in (i := 4) (by simp)]
  obtain ⟨e5, he5, hi5⟩ := h4.enter (o := o) (sc0 := ⟨0, .lower⟩) (p := 2) rfl (by norm_num) (by simp) sel5
  obtain ⟨s5, g5, h5⟩ := he5.full ht0 hκ (p := 2) (by norm_num) (by simp) rfl (v3 (-(784 / 729)) (-(1624 / 729)) (-(2044 / 729))) (fun k => [335 / 729, -(653 / 729)].getD k 0) (1219 / 7280)
    (by cyc_lin) (by cyc_lin) (by norm_num [sum_range_succ, cycC, cycB, v3]) (by rw [hT]; norm_num [sum_range_succ, v3]) (by nlinarith) (by cyc_rat)
    (L' := [4, 0, 2]) (X' := (v3 (0) (0) (0))) (U' := [2 / 29 * V - 1289 / 16240, 194 / 29 * V + 16371 / 16240, 1219 / 7280]) rfl (by cyc_lin) rfl (by cyc_lin) (by norm_num <;> ring)
  replace h5 := h5.setIt (s5.it + 1)
  have sel6 : select (cycPb κ) (cycPb κ).n { s5 with it := s5.it + 1 }.A { s5 with it := s5.it + 1 }.x = ⟨1, .lower⟩ := by
    rw [select_five h5.frame.good.dim.nbCstr h5.frame.good.dim.nbBnd,
      show bZero ℝ = ((0 : ℝ) : EReal) from rfl,
      h5.sel_in (i := 0) (by simp),
      h5.sel_lt (i := 1) (by simp) (0) (-(1)) (by norm_num [sum_range_succ, cycC, cycB, v3]) (by norm_num),
      h5.sel_in (i := 2) (by simp),
      h5.sel_ge (i := 3) (by simp) (-(1)) (by norm_num [sum_range_succ, cycC, cycB, v3]),
      h5.sel_in (i := 4) (by simp)]
  obtain ⟨e6, he6, hi6⟩ := h5.enter (o := o) (sc0 := ⟨2, .lower⟩) (p := 1) rfl (by norm_num) (by simp) sel6
  obtain ⟨s6, g6, h6⟩ := he6.drop ht0 hκ (p := 1) (by norm_num) (by simp) rfl (v3 (0) (0) (0)) (fun k => [3 / 7, -(1 / 7), -(73 / 91)].getD k 0) (14 / 87 * V - 1289 / 6960)
    (by cyc_lin) (by cyc_lin) (by rw [hT]; norm_num [sum_range_succ, v3]) (l := 0) (by norm_num) (by norm_num) (by norm_num <;> ring) (by nlinarith) (by cyc_ratd)
    (L' := [0, 2]) (U' := [584 / 87 * V + 427 / 435, 146 / 1131 * V + 427 / 22620, 14 / 87 * V - 1289 / 6960]) rfl (by decide) rfl (by cyc_lin) (by norm_num <;> ring)
  replace h6 := h6.setIt (s6.it + 1)
  obtain ⟨s7, g7, h7⟩ := h6.drop ht0 hκ (p := 1) (by norm_num) (by simp) rfl (v3 (0) (24 / 13) (36 / 13)) (fun k => [8 / 13, 8 / 169].getD k 0) (949 / 348 * V + 5551 / 13920)
    (by cyc_lin) (by cyc_lin) (by rw [hT]; norm_num [sum_range_succ, v3]) (l := 1) (by norm_num) (by norm_num) (by norm_num <;> ring) (by nlinarith) (by cyc_ratd)
    (L' := [0]) (U' := [146 / 29 * V + 427 / 580, 335 / 116 * V + 991 / 4640]) rfl (by decide) rfl (by cyc_lin) (by norm_num <;> ring)
  replace h7 := h7.setIt (s7.it + 1)
  obtain ⟨s8, g8, h8⟩ := h7.drop ht0 hκ (p := 1) (by norm_num) (by simp) rfl (v3 (-(4 / 7)) (12 / 7) (20 / 7)) (fun k => [4 / 7].getD k 0) (511 / 58 * V + 2989 / 2320)
    (by cyc_lin) (by cyc_lin) (by rw [hT]; norm_num [sum_range_succ, v3]) (l := 0) (by norm_num) (by norm_num) (by norm_num <;> ring) (by nlinarith) (by cyc_ratd)
    (L' := []) (U' := [1357 / 116 * V + 6969 / 4640]) rfl (by decide) rfl (by cyc_lin) (by norm_num <;> ring)
  replace h8 := h8.setIt (s8.it + 1)
  obtain ⟨s9, g9, h9⟩ := h8.full ht0 hκ (p := 1) (by norm_num) (by simp) rfl (v3 (0) (0) (4)) (fun _ => 0) (1 / 16)
    (by cyc_lin) (by cyc_lin) (by norm_num [sum_range_succ, cycC, cycB, v3]) (by rw [hT]; norm_num [sum_range_succ, v3]) (by nlinarith) (by cyc_rat)
    (L' := [1]) (X' := (v3 (0) (0) (1 / 4))) (U' := [1357 / 116 * V + 7259 / 4640]) rfl (by cyc_lin) rfl (by cyc_lin) (by norm_num <;> ring)
  replace h9 := h9.setIt (s9.it + 1)
  exact ⟨_, .cons (hi0 g0) (.cons (hi1 g1) (.cons (hi2 g2) (.cons ((by rw [iterate_skip]; exact g3)) (.cons ((by rw [iterate_skip]; exact g4)) (.cons (hi5 g5) (.cons (hi6 g6) (.cons ((by rw [iterate_skip]; exact g7)) (.cons ((by rw [iterate_skip]; exact g8)) (.cons ((by rw [iterate_skip]; exact g9)) (Chain.nil _ _ _)))))))))), h9⟩


/-- The first three iterations lead to the cycle. -/
theorem cyc_first {o : Opts ℝ} (ht0 : 0 ≤ o.tiny) {κ : ℝ} (hκ : 0 < κ) (hT : o.tiny * κ = 93 / 25) {s : State ℝ}
    (h : At κ s [] (v3 (-4) 12 (-8)) []) (hb : κ * 11 < o.bigBnd) (sc0 : SC) :
    ∃ s', Chain o (cycPb κ) 3 s sc0 false s' ⟨1, .lower⟩ false ∧ At κ s' [1] (v3 0 0 (1 / 4)) [113 / 16] := by
  have sel0 : select (cycPb κ) (cycPb κ).n s.A s.x = ⟨0, .lower⟩ := by
    rw [select_five h.frame.good.dim.nbCstr h.frame.good.dim.nbBnd,
      show bZero ℝ = ((0 : ℝ) : EReal) from rfl,
      h.sel_lt (i := 0) (by simp) (0) (-(56)) (by norm_num [sum_range_succ, cycC, cycB, v3]) (by norm_num),
      h.sel_ge (i := 1) (by simp) (-(56)) (by norm_num [sum_range_succ, cycC, cycB, v3]),
      h.sel_ge (i := 2) (by simp) (-(56)) (by norm_num [sum_range_succ, cycC, cycB, v3]),
      h.sel_ge (i := 3) (by simp) (-(56)) (by norm_num [sum_range_succ, cycC, cycB, v3]),
      h.sel_ge (i := 4) (by simp) (-(56)) (by norm_num [sum_range_succ, cycC, cycB, v3])]
  obtain ⟨e0, he0, hi0⟩ := h.enter (o := o) (sc0 := sc0) (p := 0) rfl (by norm_num) (by simp) sel0
  obtain ⟨s0, g0, h0⟩ := he0.full ht0 hκ (p := 0) (by norm_num) (by simp) rfl (v3 (1) (-(3)) (2)) (fun _ => 0) (4)
    (by cyc_lin) (by cyc_lin) (by norm_num [sum_range_succ, cycC, cycB, v3]) (by rw [hT]; norm_num [sum_range_succ, v3]) (by nlinarith) (by cyc_rat)
    (L' := [0]) (X' := (v3 (0) (0) (0))) (U' := [4]) rfl (by cyc_lin) rfl (by cyc_lin) (by norm_num <;> ring)
  replace h0 := h0.setIt (s0.it + 1)
  have sel1 : select (cycPb κ) (cycPb κ).n { s0 with it := s0.it + 1 }.A { s0 with it := s0.it + 1 }.x = ⟨1, .lower⟩ := by
    rw [select_five h0.frame.good.dim.nbCstr h0.frame.good.dim.nbBnd,
      show bZero ℝ = ((0 : ℝ) : EReal) from rfl,
      h0.sel_in (i := 0) (by simp),
      h0.sel_lt (i := 1) (by simp) (0) (-(1)) (by norm_num [sum_range_succ, cycC, cycB, v3]) (by norm_num),
      h0.sel_ge (i := 2) (by simp) (-(1)) (by norm_num [sum_range_succ, cycC, cycB, v3]),
      h0.sel_ge (i := 3) (by simp) (-(1)) (by norm_num [sum_range_succ, cycC, cycB, v3]),
      h0.sel_ge (i := 4) (by simp) (-(1)) (by norm_num [sum_range_succ, cycC, cycB, v3])]
  obtain ⟨e1, he1, hi1⟩ := h0.enter (o := o) (sc0 := ⟨0, .lower⟩) (p := 1) rfl (by norm_num) (by simp) sel1
  obtain ⟨s1, g1, h1⟩ := he1.drop ht0 hκ (p := 1) (by norm_num) (by simp) rfl (v3 (-(4 / 7)) (12 / 7) (20 / 7)) (fun k => [4 / 7].getD k 0) (7)
    (by cyc_lin) (by cyc_lin) (by rw [hT]; norm_num [sum_range_succ, v3]) (l := 0) (by norm_num) (by norm_num) (by norm_num <;> ring) (by nlinarith) (by cyc_ratd)
    (L' := []) (U' := [7]) rfl (by decide) rfl (by cyc_lin) (by norm_num <;> ring)
  replace h1 := h1.setIt (s1.it + 1)
  obtain ⟨s2, g2, h2⟩ := h1.full ht0 hκ (p := 1) (by norm_num) (by simp) rfl (v3 (0) (0) (4)) (fun _ => 0) (1 / 16)
    (by cyc_lin) (by cyc_lin) (by norm_num [sum_range_succ, cycC, cycB, v3]) (by rw [hT]; norm_num [sum_range_succ, v3]) (by nlinarith) (by cyc_rat)
    (L' := [1]) (X' := (v3 (0) (0) (1 / 4))) (U' := [113 / 16]) rfl (by cyc_lin) rfl (by cyc_lin) (by norm_num <;> ring)
  replace h2 := h2.setIt (s2.it + 1)
  exact ⟨_, .cons (hi0 g0) (.cons (hi1 g1) (.cons ((by rw [iterate_skip]; exact g2)) (Chain.nil _ _ _))), h2⟩

/-- From the cycle the loop runs until the iteration limit, as long as the multipliers stay below `bigBnd`. -/
theorem cyc_loop {o : Opts ℝ} (ht0 : 0 ≤ o.tiny) {κ : ℝ} (hκ : 0 < κ) (hT : o.tiny * κ = 93 / 25) (j : Nat) :
    ∀ {N : Nat} {s : State ℝ} {V : ℝ} (sc0 : SC), N ≤ 10 * j → 2 ≤ V → At κ s [1] (v3 0 0 (1 / 4)) [V] →
      κ * (12 ^ j * (V + 1)) < o.bigBnd → ∃ r, loop o (cycPb κ) N s sc0 false = .ok (.maxIterReached, r) := by
  induction j with
  | zero =>
    intro N s V sc0 hN _ _ _
    obtain rfl : N = 0 := by omega
    exact ⟨s, rfl⟩
  | succ j ih =>
    intro N s V sc0 hN hV h hb
    have h12 : (1 : ℝ) ≤ 12 ^ j := one_le_pow₀ (by norm_num)
    have h1 : κ * (12 * (V + 1)) ≤ κ * (12 ^ (j + 1) * (V + 1)) := by
      apply mul_le_mul_of_nonneg_left _ hκ.le
      rw [pow_succ]
      apply mul_le_mul_of_nonneg_right _ (by linarith)
      linarith
    obtain ⟨s', g1, g2⟩ := cyc_ten ht0 hκ hT hV h (by nlinarith) sc0
    obtain ⟨c1, c2⟩ := g1.loop N
    by_cases hN' : N ≤ 10
    · exact c1 hN'
    · rw [c2 (by omega)]
      refine ih ⟨1, .lower⟩ (by omega) (by linarith) g2 (lt_of_le_of_lt ?_ hb)
      apply mul_le_mul_of_nonneg_left _ hκ.le
      rw [pow_succ, mul_assoc]
      apply mul_le_mul_of_nonneg_left _ (by linarith)
      linarith

/-- The initial state. -/
theorem cyc_start {o : Opts ℝ} (ht0 : 0 ≤ o.tiny) {κ : ℝ} (hκ : 0 < κ) {s : State ℝ} (hi : Inv s) :
    ∃ s0, At κ s0 [] (v3 (-4) 12 (-8)) [] ∧ ∀ t s', loop o (cycPb κ) o.maxIter s0 ⟨0, .inactive⟩ false = .ok (t, s') →
      solve o (cycPb κ) s = terminate o t s' := by
  have hpd := cyc_posDef hκ
  have heq : ∀ A : ActiveSet, A.nbCstr = (cycPb κ).m → A.nbBnd = (cycPb κ).nb → eqList (cycPb κ) A = [] := by
    intro A h1 h2
    rw [show (cycPb κ).m = 5 from rfl] at h1
    rw [show (cycPb κ).nb = 0 from rfl] at h2
    have b : ∀ i, (cycPb κ).bl i ≠ (cycPb κ).bu i := fun i => EReal.coe_ne_top _
    simp [eqList, h1, h2, List.range_succ, b]
  obtain ⟨s0, h1, hq0, hst0, _, hrun⟩ := solve_start_nil ht0 (cholOk_of_posDefN hpd) hi heq
  have hx := (Alg.point hpd h1 (x := v3 (-4) 12 (-8)) (u := fun _ => 0) (by
    intro a ha
    rw [hq0, cyc_hess _ a ha]
    have ha : a < 3 := ha
    show _ + κ * (4 * cycC 0 a) = _
    interval_cases a <;> norm_num [cycC, v3] <;> ring) (by intro k hk; omega)).1
  exact ⟨s0, ⟨⟨h1.good, h1.fac⟩, hq0, fun k hk => by simp at hk, fun i => by rw [hst0 i]; simp, hx, fun k hk => by simp at hk⟩, hrun⟩

/-- The problem is proper, its bounds do not cross, its Hessian is positive definite, there is no equality constraint, and
`(0, 1, 2)` is feasible. -/
theorem cyc_valid {κ : ℝ} (hκ : 0 < κ) : Proper (cycPb κ) ∧ NotCrossed (cycPb κ) ∧ PosDefN (cycPb κ).n (hess (cycPb κ)) ∧
    EqFirst (cycPb κ) 0 ∧ EqIndep (cycPb κ) ∧ Feasible (cycPb κ) (v3 0 1 2) := by
  have hf : (cycPb κ).useBnd ≠ true := by show false ≠ true; simp
  refine ⟨⟨fun i _ => EReal.coe_ne_top _, fun i _ => ?_, fun h => absurd h hf, fun h => absurd h hf⟩,
    ⟨fun i _ => le_top, fun h => absurd h hf⟩, cyc_posDef hκ, ⟨Nat.zero_le _, ?_⟩, ?_, ?_, fun h => absurd h hf⟩
  · show (⊤ : EReal) ≠ ⊥; simp
  · intro i hi
    have hi : i < 5 := hi
    simp only [isEqB, show (cycPb κ).m = 5 from rfl, hi, if_true]
    simp [show (cycPb κ).bu i = ⊤ from rfl, show (cycPb κ).bl i = (cycB i : EReal) from rfl]
  · intro c hc _ i
    refine hc i ?_
    rintro ⟨h1, h2⟩
    have h1 : i < 5 := h1
    rcases h2 with ⟨_, h2⟩ | ⟨h2, _⟩
    · exact EReal.coe_ne_top _ h2
    · have h2 : 5 ≤ i := h2
      omega
  · intro i hi
    refine ⟨?_, le_top⟩
    have hi : i < 5 := hi
    show ((cycB i : ℝ) : EReal) ≤ ((∑ a ∈ range 3, cycC i a * v3 0 1 2 a : ℝ) : EReal)
    rw [EReal.coe_le_coe_iff]
    interval_cases i <;> norm_num [cycB, cycC, v3, sum_range_succ]

/-- The run on `cycPb`. -/
theorem cyc_run {o : Opts ℝ} (ht0 : 0 < o.tiny) {j : Nat} (hj : o.maxIter ≤ 10 * j)
    (hb : 93 / (25 * o.tiny) * (129 / 16 * 12 ^ j) < o.bigBnd) {s : State ℝ} (hi : Inv s) :
    ∃ s', solve o (cycPb (93 / (25 * o.tiny))) s = .ok (.maxIterReached, s') := by
  obtain ⟨κ, hk⟩ : ∃ κ, κ = 93 / (25 * o.tiny) := ⟨_, rfl⟩
  have hκ : 0 < κ := by rw [hk]; positivity
  have hT : o.tiny * κ = 93 / 25 := by rw [hk]; field_simp
  rw [← hk] at hb ⊢
  obtain ⟨s0, h0, hrun⟩ := cyc_start ht0.le hκ hi (o := o)
  by_cases hm : o.maxIter = 0
  · have h1 : loop o (cycPb κ) o.maxIter s0 ⟨0, .inactive⟩ false = .ok (.maxIterReached, s0) := by rw [hm]; rfl
    exact ⟨s0, hrun _ _ h1⟩
  have h12 : (12 : ℝ) ≤ 12 ^ j := by
    calc (12 : ℝ) = 12 ^ 1 := by norm_num
      _ ≤ 12 ^ j := pow_le_pow_right₀ (by norm_num) (by omega)
  obtain ⟨s1, g1, g2⟩ := cyc_first ht0.le hκ hT h0 (by nlinarith) ⟨0, .inactive⟩
  obtain ⟨c1, c2⟩ := g1.loop o.maxIter
  have : ∃ r, loop o (cycPb κ) o.maxIter s0 ⟨0, .inactive⟩ false = .ok (.maxIterReached, r) := by
    by_cases h3 : o.maxIter ≤ 3
    · exact c1 h3
    · rw [c2 (by omega)]
      refine cyc_loop ht0.le hκ hT j _ (by omega) (by norm_num) g2 (lt_of_le_of_lt (le_of_eq ?_) hb)
      ring
  obtain ⟨r, hr⟩ := this
  exact ⟨r, hrun _ _ hr⟩

/-- **C18 is false for a fixed `tiny`.** For every positive `tiny` there is a feasible, strictly convex problem with three
variables and five inequalities, whose iterations repeat with period ten: whatever `maxIter`, `solve` returns
`MAX_ITER_REACHED`, provided `bigBnd` is large enough for the multipliers (which grow by a factor 12 every ten iterations). -/
theorem C18_threshold_false (tiny : ℝ) (ht : 0 < tiny) :
    ∃ pb : Pb ℝ EReal, pb.n = 3 ∧ pb.m = 5 ∧ Proper pb ∧ NotCrossed pb ∧ PosDefN pb.n (hess pb) ∧ EqFirst pb 0 ∧ EqIndep pb ∧
      (∃ y, Feasible pb y) ∧
      ∀ maxIter : Nat, ∃ β : ℝ, ∀ o : Opts ℝ, o.tiny = tiny → o.maxIter = maxIter → β < o.bigBnd → ∀ s : State ℝ, Inv s →
        ∃ s', solve o pb s = .ok (.maxIterReached, s') := by
  obtain ⟨h1, h2, h3, h4, h5, h6⟩ := cyc_valid (κ := 93 / (25 * tiny)) (by positivity)
  refine ⟨cycPb (93 / (25 * tiny)), rfl, rfl, h1, h2, h3, h4, h5, ⟨_, h6⟩, fun maxIter => ⟨93 / (25 * tiny) * (129 / 16 * 12 ^ maxIter), ?_⟩⟩
  intro o e1 e2 hb s hi
  subst e1 e2
  exact cyc_run ht (by omega) hb hi

/-- **C18 is false for the values of the source**: `tiny = 1e-14`, and the default options `bigBnd_ = 1e100` and `maxIter_ = 500`. -/
theorem C18_default_false : ∃ pb : Pb ℝ EReal, pb.n = 3 ∧ pb.m = 5 ∧ Proper pb ∧ NotCrossed pb ∧ PosDefN pb.n (hess pb) ∧
    EqFirst pb 0 ∧ EqIndep pb ∧ (∃ y, Feasible pb y) ∧
    ∀ o : Opts ℝ, o.tiny = 1e-14 → o.bigBnd = 1e100 → o.maxIter ≤ 500 → ∀ s : State ℝ, Inv s →
      ∃ s', solve o pb s = .ok (.maxIterReached, s') := by
  obtain ⟨h1, h2, h3, h4, h5, h6⟩ := cyc_valid (κ := 93 / (25 * 1e-14)) (by norm_num)
  refine ⟨cycPb (93 / (25 * 1e-14)), rfl, rfl, h1, h2, h3, h4, h5, ⟨_, h6⟩, ?_⟩
  intro o e1 e2 e3 s hi
  have := cyc_run (o := o) (by rw [e1]; norm_num) (j := 50) (by omega) (by rw [e1, e2]; norm_num) hi
  rwa [e1] at this

end JrlQp
