import Verif.BoxProofs

/-!
# Box solver: the initial point and factorisation, in exact arithmetic
-/

namespace JrlQp

open NumOps Finset Spec

/-- Projection of `v` on the interval `[l, u]`. -/
noncomputable def clamp (v : ℝ) (l u : EReal) : ℝ :=
  if (v : EReal) < l then l.toReal else if u < (v : EReal) then u.toReal else v

/-- The quadratic program solved by the box solver: `min ½‖x‖² - x0'x` under its constraints. -/
noncomputable def boxSpec (n : Nat) (x0 c : Nat → ℝ) (bl : EReal) (xl xu : Nat → EReal) : Pb ℝ EReal :=
  { boxPb n x0 c bl ⊤ xl xu with G := kd, a := fun i => -x0 i }

/-- State reached by the loop of `init_` after `i` turns. -/
structure BoxX (pb : Pb ℝ EReal) (x0 : Nat → ℝ) (i : Nat) (s : State ℝ) : Prop where
  q_le : s.A.q ≤ i
  idx : ∀ k < s.A.q, ∃ j < i, ∃ st, s.A.act k = ⟨j + 1, st⟩ ∧ (st = .lowerBound ∨ st = .upperBound)
  x : ∀ j < i, s.x j = clamp (x0 j) (pb.xl j) (pb.xu j)
  stat : ∀ a < pb.n, ∑ k ∈ range s.A.q, s.u k * normal pb (s.A.act k) a = if a < i then s.x a - x0 a else 0
  fin : ∀ k < s.A.q, BndFin pb (s.A.act k)
  tight : ∀ k < s.A.q, ndot pb (s.A.act k) s.x = rhs pb (s.A.act k)
  pos : ∀ k < s.A.q, 0 ≤ s.u k
  f : s.f = ∑ j ∈ range i, 1 / 2 * (s.x j - x0 j) ^ 2
  R : ∀ k < s.A.q, ∀ r ≤ k, s.R r k = if r = k then (if (s.A.act k).status = .lowerBound then 1 else -1) else 0
  J : ∃ col : Nat → Nat, (∀ j < i, ∀ c < pb.n, s.J j c = if c = col j then 1 else 0) ∧
    (∀ j, i ≤ j → j < pb.n → ∀ c < pb.n, s.J j c = 0) ∧
    (∀ j < i, col j < s.A.q ∨ (pb.n ≤ col j + (i - s.A.q) ∧ col j < pb.n)) ∧
    (∀ j < i, ∀ j' < i, col j = col j' → j = j') ∧
    (∀ k < s.A.q, col ((s.A.act k).p - 1) = k)

theorem ndot_bnd {pb : Pb ℝ EReal} (hm : pb.m = 1) {i : Nat} (hi : i < pb.n) {st : Status} {d : ℝ}
    (hst : (st = .lowerBound ∧ d = 1) ∨ (st = .upperBound ∧ d = -1)) (v : Nat → ℝ) :
    ndot pb ⟨i + 1, st⟩ v = d * v i := by
  unfold ndot
  rcases hst with ⟨rfl, rfl⟩ | ⟨rfl, rfl⟩
  all_goals
    simp only [normal, hm, Nat.add_sub_cancel]
    rw [Finset.sum_eq_single i]
    · simp
    · intro b _ hb; simp [hb]
    · intro h; exact absurd (mem_range.2 hi) h

theorem normal_bnd {pb : Pb ℝ EReal} (hm : pb.m = 1) {i : Nat} {st : Status} {d : ℝ}
    (hst : (st = .lowerBound ∧ d = 1) ∨ (st = .upperBound ∧ d = -1)) (a : Nat) :
    normal pb ⟨i + 1, st⟩ a = if a = i then d else 0 := by
  rcases hst with ⟨rfl, rfl⟩ | ⟨rfl, rfl⟩ <;> simp [normal, hm]

/-- A turn of the loop that activates a bound. -/
theorem BoxX.activate {pb : Pb ℝ EReal} (hm : pb.m = 1) (hnb : pb.nb = pb.n) {x0 : Nat → ℝ} {i : Nat} {s : State ℝ}
    (hb : BoxPre pb i (s, s.A.q)) (h : BoxX pb x0 i s) (hi : i < pb.n) {st : Status} {d v w : ℝ}
    (hst : (st = .lowerBound ∧ d = 1) ∨ (st = .upperBound ∧ d = -1)) (hv : v = clamp (x0 i) (pb.xl i) (pb.xu i))
    (hw : w * d = v - x0 i) (hw0 : 0 ≤ w) (hfin : BndFin pb ⟨i + 1, st⟩) (hr : rhs pb ⟨i + 1, st⟩ = d * v) :
    BoxX pb x0 (i + 1)
      { s with
        x := upd s.x i v, u := upd s.u s.A.q w, f := s.f + half * w * w, R := boxCol s.R s.A.q d
        J := upd2 s.J i s.A.q 1, A := s.A.activate (i + 1) st } := by
  have hst' : st = .lowerBound ∨ st = .upperBound := hst.imp And.left And.left
  have hc := hb.cand hm (by omega) hst'
  have hwf := hb.dim.wf
  have hq : (s.A.activate (i + 1) st).q = s.A.q + 1 := hwf.q_activate hc.pre
  obtain ⟨hact, hnew⟩ := act_activate hwf hc.pre
  change (∀ k < s.A.q, (s.A.activate (i + 1) st).act k = s.A.act k) at hact
  change (s.A.activate (i + 1) st).act s.A.q = ⟨i + 1, st⟩ at hnew
  have hd : d = 1 ∨ d = -1 := hst.imp And.right And.right
  have hd2 : d * d = 1 := by rcases hd with rfl | rfl <;> norm_num
  have hqi := h.q_le
  -- old constraints do not see the new component
  have hold : ∀ k < s.A.q, ndot pb (s.A.act k) (upd s.x i v) = ndot pb (s.A.act k) s.x := by
    intro k hk
    obtain ⟨j, hj, st', e, hs⟩ := h.idx k hk
    obtain ⟨d', hd'⟩ : ∃ d' : ℝ, (st' = .lowerBound ∧ d' = 1) ∨ (st' = .upperBound ∧ d' = -1) := by
      rcases hs with rfl | rfl
      · exact ⟨1, Or.inl ⟨rfl, rfl⟩⟩
      · exact ⟨-1, Or.inr ⟨rfl, rfl⟩⟩
    rw [e, ndot_bnd hm (by omega) hd', ndot_bnd hm (by omega) hd']
    simp [upd, show j ≠ i by omega]
  have hsplit : ∀ k, k < s.A.q + 1 → k < s.A.q ∨ k = s.A.q := fun k hk => by omega
  refine ⟨?_, ?_, ?_, ?_, ?_, ?_, ?_, ?_, ?_, ?_⟩
  · dsimp only; rw [hq]; omega
  · dsimp only; rw [hq]
    intro k hk
    rcases hsplit k hk with h1 | rfl
    · rw [hact k h1]
      obtain ⟨j, hj, r⟩ := h.idx k h1
      exact ⟨j, by omega, r⟩
    · exact ⟨i, by omega, st, hnew, hst'⟩
  · intro j hj
    dsimp only
    by_cases hji : j = i
    · subst hji; simp [upd, hv]
    · simp only [upd, if_neg hji]; exact h.x j (by omega)
  · intro a ha
    dsimp only
    rw [hq, sum_range_succ]
    rw [Finset.sum_congr rfl (g := fun k => s.u k * normal pb (s.A.act k) a), h.stat a ha, hnew, normal_bnd hm hst]
    · by_cases hai : a = i
      · subst hai
        rw [if_neg (lt_irrefl _), if_pos rfl, if_pos (by omega)]
        simp only [upd, if_true]
        rw [zero_add, hw]
      · rw [if_neg hai]
        simp only [upd, if_neg hai, mul_zero, add_zero]
        by_cases h2 : a < i
        · rw [if_pos h2, if_pos (by omega)]
        · rw [if_neg h2, if_neg (by omega)]
    · intro k hk
      have hk' := mem_range.1 hk
      rw [hact k hk', upd, if_neg (by omega)]
  · dsimp only; rw [hq]
    intro k hk
    rcases hsplit k hk with h1 | rfl
    · rw [hact k h1]; exact h.fin k h1
    · rw [hnew]; exact hfin
  · dsimp only; rw [hq]
    intro k hk
    rcases hsplit k hk with h1 | rfl
    · rw [hact k h1, hold k h1]; exact h.tight k h1
    · rw [hnew, ndot_bnd hm hi hst, hr]; simp [upd]
  · dsimp only; rw [hq]
    intro k hk
    rcases hsplit k hk with h1 | rfl
    · rw [upd, if_neg (by omega)]; exact h.pos k h1
    · rw [upd, if_pos rfl]; exact hw0
  · dsimp only
    rw [sum_range_succ, h.f]
    congr 1
    · refine Finset.sum_congr rfl fun j hj => ?_
      have := mem_range.1 hj
      rw [upd, if_neg (by omega)]
    · rw [upd, if_pos rfl, ← hw]
      show 1 / 2 * w * w = _
      rw [mul_pow, pow_two d, hd2]; ring
  · dsimp only; rw [hq]
    intro k hk r hr'
    rcases hsplit k hk with h1 | rfl
    · rw [hact k h1]
      have e : boxCol s.R s.A.q d r k = s.R r k := by
        simp [boxCol, show k ≠ s.A.q by omega]
      rw [e]; exact h.R k h1 r hr'
    · rw [hnew]
      by_cases hrq : r = s.A.q
      · rw [if_pos hrq]
        simp only [boxCol, hrq, and_self, if_true]
        rcases hst with ⟨rfl, rfl⟩ | ⟨rfl, rfl⟩ <;> simp
      · rw [if_neg hrq]
        simp [boxCol, hrq, show r < s.A.q by omega]
  · obtain ⟨col, c1, c2, c3, c4, c5⟩ := h.J
    have hup : ∀ j, j ≠ i → upd col i s.A.q j = col j := fun j hj => by simp [upd, hj]
    have hupi : upd col i s.A.q i = s.A.q := by simp [upd]
    refine ⟨upd col i s.A.q, ?_, ?_, ?_, ?_, ?_⟩ <;> try dsimp only
    · intro j hj c hc'
      by_cases hji : j = i
      · subst hji
        rw [hupi]
        by_cases hcq : c = s.A.q
        · simp [upd2, hcq]
        · rw [if_neg hcq]
          simp only [upd2, hcq, and_false, if_false]
          exact c2 j le_rfl hi c hc'
      · rw [hup j hji]
        simp only [upd2, hji, false_and, if_false]
        exact c1 j (by omega) c hc'
    · intro j hj hj' c hc'
      simp only [upd2, show j ≠ i by omega, false_and, if_false]
      exact c2 j (by omega) hj' c hc'
    · rw [hq]
      intro j hj
      by_cases hji : j = i
      · subst hji; rw [hupi]; left; omega
      · rw [hup j hji]
        rcases c3 j (by omega) with a | ⟨a, b⟩
        · left; omega
        · right; exact ⟨by omega, b⟩
    · intro j hj j' hj' he
      by_cases h1 : j = i <;> by_cases h2 : j' = i
      · omega
      · rw [h1, hupi, hup j' h2] at he
        rcases c3 j' (by omega) with a | ⟨a, b⟩ <;> omega
      · rw [h2, hupi, hup j h1] at he
        rcases c3 j (by omega) with a | ⟨a, b⟩ <;> omega
      · rw [hup j h1, hup j' h2] at he
        exact c4 j (by omega) j' (by omega) he
    · rw [hq]
      intro k hk
      rcases hsplit k hk with h1 | rfl
      · rw [hact k h1]
        obtain ⟨j, hj, st', e, _⟩ := h.idx k h1
        have := c5 k h1
        rw [e] at this ⊢
        simp only [Nat.add_sub_cancel] at this ⊢
        rw [hup j (by omega)]; exact this
      · rw [hnew]; simp only [Nat.add_sub_cancel]; exact hupi

/-- A turn of the loop that activates nothing. -/
theorem BoxX.skip {pb : Pb ℝ EReal} (hm : pb.m = 1) {x0 : Nat → ℝ} {i : Nat} {s : State ℝ} (hn : s.nbVar = pb.n)
    (h : BoxX pb x0 i s) (hi : i < pb.n) (hv : x0 i = clamp (x0 i) (pb.xl i) (pb.xu i)) :
    BoxX pb x0 (i + 1) { s with x := upd s.x i (x0 i), J := upd2 s.J i (s.nbVar - i + s.A.q - 1) 1 } := by
  have hqi := h.q_le
  refine ⟨?_, ?_, ?_, ?_, h.fin, ?_, h.pos, ?_, h.R, ?_⟩
  · dsimp only; omega
  · intro k hk
    obtain ⟨j, hj, r⟩ := h.idx k hk
    exact ⟨j, by omega, r⟩
  · intro j hj
    dsimp only
    by_cases hji : j = i
    · subst hji; simp only [upd, if_true]; exact hv
    · simp only [upd, if_neg hji]; exact h.x j (by omega)
  · intro a ha
    dsimp only
    rw [h.stat a ha]
    by_cases hai : a = i
    · subst hai
      rw [if_neg (lt_irrefl _), if_pos (by omega)]; simp [upd]
    · simp only [upd, if_neg hai]
      by_cases h2 : a < i
      · rw [if_pos h2, if_pos (by omega)]
      · rw [if_neg h2, if_neg (by omega)]
  · intro k hk
    obtain ⟨j, hj, st', e, hs⟩ := h.idx k hk
    rw [← h.tight k hk]
    obtain ⟨d', hd'⟩ : ∃ d' : ℝ, (st' = .lowerBound ∧ d' = 1) ∨ (st' = .upperBound ∧ d' = -1) := by
      rcases hs with rfl | rfl
      · exact ⟨1, Or.inl ⟨rfl, rfl⟩⟩
      · exact ⟨-1, Or.inr ⟨rfl, rfl⟩⟩
    dsimp only
    rw [e, ndot_bnd hm (by omega) hd', ndot_bnd hm (by omega) hd']
    simp [upd, show j ≠ i by omega]
  · dsimp only
    rw [sum_range_succ, h.f, upd, if_pos rfl, sub_self]
    simp only [ne_eq, OfNat.ofNat_ne_zero, not_false_eq_true, zero_pow, mul_zero, add_zero]
    refine Finset.sum_congr rfl fun j hj => ?_
    have := mem_range.1 hj
    rw [upd, if_neg (by omega)]
  · obtain ⟨col, c1, c2, c3, c4, c5⟩ := h.J
    obtain ⟨w, hw⟩ : ∃ w, w = s.nbVar - i + s.A.q - 1 := ⟨_, rfl⟩
    rw [← hw]
    rw [hn] at hw
    have hup : ∀ j, j ≠ i → upd col i w j = col j := fun j hj => by simp [upd, hj]
    have hupi : upd col i w i = w := by simp [upd]
    refine ⟨upd col i w, ?_, ?_, ?_, ?_, ?_⟩ <;> try dsimp only
    · intro j hj c hc'
      by_cases hji : j = i
      · subst hji
        rw [hupi]
        by_cases hcq : c = w
        · simp [upd2, hcq]
        · rw [if_neg hcq]
          simp only [upd2, hcq, and_false, if_false]
          exact c2 j le_rfl hi c hc'
      · rw [hup j hji]
        simp only [upd2, hji, false_and, if_false]
        exact c1 j (by omega) c hc'
    · intro j hj hj' c hc'
      simp only [upd2, show j ≠ i by omega, false_and, if_false]
      exact c2 j (by omega) hj' c hc'
    · intro j hj
      by_cases hji : j = i
      · subst hji; rw [hupi]; right; omega
      · rw [hup j hji]
        rcases c3 j (by omega) with a | ⟨a, b⟩
        · left; omega
        · right; exact ⟨by omega, b⟩
    · intro j hj j' hj' he
      by_cases h1 : j = i <;> by_cases h2 : j' = i
      · omega
      · rw [h1, hupi, hup j' h2] at he
        rcases c3 j' (by omega) with a | ⟨a, b⟩ <;> omega
      · rw [h2, hupi, hup j h1] at he
        rcases c3 j (by omega) with a | ⟨a, b⟩ <;> omega
      · rw [hup j h1, hup j' h2] at he
        exact c4 j (by omega) j' (by omega) he
    · intro k hk
      obtain ⟨j, hj, st', e, _⟩ := h.idx k hk
      have := c5 k hk
      rw [e] at this ⊢
      simp only [Nat.add_sub_cancel] at this ⊢
      rw [hup j (by omega)]; exact this

theorem BoxX.step {pb : Pb ℝ EReal} (hm : pb.m = 1) (hnb : pb.nb = pb.n) (hu : pb.useBnd = true) (hp : Proper pb)
    (hx : NotCrossed pb) {i : Nat} {sq : State ℝ × Nat} (hb : BoxPre pb i sq) (h : BoxX pb pb.a i sq.1) (hi : i < pb.n) :
    BoxX pb pb.a (i + 1) (boxStep pb sq i).1 := by
  obtain ⟨s, q⟩ := sq
  obtain rfl : s.A.q = q := hb.q
  unfold boxStep
  dsimp only
  have e1 : bLt ℝ (ofK (pb.a i)) (pb.xl i) = decide (((pb.a i : ℝ) : EReal) < pb.xl i) := rfl
  have e2 : bLt ℝ (pb.xu i) (ofK (pb.a i)) = decide (pb.xu i < ((pb.a i : ℝ) : EReal)) := rfl
  rw [e1, e2]
  have hxl := hp.xl hu i hi
  have hxu := hp.xu hu i hi
  have hlu := hx.bnd hu i hi
  split_ifs with h1 h2
  · have h1' := of_decide_eq_true h1
    obtain ⟨r, hr⟩ : ∃ r : ℝ, pb.xl i = (r : EReal) := by
      lift pb.xl i to ℝ using ⟨hxl, ne_bot_of_gt h1'⟩ with r
      exact ⟨r, rfl⟩
    have hlt : pb.a i < r := by rw [hr] at h1'; exact_mod_cast h1'
    have hk : (toK (pb.xl i) : ℝ) = r := by rw [hr]; rfl
    refine h.activate hm hnb hb hi (Or.inl ⟨rfl, rfl⟩) ?_ ?_ ?_ ?_ ?_
    · rw [clamp, if_pos h1']; rfl
    · ring
    · rw [hk]; linarith
    · exact ⟨r, by simpa [hm] using hr⟩
    · simp only [rhs, hm, Nat.add_sub_cancel, one_mul]; rfl
  · have h1' : ¬ ((pb.a i : ℝ) : EReal) < pb.xl i := by simpa using h1
    have h2' := of_decide_eq_true h2
    obtain ⟨r, hr⟩ : ∃ r : ℝ, pb.xu i = (r : EReal) := by
      lift pb.xu i to ℝ using ⟨ne_top_of_lt h2', hxu⟩ with r
      exact ⟨r, rfl⟩
    have hlt : r < pb.a i := by rw [hr] at h2'; exact_mod_cast h2'
    have hk : (toK (pb.xu i) : ℝ) = r := by rw [hr]; rfl
    refine h.activate hm hnb hb hi (Or.inr ⟨rfl, rfl⟩) ?_ ?_ ?_ ?_ ?_
    · rw [clamp, if_neg h1', if_pos h2']; rfl
    · ring
    · rw [hk]; linarith
    · exact ⟨r, by simpa [hm] using hr⟩
    · simp only [rhs, hm, Nat.add_sub_cancel]; rw [neg_one_mul]; rfl
  · have h1' : ¬ ((pb.a i : ℝ) : EReal) < pb.xl i := by simpa using h1
    have h2' : ¬ pb.xu i < ((pb.a i : ℝ) : EReal) := by simpa using h2
    refine h.skip hm hb.dim.nbVar hi ?_
    rw [clamp, if_neg h1', if_neg h2']

theorem BoxX.start {o : Opts ℝ} {pb : Pb ℝ EReal} {s : State ℝ} (h : Dim pb s) (x0 : Nat → ℝ) : BoxX pb x0 0 (boxStart o s) := by
  have hq : (boxStart o s).A.q = 0 := ActiveSet.reset_q _
  refine ⟨by omega, by simp [hq], by simp, by simp [hq], by simp [hq], by simp [hq], by simp [hq], by simp [boxStart],
    by simp [hq], ⟨fun _ => 0, by simp, ?_, by simp, by simp, by simp [hq]⟩⟩
  intro j _ hj c hc
  simp [boxStart, h.nbVar, hj, hc]

theorem boxX_fold {pb : Pb ℝ EReal} (hm : pb.m = 1) (hnb : pb.nb = pb.n) (hp : Proper pb) (hx : NotCrossed pb)
    {s0 : State ℝ × Nat} (hb : BoxPre pb 0 s0) (h : BoxX pb pb.a 0 s0.1) :
    ∀ i ≤ pb.n, BoxX pb pb.a i ((List.range i).foldl (boxStep pb) s0).1 := by
  intro i
  induction i with
  | zero => intro _; exact h
  | succ i ih =>
    intro hi
    rw [List.range_succ, List.foldl_append]
    have hu : pb.useBnd = true := by
      by_contra hc
      simp only [Pb.nb, if_neg hc] at hnb
      omega
    exact (ih (by omega)).step hm hnb hu hp hx (box_fold hm hnb hb i (by omega)) (by omega)

theorem boxSpec_hess (n : Nat) (x0 c : Nat → ℝ) (bl : EReal) (xl xu : Nat → EReal) (i j : Nat) :
    hess (boxSpec n x0 c bl xl xu) i j = kd i j := by
  simp only [hess, boxSpec, kd, eq_comm (a := j) (b := i)]
  split_ifs <;> rfl

theorem boxSpec_obj (n : Nat) (x0 c : Nat → ℝ) (bl : EReal) (xl xu : Nat → EReal) (y : Nat → ℝ) :
    obj (boxSpec n x0 c bl xl xu) y = 1 / 2 * ∑ i ∈ range n, (y i - x0 i) ^ 2 + -(1 / 2 * ∑ i ∈ range n, x0 i ^ 2) := by
  have h1 : ∑ i ∈ range n, ∑ j ∈ range n, y i * hess (boxSpec n x0 c bl xl xu) i j * y j = ∑ i ∈ range n, y i * y i := by
    refine Finset.sum_congr rfl fun i hi => ?_
    rw [Finset.sum_congr rfl (g := fun j => y i * (kd i j * y j)) (fun j _ => by rw [boxSpec_hess]; ring),
      ← Finset.mul_sum, sum_kd (mem_range.1 hi)]
  unfold obj
  change 1 / 2 * ∑ i ∈ range n, ∑ j ∈ range n, y i * hess (boxSpec n x0 c bl xl xu) i j * y j + ∑ i ∈ range n, -x0 i * y i = _
  rw [h1, Finset.mul_sum, Finset.mul_sum, Finset.mul_sum, ← Finset.sum_neg_distrib, ← Finset.sum_add_distrib,
    ← Finset.sum_add_distrib]
  exact Finset.sum_congr rfl fun i _ => by ring

theorem posDefN_kd {n : Nat} {H : Nat → Nat → ℝ} (h : ∀ i j, H i j = kd i j) : PosDefN n H := by
  intro v hv
  have : ∀ i ∈ range n, ∑ j ∈ range n, v i * H i j * v j = v i * v i := by
    intro i hi
    rw [Finset.sum_congr rfl (g := fun j => v i * (kd i j * v j)) (fun j _ => by rw [h]; ring), ← Finset.mul_sum,
      sum_kd (mem_range.1 hi)]
  rw [Finset.sum_congr rfl this]
  obtain ⟨i, hi, hne⟩ := hv
  exact Finset.sum_pos' (fun j _ => mul_self_nonneg _) ⟨i, mem_range.2 hi, mul_self_pos.2 hne⟩

/-- Value subtracted from `½‖x - x0‖²` in the objective of `boxSpec`. -/
noncomputable def boxShift (n : Nat) (x0 : Nat → ℝ) : ℝ := -(1 / 2 * ∑ i ∈ range n, x0 i ^ 2)

/-- At the end of the initialisation, the invariants of the main loop hold. -/
theorem box_inv {n : Nat} {x0 c : Nat → ℝ} {bl : EReal} {xl xu : Nat → EReal} {sq : State ℝ × Nat}
    (hb : BoxPre (boxPb n x0 c bl ⊤ xl xu) n sq) (h : BoxX (boxPb n x0 c bl ⊤ xl xu) x0 n sq.1) :
    LoopInv (boxSpec n x0 c bl xl xu) (addF (boxShift n x0) sq.1) ⟨0, .inactive⟩ false ∧
      DInv (boxSpec n x0 c bl xl xu) 0 (addF (boxShift n x0) sq.1) ⟨0, .inactive⟩ false := by
  obtain ⟨s, q⟩ := sq
  have hd := hb.dim
  have hg : Good (boxSpec n x0 c bl xl xu) (addF (boxShift n x0) s) := by
    refine ⟨⟨hd.nbVar, hd.wf, hd.nbCstr, hd.nbBnd, hd.szX, hd.szZ, hd.szD, hd.szU, hd.szR, hd.szJ, hd.szRm⟩, ?_⟩
    have h1 : s.A.q ≤ n := h.q_le
    have h2 : s.nbVar = n := hd.nbVar
    show s.A.q ≤ s.nbVar
    omega
  obtain ⟨col, c1, c2, c3, c4, c5⟩ := h.J
  change (∀ j < n, ∀ c < n, s.J j c = if c = col j then 1 else 0) at c1
  have hqn : s.A.q ≤ n := h.q_le
  have hcol : ∀ j < n, col j < n := by
    intro j hj
    rcases c3 j hj with a | ⟨_, a⟩
    · have : s.A.q ≤ n := hqn
      exact lt_of_lt_of_le a this
    · exact a
  refine ⟨⟨⟨hg, ⟨?_, ?_, ?_⟩, ?_, ?_, ?_⟩, by simp, h.fin, by simp⟩, ⟨hb.noEq, ?_, by simp, by simp⟩⟩
  · intro a ha b hb'
    have ha' : a < n := ha
    have hb'' : b < n := hb'
    change ∑ c' ∈ range n, hess (boxSpec n x0 c bl xl xu) a c' * outer n s.J c' b = kd a b
    rw [Finset.sum_congr rfl (g := fun j => kd a j * outer n s.J j b) (fun j _ => by rw [boxSpec_hess]), sum_kd ha']
    unfold outer
    rw [Finset.sum_congr rfl (g := fun i => kd (col a) i * (if i = col b then 1 else 0))]
    · rw [sum_kd (hcol a ha')]
      unfold kd
      by_cases hab : a = b
      · rw [if_pos hab, if_pos (by rw [hab])]
      · rw [if_neg hab, if_neg]
        intro he; exact hab (c4 a ha' b hb'' he)
    · intro i hi
      rw [c1 a ha' i (mem_range.1 hi), c1 b hb'' i (mem_range.1 hi)]
      simp only [kd, eq_comm]
  · intro k hk i hi
    have hi' : i < n := hi
    have hk' : k < s.A.q := hk
    obtain ⟨j, hj, st, e, hs⟩ := h.idx k hk'
    have hj' : j < n := hj
    have hck := c5 k hk'
    have hR : ∀ r ≤ k, s.R r k = if r = k then (if (s.A.act k).status = .lowerBound then 1 else -1) else 0 := h.R k hk'
    rw [e] at hck hR
    simp only [Nat.add_sub_cancel] at hck
    change tmul n s.J (normal (boxSpec n x0 c bl xl xu) (s.A.act k)) i = if i ≤ k then s.R i k else 0
    obtain ⟨d, hd'⟩ : ∃ d : ℝ, (st = .lowerBound ∧ d = 1) ∨ (st = .upperBound ∧ d = -1) := by
      rcases hs with rfl | rfl
      · exact ⟨1, Or.inl ⟨rfl, rfl⟩⟩
      · exact ⟨-1, Or.inr ⟨rfl, rfl⟩⟩
    have hm : (boxSpec n x0 c bl xl xu).m = 1 := rfl
    unfold tmul
    rw [e, Finset.sum_congr rfl (g := fun a => kd j a * (d * s.J j i))]
    · rw [← Finset.sum_mul]
      have := sum_kd hj' (fun _ => (1 : ℝ))
      simp only [mul_one] at this
      rw [this, one_mul, c1 j hj' i hi', hck]
      by_cases hik : i ≤ k
      · rw [if_pos hik, hR i hik]
        by_cases hik' : i = k
        · rw [if_pos hik', if_pos hik']
          rcases hd' with ⟨rfl, rfl⟩ | ⟨rfl, rfl⟩ <;> simp
        · rw [if_neg hik', if_neg hik']; simp
      · rw [if_neg hik, if_neg (by omega)]; simp
    · intro a ha
      rw [normal_bnd hm hd']
      unfold kd
      by_cases haj : a = j
      · subst haj; simp [mul_comm]
      · rw [if_neg haj, if_neg (by omega)]; simp
  · intro k hk
    have hk' : k < s.A.q := hk
    change s.R k k ≠ 0
    have := h.R k hk' k le_rfl
    dsimp only at this
    rw [this, if_pos rfl]
    split_ifs <;> norm_num
  · intro a ha
    have ha' : a < n := ha
    change ∑ b ∈ range n, hess (boxSpec n x0 c bl xl xu) a b * s.x b + -x0 a
      = ∑ k ∈ range s.A.q, s.u k * normal (boxPb n x0 c bl ⊤ xl xu) (s.A.act k) a + _
    have h1 : ∑ k ∈ range s.A.q, s.u k * normal (boxPb n x0 c bl ⊤ xl xu) (s.A.act k) a = if a < n then s.x a - x0 a else 0 :=
      h.stat a ha'
    rw [h1, if_pos ha', Finset.sum_congr rfl (g := fun j => kd a j * s.x j) (fun j _ => by rw [boxSpec_hess]), sum_kd ha']
    simp
    ring
  · intro k hk
    exact h.tight k hk
  · change s.f + boxShift n x0 = obj (boxSpec n x0 c bl xl xu) s.x
    have h1 : s.f = ∑ j ∈ range n, 1 / 2 * (s.x j - x0 j) ^ 2 := h.f
    rw [boxSpec_obj, h1, ← Finset.mul_sum]
    rfl
  · intro k hk _
    exact h.pos k hk

end JrlQp
