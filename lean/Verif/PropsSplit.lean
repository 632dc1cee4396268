import Verif.PropsConvex
import Verif.PropsChange

/-! C95: independent parts of a problem are solved independently. C96: how much a feasible point loses, and symmetries (exact arithmetic). -/

namespace JrlQp

open NumOps Finset Spec

/-! ## C95: independent parts -/

/-- Specification: the variables and constraints of `pb` are those of `p1` followed by those of `p2`, and nothing links the two parts. -/
structure Splits (pb p1 p2 : Pb ℝ EReal) : Prop where
  n : pb.n = p1.n + p2.n
  m : pb.m = p1.m + p2.m
  useBnd1 : pb.useBnd = p1.useBnd
  useBnd2 : pb.useBnd = p2.useBnd
  G1 : ∀ i < p1.n, ∀ j < p1.n, hess pb i j = hess p1 i j
  G2 : ∀ i < p2.n, ∀ j < p2.n, hess pb (p1.n + i) (p1.n + j) = hess p2 i j
  G12 : ∀ i < p1.n, ∀ j < p2.n, hess pb i (p1.n + j) = 0
  a1 : ∀ i < p1.n, pb.a i = p1.a i
  a2 : ∀ i < p2.n, pb.a (p1.n + i) = p2.a i
  C1 : ∀ i < p1.n, ∀ j < p1.m, pb.C i j = p1.C i j
  C2 : ∀ i < p2.n, ∀ j < p2.m, pb.C (p1.n + i) (p1.m + j) = p2.C i j
  C12 : ∀ i < p1.n, ∀ j < p2.m, pb.C i (p1.m + j) = 0
  C21 : ∀ i < p2.n, ∀ j < p1.m, pb.C (p1.n + i) j = 0
  b1 : ∀ j < p1.m, pb.bl j = p1.bl j ∧ pb.bu j = p1.bu j
  b2 : ∀ j < p2.m, pb.bl (p1.m + j) = p2.bl j ∧ pb.bu (p1.m + j) = p2.bu j
  x1 : pb.useBnd = true → ∀ i < p1.n, pb.xl i = p1.xl i ∧ pb.xu i = p1.xu i
  x2 : pb.useBnd = true → ∀ i < p2.n, pb.xl (p1.n + i) = p2.xl i ∧ pb.xu (p1.n + i) = p2.xu i

namespace Splits

variable {pb p1 p2 : Pb ℝ EReal}

theorem row1 (h : Splits pb p1 p2) {x y : Nat → ℝ} (hy : ∀ i < p1.n, x i = y i) {j : Nat} (hj : j < p1.m) : row pb x j = row p1 y j := by
  unfold row
  rw [h.n, sum_range_add, sum_eq_zero (s := range p2.n) fun i hi => by rw [h.C21 i (mem_range.1 hi) j hj, zero_mul], add_zero]
  exact sum_congr rfl fun i hi => by rw [h.C1 i (mem_range.1 hi) j hj, hy i (mem_range.1 hi)]

theorem row2 (h : Splits pb p1 p2) {x y : Nat → ℝ} (hy : ∀ i < p2.n, x (p1.n + i) = y i) {j : Nat} (hj : j < p2.m) :
    row pb x (p1.m + j) = row p2 y j := by
  unfold row
  rw [h.n, sum_range_add, sum_eq_zero (s := range p1.n) fun i hi => by rw [h.C12 i (mem_range.1 hi) j hj, zero_mul], zero_add]
  exact sum_congr rfl fun i hi => by rw [h.C2 i (mem_range.1 hi) j hj, hy i (mem_range.1 hi)]

theorem feasible_iff (h : Splits pb p1 p2) {x y z : Nat → ℝ} (hy : ∀ i < p1.n, x i = y i) (hz : ∀ i < p2.n, x (p1.n + i) = z i) :
    Feasible pb x ↔ Feasible p1 y ∧ Feasible p2 z := by
  constructor
  · intro hx
    refine ⟨⟨fun j hj => ?_, fun hb i hi => ?_⟩, ⟨fun j hj => ?_, fun hb i hi => ?_⟩⟩
    · have := hx.gen j (by rw [h.m]; omega)
      rwa [(h.b1 j hj).1, (h.b1 j hj).2, h.row1 hy hj] at this
    · have hb' : pb.useBnd = true := h.useBnd1.trans hb
      have := hx.bnd hb' i (by rw [h.n]; omega)
      rwa [(h.x1 hb' i hi).1, (h.x1 hb' i hi).2, hy i hi] at this
    · have := hx.gen (p1.m + j) (by rw [h.m]; omega)
      rwa [(h.b2 j hj).1, (h.b2 j hj).2, h.row2 hz hj] at this
    · have hb' : pb.useBnd = true := h.useBnd2.trans hb
      have := hx.bnd hb' (p1.n + i) (by rw [h.n]; omega)
      rwa [(h.x2 hb' i hi).1, (h.x2 hb' i hi).2, hz i hi] at this
  · rintro ⟨g1, g2⟩
    refine ⟨fun j hj => ?_, fun hb i hi => ?_⟩
    · rw [h.m] at hj
      by_cases hlt : j < p1.m
      · rw [(h.b1 j hlt).1, (h.b1 j hlt).2, h.row1 hy hlt]; exact g1.gen j hlt
      · obtain ⟨k, rfl⟩ := Nat.exists_eq_add_of_le (not_lt.1 hlt)
        have hk : k < p2.m := by omega
        rw [(h.b2 k hk).1, (h.b2 k hk).2, h.row2 hz hk]; exact g2.gen k hk
    · rw [h.n] at hi
      by_cases hlt : i < p1.n
      · rw [(h.x1 hb i hlt).1, (h.x1 hb i hlt).2, hy i hlt]; exact g1.bnd (h.useBnd1.symm.trans hb) i hlt
      · obtain ⟨k, rfl⟩ := Nat.exists_eq_add_of_le (not_lt.1 hlt)
        have hk : k < p2.n := by omega
        rw [(h.x2 hb k hk).1, (h.x2 hb k hk).2, hz k hk]; exact g2.bnd (h.useBnd2.symm.trans hb) k hk

theorem obj_eq (h : Splits pb p1 p2) {x y z : Nat → ℝ} (hy : ∀ i < p1.n, x i = y i) (hz : ∀ i < p2.n, x (p1.n + i) = z i) :
    obj pb x = obj p1 y + obj p2 z := by
  have e1 : ∀ i ∈ range p1.n, ∑ j ∈ range (p1.n + p2.n), x i * hess pb i j * x j = ∑ j ∈ range p1.n, y i * hess p1 i j * y j := by
    intro i hi
    have hi := mem_range.1 hi
    rw [sum_range_add, sum_eq_zero (s := range p2.n) fun j hj => by rw [h.G12 i hi j (mem_range.1 hj)]; ring, add_zero]
    exact sum_congr rfl fun j hj => by rw [h.G1 i hi j (mem_range.1 hj), hy i hi, hy j (mem_range.1 hj)]
  have e2 : ∀ i ∈ range p2.n, ∑ j ∈ range (p1.n + p2.n), x (p1.n + i) * hess pb (p1.n + i) j * x j = ∑ j ∈ range p2.n, z i * hess p2 i j * z j := by
    intro i hi
    have hi := mem_range.1 hi
    rw [sum_range_add, sum_eq_zero (s := range p1.n) fun j hj => by rw [hess_comm', h.G12 j (mem_range.1 hj) i hi]; ring, zero_add]
    exact sum_congr rfl fun j hj => by rw [h.G2 i hi j (mem_range.1 hj), hz i hi, hz j (mem_range.1 hj)]
  have e3 : ∑ i ∈ range p1.n, pb.a i * x i = ∑ i ∈ range p1.n, p1.a i * y i :=
    sum_congr rfl fun i hi => by rw [h.a1 i (mem_range.1 hi), hy i (mem_range.1 hi)]
  have e4 : ∑ i ∈ range p2.n, pb.a (p1.n + i) * x (p1.n + i) = ∑ i ∈ range p2.n, p2.a i * z i :=
    sum_congr rfl fun i hi => by rw [h.a2 i (mem_range.1 hi), hz i (mem_range.1 hi)]
  unfold obj
  rw [h.n, sum_range_add, sum_range_add, sum_congr rfl e1, sum_congr rfl e2, e3, e4]
  ring

end Splits

/-- **C95.** Two problems with nothing in common can be solved together or apart: the solve of the joint problem succeeds exactly when both do, its
solution is the two solutions side by side and its objective value the sum of the two, whatever the histories and the options of the three solves. -/
theorem C95_independent_parts {pb p1 p2 : Pb ℝ EReal} (hr : StdPb pb) (hr1 : StdPb p1) (hr2 : StdPb p2) (h : Splits pb p1 p2) :
    ∃ ε > 0, ∃ β : ℝ, ∀ o o1 o2, Fine ε β pb o → Fine ε β p1 o1 → Fine ε β p2 o2 → ∀ t s t1 s1 t2 s2, Solves o pb t s → Solves o1 p1 t1 s1 →
      Solves o2 p2 t2 s2 → (t = .success ∨ t = .infeasible) ∧ (t = .success ↔ t1 = .success ∧ t2 = .success) ∧
        (t = .success → (∀ i < p1.n, s.x i = s1.x i) ∧ (∀ i < p2.n, s.x (p1.n + i) = s2.x i) ∧ s.f = s1.f + s2.f) := by
  obtain ⟨ε, hε, β, hh⟩ := three_answers hr hr1 hr2
  refine ⟨ε, hε, β, fun o o1 o2 ho ho1 ho2 t s t1 s1 t2 s2 g g1 g2 => ?_⟩
  obtain ⟨a, a1, a2⟩ := hh o o1 o2 ho ho1 ho2 _ _ _ _ _ _ g g1 g2
  -- two points side by side
  obtain ⟨J, hJ1, hJ2⟩ : ∃ J : (Nat → ℝ) → (Nat → ℝ) → Nat → ℝ, (∀ y z, ∀ i < p1.n, J y z i = y i) ∧ ∀ y z, ∀ i < p2.n, J y z (p1.n + i) = z i :=
    ⟨fun y z i => if i < p1.n then y i else z (i - p1.n), fun y z i hi => if_pos hi, fun y z i _ => by simp⟩
  have hiff : t = .success ↔ t1 = .success ∧ t2 = .success := by
    rw [a.feasible_iff, a1.feasible_iff, a2.feasible_iff]
    constructor
    · rintro ⟨x, hx⟩
      obtain ⟨k1, k2⟩ := (h.feasible_iff (x := x) (y := x) (z := fun i => x (p1.n + i)) (fun _ _ => rfl) (fun _ _ => rfl)).1 hx
      exact ⟨⟨_, k1⟩, ⟨_, k2⟩⟩
    · rintro ⟨⟨y, hy⟩, ⟨z, hz⟩⟩
      exact ⟨J y z, (h.feasible_iff (hJ1 y z) (hJ2 y z)).2 ⟨hy, hz⟩⟩
  refine ⟨a.status, hiff, fun ht => ?_⟩
  obtain ⟨ht1, ht2⟩ := hiff.1 ht
  have b := a.optimal ht
  have b1 := a1.optimal ht1
  have b2 := a2.optimal ht2
  have c0 := (h.feasible_iff (hJ1 s1.x s2.x) (hJ2 s1.x s2.x)).2 ⟨b1.1.1, b2.1.1⟩
  have c1 : IsOptimal pb (J s1.x s2.x) := by
    refine ⟨c0, fun w hw => ?_⟩
    obtain ⟨k1, k2⟩ := (h.feasible_iff (x := w) (y := w) (z := fun i => w (p1.n + i)) (fun _ _ => rfl) (fun _ _ => rfl)).1 hw
    rw [h.obj_eq (hJ1 s1.x s2.x) (hJ2 s1.x s2.x), h.obj_eq (x := w) (y := w) (z := fun i => w (p1.n + i)) (fun _ _ => rfl) (fun _ _ => rfl)]
    exact add_le_add (b1.1.2 _ k1) (b2.1.2 _ k2)
  have c2 := b.2 _ c1
  refine ⟨fun i hi => ?_, fun i hi => ?_, ?_⟩
  · rw [← c2 i (by rw [h.n]; omega), hJ1 _ _ i hi]
  · rw [← c2 _ (by rw [h.n]; omega), hJ2 _ _ i hi]
  · rw [a.value, a1.value, a2.value, ← h.obj_eq (hJ1 s1.x s2.x) (hJ2 s1.x s2.x)]
    exact le_antisymm (b.1.2 _ c0) (c1.2 _ b.1.1)

/-! ## C96: loss of a feasible point -/

/-- **C96.** After `SUCCESS` no feasible direction descends, and a feasible point `y` loses at least half its squared distance to the solution, in the
norm of the Hessian: a nearly optimal point is near the solution. -/
theorem C96_growth {pb : Pb ℝ EReal} (hr : StdPb pb) :
    ∃ ε > 0, ∃ β : ℝ, ∀ o, Fine ε β pb o → ∀ s, Solves o pb .success s → ∀ y, Feasible pb y →
      0 ≤ ∑ a ∈ range pb.n, (∑ b ∈ range pb.n, hess pb a b * s.x b + pb.a a) * (y a - s.x a) ∧
      s.f + 1 / 2 * (∑ i ∈ range pb.n, ∑ j ∈ range pb.n, (y i - s.x i) * hess pb i j * (y j - s.x j)) ≤ obj pb y := by
  obtain ⟨ε, hε, β, hh⟩ := hr.answers
  refine ⟨ε, hε, β, fun o ho s hs y hy => ?_⟩
  have a := hh o ho _ _ hs
  have h1 := grad_step hr (a.optimal rfl).1 hy
  refine ⟨h1, ?_⟩
  rw [obj_taylor pb s.x y, ← a.value]
  unfold quadForm
  linarith

/-- **C96, strong convexity.** With a Hessian at least `μ` times the identity, the distance of a feasible point to the solution is at most
`√(2 (obj y - f) / μ)`. -/
theorem C96_distance {pb : Pb ℝ EReal} (hr : StdPb pb) {μ : ℝ}
    (hμ : ∀ v : Nat → ℝ, μ * ∑ i ∈ range pb.n, v i ^ 2 ≤ ∑ i ∈ range pb.n, ∑ j ∈ range pb.n, v i * hess pb i j * v j) :
    ∃ ε > 0, ∃ β : ℝ, ∀ o, Fine ε β pb o → ∀ s, Solves o pb .success s → ∀ y, Feasible pb y →
      μ * ∑ i ∈ range pb.n, (y i - s.x i) ^ 2 ≤ 2 * (obj pb y - s.f) := by
  obtain ⟨ε, hε, β, hh⟩ := C96_growth hr
  refine ⟨ε, hε, β, fun o ho s hs y hy => ?_⟩
  have h1 := (hh o ho s hs y hy).2
  have h2 := hμ fun i => y i - s.x i
  linarith

/-- **C91, symmetry.** When a problem is the same after a change of variables `φ` (it maps feasible points to feasible points with the same objective),
the solution is unchanged by `φ`. -/
theorem C91_symmetry {pb : Pb ℝ EReal} (hr : StdPb pb) {φ : (Nat → ℝ) → Nat → ℝ} (hφ : ∀ y, Feasible pb y → Feasible pb (φ y) ∧ obj pb (φ y) = obj pb y) :
    ∃ ε > 0, ∃ β : ℝ, ∀ o, Fine ε β pb o → ∀ s, Solves o pb .success s → ∀ i < pb.n, φ s.x i = s.x i := by
  obtain ⟨ε, hε, β, hh⟩ := hr.answers
  refine ⟨ε, hε, β, fun o ho s hs i hi => ?_⟩
  have b := (hh o ho _ _ hs).optimal rfl
  obtain ⟨c1, c2⟩ := hφ _ b.1.1
  exact b.2 _ ⟨c1, fun y hy => c2.le.trans (b.1.2 y hy)⟩ i hi

/-- The hypotheses of C95 and C96 are met: three bounded variables, the first one apart; the Hessian is at least twice the identity; exchanging the last
two variables changes nothing. All the problems are feasible. -/
theorem C95_hypotheses_met :
    ∃ pb p1 p2 : Pb ℝ EReal, StdPb pb ∧ StdPb p1 ∧ StdPb p2 ∧ Splits pb p1 p2 ∧ p1.n = 1 ∧ p2.n = 2 ∧ (∃ y, Feasible pb y) ∧
      (∀ v : Nat → ℝ, 2 * ∑ i ∈ range pb.n, v i ^ 2 ≤ ∑ i ∈ range pb.n, ∑ j ∈ range pb.n, v i * hess pb i j * v j) ∧
      (∀ y, Feasible p2 y → Feasible p2 (fun i => y (swap01 i)) ∧ obj p2 (fun i => y (swap01 i)) = obj p2 y) := by
  have hlt : ((1 : ℝ) : EReal) ≠ ((3 : ℝ) : EReal) := by rw [Ne, EReal.coe_eq_coe_iff]; norm_num
  have hle : ((1 : ℝ) : EReal) ≤ ((3 : ℝ) : EReal) := by rw [EReal.coe_le_coe_iff]; norm_num
  have std : ∀ n : Nat, StdPb (boxFam n (fun _ => 2) (fun _ => 1) (fun _ => ((1 : ℝ) : EReal)) (fun _ => ((3 : ℝ) : EReal))) := fun n =>
    boxFam_std (e := 0) (fun _ _ => by norm_num) (fun _ _ => EReal.coe_ne_top _) (fun _ _ => EReal.coe_ne_bot _) (fun _ _ => hle) (Nat.zero_le _)
      (fun _ _ => ⟨fun h => absurd h hlt, fun h => absurd h (Nat.not_lt_zero _)⟩)
  refine ⟨_, _, _, std 3, std 1, std 2, ⟨rfl, rfl, rfl, rfl, ?_, ?_, ?_, fun _ _ => rfl, fun _ _ => rfl, ?_, ?_, ?_, ?_, ?_, ?_,
    fun _ _ _ => ⟨rfl, rfl⟩, fun _ _ _ => ⟨rfl, rfl⟩⟩, rfl, rfl, ⟨fun _ => 2, ?_, ?_⟩, ?_, ?_⟩
  · intro i _ j _; rw [boxFam_hess, boxFam_hess]
  · intro i _ j _; rw [boxFam_hess, boxFam_hess]; simp [boxFam]
  · intro i hi j hj
    rw [boxFam_hess, if_neg]
    have : i < 1 := hi
    show i ≠ 1 + j
    omega
  · intro i _ j hj; exact absurd hj (Nat.not_lt_zero _)
  · intro i _ j hj; exact absurd hj (Nat.not_lt_zero _)
  · intro i _ j hj; exact absurd hj (Nat.not_lt_zero _)
  · intro i _ j hj; exact absurd hj (Nat.not_lt_zero _)
  · intro j hj; exact absurd hj (Nat.not_lt_zero _)
  · intro j hj; exact absurd hj (Nat.not_lt_zero _)
  · intro j hj; exact absurd hj (Nat.not_lt_zero _)
  · intro _ i _
    exact ⟨EReal.coe_le_coe_iff.2 (by norm_num), EReal.coe_le_coe_iff.2 (by norm_num)⟩
  · intro v
    rw [mul_sum]
    refine sum_le_sum fun i hi => ?_
    simp only [boxFam_hess]
    rw [sum_eq_single i (fun j _ hj => by rw [if_neg (Ne.symm hj)]; ring) (fun hn => absurd hi hn), if_pos rfl]
    exact le_of_eq (by ring)
  · intro y hy
    refine ⟨⟨fun j hj => absurd hj (Nat.not_lt_zero _), fun hb i hi => ?_⟩, ?_⟩
    · have hi : i < 2 := hi
      interval_cases i
      · exact hy.bnd hb 1 (by decide)
      · exact hy.bnd hb 0 (by decide)
    · unfold obj
      simp only [boxFam_hess]
      simp [boxFam, sum_range_succ, swap01]
      ring

end JrlQp
