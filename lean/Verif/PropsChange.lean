import Verif.PropsMeta
import Mathlib.Data.EReal.Inv

/-! C91: changes of variables. C92: relaxing sides without multiplier. C93: the multipliers are a certificate of optimality. (Exact arithmetic.) -/

namespace JrlQp

open NumOps Finset Spec

/-! ## C91: changes of variables -/

/-- Specification: `φ` maps the feasible points of `pb'` to feasible points of `pb`, `ψ` the other way round, and the objectives correspond up to a
positive factor `r` and a constant `k`. -/
structure Reformulates (r k : ℝ) (pb pb' : Pb ℝ EReal) (φ ψ : (Nat → ℝ) → Nat → ℝ) : Prop where
  fwd : ∀ y, Feasible pb' y → Feasible pb (φ y) ∧ obj pb (φ y) = r * obj pb' y + k
  bwd : ∀ x, Feasible pb x → Feasible pb' (ψ x) ∧ obj pb x = r * obj pb' (ψ x) + k

/-- **C91.** Only the mathematical problem matters, whatever the variables: when the points of `pb'` correspond to those of `pb` (permuted, scaled,
translated variables, fixed variables removed, ...), the two solves return the same status, and on success the solutions correspond both ways and
the objective values are related. Any histories, any options with fine enough thresholds. -/
theorem C91_change_of_variables {pb pb' : Pb ℝ EReal} (hr : StdPb pb) (hr' : StdPb pb') {r k : ℝ} (hrp : 0 < r) {φ ψ : (Nat → ℝ) → Nat → ℝ}
    (h : Reformulates r k pb pb' φ ψ) :
    ∃ ε > 0, ∃ β : ℝ, ∀ o o', Fine ε β pb o → Fine ε β pb' o' → ∀ t s t' s', Solves o pb t s → Solves o' pb' t' s' →
      t' = t ∧ (t = .success → (∀ i < pb.n, s.x i = φ s'.x i) ∧ (∀ i < pb'.n, s'.x i = ψ s.x i) ∧ s.f = r * s'.f + k) := by
  obtain ⟨ε, hε, β, hh⟩ := two_answers hr hr'
  refine ⟨ε, hε, β, fun o o' ho1 ho' t s t' s' h1 h2 => ?_⟩
  obtain ⟨a1, a2⟩ := hh o o' ho1 ho' _ _ _ _ h1 h2
  have hiff : t' = .success ↔ t = .success := by
    rw [a1.feasible_iff, a2.feasible_iff]
    exact ⟨fun ⟨y, g⟩ => ⟨_, (h.fwd y g).1⟩, fun ⟨y, g⟩ => ⟨_, (h.bwd y g).1⟩⟩
  have ht : t' = t := by
    rcases a1.status with g | g
    · rw [g]; exact hiff.2 g
    · rcases a2.status with g' | g'
      · exact absurd (hiff.1 g') (by rw [g]; simp)
      · rw [g, g']
  refine ⟨ht, fun hs => ?_⟩
  have b1 := a1.optimal hs
  have b2 := a2.optimal (ht.trans hs)
  obtain ⟨c1, c2⟩ := h.fwd _ b2.1.1
  obtain ⟨d1, d2⟩ := h.bwd _ b1.1.1
  have e1 := b2.1.2 _ d1
  have e2 := b1.1.2 _ c1
  have e3 : r * obj pb' s'.x ≤ r * obj pb' (ψ s.x) := mul_le_mul_of_nonneg_left e1 hrp.le
  have o1 : IsOptimal pb (φ s'.x) := ⟨c1, fun y hy => by have := b1.1.2 y hy; linarith⟩
  have o2 : IsOptimal pb' (ψ s.x) := ⟨d1, fun y hy => by
    have g1 := b2.1.2 y hy
    have g2 : r * obj pb' (ψ s.x) ≤ r * obj pb' s'.x := by linarith
    have g3 : obj pb' (ψ s.x) ≤ obj pb' s'.x := le_of_mul_le_mul_left g2 hrp
    linarith⟩
  refine ⟨fun i hi => (b1.2 _ o1 i hi).symm, fun i hi => (b2.2 _ o2 i hi).symm, ?_⟩
  rw [a1.value, a2.value]
  linarith

/-- Specification: `pb'` is `pb` with the variables `y` such that `x (σ i) = d i * y i + t (σ i)`, and the constraints in the order `ρ`; `τ` and `ω`
are the inverse permutations. -/
structure Rewritten (pb pb' : Pb ℝ EReal) (σ τ ρ ω : Nat → Nat) (d t : Nat → ℝ) : Prop where
  n : pb'.n = pb.n
  m : pb'.m = pb.m
  useBnd : pb'.useBnd = pb.useBnd
  perm : ∀ i < pb.n, σ i < pb.n ∧ τ i < pb.n ∧ σ (τ i) = i ∧ τ (σ i) = i
  permC : ∀ j < pb.m, ρ j < pb.m ∧ ω j < pb.m ∧ ρ (ω j) = j ∧ ω (ρ j) = j
  pos : ∀ i < pb.n, 0 < d i
  G : ∀ i < pb.n, ∀ j < pb.n, hess pb' i j = d i * hess pb (σ i) (σ j) * d j
  a : ∀ i < pb.n, pb'.a i = d i * (pb.a (σ i) + ∑ k ∈ range pb.n, hess pb (σ i) k * t k)
  C : ∀ i < pb.n, ∀ j < pb.m, pb'.C i j = d i * pb.C (σ i) (ρ j)
  bl : ∀ j < pb.m, pb'.bl j = pb.bl (ρ j) - ((row pb t (ρ j) : ℝ) : EReal)
  bu : ∀ j < pb.m, pb'.bu j = pb.bu (ρ j) - ((row pb t (ρ j) : ℝ) : EReal)
  xl : pb.useBnd = true → ∀ i < pb.n, pb'.xl i = (pb.xl (σ i) - ((t (σ i) : ℝ) : EReal)) / ((d i : ℝ) : EReal)
  xu : pb.useBnd = true → ∀ i < pb.n, pb'.xu i = (pb.xu (σ i) - ((t (σ i) : ℝ) : EReal)) / ((d i : ℝ) : EReal)

/-- The point of `pb` corresponding to `y`. -/
def unwrite (τ : Nat → Nat) (d t : Nat → ℝ) (y : Nat → ℝ) : Nat → ℝ := fun i => d (τ i) * y (τ i) + t i

/-- The point of `pb'` corresponding to `x`. -/
noncomputable def rewrite (σ : Nat → Nat) (d t : Nat → ℝ) (x : Nat → ℝ) : Nat → ℝ := fun i => (x (σ i) - t (σ i)) / d i

theorem ereal_sub_le (l : EReal) (c v : ℝ) : l - (c : EReal) ≤ (v : EReal) ↔ l ≤ ((v + c : ℝ) : EReal) := by
  rw [EReal.sub_le_iff_le_add (.inl (EReal.coe_ne_bot _)) (.inl (EReal.coe_ne_top _)), EReal.coe_add]

theorem ereal_le_sub (u : EReal) (c v : ℝ) : (v : EReal) ≤ u - (c : EReal) ↔ ((v + c : ℝ) : EReal) ≤ u := by
  rw [EReal.le_sub_iff_add_le (.inl (EReal.coe_ne_bot _)) (.inl (EReal.coe_ne_top _)), EReal.coe_add]

namespace Rewritten

variable {pb pb' : Pb ℝ EReal} {σ τ ρ ω : Nat → Nat} {d t : Nat → ℝ}

/-- Sums can be taken in the new order. -/
theorem sum_perm (h : Rewritten pb pb' σ τ ρ ω d t) (f : Nat → ℝ) : ∑ i ∈ range pb.n, f i = ∑ i ∈ range pb.n, f (σ i) := by
  refine sum_nbij' τ σ ?_ ?_ ?_ ?_ ?_
  · intro i hi; exact mem_range.2 (h.perm i (mem_range.1 hi)).2.1
  · intro i hi; exact mem_range.2 (h.perm i (mem_range.1 hi)).1
  · intro i hi; exact (h.perm i (mem_range.1 hi)).2.2.1
  · intro i hi; exact (h.perm i (mem_range.1 hi)).2.2.2
  · intro i hi; rw [(h.perm i (mem_range.1 hi)).2.2.1]

theorem unwrite_at (h : Rewritten pb pb' σ τ ρ ω d t) (y : Nat → ℝ) {i : Nat} (hi : i < pb.n) : unwrite τ d t y (σ i) = d i * y i + t (σ i) := by
  unfold unwrite; rw [(h.perm i hi).2.2.2]

theorem row_eq (h : Rewritten pb pb' σ τ ρ ω d t) (y : Nat → ℝ) {j : Nat} (hj : j < pb.m) :
    row pb (unwrite τ d t y) (ρ j) = row pb' y j + row pb t (ρ j) := by
  unfold row
  rw [h.sum_perm, h.sum_perm (fun a => pb.C a (ρ j) * t a), h.n, ← sum_add_distrib]
  refine sum_congr rfl fun i hi => ?_
  have hi := mem_range.1 hi
  rw [h.unwrite_at y hi, h.C i hi j hj]; ring

theorem feasible_iff (h : Rewritten pb pb' σ τ ρ ω d t) (y : Nat → ℝ) : Feasible pb' y ↔ Feasible pb (unwrite τ d t y) := by
  have hg : ∀ j < pb.m, (pb'.bl j ≤ ((row pb' y j : ℝ) : EReal) ∧ ((row pb' y j : ℝ) : EReal) ≤ pb'.bu j) ↔
      (pb.bl (ρ j) ≤ ((row pb (unwrite τ d t y) (ρ j) : ℝ) : EReal) ∧ ((row pb (unwrite τ d t y) (ρ j) : ℝ) : EReal) ≤ pb.bu (ρ j)) := by
    intro j hj
    rw [h.bl j hj, h.bu j hj, ereal_sub_le, ereal_le_sub, h.row_eq y hj]
  have hb : pb.useBnd = true → ∀ i < pb.n, (pb'.xl i ≤ ((y i : ℝ) : EReal) ∧ ((y i : ℝ) : EReal) ≤ pb'.xu i) ↔
      (pb.xl (σ i) ≤ ((unwrite τ d t y (σ i) : ℝ) : EReal) ∧ ((unwrite τ d t y (σ i) : ℝ) : EReal) ≤ pb.xu (σ i)) := by
    intro hub i hi
    have hd : (0 : EReal) < ((d i : ℝ) : EReal) := by exact_mod_cast h.pos i hi
    rw [h.xl hub i hi, h.xu hub i hi, EReal.div_le_iff_le_mul hd (EReal.coe_ne_top _), EReal.le_div_iff_mul_le hd (EReal.coe_ne_top _),
      ← EReal.coe_mul, ← EReal.coe_mul, ereal_sub_le, ereal_le_sub, h.unwrite_at y hi, mul_comm (y i)]
  constructor
  · intro hy
    refine ⟨fun j hj => ?_, fun hub i hi => ?_⟩
    · have := (hg (ω j) (h.permC j hj).2.1).1 (hy.gen _ (by rw [h.m]; exact (h.permC j hj).2.1))
      rwa [(h.permC j hj).2.2.1] at this
    · have := (hb hub (τ i) (h.perm i hi).2.1).1 (hy.bnd (by rw [h.useBnd]; exact hub) _ (by rw [h.n]; exact (h.perm i hi).2.1))
      rwa [(h.perm i hi).2.2.1] at this
  · intro hx
    refine ⟨fun j hj => ?_, fun hub i hi => ?_⟩
    · rw [h.m] at hj
      exact (hg j hj).2 (hx.gen _ (h.permC j hj).1)
    · rw [h.n] at hi
      rw [h.useBnd] at hub
      exact (hb hub i hi).2 (hx.bnd hub _ (h.perm i hi).1)

theorem obj_eq (h : Rewritten pb pb' σ τ ρ ω d t) (y : Nat → ℝ) : obj pb (unwrite τ d t y) = obj pb' y + obj pb t := by
  rw [obj_taylor pb t (unwrite τ d t y)]
  have e1 : quadForm pb (fun i => unwrite τ d t y i - t i) = ∑ i ∈ range pb.n, ∑ j ∈ range pb.n, y i * hess pb' i j * y j := by
    unfold quadForm
    rw [h.sum_perm]
    refine sum_congr rfl fun i hi => ?_
    have hi := mem_range.1 hi
    rw [h.sum_perm]
    refine sum_congr rfl fun j hj => ?_
    have hj := mem_range.1 hj
    simp only []
    rw [h.unwrite_at y hi, h.unwrite_at y hj, h.G i hi j hj]; ring
  have e2 : ∑ a ∈ range pb.n, (∑ b ∈ range pb.n, hess pb a b * t b + pb.a a) * (unwrite τ d t y a - t a) = ∑ i ∈ range pb.n, pb'.a i * y i := by
    rw [h.sum_perm]
    refine sum_congr rfl fun i hi => ?_
    have hi := mem_range.1 hi
    rw [h.unwrite_at y hi, h.a i hi]; ring
  rw [e1, e2]
  conv_rhs => unfold obj
  rw [h.n]
  ring_nf
  unfold obj
  ring

theorem back (h : Rewritten pb pb' σ τ ρ ω d t) (x : Nat → ℝ) {i : Nat} (hi : i < pb.n) : unwrite τ d t (rewrite σ d t x) i = x i := by
  have hp := h.perm i hi
  have hd := (h.pos _ hp.2.1).ne'
  unfold unwrite rewrite
  rw [hp.2.2.1]
  field_simp
  ring

end Rewritten

theorem feasible_congr_lt {pb : Pb ℝ EReal} {x y : Nat → ℝ} (h : ∀ i < pb.n, x i = y i) : Feasible pb x ↔ Feasible pb y := by
  have hr : ∀ j, row pb x j = row pb y j := fun j => sum_congr rfl fun i hi => by rw [h i (mem_range.1 hi)]
  constructor
  · intro hx
    exact ⟨fun j hj => by rw [← hr]; exact hx.gen j hj, fun hb i hi => by rw [← h i hi]; exact hx.bnd hb i hi⟩
  · intro hx
    exact ⟨fun j hj => by rw [hr]; exact hx.gen j hj, fun hb i hi => by rw [h i hi]; exact hx.bnd hb i hi⟩

/-- **C91**, permuted, scaled and translated variables, permuted constraints: `solution()` of the rewritten problem is the rewritten solution, and
`objectiveValue()` changes by the objective at the translation. -/
theorem C91_rewritten {pb pb' : Pb ℝ EReal} (hr : StdPb pb) (hr' : StdPb pb') {σ τ ρ ω : Nat → Nat} {d t : Nat → ℝ}
    (h : Rewritten pb pb' σ τ ρ ω d t) :
    ∃ ε > 0, ∃ β : ℝ, ∀ o o', Fine ε β pb o → Fine ε β pb' o' → ∀ st s st' s', Solves o pb st s → Solves o' pb' st' s' →
      st' = st ∧ (st = .success → (∀ i < pb.n, s.x (σ i) = d i * s'.x i + t (σ i)) ∧ s.f = s'.f + obj pb t) := by
  have hR : Reformulates 1 (obj pb t) pb pb' (unwrite τ d t) (rewrite σ d t) := by
    refine ⟨fun y hy => ⟨(h.feasible_iff y).1 hy, by rw [h.obj_eq]; ring⟩, fun x hx => ?_⟩
    have hb : ∀ i < pb.n, unwrite τ d t (rewrite σ d t x) i = x i := fun i hi => h.back x hi
    refine ⟨(h.feasible_iff _).2 ((feasible_congr_lt hb).2 hx), ?_⟩
    rw [← obj_congr pb hb, h.obj_eq]; ring
  obtain ⟨ε, hε, β, hh⟩ := C91_change_of_variables hr hr' one_pos hR
  refine ⟨ε, hε, β, fun o o' ho ho' st s st' s' h1 h2 => ?_⟩
  obtain ⟨g1, g2⟩ := hh o o' ho ho' st s st' s' h1 h2
  refine ⟨g1, fun hs => ?_⟩
  obtain ⟨k1, -, k3⟩ := g2 hs
  exact ⟨fun i hi => by rw [k1 _ (h.perm i hi).1, h.unwrite_at _ hi], by linarith⟩

/-- Specification: `pb'` is `pb` without its first variable, which the bounds of `pb` fix at `v`. (The standard problems have their equalities first, so
a fixed variable comes before the other ones.) -/
structure Eliminated (v : ℝ) (pb pb' : Pb ℝ EReal) : Prop where
  n : pb.n = pb'.n + 1
  m : pb'.m = pb.m
  bnd : pb.useBnd = true
  bnd' : pb'.useBnd = true
  fixedL : pb.xl 0 = ((v : ℝ) : EReal)
  fixedU : pb.xu 0 = ((v : ℝ) : EReal)
  G : ∀ i < pb'.n, ∀ j < pb'.n, hess pb' i j = hess pb (i + 1) (j + 1)
  a : ∀ i < pb'.n, pb'.a i = pb.a (i + 1) + hess pb (i + 1) 0 * v
  C : ∀ i < pb'.n, ∀ j < pb.m, pb'.C i j = pb.C (i + 1) j
  bl : ∀ j < pb.m, pb'.bl j = pb.bl j - ((pb.C 0 j * v : ℝ) : EReal)
  bu : ∀ j < pb.m, pb'.bu j = pb.bu j - ((pb.C 0 j * v : ℝ) : EReal)
  xl : ∀ i < pb'.n, pb'.xl i = pb.xl (i + 1)
  xu : ∀ i < pb'.n, pb'.xu i = pb.xu (i + 1)

namespace Eliminated

variable {v : ℝ} {pb pb' : Pb ℝ EReal}

theorem row_eq (h : Eliminated v pb pb') {x y : Nat → ℝ} (hx : ∀ i < pb'.n, x (i + 1) = y i) (hv : x 0 = v) {j : Nat} (hj : j < pb.m) :
    row pb x j = row pb' y j + pb.C 0 j * v := by
  unfold row
  rw [h.n, sum_range_succ', hv]
  congr 1
  refine sum_congr rfl fun i hi => ?_
  have hi := mem_range.1 hi
  rw [hx i hi, h.C i hi j hj]

theorem obj_eq (h : Eliminated v pb pb') {x y : Nat → ℝ} (hx : ∀ i < pb'.n, x (i + 1) = y i) (hv : x 0 = v) :
    obj pb x = obj pb' y + (1 / 2 * (v * hess pb 0 0 * v) + pb.a 0 * v) := by
  have e1 : ∑ i ∈ range pb'.n, ∑ j ∈ range pb'.n, x (i + 1) * hess pb (i + 1) (j + 1) * x (j + 1)
      = ∑ i ∈ range pb'.n, ∑ j ∈ range pb'.n, y i * hess pb' i j * y j :=
    sum_congr rfl fun i hi => sum_congr rfl fun j hj => by
      rw [hx i (mem_range.1 hi), hx j (mem_range.1 hj), h.G i (mem_range.1 hi) j (mem_range.1 hj)]
  have e2 : ∑ i ∈ range pb'.n, pb'.a i * y i
      = ∑ i ∈ range pb'.n, pb.a (i + 1) * x (i + 1) + ∑ i ∈ range pb'.n, x (i + 1) * hess pb (i + 1) 0 * v := by
    rw [← sum_add_distrib]
    exact sum_congr rfl fun i hi => by rw [h.a i (mem_range.1 hi), hx i (mem_range.1 hi)]; ring
  have e3 : ∑ j ∈ range pb'.n, v * hess pb 0 (j + 1) * x (j + 1) = ∑ i ∈ range pb'.n, x (i + 1) * hess pb (i + 1) 0 * v :=
    sum_congr rfl fun i _ => by rw [hess_comm' pb 0 (i + 1)]; ring
  unfold obj
  rw [h.n, sum_range_succ', sum_range_succ']
  simp only [sum_range_succ' (n := pb'.n)]
  rw [sum_add_distrib, e1, e2, hv, e3]
  ring

theorem fixed (h : Eliminated v pb pb') {x : Nat → ℝ} (hx : Feasible pb x) : x 0 = v := by
  have := hx.bnd h.bnd 0 (by rw [h.n]; omega)
  rw [h.fixedL, h.fixedU, EReal.coe_le_coe_iff, EReal.coe_le_coe_iff] at this
  exact le_antisymm this.2 this.1

theorem feasible_iff (h : Eliminated v pb pb') {x y : Nat → ℝ} (hx : ∀ i < pb'.n, x (i + 1) = y i) (hv : x 0 = v) : Feasible pb x ↔ Feasible pb' y := by
  constructor
  · intro hf
    refine ⟨fun j hj => ?_, fun _ i hi => ?_⟩
    · rw [h.m] at hj
      rw [h.bl j hj, h.bu j hj, ereal_sub_le, ereal_le_sub, ← h.row_eq hx hv hj]
      exact hf.gen j hj
    · rw [h.xl i hi, h.xu i hi, ← hx i hi]
      exact hf.bnd h.bnd (i + 1) (by rw [h.n]; omega)
  · intro hf
    refine ⟨fun j hj => ?_, fun _ i hi => ?_⟩
    · have := hf.gen j (by rw [h.m]; exact hj)
      rwa [h.bl j hj, h.bu j hj, ereal_sub_le, ereal_le_sub, ← h.row_eq hx hv hj] at this
    · rw [h.n] at hi
      cases i with
      | zero => rw [hv, h.fixedL, h.fixedU]; exact ⟨le_rfl, le_rfl⟩
      | succ i =>
        have hi : i < pb'.n := by omega
        have := hf.bnd h.bnd' i hi
        rwa [h.xl i hi, h.xu i hi, ← hx i hi] at this

end Eliminated

/-- **C91**, a fixed variable can be removed: same status, same solution for the other variables, and the objective values differ by the contribution of
the fixed variable. -/
theorem C91_fixed_variable {v : ℝ} {pb pb' : Pb ℝ EReal} (hr : StdPb pb) (hr' : StdPb pb') (h : Eliminated v pb pb') :
    ∃ ε > 0, ∃ β : ℝ, ∀ o o', Fine ε β pb o → Fine ε β pb' o' → ∀ st s st' s', Solves o pb st s → Solves o' pb' st' s' →
      st' = st ∧ (st = .success → (∀ i < pb'.n, s.x (i + 1) = s'.x i) ∧ s.x 0 = v ∧
        s.f = s'.f + (1 / 2 * (v * hess pb 0 0 * v) + pb.a 0 * v)) := by
  have hR : Reformulates 1 (1 / 2 * (v * hess pb 0 0 * v) + pb.a 0 * v) pb pb' (fun y i => if i = 0 then v else y (i - 1)) (fun x i => x (i + 1)) := by
    refine ⟨fun y hy => ?_, fun x hx => ?_⟩
    · have h1 : ∀ i < pb'.n, (fun i => if i = 0 then v else y (i - 1)) (i + 1) = y i := fun i _ => by simp
      have h2 : (fun i => if i = 0 then v else y (i - 1)) 0 = v := if_pos rfl
      exact ⟨(h.feasible_iff h1 h2).2 hy, by rw [h.obj_eq h1 h2]; ring⟩
    · have hv := h.fixed hx
      exact ⟨(h.feasible_iff (fun _ _ => rfl) hv).1 hx, by rw [h.obj_eq (fun _ _ => rfl) hv]; ring⟩
  obtain ⟨ε, hε, β, hh⟩ := C91_change_of_variables hr hr' one_pos hR
  refine ⟨ε, hε, β, fun o o' ho ho' st s st' s' h1 h2 => ?_⟩
  obtain ⟨g1, g2⟩ := hh o o' ho ho' st s st' s' h1 h2
  refine ⟨g1, fun hs => ?_⟩
  obtain ⟨k1, -, k3⟩ := g2 hs
  refine ⟨fun i hi => ?_, ?_, by linarith⟩
  · rw [k1 (i + 1) (by rw [h.n]; omega)]; simp
  · rw [k1 0 (by rw [h.n]; omega), if_pos rfl]

/-! ## C92: relaxing sides without multiplier -/

/-- Specification: `pb'` is `pb` with other right-hand sides and bounds: the sides that carry a multiplier are the same, the others are relaxed. -/
structure RelaxesFree (pb pb' : Pb ℝ EReal) (lam : Nat → ℝ) : Prop where
  same : SameButBounds pb pb'
  bl : ∀ i < pb.m, pb'.bl i ≤ pb.bl i ∧ (lam i < 0 → pb'.bl i = pb.bl i)
  bu : ∀ i < pb.m, pb.bu i ≤ pb'.bu i ∧ (0 < lam i → pb'.bu i = pb.bu i)
  xl : pb.useBnd = true → ∀ i < pb.n, pb'.xl i ≤ pb.xl i ∧ (lam (pb.m + i) < 0 → pb'.xl i = pb.xl i)
  xu : pb.useBnd = true → ∀ i < pb.n, pb.xu i ≤ pb'.xu i ∧ (0 < lam (pb.m + i) → pb'.xu i = pb.xu i)

theorem kkt_isOptimal {pb : Pb ℝ EReal} (hr : StdPb pb) {x lam : Nat → ℝ} (h : KKT pb x lam) : IsOptimal pb x := by
  refine ⟨h.feasible, fun y hy => ?_⟩
  rw [kkt_expand h y]
  have hq := quadForm_nonneg hr (fun i => y i - x i)
  have key : ∀ (l v w : ℝ) (lo up : EReal), (l < 0 → ((v : ℝ) : EReal) = lo) → (0 < l → ((v : ℝ) : EReal) = up) →
      lo ≤ ((w : ℝ) : EReal) → ((w : ℝ) : EReal) ≤ up → l * (w - v) ≤ 0 := by
    intro l v w lo up h1 h2 h3 h4
    rcases lt_trichotomy l 0 with hl | hl | hl
    · rw [← h1 hl, EReal.coe_le_coe_iff] at h3
      exact mul_nonpos_of_nonpos_of_nonneg hl.le (sub_nonneg.2 h3)
    · rw [hl]; simp
    · rw [← h2 hl, EReal.coe_le_coe_iff] at h4
      exact mul_nonpos_of_nonneg_of_nonpos hl.le (sub_nonpos.2 h4)
  have g1 : ∑ i ∈ range pb.m, lam i * (row pb y i - row pb x i) ≤ 0 :=
    sum_nonpos fun i hi => key _ _ _ _ _ (h.lower i (mem_range.1 hi)) (h.upper i (mem_range.1 hi)) (hy.gen i (mem_range.1 hi)).1 (hy.gen i (mem_range.1 hi)).2
  have g2 : (if pb.useBnd then ∑ a ∈ range pb.n, lam (pb.m + a) * (y a - x a) else 0) ≤ 0 := by
    split_ifs with hb
    · exact sum_nonpos fun i hi => key _ _ _ _ _ (h.lowerBnd hb i (mem_range.1 hi)) (h.upperBnd hb i (mem_range.1 hi))
        (hy.bnd hb i (mem_range.1 hi)).1 (hy.bnd hb i (mem_range.1 hi)).2
    · exact le_rfl
  linarith

/-- **C92.** Relaxing (or removing) sides that carry no multiplier changes nothing: when `multipliers()` is not negative (resp. positive) for the lower
(resp. upper) sides relaxed in `pb'`, the solve of `pb'` returns `SUCCESS`, the same solution and the same objective value. Any histories, any options
with fine enough thresholds. -/
theorem C92_relax_free_sides {pb pb' : Pb ℝ EReal} (hr : StdPb pb) (hr' : StdPb pb') :
    ∃ ε > 0, ∃ β : ℝ, ∀ o o', Fine ε β pb o → Fine ε β pb' o' → ∀ s t' s', Solves o pb .success s → Solves o' pb' t' s' →
      RelaxesFree pb pb' (multipliers s).u → t' = .success ∧ (∀ i < pb.n, s'.x i = s.x i) ∧ s'.f = s.f := by
  obtain ⟨ε, hε, β, hh⟩ := two_answers hr hr'
  refine ⟨ε, hε, β, fun o o' ho ho' s t' s' h1 h2 h => ?_⟩
  obtain ⟨a1, a2⟩ := hh o o' ho ho' _ _ _ _ h1 h2
  have k := a1.kkt rfl
  have hrow : ∀ x j, row pb' x j = row pb x j := fun x j => by unfold row; rw [h.same.n, h.same.C]
  have hH : ∀ i j, hess pb' i j = hess pb i j := fun i j => by unfold hess; rw [h.same.G]
  have hfe : Feasible pb' s.x := by
    refine ⟨fun i hi => ?_, fun hb i hi => ?_⟩
    · rw [h.same.m] at hi
      rw [hrow]
      exact ⟨(h.bl i hi).1.trans (k.feasible.gen i hi).1, (k.feasible.gen i hi).2.trans (h.bu i hi).1⟩
    · rw [h.same.useBnd] at hb
      rw [h.same.n] at hi
      exact ⟨(h.xl hb i hi).1.trans (k.feasible.bnd hb i hi).1, (k.feasible.bnd hb i hi).2.trans (h.xu hb i hi).1⟩
  have k' : KKT pb' s.x (multipliers s).u := by
    refine ⟨hfe, fun a ha => ?_, fun i hi hl => ?_, fun i hi hl => ?_, fun hb i hi hl => ?_, fun hb i hi hl => ?_⟩
    · rw [h.same.n] at ha
      have := k.stationary a ha
      rw [h.same.n, h.same.m, h.same.a, h.same.C, h.same.useBnd]
      simp only [hH]
      exact this
    · rw [h.same.m] at hi
      rw [hrow, (h.bl i hi).2 hl]; exact k.lower i hi hl
    · rw [h.same.m] at hi
      rw [hrow, (h.bu i hi).2 hl]; exact k.upper i hi hl
    · rw [h.same.useBnd] at hb
      rw [h.same.n] at hi
      rw [h.same.m] at hl
      rw [(h.xl hb i hi).2 hl]; exact k.lowerBnd hb i hi hl
    · rw [h.same.useBnd] at hb
      rw [h.same.n] at hi
      rw [h.same.m] at hl
      rw [(h.xu hb i hi).2 hl]; exact k.upperBnd hb i hi hl
  have ht : t' = .success := a2.feasible_iff.2 ⟨_, hfe⟩
  have hx := (a2.optimal ht).2 _ (kkt_isOptimal hr' k')
  rw [h.same.n] at hx
  refine ⟨ht, fun i hi => (hx i hi).symm, ?_⟩
  rw [a1.value, a2.value, obj_same h.same]
  exact obj_congr pb fun i hi => (hx i hi).symm

/-! ## C93: duality -/

/-- Specification: contribution of a constraint of multiplier `l` to the dual objective. -/
noncomputable def sideCost (l : ℝ) (lo up : EReal) : ℝ := if l < 0 then l * lo.toReal else if 0 < l then l * up.toReal else 0

/-- Specification: the dual objective. -/
noncomputable def dualObj (pb : Pb ℝ EReal) (z mu : Nat → ℝ) : ℝ :=
  - (1 / 2 * ∑ i ∈ range pb.n, ∑ j ∈ range pb.n, z i * hess pb i j * z j) - ∑ i ∈ range pb.m, sideCost (mu i) (pb.bl i) (pb.bu i)
    - if pb.useBnd then ∑ i ∈ range pb.n, sideCost (mu (pb.m + i)) (pb.xl i) (pb.xu i) else 0

/-- Specification: points of the dual problem: the gradient of the Lagrangian vanishes and only finite sides have a multiplier. -/
structure DualFeasible (pb : Pb ℝ EReal) (z mu : Nat → ℝ) : Prop where
  stationary : ∀ a < pb.n, ∑ b ∈ range pb.n, hess pb a b * z b + pb.a a + ∑ i ∈ range pb.m, mu i * pb.C a i
      + (if pb.useBnd then mu (pb.m + a) else 0) = 0
  bl : ∀ i < pb.m, mu i < 0 → pb.bl i ≠ ⊥
  bu : ∀ i < pb.m, 0 < mu i → pb.bu i ≠ ⊤
  xl : pb.useBnd = true → ∀ i < pb.n, mu (pb.m + i) < 0 → pb.xl i ≠ ⊥
  xu : pb.useBnd = true → ∀ i < pb.n, 0 < mu (pb.m + i) → pb.xu i ≠ ⊤

theorem sideCost_ge {l w : ℝ} {lo up : EReal} (h1 : lo ≤ ((w : ℝ) : EReal)) (h2 : ((w : ℝ) : EReal) ≤ up) (h3 : l < 0 → lo ≠ ⊥) (h4 : 0 < l → up ≠ ⊤) :
    l * w ≤ sideCost l lo up := by
  unfold sideCost
  split_ifs with hn hp
  · have := EReal.toReal_le_toReal h1 (h3 hn) (EReal.coe_ne_top _)
    rw [EReal.toReal_coe] at this
    nlinarith
  · have := EReal.toReal_le_toReal h2 (EReal.coe_ne_bot _) (h4 hp)
    rw [EReal.toReal_coe] at this
    nlinarith
  · have : l = 0 := le_antisymm (not_lt.1 hp) (not_lt.1 hn)
    rw [this]; simp

theorem sideCost_eq {l w : ℝ} {lo up : EReal} (h1 : l < 0 → ((w : ℝ) : EReal) = lo) (h2 : 0 < l → ((w : ℝ) : EReal) = up) : sideCost l lo up = l * w := by
  unfold sideCost
  split_ifs with hn hp
  · rw [← h1 hn, EReal.toReal_coe]
  · rw [← h2 hp, EReal.toReal_coe]
  · have : l = 0 := le_antisymm (not_lt.1 hp) (not_lt.1 hn)
    rw [this]; simp

/-- The objective in terms of a dual point. -/
theorem obj_dual {pb : Pb ℝ EReal} {z mu : Nat → ℝ} (h : DualFeasible pb z mu) (y : Nat → ℝ) :
    obj pb y = 1 / 2 * quadForm pb (fun i => y i - z i) - 1 / 2 * (∑ i ∈ range pb.n, ∑ j ∈ range pb.n, z i * hess pb i j * z j)
      - ∑ i ∈ range pb.m, mu i * row pb y i - if pb.useBnd then ∑ a ∈ range pb.n, mu (pb.m + a) * y a else 0 := by
  have hz := obj_taylor pb z y
  have h0 : obj pb z = 1 / 2 * (∑ i ∈ range pb.n, ∑ j ∈ range pb.n, z i * hess pb i j * z j) + ∑ i ∈ range pb.n, pb.a i * z i := rfl
  have e0 : ∑ a ∈ range pb.n, (∑ b ∈ range pb.n, hess pb a b * z b + pb.a a) * z a
      = ∑ i ∈ range pb.n, ∑ j ∈ range pb.n, z i * hess pb i j * z j + ∑ i ∈ range pb.n, pb.a i * z i := by
    rw [← sum_add_distrib]
    refine sum_congr rfl fun i _ => ?_
    rw [add_mul, sum_mul]
    congr 1
    exact sum_congr rfl fun j _ => by ring
  have e1 : ∑ a ∈ range pb.n, (∑ b ∈ range pb.n, hess pb a b * z b + pb.a a) * y a
      = - ∑ i ∈ range pb.m, mu i * row pb y i - if pb.useBnd then ∑ a ∈ range pb.n, mu (pb.m + a) * y a else 0 := by
    have : ∀ a ∈ range pb.n, (∑ b ∈ range pb.n, hess pb a b * z b + pb.a a) * y a
        = - (∑ i ∈ range pb.m, mu i * (pb.C a i * y a)) - (if pb.useBnd then mu (pb.m + a) * y a else 0) := by
      intro a ha
      have hs := h.stationary a (mem_range.1 ha)
      have e : ∑ i ∈ range pb.m, mu i * (pb.C a i * y a) = (∑ i ∈ range pb.m, mu i * pb.C a i) * y a := by
        rw [sum_mul]; exact sum_congr rfl fun i _ => by ring
      rw [e]
      split_ifs with hb
      · rw [if_pos hb] at hs
        have : ∑ b ∈ range pb.n, hess pb a b * z b + pb.a a = - (∑ i ∈ range pb.m, mu i * pb.C a i) - mu (pb.m + a) := by linarith
        rw [this]; ring
      · rw [if_neg hb] at hs
        have : ∑ b ∈ range pb.n, hess pb a b * z b + pb.a a = - (∑ i ∈ range pb.m, mu i * pb.C a i) := by linarith
        rw [this]; ring
    rw [sum_congr rfl this, sum_sub_distrib, sum_neg_distrib, sum_comm]
    congr 1
    · congr 1
      exact sum_congr rfl fun i _ => by unfold row; rw [mul_sum]
    · split_ifs <;> simp
  have e2 : ∑ a ∈ range pb.n, (∑ b ∈ range pb.n, hess pb a b * z b + pb.a a) * (y a - z a)
      = ∑ a ∈ range pb.n, (∑ b ∈ range pb.n, hess pb a b * z b + pb.a a) * y a
        - ∑ a ∈ range pb.n, (∑ b ∈ range pb.n, hess pb a b * z b + pb.a a) * z a := by
    rw [← sum_sub_distrib]; exact sum_congr rfl fun a _ => by ring
  rw [hz, h0, e2, e0, e1]
  ring

theorem Answer.duality {pb : Pb ℝ EReal} (hr : StdPb pb) {s : State ℝ} (a1 : Answer pb .success s) :
    DualFeasible pb s.x (multipliers s).u ∧ dualObj pb s.x (multipliers s).u = s.f ∧
      (∀ z mu, DualFeasible pb z mu → dualObj pb z mu ≤ s.f) ∧ ∀ y, Feasible pb y → s.f ≤ obj pb y := by
  have k := a1.kkt rfl
  have hd : DualFeasible pb s.x (multipliers s).u := by
    refine ⟨k.stationary, fun i hi hl => ?_, fun i hi hl => ?_, fun hb i hi hl => ?_, fun hb i hi hl => ?_⟩
    · rw [← k.lower i hi hl]; exact EReal.coe_ne_bot _
    · rw [← k.upper i hi hl]; exact EReal.coe_ne_top _
    · rw [← k.lowerBnd hb i hi hl]; exact EReal.coe_ne_bot _
    · rw [← k.upperBnd hb i hi hl]; exact EReal.coe_ne_top _
  refine ⟨hd, ?_, fun z mu h => ?_, fun y hy => ?_⟩
  · have hq : quadForm pb (fun i => s.x i - s.x i) = 0 := by unfold quadForm; simp
    rw [a1.value, obj_dual hd, hq]
    have e1 : ∑ i ∈ range pb.m, sideCost ((multipliers s).u i) (pb.bl i) (pb.bu i) = ∑ i ∈ range pb.m, (multipliers s).u i * row pb s.x i :=
      sum_congr rfl fun i hi => sideCost_eq (k.lower i (mem_range.1 hi)) (k.upper i (mem_range.1 hi))
    have e2 : (if pb.useBnd then ∑ i ∈ range pb.n, sideCost ((multipliers s).u (pb.m + i)) (pb.xl i) (pb.xu i) else 0)
        = if pb.useBnd then ∑ i ∈ range pb.n, (multipliers s).u (pb.m + i) * s.x i else 0 := by
      split_ifs with hb
      · exact sum_congr rfl fun i hi => sideCost_eq (k.lowerBnd hb i (mem_range.1 hi)) (k.upperBnd hb i (mem_range.1 hi))
      · rfl
    unfold dualObj
    rw [e1, e2]; ring
  · rw [a1.value, obj_dual h]
    have hy := k.feasible
    have hq := quadForm_nonneg hr (fun i => s.x i - z i)
    have g1 : ∑ i ∈ range pb.m, mu i * row pb s.x i ≤ ∑ i ∈ range pb.m, sideCost (mu i) (pb.bl i) (pb.bu i) :=
      sum_le_sum fun i hi => sideCost_ge (hy.gen i (mem_range.1 hi)).1 (hy.gen i (mem_range.1 hi)).2 (h.bl i (mem_range.1 hi)) (h.bu i (mem_range.1 hi))
    have g2 : (if pb.useBnd then ∑ i ∈ range pb.n, mu (pb.m + i) * s.x i else 0)
        ≤ if pb.useBnd then ∑ i ∈ range pb.n, sideCost (mu (pb.m + i)) (pb.xl i) (pb.xu i) else 0 := by
      split_ifs with hb
      · exact sum_le_sum fun i hi => sideCost_ge (hy.bnd hb i (mem_range.1 hi)).1 (hy.bnd hb i (mem_range.1 hi)).2 (h.xl hb i (mem_range.1 hi))
          (h.xu hb i (mem_range.1 hi))
      · exact le_rfl
    unfold dualObj
    linarith
  · rw [a1.value]; exact (a1.optimal rfl).1.2 y hy

/-- **C93.** The multipliers are a certificate: after `SUCCESS`, `solution()` and `multipliers()` are a point of the dual problem, its dual objective is
`objectiveValue()`, and no point of the dual problem has a larger dual objective (nor does any feasible point have a smaller objective). -/
theorem C93_duality {pb : Pb ℝ EReal} (hr : StdPb pb) :
    ∃ ε > 0, ∃ β : ℝ, ∀ o, Fine ε β pb o → ∀ s, Solves o pb .success s →
      DualFeasible pb s.x (multipliers s).u ∧ dualObj pb s.x (multipliers s).u = s.f ∧
      (∀ z mu, DualFeasible pb z mu → dualObj pb z mu ≤ s.f) ∧ ∀ y, Feasible pb y → s.f ≤ obj pb y := by
  obtain ⟨ε, hε, β, hh⟩ := hr.answers
  exact ⟨ε, hε, β, fun o ho s h1 => (hh o ho _ _ h1).duality hr⟩

/-! ## Concrete problems meeting the hypotheses -/

/-- `min ½ Σ gᵢ xᵢ² + aᵀx s.t. xl ≤ x ≤ xu`, with `n` variables. -/
noncomputable def boxFam (n : Nat) (g a : Nat → ℝ) (xl xu : Nat → EReal) : Pb ℝ EReal where
  n := n
  m := 0
  useBnd := true
  G := fun i j => if i = j then g i else 0
  a := a
  C := fun _ _ => 0
  bl := fun _ => ⊥
  bu := fun _ => ⊤
  xl := xl
  xu := xu

theorem boxFam_hess (n : Nat) (g a : Nat → ℝ) (xl xu : Nat → EReal) (i j : Nat) : hess (boxFam n g a xl xu) i j = if i = j then g i else 0 := by
  unfold hess boxFam
  dsimp only
  by_cases h : i = j
  · subst h; simp
  · simp [h, Ne.symm h]

theorem boxFam_std {n : Nat} {g a : Nat → ℝ} {xl xu : Nat → EReal} (hg : ∀ i < n, 0 < g i) (h1 : ∀ i < n, xl i ≠ ⊤) (h2 : ∀ i < n, xu i ≠ ⊥)
    (h3 : ∀ i < n, xl i ≤ xu i) {e : Nat} (he : e ≤ n) (h4 : ∀ i < n, xl i = xu i ↔ i < e) : StdPb (boxFam n g a xl xu) := by
  refine ⟨⟨by simp [boxFam], by simp [boxFam], fun _ i hi => h1 i hi, fun _ i hi => h2 i hi⟩, ⟨by simp [boxFam], fun _ i hi => h3 i hi⟩, ?_,
    ⟨e, by simpa [boxFam, Pb.nb] using he, ?_⟩, ?_⟩
  · refine (posDefN_iff n (boxFam n g a xl xu).G).1 fun v hv => ?_
    have e1 : ∀ i j : Nat, symLow (boxFam n g a xl xu).G i j = if i = j then g i else 0 := boxFam_hess n g a xl xu
    have e2 : ∀ i ∈ range n, ∑ j ∈ range n, v i * symLow (boxFam n g a xl xu).G i j * v j = g i * v i ^ 2 := by
      intro i hi
      rw [sum_eq_single i]
      · rw [e1, if_pos rfl]; ring
      · intro b _ hb; rw [e1, if_neg (Ne.symm hb)]; ring
      · intro hn; exact absurd hi hn
    rw [sum_congr rfl e2]
    obtain ⟨i, hi, hne⟩ := hv
    exact sum_pos' (fun i hi => mul_nonneg (hg i (mem_range.1 hi)).le (sq_nonneg _)) ⟨i, mem_range.2 hi, mul_pos (hg i hi) (by positivity)⟩
  · intro i hi
    have hi : i < n := by simpa [boxFam, Pb.nb] using hi
    simp only [isEqB, boxFam, Nat.not_lt_zero, if_false, Nat.sub_zero]
    rw [← h4 i hi]
    simp [bEq]
  · intro c hc h i
    by_cases hi : i < n
    · have := h i hi
      have e1 : ∀ k, grad (boxFam n g a xl xu) k i = if i = k then 1 else 0 := by intro k; simp [grad, boxFam]
      have e2 : (boxFam n g a xl xu).m + (boxFam n g a xl xu).nb = n := by simp [boxFam, Pb.nb]
      rw [e2] at this
      simp only [e1] at this
      rw [sum_eq_single i (fun b _ hb => by rw [if_neg (Ne.symm hb), mul_zero]) (fun hn => absurd (mem_range.2 hi) hn), if_pos rfl, mul_one] at this
      exact this
    · exact hc i fun hh => hi (by simpa [boxFam, Pb.nb] using hh.1)

/-- Exchange of the first two variables. -/
def swap01 (i : Nat) : Nat := if i = 0 then 1 else if i = 1 then 0 else i

/-- The hypotheses of C91 are met: with two variables exchanged, scaled and translated; and with a fixed variable removed. Those of C92 too: the
unused bounds of a box can be removed. -/
theorem C91_hypotheses_met :
    (∃ pb pb' : Pb ℝ EReal, StdPb pb ∧ StdPb pb' ∧ (∃ y, Feasible pb y) ∧
      Rewritten pb pb' swap01 swap01 id id (fun i => if i = 0 then 2 else 3) (fun i => if i = 0 then 5 else 7)) ∧
    (∃ pb pb' : Pb ℝ EReal, StdPb pb ∧ StdPb pb' ∧ (∃ y, Feasible pb y) ∧ Eliminated 4 pb pb' ∧ pb'.n = 1) ∧
    (∃ pb pb' : Pb ℝ EReal, StdPb pb ∧ StdPb pb' ∧ (∃ y, Feasible pb y) ∧ pb'.xu 0 = ⊤ ∧ pb.xu 0 = 9 ∧ ∀ lam : Nat → ℝ, lam 0 ≤ 0 → RelaxesFree pb pb' lam) := by
  refine ⟨⟨boxFam 2 (fun _ => 1) (fun _ => 0) (fun _ => ((1 : ℝ) : EReal)) (fun _ => ⊤),
    boxFam 2 (fun i => if i = 0 then 4 else 9) (fun i => if i = 0 then 14 else 15)
      (fun i => (((1 : ℝ) : EReal) - ((if i = 0 then (7 : ℝ) else 5 : ℝ) : EReal)) / ((if i = 0 then (2 : ℝ) else 3 : ℝ) : EReal)) (fun _ => ⊤), ?_, ?_, ?_, ?_⟩, ?_, ?_⟩
  · exact boxFam_std (by simp) (fun _ _ => EReal.coe_ne_top _) (by simp) (by simp) (Nat.zero_le _) (e := 0)
      (fun i _ => ⟨fun h => absurd h (EReal.coe_ne_top _), fun h => absurd h (Nat.not_lt_zero _)⟩)
  · refine boxFam_std (fun i _ => by split_ifs <;> norm_num) (fun i _ => ?_) (by simp) (by simp) (Nat.zero_le _) (e := 0) (fun i _ => ?_)
    · rw [← EReal.coe_sub, ← EReal.coe_div]; exact EReal.coe_ne_top _
    · rw [← EReal.coe_sub, ← EReal.coe_div]; simp
  · exact ⟨fun _ => 1, by simp [boxFam], fun _ i _ => ⟨le_rfl, le_top⟩⟩
  · have hcase : ∀ i < 2, i = 0 ∨ i = 1 := by intro i hi; omega
    refine ⟨rfl, rfl, rfl, ?_, by simp [boxFam], ?_, ?_, ?_, by simp [boxFam], by simp [boxFam], by simp [boxFam], ?_, ?_⟩
    · intro i hi
      rcases hcase i hi with rfl | rfl <;> simp [swap01, boxFam]
    · intro i hi
      split_ifs <;> norm_num
    · intro i hi j hj
      rw [boxFam_hess, boxFam_hess]
      rcases hcase i hi with rfl | rfl <;> rcases hcase j hj with rfl | rfl <;> norm_num [swap01]
    · intro i hi
      simp only [boxFam_hess]
      rcases hcase i hi with rfl | rfl <;> norm_num [swap01, boxFam, sum_range_succ]
    · intro _ i hi
      rcases hcase i hi with rfl | rfl <;> simp [swap01, boxFam]
    · intro _ i hi
      rcases hcase i hi with rfl | rfl <;> simp [swap01, boxFam]
      · exact (EReal.top_div_of_pos_ne_top (by exact_mod_cast (by norm_num : (0 : ℝ) < 2)) (EReal.coe_ne_top _)).symm
      · exact (EReal.top_div_of_pos_ne_top (by exact_mod_cast (by norm_num : (0 : ℝ) < 3)) (EReal.coe_ne_top _)).symm
  · refine ⟨boxFam 2 (fun _ => 1) (fun _ => 0) (fun i => if i = 0 then ((4 : ℝ) : EReal) else ((1 : ℝ) : EReal)) (fun i => if i = 0 then ((4 : ℝ) : EReal) else ⊤),
      boxFam 1 (fun _ => 1) (fun _ => 0) (fun _ => ((1 : ℝ) : EReal)) (fun _ => ⊤), ?_, ?_, ?_, ?_, rfl⟩
    · refine boxFam_std (by simp) (fun i _ => ?_) (fun i _ => ?_) (fun i _ => ?_) (e := 1) (by omega) (fun i hi => ?_)
      · split_ifs <;> exact EReal.coe_ne_top _
      · split_ifs
        · exact EReal.coe_ne_bot _
        · simp
      · split_ifs <;> simp
      · by_cases h : i = 0
        · simp [h]
        · rw [if_neg h, if_neg h]; exact ⟨fun e => absurd e (EReal.coe_ne_top _), fun e => absurd e (by omega)⟩
    · exact boxFam_std (by simp) (fun _ _ => EReal.coe_ne_top _) (by simp) (by simp) (Nat.zero_le _) (e := 0) (fun i _ => ⟨fun h => absurd h (EReal.coe_ne_top _), fun h => absurd h (Nat.not_lt_zero _)⟩)
    · refine ⟨fun i => if i = 0 then 4 else 1, by simp [boxFam], fun _ i _ => ?_⟩
      simp only [boxFam]
      split_ifs <;> simp
    · refine ⟨rfl, rfl, rfl, rfl, rfl, rfl, ?_, ?_, by simp [boxFam], by simp [boxFam], by simp [boxFam], ?_, ?_⟩
      · intro i _ j _; simp [boxFam_hess]
      · intro i _; rw [boxFam_hess]; simp [boxFam]
      · intro i _; simp [boxFam]
      · intro i _; simp [boxFam]
  · refine ⟨boxFam 1 (fun _ => 1) (fun _ => 0) (fun _ => ((1 : ℝ) : EReal)) (fun _ => 9),
      boxFam 1 (fun _ => 1) (fun _ => 0) (fun _ => ((1 : ℝ) : EReal)) (fun _ => ⊤), ?_, ?_, ?_, rfl, rfl, ?_⟩
    · have h9 : (9 : EReal) = ((9 : ℝ) : EReal) := rfl
      refine boxFam_std (by simp) (fun _ _ => EReal.coe_ne_top _) (fun _ _ => ?_) (fun _ _ => ?_) (Nat.zero_le _) (e := 0) (fun i _ => ?_)
      · rw [h9]; exact EReal.coe_ne_bot _
      · rw [h9, EReal.coe_le_coe_iff]; norm_num
      · rw [h9, EReal.coe_eq_coe_iff]; norm_num
    · exact boxFam_std (by simp) (fun _ _ => EReal.coe_ne_top _) (by simp) (by simp) (Nat.zero_le _) (e := 0) (fun i _ => ⟨fun h => absurd h (EReal.coe_ne_top _), fun h => absurd h (Nat.not_lt_zero _)⟩)
    · refine ⟨fun _ => 1, by simp [boxFam], fun _ i _ => ⟨le_rfl, ?_⟩⟩
      have h9 : (9 : EReal) = ((9 : ℝ) : EReal) := rfl
      simp only [boxFam]
      rw [h9, EReal.coe_le_coe_iff]; norm_num
    · intro lam hl
      refine ⟨⟨rfl, rfl, rfl, rfl, rfl, rfl⟩, by simp [boxFam], by simp [boxFam], fun _ i _ => ⟨le_rfl, fun _ => rfl⟩, fun _ i hi => ⟨le_top, fun h => ?_⟩⟩
      have hi : i = 0 := by have : i < 1 := hi; omega
      subst hi
      have : 0 < lam 0 := by simpa [boxFam] using h
      linarith

end JrlQp
