import Verif.Structured
import Verif.PropsBlock
import Verif.PropsInternal
import Verif.Spec

/-!
# Dense view of a structured problem, and what the block solves compute
-/

namespace JrlQp

open NumOps Finset Spec

/-! ## Specification: the assembled problem -/

/-- Index of the block containing row `p`, for `b` consecutive blocks of sizes `sz`. -/
def blkOf (sz : Nat → Nat) : Nat → Nat → Nat
  | 0, _ => 0
  | b + 1, p => if off sz b ≤ p then b else blkOf sz b p

/-- The matrix with entry `M i a j c` at row `a` of block row `i` and column `c` of block column `j`, as a plain matrix. -/
def dense (b : Nat) (sz : Nat → Nat) (M : Nat → Nat → Nat → Nat → ℝ) (p q : Nat) : ℝ :=
  M (blkOf sz b p) (p - off sz (blkOf sz b p)) (blkOf sz b q) (q - off sz (blkOf sz b q))

/-- The matrix a `StructuredG` stands for (before `lltInPlace`). -/
def SG.entry (g : SG ℝ) : Nat → Nat → Nat → Nat → ℝ :=
  match g.type with
  | .tri => triMat g.D g.S
  | .arrowUp => arrowMat true g.b g.D g.S
  | .arrowDown => arrowMat false g.b g.D g.S

/-- The matrix a `StructuredG` stands for (before `lltInPlace`), assembled. -/
def SG.dense (g : SG ℝ) : Nat → Nat → ℝ := JrlQp.dense g.b g.sz g.entry

/-- The block-diagonal matrix a `StructuredC` stands for, assembled: one column for each constraint. -/
def StrC.dense (c : StrC ℝ) (p i : Nat) : ℝ :=
  if blkOf c.rows c.nb p = blkOf c.cols c.nb i then
    c.blk (blkOf c.rows c.nb p) (p - off c.rows (blkOf c.rows c.nb p)) (i - off c.cols (blkOf c.cols c.nb i))
  else 0

/-- The assembled problem. -/
def BPb.dense (pb : BPb ℝ EReal) : Pb ℝ EReal :=
  ⟨pb.n, pb.m, pb.useBnd, pb.G.dense, pb.a, pb.C.dense, pb.bl, pb.bu, pb.xl, pb.xu⟩

/-! ## Blocks and rows -/

theorem blkOf_eq {sz : Nat → Nat} {b i a : Nat} (hi : i < b) (ha : a < sz i) : blkOf sz b (off sz i + a) = i := by
  induction b with
  | zero => omega
  | succ b ih =>
    rw [blkOf]
    by_cases h : i = b
    · subst h; rw [if_pos (by omega)]
    · have := off_add_lt (sz := sz) (show i < b by omega) ha
      rw [if_neg (by omega), ih (by omega)]

theorem blkOf_spec {sz : Nat → Nat} {b p : Nat} (hp : p < off sz b) :
    blkOf sz b p < b ∧ off sz (blkOf sz b p) ≤ p ∧ p < off sz (blkOf sz b p) + sz (blkOf sz b p) := by
  induction b with
  | zero => simp [off] at hp
  | succ b ih =>
    rw [blkOf]
    by_cases h : off sz b ≤ p
    · rw [if_pos h]
      simp only [off] at hp
      exact ⟨by omega, h, hp⟩
    · rw [if_neg h]
      obtain ⟨h1, h2, h3⟩ := ih (by omega)
      exact ⟨by omega, h2, h3⟩

theorem dense_eq {b : Nat} {sz : Nat → Nat} {M : Nat → Nat → Nat → Nat → ℝ} {i a j c : Nat} (hi : i < b) (ha : a < sz i)
    (hj : j < b) (hc : c < sz j) : dense b sz M (off sz i + a) (off sz j + c) = M i a j c := by
  unfold dense
  rw [blkOf_eq hi ha, blkOf_eq hj hc, Nat.add_sub_cancel_left, Nat.add_sub_cancel_left]

theorem sum_off (sz : Nat → Nat) (f : Nat → ℝ) (b : Nat) :
    ∑ p ∈ range (off sz b), f p = ∑ i ∈ range b, ∑ a ∈ range (sz i), f (off sz i + a) := by
  induction b with
  | zero => simp [off]
  | succ b ih => rw [off, sum_range_add, ih, sum_range_succ]

theorem sum_bpos (b : Nat) (sz : Nat → Nat) (f : Nat → ℝ) :
    ∑ p : BIdx b sz, f (off sz p.1 + p.2) = ∑ p ∈ range (off sz b), f p := by
  rw [sum_off, ← sum_bidx b sz (fun i a => f (off sz i + a))]

theorem off_succ' (sz : Nat → Nat) (k : Nat) : off sz (k + 1) = sz 0 + off (fun j => sz (j + 1)) k := by
  induction k with
  | zero => simp [off]
  | succ k ih => rw [off, ih, off]; omega

theorem sum_lpos (up : Bool) {b : Nat} (hb : 0 < b) (sz : Nat → Nat) (f : Nat → ℝ) :
    ∑ p : BIdx b sz, f (lpos up b sz p.1 + p.2) = ∑ p ∈ range (off sz b), f p := by
  rw [sum_bidx b sz (fun i a => f (lpos up b sz i + a))]
  cases up with
  | false => rw [sum_off]; rfl
  | true =>
    obtain ⟨b, rfl⟩ : ∃ b', b = b' + 1 := ⟨b - 1, by omega⟩
    rw [sum_range_succ', off_succ', add_comm (sz 0), sum_range_add, sum_off]
    congr 1
    · apply sum_congr rfl; intro i hi
      apply sum_congr rfl; intro a ha
      simp only [lpos, if_true, Nat.succ_ne_zero, if_false, off_succ']
      rw [show sz 0 + off (fun j => sz (j + 1)) i - sz 0 = off (fun j => sz (j + 1)) i by omega]
    · apply sum_congr rfl; intro a ha
      simp only [lpos, if_true, off_succ']
      rw [show sz 0 + off (fun j => sz (j + 1)) b - sz 0 = off (fun j => sz (j + 1)) b by omega]

/-- The entry functions are symmetric. -/
theorem SG.entry_symm (g : SG ℝ) (i a j c : Nat) : g.entry i a j c = g.entry j c i a := by
  unfold SG.entry
  cases g.type
  · exact triMat_symm _ _ i a j c
  · exact arrowMat_symm _ _ _ _ i a j c
  · exact arrowMat_symm _ _ _ _ i a j c

theorem hess_dense (pb : BPb ℝ EReal) (p q : Nat) : hess pb.dense p q = pb.G.dense p q := by
  unfold hess BPb.dense
  simp only
  split_ifs with h
  · rfl
  · unfold SG.dense JrlQp.dense
    rw [pb.G.entry_symm]

/-- Positive definiteness of the assembled matrix. -/
theorem posDef_dense {b : Nat} {sz : Nat → Nat} {M : Nat → Nat → Nat → Nat → ℝ} (hs : ∀ i a j c, M i a j c = M j c i a) :
    PosDefN (off sz b) (dense b sz M) ↔ (bmat b sz M).PosDef := by
  rw [bmat_posDef_iff b sz M hs]
  have key : ∀ v : Nat → ℝ, ∑ p ∈ range (off sz b), ∑ q ∈ range (off sz b), v p * dense b sz M p q * v q
      = bquad b sz M (fun i a => v (off sz i + a)) := by
    intro v
    rw [sum_off, bquad]
    apply sum_congr rfl; intro i hi
    have hi := mem_range.1 hi
    rw [sum_comm (s := range b)]
    apply sum_congr rfl; intro a ha
    have ha := mem_range.1 ha
    rw [sum_off]
    apply sum_congr rfl; intro j hj
    apply sum_congr rfl; intro c hc
    rw [dense_eq hi ha (mem_range.1 hj) (mem_range.1 hc)]
  constructor
  · rintro h v ⟨i, hi, a, ha, hv⟩
    have := h (fun p => v (blkOf sz b p) (p - off sz (blkOf sz b p))) ⟨off sz i + a, off_add_lt hi ha, by
      rw [blkOf_eq hi ha, Nat.add_sub_cancel_left]; exact hv⟩
    rw [key] at this
    refine lt_of_lt_of_eq this ?_
    unfold bquad
    apply sum_congr rfl; intro i hi
    apply sum_congr rfl; intro j hj
    apply sum_congr rfl; intro a ha
    apply sum_congr rfl; intro c hc
    dsimp only
    rw [blkOf_eq (mem_range.1 hi) (mem_range.1 ha), blkOf_eq (mem_range.1 hj) (mem_range.1 hc), Nat.add_sub_cancel_left,
      Nat.add_sub_cancel_left]
  · rintro h v ⟨p, hp, hv⟩
    rw [key]
    obtain ⟨h1, h2, h3⟩ := blkOf_spec hp
    exact h _ ⟨blkOf sz b p, h1, p - off sz (blkOf sz b p), by omega, by rw [show off sz (blkOf sz b p) + (p - off sz (blkOf sz b p)) = p by omega]; exact hv⟩

/-! ## The solves -/

/-- `sl` and `slt` are the inverses of a factor of `G` and of its transpose. -/
structure LinOps (n : Nat) (G : Nat → Nat → ℝ) (sl slt : (Nat → ℝ) → Nat → ℝ) : Prop where
  adj : ∀ v w, ∑ p ∈ range n, slt v p * w p = ∑ p ∈ range n, v p * sl w p
  inv : ∀ w, ∀ a < n, ∑ c ∈ range n, G a c * slt (sl w) c = w a

theorem LinOps.slt_eq {n : Nat} {G : Nat → Nat → ℝ} {sl slt : (Nat → ℝ) → Nat → ℝ} (h : LinOps n G sl slt) (v : Nat → ℝ)
    (p : Nat) (hp : p < n) : slt v p = ∑ q ∈ range n, v q * sl (kd p) q := by
  rw [← h.adj]
  rw [sum_eq_single p]
  · simp [kd]
  · intro b _ hb; simp [kd, Ne.symm hb]
  · intro h'; exact absurd (mem_range.2 hp) h'

/-- Equality of the components in the order of the rows of the factor. -/
theorem lvec_inj {up : Bool} {b : Nat} (hb : 0 < b) {sz : Nat → Nat} {X Y : Nat → ℝ} (h : lvec up b sz X = lvec up b sz Y)
    (p : Nat) (hp : p < off sz b) : X p = Y p := by
  have h1 : ∑ p ∈ range (off sz b), (X p - Y p) ^ 2 = 0 := by
    rw [← sum_lpos up hb sz (fun p => (X p - Y p) ^ 2)]
    apply sum_eq_zero; intro x _
    have := congrFun h x
    simp only [lvec] at this
    rw [this]; ring
  have h2 := (sum_eq_zero_iff_of_nonneg (fun p _ => sq_nonneg _)).1 h1 p (mem_range.2 hp)
  have : X p - Y p = 0 := by simpa using h2
  linarith

/-- From the equations satisfied by the two solves. -/
theorem linOps_of {up : Bool} {b : Nat} (hb : 0 < b) {sz : Nat → Nat} {M : Nat → Nat → Nat → Nat → ℝ}
    {L : Matrix (BIdx b sz) (BIdx b sz) ℝ} (hL : L * L.transpose = bmat b sz M) {sl slt : (Nat → ℝ) → Nat → ℝ}
    (h1 : ∀ v, L.mulVec (lvec up b sz (sl v)) = bvec b sz v)
    (h2 : ∀ v, L.transpose.mulVec (bvec b sz (slt v)) = lvec up b sz v) :
    LinOps (off sz b) (dense b sz M) sl slt := by
  constructor
  · intro v w
    have e1 : ∑ p ∈ range (off sz b), slt v p * w p = bvec b sz (slt v) ⬝ᵥ bvec b sz w := by
      rw [← sum_bpos b sz (fun p => slt v p * w p)]; rfl
    have e2 : ∑ p ∈ range (off sz b), v p * sl w p = lvec up b sz v ⬝ᵥ lvec up b sz (sl w) := by
      rw [← sum_lpos up hb sz (fun p => v p * sl w p)]; rfl
    rw [e1, e2, ← h1 w, Matrix.dotProduct_mulVec, ← Matrix.mulVec_transpose, h2]
  · intro w a ha
    have e := congrArg (fun A => A.mulVec (bvec b sz (slt (sl w)))) hL
    simp only [← Matrix.mulVec_mulVec, h2, h1] at e
    obtain ⟨hi, hle, hlt⟩ := blkOf_spec ha
    obtain ⟨i, hie⟩ : ∃ i, i = blkOf sz b a := ⟨_, rfl⟩
    rw [← hie] at hi hle hlt
    have e' := congrFun e ⟨⟨i, hi⟩, ⟨a - off sz i, by simp only; omega⟩⟩
    simp only [bvec, Matrix.mulVec, dotProduct, bmat, Matrix.of_apply] at e'
    rw [show off sz i + (a - off sz i) = a by omega] at e'
    rw [e', ← sum_bpos b sz (fun c => dense b sz M a c * slt (sl w) c)]
    apply sum_congr rfl; intro x _
    rw [show dense b sz M a (off sz x.1 + x.2) = M i (a - off sz i) x.1 x.2 by
      rw [show a = off sz i + (a - off sz i) by omega, dense_eq hi (by omega) x.1.2 x.2.2, Nat.add_sub_cancel_left]]

/-- The triangular factor is injective. -/
theorem factor_inj {b : Nat} {sz : Nat → Nat} {M : Nat → Nat → Nat → Nat → ℝ} {L : Matrix (BIdx b sz) (BIdx b sz) ℝ}
    (hL : L * L.transpose = bmat b sz M) (hpd : (bmat b sz M).PosDef) {v w : BIdx b sz → ℝ} (h : L.mulVec v = L.mulVec w) :
    v = w := by
  have hu : IsUnit (bmat b sz M) := hpd.isUnit
  have hd : IsUnit L.det := by
    have := (Matrix.isUnit_iff_isUnit_det _).1 hu
    rw [← hL, Matrix.det_mul] at this
    exact isUnit_of_mul_isUnit_left this
  exact Matrix.mulVec_injective_of_isUnit ((Matrix.isUnit_iff_isUnit_det _).2 hd) h

/-- Blocks on which the L solve of `StructuredG` is defined: an arrow pointing up must have a last block of the same size as
the first one (see `C28_up_size_mismatch`). -/
def SG.ok {K : Type} (g : SG K) : Prop := 0 < g.b ∧ (g.type = .arrowUp → g.sz (g.b - 1) = g.sz 0)

/-- What the functions of a factorised `StructuredG` compute. -/
structure SGSpec (n : Nat) (G : Nat → Nat → ℝ) (g : SG ℝ) (sl slt : (Nat → ℝ) → Nat → ℝ) : Prop where
  ops : LinOps n G sl slt
  nbVar : g.nbVar = n
  solveL : ∀ v, ∃ y, g.solveL v = some y ∧ ∀ i < n, y i = sl v i
  seg : ∀ out (inp : SegVec ℝ), inp.ok → inp.size = n →
    ∃ y, g.solveLSeg out inp = some y ∧ ∀ i < n, y i = sl (inp.toFull out) i
  solveLT : ∀ v, ∃ y, g.solveLT v = some y ∧ ∀ i < n, y i = slt v i

theorem lvec_false (b : Nat) (sz : Nat → Nat) (v : Nat → ℝ) : lvec false b sz v = bvec b sz v := by
  funext x; simp [lvec, bvec, lpos]

/-- The segment, written in full, is zero outside of the range given as hint. -/
theorem seg_zero {inp : SegVec ℝ} (h : inp.ok) (out : Nat → ℝ) :
    (∀ p < inp.start, inp.toFull out p = 0) ∧ ∀ p, inp.fin ≤ p → p < inp.size → inp.toFull out p = 0 := by
  have hh := h
  unfold SegVec.ok at hh
  constructor
  · intro p hp
    rw [(C31_toFull inp h out).1 p (by omega), C31_range inp p (Or.inl hp)]
  · intro p hp hp'
    rw [(C31_toFull inp h out).1 p hp', C31_range inp p (Or.inr hp)]

/-- `SG_spec` for the two arrow types. -/
theorem arrowSpec (up : Bool) {b : Nat} {sz : Nat → Nat} {D S : Blocks ℝ} {dec : Bool} (hb : 0 < b)
    (hup : up = true → sz (b - 1) = sz 0) (hpd : PosDefN (off sz b) (dense b sz (arrowMat up b D S))) {g : SG ℝ}
    (hg : g = ⟨if up then .arrowUp else .arrowDown, b, sz, D, S, dec⟩) :
    g.llt.decomposed = true ∧ ∃ sl slt, SGSpec (off sz b) (dense b sz (arrowMat up b D S)) g.llt sl slt := by
  have hpd : (bmat b sz (arrowMat up b D S)).PosDef := (posDef_dense (arrowMat_symm up b D S)).1 hpd
  obtain ⟨h1, h2, h3⟩ := C28_arrow_factor up b hb sz D S hpd
  have hll : g.llt = ⟨if up then .arrowUp else .arrowDown, b, sz, (arrowLLT up b sz D S).2.1, (arrowLLT up b sz D S).2.2, true⟩ := by
    subst hg; cases up <;> simp [SG.llt, h1]
  obtain ⟨L, hL⟩ : ∃ L, L = (arrowLLT up b sz D S).2.1 := ⟨_, rfl⟩
  obtain ⟨B, hB⟩ : ∃ B, B = (arrowLLT up b sz D S).2.2 := ⟨_, rfl⟩
  rw [← hL, ← hB] at hll h3
  rw [← hL] at h2
  have hD : ∀ i < b, ∀ a < sz i, L i a a ≠ 0 := fun i hi a ha => (h2 i hi a ha).ne'
  have hLs : ∀ v start stop, (∀ p < start, v p = 0) → (∀ p, stop.getD (off sz b) ≤ p → p < off sz b → v p = 0) →
      ∃ X, arrowLSolve up b sz L B v start stop = some X ∧
        (bmat b sz (arrowFac up b L B)).mulVec (lvec up b sz X) = bvec b sz v :=
    fun v start stop hs he => C28_L_solve_partial up b hb sz hup L B v start stop hs he hD
  have h0 : ∀ v : Nat → ℝ, ∀ p < 0, v p = 0 := fun v p hp => absurd hp (Nat.not_lt_zero p)
  have hn : ∀ v : Nat → ℝ, ∀ p, (none : Option Nat).getD (off sz b) ≤ p → p < off sz b → v p = 0 :=
    fun v p h1 h2 => absurd h2 (not_lt.2 h1)
  have hh : ∀ v start stop, g.llt.solveLHint v start stop = arrowLSolve up b sz L B v start stop := by
    intro v start stop; rw [hll]; cases up <;> rfl
  rw [hll] at hh
  rw [hll]
  refine ⟨rfl, fun v => (arrowLSolve up b sz L B v 0 none).getD v, fun v => arrowLTSolve up b sz L B v 0 none, ?_⟩
  constructor
  · refine linOps_of (up := up) hb h3 ?_ ?_
    · intro v
      obtain ⟨X, e1, e2⟩ := hLs v 0 none (h0 v) (hn v)
      simp only [e1, Option.getD_some]; exact e2
    · intro v
      exact C28_LT_solve up b hb sz _ _ v 0 none le_rfl (h0 v) (hn v) hD
  · rfl
  · intro v
    obtain ⟨X, e1, e2⟩ := hLs v 0 none (h0 v) (hn v)
    refine ⟨X, ?_, ?_⟩
    · rw [SG.solveL, if_pos rfl, hh, e1]
    · intro i _; simp only [e1, Option.getD_some]
  · intro out inp hi hs
    obtain ⟨X, e1, e2⟩ := hLs (inp.toFull out) 0 none (h0 _) (hn _)
    obtain ⟨Y, f1, f2⟩ := hLs (inp.toFull out) inp.start (some inp.fin) (seg_zero hi out).1
      (fun p hp hp' => (seg_zero hi out).2 p hp (by omega))
    refine ⟨Y, ?_, ?_⟩
    · rw [SG.solveLSeg, if_pos ⟨rfl, hs⟩, hh, f1]
    · intro i h
      simp only [e1, Option.getD_some]
      exact lvec_inj hb (factor_inj h3 hpd (f2.trans e2.symm)) i h
  · intro v
    refine ⟨arrowLTSolve up b sz L B v 0 none, ?_, fun i _ => rfl⟩
    rw [SG.solveLT, if_pos rfl]
    cases up <;> rfl

/-- Factorising a positive definite `StructuredG` makes its solves available. -/
theorem SG_spec (g : SG ℝ) (hok : g.ok) (hpd : PosDefN g.nbVar g.dense) :
    g.llt.decomposed = true ∧ ∃ sl slt, SGSpec g.nbVar g.dense g.llt sl slt := by
  obtain ⟨hb, hup⟩ := hok
  obtain ⟨ty, b, sz, D, S, dec⟩ := g
  simp only [SG.nbVar] at *
  cases ty with
  | tri =>
    have hpd : (bmat b sz (triMat D S)).PosDef := (posDef_dense (triMat_symm D S)).1 hpd
    obtain ⟨h1, h2, h3⟩ := C27_tri_factor b hb sz D S hpd
    have hD : ∀ i < b, ∀ a < sz i, (triLLT b sz D S).2.1 i a a ≠ 0 := fun i hi a ha => (h2 i hi a ha).ne'
    refine ⟨h1, fun v => triLSolve b sz (triLLT b sz D S).2.1 (triLLT b sz D S).2.2 v 0,
      fun v => triLTSolve b sz (triLLT b sz D S).2.1 (triLLT b sz D S).2.2 v none, ?_⟩
    constructor
    · refine linOps_of (up := false) hb h3 ?_ ?_
      · intro v
        rw [lvec_false]
        exact C27_L_solve b sz _ _ v 0 (fun p hp => absurd hp (Nat.not_lt_zero p)) hD
      · intro v
        rw [lvec_false]
        exact C27_LT_solve b sz _ _ v none le_rfl (fun p h1 h2 => absurd h2 (not_lt.2 h1)) hD
    · rfl
    · intro v
      exact ⟨_, by simp only [SG.solveL, SG.llt, SG.solveLHint, h1, if_true], fun i _ => rfl⟩
    · intro out inp hi hs
      refine ⟨_, by simp only [SG.solveLSeg, SG.llt, SG.solveLHint, h1, SG.nbVar, hs, and_self, if_true]; rfl, ?_⟩
      have e1 := C27_L_solve b sz (triLLT b sz D S).2.1 (triLLT b sz D S).2.2 (inp.toFull out) inp.start
        (seg_zero hi out).1 hD
      have e2 := C27_L_solve b sz (triLLT b sz D S).2.1 (triLLT b sz D S).2.2 (inp.toFull out) 0
        (fun p hp => absurd hp (Nat.not_lt_zero p)) hD
      have := factor_inj h3 hpd (e1.trans e2.symm)
      rw [← lvec_false, ← lvec_false] at this
      exact fun i h => lvec_inj hb this i h
    · intro v
      exact ⟨_, by simp only [SG.solveLT, SG.llt, h1, if_true], fun i _ => rfl⟩
  | arrowUp => exact arrowSpec true hb (fun _ => hup rfl) hpd rfl
  | arrowDown => exact arrowSpec false hb (fun h => absurd h (by simp)) hpd rfl

end JrlQp
