import Verif.BlockSolveProofs
import Verif.EvalKit

/-!
# C27, C28: block Cholesky factorisations

The specification is in terms of Mathlib matrices: `bmat b sz M` is the matrix of `b × b` blocks with block sizes `sz`,
`triMat`, `arrowMat` are the symmetric matrices given to the functions (lower triangle stored), `biMat`, `arrowFac` the
factors read back from the memory. `(f …).1` is the returned boolean, `(f …).2` the new content of the blocks.
-/

namespace JrlQp

open NumOps Finset

/-- C27: on a positive definite block-tridiagonal matrix `triBlockDiagLLT` returns `true` and the blocks then hold a
lower triangular factor with positive diagonal whose product with its transpose is the given matrix. -/
theorem C27_tri_factor (b : Nat) (hb : 0 < b) (sz : Nat → Nat) (D S : Blocks ℝ)
    (h : (bmat b sz (triMat D S)).PosDef) :
    (triLLT b sz D S).1 = true ∧ (∀ i < b, ∀ a < sz i, 0 < (triLLT b sz D S).2.1 i a a) ∧
    bmat b sz (biMat (triLLT b sz D S).2.1 (triLLT b sz D S).2.2) *
      (bmat b sz (biMat (triLLT b sz D S).2.1 (triLLT b sz D S).2.2)).transpose = bmat b sz (triMat D S) := by
  obtain ⟨b, rfl⟩ : ∃ b', b = b' + 1 := ⟨b - 1, by omega⟩
  obtain ⟨h1, h2⟩ := triLLTFrom_pd sz b 0 D S ((triPD_iff b sz D S).1 h)
  exact ⟨h1, fun i hi => h2.pos i (by omega) (by omega), triFac_mul h2⟩

/-- C27: the returned boolean together with the sign of the diagonal left in the blocks decides positive definiteness.
(The boolean alone does not: `C27_true_not_posDef`.) -/
theorem C27_tri_iff_partial (b : Nat) (hb : 0 < b) (sz : Nat → Nat) (D S : Blocks ℝ) :
    (bmat b sz (triMat D S)).PosDef ↔
      ((triLLT b sz D S).1 = true ∧ ∀ i < b, ∀ a < sz i, 0 < (triLLT b sz D S).2.1 i a a) := by
  constructor
  · intro h; exact ⟨(C27_tri_factor b hb sz D S h).1, (C27_tri_factor b hb sz D S h).2.1⟩
  · obtain ⟨b, rfl⟩ : ∃ b', b = b' + 1 := ⟨b - 1, by omega⟩
    rintro ⟨h1, h2⟩
    exact (triPD_iff b sz D S).2 (triLLTFrom_conv sz b 0 D S h1 (fun k _ hk => h2 k (by omega)))

/-- C28: same for `blockArrowLLT`, in both orientations. -/
theorem C28_arrow_factor (up : Bool) (b : Nat) (hb : 0 < b) (sz : Nat → Nat) (D S : Blocks ℝ)
    (h : (bmat b sz (arrowMat up b D S)).PosDef) :
    (arrowLLT up b sz D S).1 = true ∧ (∀ i < b, ∀ a < sz i, 0 < (arrowLLT up b sz D S).2.1 i a a) ∧
    bmat b sz (arrowFac up b (arrowLLT up b sz D S).2.1 (arrowLLT up b sz D S).2.2) *
      (bmat b sz (arrowFac up b (arrowLLT up b sz D S).2.1 (arrowLLT up b sz D S).2.2)).transpose
        = bmat b sz (arrowMat up b D S) := by
  obtain ⟨L, Bm, h1, h2, h3⟩ := arrowLLTK_pd ((arrPD_iff hb sz D S).1 h) (b - 1) le_rfl
  obtain ⟨P, hP⟩ := chol_of_posDef (arrPD_hub.1 h2)
  obtain ⟨hpos, hfac⟩ := chol_success hP
  simp only [arrowLLT, h1, hP, retPos]
  have hhub : setBlk L (arrowIdx up b (b - 1)) P (arrowIdx up b (b - 1)) = P := by simp [setBlk]
  have hoth : ∀ k < b - 1, setBlk L (arrowIdx up b (b - 1)) P (arrowIdx up b k) = L (arrowIdx up b k) := by
    intro k hk
    simp [setBlk, spoke_ne_hub up hk]
  refine ⟨rfl, ?_, ?_⟩
  · intro i hi a ha
    by_cases hi' : i = arrowIdx up b (b - 1)
    · subst hi'; rw [hhub]; exact hpos a ha
    · obtain ⟨k, hk, rfl⟩ := (exists_spoke up hi).resolve_left hi'
      rw [hoth k hk]; exact h3.pos k hk a ha
  · exact arrowFac_mul hb h3 hoth (by rw [hhub]; exact hfac)

/-- C28: the returned boolean together with the sign of the diagonal left in the blocks decides positive definiteness. -/
theorem C28_arrow_iff_partial (up : Bool) (b : Nat) (hb : 0 < b) (sz : Nat → Nat) (D S : Blocks ℝ) :
    (bmat b sz (arrowMat up b D S)).PosDef ↔
      ((arrowLLT up b sz D S).1 = true ∧ ∀ i < b, ∀ a < sz i, 0 < (arrowLLT up b sz D S).2.1 i a a) := by
  constructor
  · intro h; exact ⟨(C28_arrow_factor up b hb sz D S h).1, (C28_arrow_factor up b hb sz D S h).2.1⟩
  · rintro ⟨h1, h2⟩
    rw [arrPD_iff hb]
    simp only [arrowLLT] at h1 h2
    rcases hc : arrowLLTK up b sz D S (b - 1) with ⟨ok, L, Bm⟩
    rw [hc] at h1 h2
    cases ok with
    | false => simp at h1
    | true =>
      simp only at h1 h2
      refine arrowLLTK_conv (b - 1) le_rfl hc ?_ ?_
      · intro j hj a ha
        have := h2 (arrowIdx up b j) (spoke_lt up hj) a ha
        simpa [setBlk, spoke_ne_hub up hj] using this
      · rw [arrPD_hub]
        have hlt : arrowIdx up b (b - 1) < b := by rw [arrowIdx_hub up hb]; split_ifs <;> omega
        have h3 : ∀ a < sz (arrowIdx up b (b - 1)),
            0 < (chol (sz (arrowIdx up b (b - 1))) (L (arrowIdx up b (b - 1))) (sz (arrowIdx up b (b - 1)))).1 a a := by
          intro a ha
          have := h2 _ hlt a ha
          simpa [setBlk] using this
        rcases hch : chol (sz (arrowIdx up b (b - 1))) (L (arrowIdx up b (b - 1))) (sz (arrowIdx up b (b - 1))) with ⟨P, c⟩
        rw [hch] at h1 h3
        cases c with
        | none => exact chol_posDef hch
        | some c =>
          obtain ⟨h4, h5⟩ := chol_fail_zero hch (by simpa using h1)
          exact absurd (h3 0 h4) (not_lt.2 h5)

/-! ## Solves

`bvec b sz M` is the vector `M` cut in blocks; `lvec up b sz X` is the same for a vector stored in the order of the rows of
`L` (with `up`, the first block comes last). `start`: the rows before it are zero; `stop` (`end` in the code): the rows from
it on are zero. -/

/-- C27: `triBlockDiagLSolve` solves `L X = M`, whatever valid hint is given. -/
theorem C27_L_solve (b : Nat) (sz : Nat → Nat) (D S : Blocks ℝ) (M : Nat → ℝ) (start : Nat)
    (hM : ∀ p < start, M p = 0) (hD : ∀ i < b, ∀ a < sz i, D i a a ≠ 0) :
    (bmat b sz (biMat D S)).mulVec (bvec b sz (triLSolve b sz D S M start)) = bvec b sz M :=
  triLSolve_spec hM hD

/-- C27: `triBlockDiagLTransposeSolve` solves `Lᵀ X = M`, whatever valid hint is given. -/
theorem C27_LT_solve (b : Nat) (sz : Nat → Nat) (D S : Blocks ℝ) (M : Nat → ℝ) (stop : Option Nat)
    (hstop : stop.getD (off sz b) ≤ off sz b) (hM : ∀ p, stop.getD (off sz b) ≤ p → p < off sz b → M p = 0)
    (hD : ∀ i < b, ∀ a < sz i, D i a a ≠ 0) :
    (bmat b sz (biMat D S)).transpose.mulVec (bvec b sz (triLTSolve b sz D S M stop)) = bvec b sz M :=
  triLTSolve_spec hstop hM hD

/-- C27: factorisation followed by the two solves gives the solution of the block-tridiagonal system. -/
theorem C27_solve (b : Nat) (hb : 0 < b) (sz : Nat → Nat) (D S L B : Blocks ℝ) (ok : Bool) (M : Nat → ℝ) (start : Nat)
    (h : (bmat b sz (triMat D S)).PosDef) (hL : triLLT b sz D S = (ok, L, B)) (hM : ∀ p < start, M p = 0) :
    (bmat b sz (triMat D S)).mulVec (bvec b sz (triLTSolve b sz L B (triLSolve b sz L B M start) none)) = bvec b sz M := by
  obtain ⟨_, h2, h3⟩ := C27_tri_factor b hb sz D S h
  rw [hL] at h2 h3
  have hD : ∀ i < b, ∀ a < sz i, L i a a ≠ 0 := fun i hi a ha => (h2 i hi a ha).ne'
  rw [← h3, ← Matrix.mulVec_mulVec, C27_LT_solve b sz L B _ none le_rfl (fun p h1 h2 => absurd h2 (not_lt.2 h1)) hD,
    C27_L_solve b sz L B M start hM hD]

/-- C28: `blockArrowLSolve` solves `P L X = M`, whatever valid hints are given. With the arrow pointing up this needs the
first and last blocks to have the same size (missing from the full property, see `C28_up_size_mismatch`). -/
theorem C28_L_solve_partial (up : Bool) (b : Nat) (hb : 0 < b) (sz : Nat → Nat) (hsz : up = true → sz (b - 1) = sz 0)
    (D S : Blocks ℝ) (M : Nat → ℝ) (start : Nat) (stop : Option Nat)
    (hM1 : ∀ p < start, M p = 0) (hM2 : ∀ p, stop.getD (off sz b) ≤ p → p < off sz b → M p = 0)
    (hD : ∀ i < b, ∀ a < sz i, D i a a ≠ 0) :
    ∃ X, arrowLSolve up b sz D S M start stop = some X ∧
      (bmat b sz (arrowFac up b D S)).mulVec (lvec up b sz X) = bvec b sz M :=
  arrowLSolve_spec hb hsz hM1 hM2 hD

/-- C28: `blockArrowLTransposeSolve` solves `Lᵀ Pᵀ X = M`, whatever valid hints are given. -/
theorem C28_LT_solve (up : Bool) (b : Nat) (hb : 0 < b) (sz : Nat → Nat) (D S : Blocks ℝ) (M : Nat → ℝ) (start : Nat)
    (stop : Option Nat) (hstop : stop.getD (off sz b) ≤ off sz b)
    (hM1 : ∀ p < start, M p = 0) (hM2 : ∀ p, stop.getD (off sz b) ≤ p → p < off sz b → M p = 0)
    (hD : ∀ i < b, ∀ a < sz i, D i a a ≠ 0) :
    (bmat b sz (arrowFac up b D S)).transpose.mulVec (bvec b sz (arrowLTSolve up b sz D S M start stop)) = lvec up b sz M :=
  arrowLTSolve_spec hb hstop hM1 hM2 hD

/-- C28: factorisation followed by the two solves gives the solution of the block-arrow system. -/
theorem C28_solve_partial (up : Bool) (b : Nat) (hb : 0 < b) (sz : Nat → Nat) (hsz : up = true → sz (b - 1) = sz 0)
    (D S L B : Blocks ℝ) (ok : Bool) (M : Nat → ℝ) (start : Nat) (stop : Option Nat)
    (hM1 : ∀ p < start, M p = 0) (hM2 : ∀ p, stop.getD (off sz b) ≤ p → p < off sz b → M p = 0)
    (h : (bmat b sz (arrowMat up b D S)).PosDef) (hL : arrowLLT up b sz D S = (ok, L, B)) :
    ∃ X, arrowLSolve up b sz L B M start stop = some X ∧
      (bmat b sz (arrowMat up b D S)).mulVec (bvec b sz (arrowLTSolve up b sz L B X 0 none)) = bvec b sz M := by
  obtain ⟨_, h2, h3⟩ := C28_arrow_factor up b hb sz D S h
  rw [hL] at h2 h3
  have hD : ∀ i < b, ∀ a < sz i, L i a a ≠ 0 := fun i hi a ha => (h2 i hi a ha).ne'
  obtain ⟨X, h4, h5⟩ := C28_L_solve_partial up b hb sz hsz L B M start stop hM1 hM2 hD
  refine ⟨X, h4, ?_⟩
  rw [← h3, ← Matrix.mulVec_mulVec, C28_LT_solve up b hb sz L B X 0 none le_rfl (fun p hp => absurd hp (Nat.not_lt_zero p))
    (fun p h1 h2 => absurd h2 (not_lt.2 h1)) hD, h5]

/-- C28 as stated is false for an arrow pointing up whose first and last blocks have different sizes:
`blockArrowLSolve` then multiplies blocks of mismatched sizes (`M.bottomRows(diag.back().rows())` instead of the size of the
first block), whatever the right-hand side. -/
theorem C28_up_size_mismatch (b : Nat) (hb : 2 ≤ b) (sz : Nat → Nat) (hsz : sz (b - 1) ≠ sz 0) (hpos : 0 < sz 1)
    (D S : Blocks ℝ) (M : Nat → ℝ) : arrowLSolve true b sz D S M 0 none = none := by
  have hN : sz 0 < off sz b := by
    have := off_le (sz := sz) hb
    simp only [off] at this; omega
  have hub : arrowIdx true b (b - 1) = 0 := by rw [arrowIdx_hub true (by omega)]; rfl
  have hk : ∀ k, arrowLK true b sz D S (off sz b) (0 - sz 0) (off sz b - sz 0) (rotUp (off sz b) (sz 0) M) (k + 1) = none := by
    intro k
    induction k with
    | zero =>
      simp only [arrowLK, hub]
      rw [if_neg (by omega), if_neg hsz]
    | succ k ih => rw [arrowLK, ih]
  obtain ⟨k, hk'⟩ : ∃ k, b - 1 = k + 1 := ⟨b - 2, by omega⟩
  have e : arrowLSolve true b sz D S M 0 none
      = arrowLSolve_ true b sz D S (off sz b) (0 - sz 0) (off sz b - sz 0) (rotUp (off sz b) (sz 0) M) := rfl
  rw [e, arrowLSolve_, hk', hk k]

/-! ## The returned boolean alone is not enough -/

/-- C27 as stated is false: `triBlockDiagLLT` returns `true` on the `1 x 1` matrix `(-1)`, because the index of the failing
column, 0, is not `> 0`. -/
theorem C27_true_not_posDef :
    (triLLT 1 (fun _ => 1) (fun _ _ _ => (-1 : ℝ)) (fun _ _ _ => 0)).1 = true ∧
    ¬ (bmat 1 (fun _ => 1) (triMat (fun _ _ _ => (-1 : ℝ)) (fun _ _ _ => 0))).PosDef := by
  have hc : chol 1 (fun _ _ => (-1 : ℝ)) 1 = ((fun _ _ => (-1 : ℝ)), some 0) := by
    simp [chol, cholCol, esub_real, sumTo]
  constructor
  · simp only [triLLT, triLLTFrom, Nat.sub_self]; rw [hc]; rfl
  · rw [C27_tri_iff_partial 1 one_pos]
    rintro ⟨_, h⟩
    have := h 0 one_pos 0 one_pos
    simp only [triLLT, triLLTFrom, Nat.sub_self, setBlk, if_true] at this
    rw [hc] at this
    norm_num at this

/-- C28 as stated is false for the same reason, in both orientations. -/
theorem C28_true_not_posDef (up : Bool) :
    (arrowLLT up 1 (fun _ => 1) (fun _ _ _ => (-1 : ℝ)) (fun _ _ _ => 0)).1 = true ∧
    ¬ (bmat 1 (fun _ => 1) (arrowMat up 1 (fun _ _ _ => (-1 : ℝ)) (fun _ _ _ => 0))).PosDef := by
  have hc : chol 1 (fun _ _ => (-1 : ℝ)) 1 = ((fun _ _ => (-1 : ℝ)), some 0) := by
    simp [chol, cholCol, esub_real, sumTo]
  constructor
  · simp only [arrowLLT, arrowLLTK, Nat.sub_self]; rw [hc]; rfl
  · rw [C28_arrow_iff_partial up 1 one_pos]
    rintro ⟨_, h⟩
    have := h 0 one_pos 0 one_pos
    simp only [arrowLLT, arrowLLTK, Nat.sub_self, setBlk] at this
    rw [hc] at this
    have h0 : arrowIdx up 1 0 = 0 := by cases up <;> rfl
    rw [h0] at this
    norm_num at this

/-! ## The hypotheses are met -/

/-- The matrix `(2 1; 1 2)` in two blocks is positive definite, as a tridiagonal and as an arrow matrix. -/
theorem C27_C28_inhabited (up : Bool) :
    (bmat 2 (fun _ => 1) (triMat (fun _ _ _ => 2) (fun _ _ _ => 1))).PosDef ∧
    (bmat 2 (fun _ => 1) (arrowMat up 2 (fun _ _ _ => 2) (fun _ _ _ => 1))).PosDef := by
  have key : ∀ v : Nat → Nat → ℝ, (∃ i < 2, ∃ a < 1, v i a ≠ 0) → 0 < 2 * v 0 0 ^ 2 + 2 * v 0 0 * v 1 0 + 2 * v 1 0 ^ 2 := by
    rintro v ⟨i, hi, a, ha, hv⟩
    obtain rfl : a = 0 := by omega
    rcases (by omega : i = 0 ∨ i = 1) with rfl | rfl
    · have := sq_pos_of_ne_zero hv; nlinarith [sq_nonneg (v 0 0 + 2 * v 1 0)]
    · have := sq_pos_of_ne_zero hv; nlinarith [sq_nonneg (2 * v 0 0 + v 1 0)]
  constructor
  · rw [bmat_posDef_iff _ _ _ (triMat_symm _ _)]
    intro v hv
    refine lt_of_lt_of_eq (key v hv) ?_
    simp [bquad, sum_range_succ, triMat, symLow]; ring
  · rw [bmat_posDef_iff _ _ _ (arrowMat_symm _ _ _ _)]
    intro v hv
    refine lt_of_lt_of_eq (key v hv) ?_
    cases up <;> (simp [bquad, sum_range_succ, arrowMat, symLow]; ring)

example : (triLLT 2 (fun _ => 1) (fun _ _ _ => (2 : ℝ)) (fun _ _ _ => 1)).1 = true :=
  (C27_tri_factor 2 two_pos _ _ _ (C27_C28_inhabited true).1).1

example (up : Bool) : (arrowLLT up 2 (fun _ => 1) (fun _ _ _ => (2 : ℝ)) (fun _ _ _ => 1)).1 = true :=
  (C28_arrow_factor up 2 two_pos _ _ _ (C27_C28_inhabited up).2).1

/-- A right-hand side with a zero first row meets the hints `start = 1`, `end = 2`. -/
example (up : Bool) : ∃ X, arrowLSolve up 2 (fun _ => 1) (fun _ _ _ => (2 : ℝ)) (fun _ _ _ => 1) (fun p => if p = 1 then 3 else 0)
    1 (some 2) = some X ∧
    (bmat 2 (fun _ => 1) (arrowFac up 2 (fun _ _ _ => 2) (fun _ _ _ => 1))).mulVec (lvec up 2 (fun _ => 1) X)
      = bvec 2 (fun _ => 1) (fun p => if p = 1 then 3 else 0) :=
  C28_L_solve_partial up 2 two_pos _ (fun _ => rfl) _ _ _ 1 (some 2) (fun p hp => by rw [if_neg (by omega)])
    (fun p hp _ => by rw [if_neg (by simp at hp; omega)]) (fun _ _ _ _ => by norm_num)

example : (bmat 2 (fun _ => 1) (biMat (fun _ _ _ => (2 : ℝ)) (fun _ _ _ => 1))).mulVec (bvec 2 (fun _ => 1)
      (triLSolve 2 (fun _ => 1) (fun _ _ _ => 2) (fun _ _ _ => 1) (fun p => if p = 1 then 3 else 0) 1))
    = bvec 2 (fun _ => 1) (fun p => if p = 1 then 3 else 0) :=
  C27_L_solve 2 _ _ _ _ 1 (fun p hp => by rw [if_neg (by omega)]) (fun _ _ _ _ => by norm_num)

end JrlQp
