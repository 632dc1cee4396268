import Verif.StructDense
import Verif.ExecKit
import Verif.ExpFac
import Verif.PropsOrtho

/-!
# One iteration of `BlockGISolver` in exact arithmetic

`StructuredC`, `StructuredQR` and `StructuredJ` compute what the dense solver computes on the assembled problem.
-/

namespace JrlQp

open NumOps Finset Spec

/-! ## `StructuredC` -/

theorem flatMap_len (c : Nat → Nat) (k : Nat) :
    ((List.range k).flatMap fun i => List.replicate (c i) i).length = off c k := by
  induction k with
  | zero => rfl
  | succ k ih => rw [List.range_succ, List.flatMap_append, List.length_append, ih]; simp [off]

theorem toBlock_getD (c : Nat → Nat) (k i : Nat) (hi : i < off c k) :
    ((List.range k).flatMap fun i => List.replicate (c i) i).getD i 0 = blkOf c k i := by
  induction k with
  | zero => simp [off] at hi
  | succ k ih =>
    rw [List.range_succ, List.flatMap_append, blkOf]
    by_cases h : off c k ≤ i
    · rw [if_pos h, List.getD_append_right _ _ _ _ (by rw [flatMap_len]; exact h), flatMap_len]
      simp only [List.flatMap_cons, List.flatMap_nil, List.append_nil]
      simp only [off] at hi
      simp [List.getD_eq_getElem?_getD, List.getElem?_replicate, show i - off c k < c k by omega]
    · rw [if_neg h, List.getD_append _ _ _ _ (by rw [flatMap_len]; omega), ih (by omega)]

theorem StrC.col_ok (c : StrC ℝ) {i : Nat} (hi : i < c.nbCstr) :
    (c.col i).ok ∧ (c.col i).size = c.nbVar ∧ ∀ p < c.nbVar, (c.col i).entry p = c.dense p i := by
  have hb := toBlock_getD c.cols c.nb i hi
  obtain ⟨h1, h2, h3⟩ := blkOf_spec hi
  have hle : off c.rows (blkOf c.cols c.nb i) + c.rows (blkOf c.cols c.nb i) ≤ off c.rows c.nb :=
    off_le (sz := c.rows) h1
  have hbi : c.toBlock.getD i 0 = blkOf c.cols c.nb i := hb
  refine ⟨?_, rfl, ?_⟩
  · unfold SegVec.ok StrC.col
    simp only [hbi]
    exact hle
  · intro p hp
    unfold StrC.col SegVec.entry StrC.dense
    simp only [hbi]
    obtain ⟨p1, p2, p3⟩ := blkOf_spec hp
    obtain ⟨j, hj⟩ : ∃ j, j = blkOf c.cols c.nb i := ⟨_, rfl⟩
    obtain ⟨k, hk⟩ : ∃ k, k = blkOf c.rows c.nb p := ⟨_, rfl⟩
    rw [← hj] at h1 h2 h3 hle ⊢
    rw [← hk] at p1 p2 p3 ⊢
    by_cases hjk : k = j
    · subst hjk
      rw [if_pos ⟨p2, p3⟩, if_pos rfl]
    · rw [if_neg hjk, if_neg]
      rintro ⟨q1, q2⟩
      rw [show p = off c.rows j + (p - off c.rows j) by omega, blkOf_eq h1 (by omega)] at hk
      exact hjk hk

theorem StrC.dot_eq (c : StrC ℝ) {i : Nat} (hi : i < c.nbCstr) (x : Nat → ℝ) :
    (c.col i).dot x = ∑ p ∈ range c.nbVar, c.dense p i * x p := by
  obtain ⟨h1, h2, h3⟩ := c.col_ok hi
  rw [C31_dot _ h1, h2]
  apply sum_congr rfl; intro p hp
  rw [h3 p (mem_range.1 hp)]

theorem StrC.multStep_fold {K : Type} [Zero K] [Add K] [Sub K] [Mul K] [SumOps K] (c : StrC K) (x out : Nat → K) (k : Nat) (i : Nat) :
    (List.range k).foldl (c.multStep x) out i =
      if i < off c.cols k then
        esum (.slack (c.rows (blkOf c.cols k i)) i) (fun a => c.blk (blkOf c.cols k i) a (i - off c.cols (blkOf c.cols k i)) * x (off c.rows (blkOf c.cols k i) + a))
          (c.rows (blkOf c.cols k i))
      else out i := by
  induction k with
  | zero => simp [off]
  | succ k ih =>
    rw [List.range_succ, List.foldl_append]
    simp only [List.foldl_cons, List.foldl_nil]
    rw [StrC.multStep]
    by_cases h : off c.cols k ≤ i ∧ i < off c.cols k + c.cols k
    · rw [if_pos h, if_pos (by simp only [off]; exact h.2)]
      rw [blkOf, if_pos h.1]
    · rw [if_neg h, ih]
      by_cases h' : i < off c.cols k
      · rw [if_pos h', if_pos (by simp only [off]; omega), blkOf, if_neg (by omega)]
      · rw [if_neg h', if_neg (by simp only [off]; omega)]

theorem StrC.transposeMult_eq (c : StrC ℝ) (x out : Nat → ℝ) {i : Nat} (hi : i < c.nbCstr) :
    c.transposeMult out x i = ∑ p ∈ range c.nbVar, c.dense p i * x p := by
  rw [← c.dot_eq hi, StrC.transposeMult, c.multStep_fold, if_pos (show i < off c.cols c.nb from hi)]
  unfold SegVec.dot StrC.col
  simp only [show c.toBlock.getD i 0 = blkOf c.cols c.nb i from toBlock_getD c.cols c.nb i hi, esum_real]

/-! ## Building the sequence of orthonormal matrices -/

theorem OSeq.applyT_append (Q : OSeq ℝ) (o : Nat) (e : Elem ℝ) (v : Nat → ℝ) :
    OSeq.applyT (Q ++ [(o, e)]) v = segApply o (e.applyT 0 e.n) (Q.applyT v) := by
  induction Q generalizing v with
  | nil => rfl
  | cons h t ih => simp only [List.cons_append, OSeq.applyT]; exact ih _

theorem OSeq.addWith_append {K : Type} (add : Elem K → Option (Elem K)) (start : Nat) (Q : OSeq K) (s : Nat) (e : Elem K) :
    OSeq.addWith add start (Q ++ [(s, e)]) =
      if e.count = 0 then (add e).map fun e => Q ++ [(start, e)]
      else if s + e.count = start then (add e).map fun e => Q ++ [(s, e)] else none := by
  induction Q with
  | nil => rfl
  | cons h t ih =>
    have e1 : OSeq.addWith add start (h :: (t ++ [(s, e)])) = (OSeq.addWith add start (t ++ [(s, e)])).map fun t => h :: t := by
      cases t with
      | nil => rfl
      | cons h' t' => rfl
    rw [List.cons_append, e1, ih]
    split_ifs <;> cases add e <;> rfl

theorem OSeq.wf_append {n : Nat} {Q : OSeq ℝ} (h : Q.wf n) {o : Nat} {e : Elem ℝ} (h1 : o + e.n ≤ n) (h2 : e.wf) :
    OSeq.wf n (Q ++ [(o, e)]) := by
  intro x hx
  rcases List.mem_append.1 hx with hx | hx
  · exact h x hx
  · rw [List.mem_singleton] at hx; subst hx; exact ⟨h1, h2⟩

/-- The transpose is the adjoint. -/
theorem Iso.adj {n : Nat} {f g : (Nat → ℝ) → Nat → ℝ} (h : Iso n f g) (v w : Nat → ℝ) :
    ∑ i ∈ range n, f v i * w i = ∑ i ∈ range n, v i * g w i := by
  rw [← h.dot v (g w), h.fg]

theorem sum_kd_left {n j : Nat} (hj : j < n) (v : Nat → ℝ) : ∑ i ∈ range n, kd j i * v i = v j := by
  rw [sum_eq_single j]
  · simp [kd]
  · intro b _ hb; simp [kd, Ne.symm hb]
  · intro h'; exact absurd (mem_range.2 hj) h'

/-! ## `J` -/

/-- The matrix `J = L⁻ᵀ Q` that `StructuredJ` stands for. -/
noncomputable def virtJ (slt : (Nat → ℝ) → Nat → ℝ) (Q : OSeq ℝ) (i j : Nat) : ℝ := slt (Q.apply (kd j)) i

section
variable {n : Nat} {G : Nat → Nat → ℝ} {sl slt : (Nat → ℝ) → Nat → ℝ}

theorem tmul_virtJ (hl : LinOps n G sl slt) {Q : OSeq ℝ} (hQ : Q.wf n) (w : Nat → ℝ) {j : Nat} (hj : j < n) :
    tmul n (virtJ slt Q) w j = Q.applyT (sl w) j := by
  unfold tmul virtJ
  rw [hl.adj, (oseq_iso hQ).adj, sum_kd_left hj]

theorem virtJ_eq (hl : LinOps n G sl slt) {Q : OSeq ℝ} (hQ : Q.wf n) {i j : Nat} (hi : i < n) (hj : j < n) :
    virtJ slt Q i j = Q.applyT (sl (kd i)) j := by
  rw [← tmul_virtJ hl hQ (kd i) hj, tmul, sum_eq_single i]
  · simp [kd]
  · intro b _ hb; simp [kd, Ne.symm hb]
  · intro h'; exact absurd (mem_range.2 hi) h'

theorem virtJ_mul (hl : LinOps n G sl slt) {Q : OSeq ℝ} (hQ : Q.wf n) (v : Nat → ℝ) {i : Nat} (hi : i < n) :
    slt (Q.apply v) i = ∑ k ∈ range n, virtJ slt Q i k * v k := by
  rw [hl.slt_eq _ i hi, (oseq_iso hQ).adj]
  apply sum_congr rfl; intro k hk
  rw [virtJ_eq hl hQ hi (mem_range.1 hk), mul_comm]

theorem virtJ_inv (hl : LinOps n G sl slt) {Q : OSeq ℝ} (hQ : Q.wf n) :
    ∀ a < n, ∀ b < n, ∑ c ∈ range n, G a c * outer n (virtJ slt Q) c b = kd a b := by
  intro a ha b hb
  have e : ∀ c < n, outer n (virtJ slt Q) c b = slt (sl (kd b)) c := by
    intro c hc
    unfold outer
    rw [← (oseq_iso hQ).fg (sl (kd b)), virtJ_mul hl hQ _ hc]
    apply sum_congr rfl; intro i hi
    rw [virtJ_eq hl hQ hb (mem_range.1 hi)]
  have : ∑ c ∈ range n, G a c * outer n (virtJ slt Q) c b = ∑ c ∈ range n, G a c * slt (sl (kd b)) c := by
    apply sum_congr rfl; intro c hc; rw [e c (mem_range.1 hc)]
  rw [this, hl.inv _ a ha]
  unfold kd
  by_cases h : a = b
  · rw [if_pos h, if_pos h.symm]
  · rw [if_neg h, if_neg (Ne.symm h)]

/-! ## `StructuredQR` -/

/-- `qr` is the QR factorisation of `L⁻¹ N` for the `q` normals `N 0 .. N (q-1)`, with the memory it needs. -/
structure QRInv (n : Nat) (sl : (Nat → ℝ) → Nat → ℝ) (N : Nat → Nat → ℝ) (qr : SQR ℝ) : Prop where
  nbVar : qr.nbVar = n
  wf : qr.Q.wf n
  q_le : qr.q ≤ n
  ld : qr.q ≤ qr.ldR
  ldn : 0 < n → 0 < qr.ldR ∧ qr.ldR ≤ n
  size : n * n ≤ qr.R.size
  szE : n ≤ qr.szE
  tri : ∀ k < qr.q, ∀ i < n, qr.Q.applyT (sl (N k)) i = if i ≤ k then qr.R.mat qr.ldR i k else 0
  diag : ∀ k < qr.q, qr.R.mat qr.ldR k k ≠ 0

theorem QRInv.fac (hl : LinOps n G sl slt) {N : Nat → Nat → ℝ} {qr : SQR ℝ} (h : QRInv n sl N qr) :
    Fac n qr.q G N (virtJ slt qr.Q) (qr.R.mat qr.ldR) :=
  ⟨virtJ_inv hl h.wf, fun k hk i hi => by rw [tmul_virtJ hl h.wf _ hi]; exact h.tri k hk i hi, h.diag⟩

/-- `getR(k)` makes room for one more column and keeps the coefficients. -/
theorem QRInv.getR {N : Nat → Nat → ℝ} {qr : SQR ℝ} (h : QRInv n sl N qr) {k : Nat} (hk : k ≤ n) (hk1 : k ≤ qr.q + 1) :
    ∃ w ld, qr.getR k = some { qr with R := w, ldR := ld } ∧ k ≤ ld ∧
      QRInv n sl N { qr with R := w, ldR := ld } ∧ ∀ i < qr.q, ∀ j < qr.q, w.mat ld i j = qr.R.mat qr.ldR i j := by
  have hmo : ∀ (w : WS ℝ) ld k, w.size = qr.R.size → (0 < n → ld ≤ n) → k ≤ n → k ≤ ld → w.matOk k k ld = true := by
    intro w ld k hw hln hkn hkl
    simp only [WS.matOk, Bool.and_eq_true, decide_eq_true_eq]
    refine ⟨?_, hkl⟩
    rcases Nat.eq_zero_or_pos n with h0 | h0
    · obtain rfl : k = 0 := by omega
      simp
    · rw [hw]; exact le_trans (Nat.mul_le_mul (hln h0) hkn) h.size
  unfold SQR.getR
  rw [if_pos (by rw [h.nbVar]; exact hk)]
  by_cases hlt : qr.ldR < k
  · have hql : qr.q = qr.ldR := by have := h.ld; omega
    have hn : 0 < n := by omega
    obtain ⟨hl0, hln⟩ := h.ldn hn
    obtain ⟨nl, hnl⟩ : ∃ nl, nl = min (2 * qr.ldR) qr.nbVar := ⟨_, rfl⟩
    have hnl1 : k ≤ nl := by rw [hnl, h.nbVar]; omega
    have hnl2 : nl ≤ n := by rw [hnl, h.nbVar]; omega
    obtain ⟨w, hw, hws, hwm⟩ := C26_changeLd true qr.R qr.q qr.q qr.ldR nl (by omega)
      (hmo qr.R _ _ rfl (fun _ => hln) h.q_le h.ld) (hmo qr.R _ _ rfl (fun _ => hnl2) h.q_le (by omega))
      (fun _ _ => by
        calc qr.q * nl ≤ (n - 1) * n := Nat.mul_le_mul (by omega) hnl2
          _ < n * n := Nat.mul_lt_mul_of_pos_right (by omega) hn
          _ ≤ qr.R.size := h.size)
    rw [if_pos hlt, ← hnl, hw]
    simp only [Option.map_some, Option.bind_some]
    rw [if_pos (hmo w nl k hws (fun _ => hnl2) hk hnl1)]
    refine ⟨w, nl, rfl, hnl1, ⟨h.nbVar, h.wf, h.q_le, by simp only; omega, fun _ => ⟨by simp only; omega, hnl2⟩, by
      simp only [hws]; exact h.size, h.szE, ?_, ?_⟩, hwm⟩
    · intro k' hk' i hi
      rw [h.tri k' hk' i hi]
      by_cases hik : i ≤ k'
      · rw [if_pos hik, if_pos hik]
        exact (hwm i (lt_of_le_of_lt hik hk') k' hk').symm
      · rw [if_neg hik, if_neg hik]
    · intro k' hk'
      show w.mat nl k' k' ≠ 0
      rw [hwm k' hk' k' hk']
      exact h.diag k' hk'
  · rw [if_neg hlt]
    simp only [Option.bind_some]
    rw [if_pos (hmo qr.R qr.ldR k rfl (fun hn => (h.ldn hn).2) hk (by omega))]
    exact ⟨qr.R, qr.ldR, rfl, by omega, h, fun _ _ _ _ => rfl⟩

theorem WS.store_mat {K : Type} (w : WS K) {ld k : Nat} (hk : k ≤ ld) (M : Nat → Nat → K) {i j : Nat} (hi : i < k) (hj : j < k) :
    (w.store ld k M).mat ld i j = M i j := by
  have h1 : (j * ld + i) / ld = j := by
    rw [Nat.add_comm, Nat.add_mul_div_right _ _ (by omega), Nat.div_eq_of_lt (by omega), Nat.zero_add]
  have h2 : (j * ld + i) % ld = i := by
    rw [Nat.add_comm, Nat.add_mul_mod_self_right, Nat.mod_eq_of_lt (by omega)]
  unfold WS.store WS.mat
  simp only [h1, h2]
  rw [if_pos ⟨hj, hi⟩]

/-- `add` with `d = Jᵀ n⁺`. -/
theorem QRInv.add {N : Nat → Nat → ℝ} {qr : SQR ℝ} (h : QRInv n sl N qr) (hq : qr.q < n) {d w : Nat → ℝ}
    (hd : ∀ j < n, d j = qr.Q.applyT (sl w) j) (hz : ∃ j, qr.q ≤ j ∧ j < n ∧ d j ≠ 0) {N' : Nat → Nat → ℝ}
    (hN : ∀ k < qr.q, ∀ i < n, qr.Q.applyT (sl (N' k)) i = qr.Q.applyT (sl (N k)) i)
    (hNq : ∀ i < n, qr.Q.applyT (sl (N' qr.q)) i = qr.Q.applyT (sl w) i) :
    ∃ qr', qr.add d = some qr' ∧ qr'.q = qr.q + 1 ∧ QRInv n sl N' qr' := by
  obtain ⟨wR, ld, hg, hkl, hi, hm⟩ := h.getR (k := qr.q + 1) (by omega) le_rfl
  unfold SQR.add
  rw [if_pos ⟨by rw [h.nbVar]; exact hq, by rw [h.nbVar]; have := h.szE; omega⟩, hg]
  simp only [Option.bind_some]
  obtain ⟨hh, hhe⟩ : ∃ hh, hh = mkHouse (qr.nbVar - qr.q) (fun i => d (qr.q + i)) := ⟨_, rfl⟩
  rw [← hhe]
  rw [OSeq.prepare, OSeq.addWith_append, if_pos (show (Elem.house (qr.nbVar - qr.q) ([] : List ((Nat → ℝ) × ℝ))).count = 0 from rfl)]
  simp only [Elem.addHouse, List.length_nil, List.nil_append, h.nbVar]
  rw [if_pos (by omega)]
  simp only [Option.map_some]
  refine ⟨_, rfl, rfl, ?_⟩
  have hl : 0 < n - qr.q := by omega
  have hew : Elem.wf (.house (n - qr.q) [(hh.ess, hh.tau)]) := by
    refine ⟨by omega, ?_, trivial⟩
    simp only [Nat.sub_zero]
    rw [hhe, h.nbVar]
    exact mkHouse_wf _
  have hwf : OSeq.wf n (qr.Q ++ [(qr.q, .house (n - qr.q) [(hh.ess, hh.tau)])]) :=
    OSeq.wf_append h.wf (by simp only [Elem.n]; omega) hew
  have hT : ∀ v, OSeq.applyT (qr.Q ++ [(qr.q, .house (n - qr.q) [(hh.ess, hh.tau)])]) v
      = segApply qr.q (applyHouse (n - qr.q) hh.ess hh.tau) (qr.Q.applyT v) := by
    intro v
    rw [OSeq.applyT_append]
    simp only [Elem.applyT, Elem.n]
    congr 1
    funext v
    exact (applyHouse_eq hl _ _ v).symm
  have hiso := applyHouse_iso hl (fun i => d (qr.q + i))
  rw [← h.nbVar, ← hhe, h.nbVar] at hiso
  have hbeta : ∀ i < n - qr.q, applyHouse (n - qr.q) hh.ess hh.tau (fun i => d (qr.q + i)) i = if i = 0 then hh.beta else 0 := by
    intro i hi
    rw [hhe, h.nbVar]
    exact mkHouse_apply hl _ hi
  have hb0 : hh.beta ≠ 0 := by
    intro hb
    have hz0 : ∀ i < n - qr.q, applyHouse (n - qr.q) hh.ess hh.tau (fun i => d (qr.q + i)) i = 0 := by
      intro i hi; rw [hbeta i hi]; split_ifs <;> [exact hb; rfl]
    have e := hiso.dot (fun i => d (qr.q + i)) (fun i => d (qr.q + i))
    rw [sum_eq_zero (fun i hi => by rw [hz0 i (mem_range.1 hi), zero_mul])] at e
    obtain ⟨j, hj1, hj2, hj3⟩ := hz
    have e2 := (sum_eq_zero_iff_of_nonneg (fun i _ => mul_self_nonneg _)).1 e.symm (j - qr.q) (mem_range.2 (by omega))
    simp only [show qr.q + (j - qr.q) = j by omega] at e2
    exact hj3 (mul_self_eq_zero.1 e2)
  have hst : ∀ i < qr.q + 1, ∀ j < qr.q + 1,
      (wR.store ld (qr.q + 1) (fun i j => if j = qr.q then (if i = qr.q then hh.beta else d i) else wR.mat ld i j)).mat ld i j
        = if j = qr.q then (if i = qr.q then hh.beta else d i) else wR.mat ld i j := by
    intro i hi j hj
    rw [WS.store_mat _ hkl _ hi hj]
  constructor
  · rfl
  · exact hwf
  · exact hq
  · exact hkl
  · exact hi.ldn
  · exact hi.size
  · exact h.szE
  · intro k hk i hin
    have hk : k < qr.q + 1 := hk
    simp only [hT]
    by_cases hkq : k = qr.q
    · subst hkq
      by_cases hlt : i < qr.q
      · rw [segApply_lt _ _ hlt, if_pos (by omega), hst i (by omega) _ (by omega), if_pos rfl, if_neg (by omega),
          hNq i hin, hd i hin]
      · obtain ⟨j, rfl⟩ : ∃ j, i = qr.q + j := ⟨i - qr.q, by omega⟩
        rw [segApply_ge]
        have hc : applyHouse (n - qr.q) hh.ess hh.tau (fun i => qr.Q.applyT (sl (N' qr.q)) (qr.q + i)) j
            = applyHouse (n - qr.q) hh.ess hh.tau (fun i => d (qr.q + i)) j := by
          refine applyHouse_congr hl _ (fun _ _ => rfl) ?_ (by omega)
          intro i hi
          rw [hNq _ (by omega), hd _ (by omega)]
        rw [hc, hbeta j (by omega)]
        by_cases hj : j = 0
        · subst hj
          rw [if_pos rfl, if_pos (by omega), hst _ (by omega) _ (by omega), if_pos rfl, if_pos (by omega)]
        · rw [if_neg hj, if_neg (by omega)]
    · have hk' : k < qr.q := by omega
      have hz' : ∀ j < n, qr.q ≤ j → qr.Q.applyT (sl (N' k)) j = 0 := by
        intro j hj hqj
        rw [hN k hk' j hj, h.tri k hk' j hj, if_neg (by omega)]
      have hsame : segApply qr.q (applyHouse (n - qr.q) hh.ess hh.tau) (qr.Q.applyT (sl (N' k))) i = qr.Q.applyT (sl (N' k)) i := by
        by_cases hlt : i < qr.q
        · rw [segApply_lt _ _ hlt]
        · obtain ⟨j, rfl⟩ : ∃ j, i = qr.q + j := ⟨i - qr.q, by omega⟩
          rw [segApply_ge, hiso.zero (fun i hi => hz' _ (by omega) (by omega))]
      rw [hsame, hN k hk' i hin, h.tri k hk' i hin]
      by_cases hik : i ≤ k
      · rw [if_pos hik, if_pos hik, hst i (by omega) k hk, if_neg hkq]
        exact (hm i (by omega) k hk').symm
      · rw [if_neg hik, if_neg hik]
  · intro k hk
    have hk : k < qr.q + 1 := hk
    intro hcon
    have hcon := (hst k hk k hk).symm.trans hcon
    by_cases hkq : k = qr.q
    · rw [if_pos hkq, if_pos hkq] at hcon; exact hb0 hcon
    · rw [if_neg hkq, hm k (by omega) k (by omega)] at hcon
      exact h.diag k (by omega) hcon

theorem givSeqT_congr {gs gs' : Nat → ℝ × ℝ} (v : Nat → ℝ) (k : Nat) (h : ∀ i < k, gs i = gs' i) :
    givSeqT gs 0 v k = givSeqT gs' 0 v k := by
  induction k with
  | zero => rfl
  | succ k ih => rw [givSeqT, givSeqT, ih (fun i hi => h i (by omega)), h (0 + k) (by omega)]

/-- The rotations of `remove`, on `R` and on the sequence. -/
theorem remRotsQ_spec (dbg : Bool) {q l : Nat} (hq : q < n) (hlq : l ≤ q) (R J : Nat → Nat → ℝ) (Q : OSeq ℝ)
    (hJ : ∀ w, ∀ j < n, tmul n J w j = Q.applyT (sl w) j) (k : Nat) (hk : l + k ≤ q) :
    ∃ gs : List (ℝ × ℝ), gs.length = k ∧ (∀ g ∈ gs, g.1 ^ 2 + g.2 ^ 2 = 1) ∧
      remRotsQ dbg q l R (Q.prepare (.givens (q - l + 1) [])) k
        = some ((remRots dbg n q l R J k).1, Q ++ [(if k = 0 then 0 else l, .givens (q - l + 1) gs)]) ∧
      ∀ w, ∀ j < n, tmul n (remRots dbg n q l R J k).2 w j
        = segApply l (fun v => givSeqT (gsFn gs) 0 v k) (Q.applyT (sl w)) j := by
  induction k with
  | zero =>
    refine ⟨[], rfl, by simp, rfl, ?_⟩
    intro w j hj
    simp only [remRots, hJ w j hj]
    by_cases h : j < l
    · rw [segApply_lt _ _ h]
    · obtain ⟨i, rfl⟩ : ∃ i, j = l + i := ⟨j - l, by omega⟩
      rw [segApply_ge]; rfl
  | succ k ih =>
    obtain ⟨gs, hlen, hunit, hrot, htm⟩ := ih (by omega)
    obtain ⟨RJ, hRJ⟩ : ∃ RJ, RJ = remRots dbg n q l R J k := ⟨_, rfl⟩
    rw [← hRJ] at hrot htm
    obtain ⟨g, hg⟩ : ∃ g, g = (remRotR dbg q RJ.1 (l + k)).2 := ⟨_, rfl⟩
    have hgu : g.c * g.c + g.s * g.s = 1 := by rw [hg]; exact (makeGivens_spec _ _).1
    refine ⟨gs ++ [(g.c, g.s)], by simp [hlen], ?_, ?_, ?_⟩
    · intro x hx
      rcases List.mem_append.1 hx with hx | hx
      · exact hunit x hx
      · rw [List.mem_singleton] at hx; subst hx
        simp only; nlinarith [hgu]
    · rw [remRotsQ, hrot]
      simp only [Option.bind_some]
      rw [OSeq.addWith_append, ← hg]
      simp only [Elem.count, Elem.addGivens, hlen, Option.map_some, remRots, ← hRJ]
      by_cases h0 : k = 0
      · subst h0
        simp only [if_true, Nat.add_zero, Option.map_some]
        rfl
      · simp only [h0, if_false, if_true, Option.map_some, Nat.succ_ne_zero]
        rfl
    · intro w j hj
      have e1 : (remRots dbg n q l R J (k + 1)).2 = rotCols n RJ.2 (l + k) g := by
        rw [remRots, ← hRJ, hg]; rfl
      rw [e1, tmul_rot]
      have hold : ∀ v, givSeqT (gsFn (gs ++ [(g.c, g.s)])) 0 v k = givSeqT (gsFn gs) 0 v k := by
        intro v
        apply givSeqT_congr
        intro i hi
        simp only [gsFn]
        rw [List.getD_append _ _ _ _ (by omega)]
      have hnew : gsFn (gs ++ [(g.c, g.s)]) k = (g.c, g.s) := by
        simp only [gsFn]
        rw [List.getD_append_right _ _ _ _ (by omega), hlen]; simp
      have e2 : ∀ v, givSeqT (gsFn (gs ++ [(g.c, g.s)])) 0 v (k + 1) = givRot k g.c (-g.s) (givSeqT (gsFn gs) 0 v k) := by
        intro v; rw [givSeqT, hold, Nat.zero_add, hnew]
      rw [htm w (l + k) (by omega), htm w (l + k + 1) (by omega), htm w j hj]
      simp only [e2]
      rw [show l + k + 1 = l + (k + 1) by omega, segApply_ge, segApply_ge]
      by_cases hjl : j < l
      · rw [if_neg (by omega), if_neg (by omega), segApply_lt _ _ hjl, segApply_lt _ _ hjl]
      · obtain ⟨i, rfl⟩ : ∃ i, j = l + i := ⟨j - l, by omega⟩
        rw [segApply_ge, segApply_ge, givRot_eq]
        dsimp only
        by_cases h1 : i = k
        · subst h1; rw [if_pos rfl, if_pos rfl]; ring
        · rw [if_neg (by omega), if_neg h1]
          by_cases h2 : i = k + 1
          · subst h2; rw [if_pos rfl, if_pos rfl]; ring
          · rw [if_neg (by omega), if_neg h2]

/-- `remove(l)`. -/
theorem QRInv.remove (hl : LinOps n G sl slt) {N : Nat → Nat → ℝ} {qr : SQR ℝ} (h : QRInv n sl N qr) (dbg : Bool) {l : Nat} (hlq : l < qr.q)
    {N' : Nat → Nat → ℝ} (hN : ∀ k < qr.q - 1, ∀ a < n, N' k a = N (if k < l then k else k + 1) a) :
    ∃ qr', qr.remove dbg l = some qr' ∧ qr'.q = qr.q - 1 ∧ QRInv n sl N' qr' := by
  have hqn := h.q_le
  have hld := h.ld
  have h0 : (SQR.getR { qr with q := qr.q - 1 } (qr.q - 1 + 1)) = some { qr with q := qr.q - 1 } := by
    unfold SQR.getR
    rw [if_pos (by show _ ≤ qr.nbVar; rw [h.nbVar]; omega), if_neg (by show ¬ qr.ldR < _; omega)]
    simp only [Option.bind_some]
    rw [if_pos]
    simp only [WS.matOk, Bool.and_eq_true, decide_eq_true_eq]
    exact ⟨le_trans (Nat.mul_le_mul (h.ldn (by omega)).2 (by omega)) h.size, by omega⟩
  have hfac : Fac n (qr.q - 1 + 1) G N (virtJ slt qr.Q) (qr.R.mat qr.ldR) := by
    rw [show qr.q - 1 + 1 = qr.q by omega]; exact h.fac hl
  have hrem := hfac.remove (by omega) l (by omega) dbg hN
  obtain ⟨gs, g1, g2, g3, g4⟩ := remRotsQ_spec (sl := sl) dbg (q := qr.q - 1) (l := l) (n := n) (by omega) (by omega)
    (qr.R.mat qr.ldR) (virtJ slt qr.Q) qr.Q (fun w j hj => tmul_virtJ hl h.wf w hj) (qr.q - 1 - l) (by omega)
  unfold SQR.remove
  rw [if_pos hlq, h0]
  simp only [Option.bind_some]
  rw [g3]
  simp only [Option.map_some]
  refine ⟨_, rfl, rfl, ?_⟩
  obtain ⟨RJ, hRJ⟩ : ∃ RJ, RJ = remRots dbg n (qr.q - 1) l (qr.R.mat qr.ldR) (virtJ slt qr.Q) (qr.q - 1 - l) := ⟨_, rfl⟩
  rw [← hRJ] at g4 hrem ⊢
  have hap : ∀ w, ∀ j < n, OSeq.applyT (qr.Q ++ [(if qr.q - 1 - l = 0 then 0 else l, .givens (qr.q - 1 - l + 1) gs)]) (sl w) j
      = tmul n RJ.2 w j := by
    intro w j hj
    rw [g4 w j hj, OSeq.applyT_append]
    have eT : Elem.applyT (.givens (qr.q - 1 - l + 1) gs) 0 (Elem.n (.givens (qr.q - 1 - l + 1) gs))
        = fun v => givSeqT (gsFn gs) 0 v (qr.q - 1 - l) := by
      funext v; simp only [Elem.applyT, Nat.zero_sub, Nat.sub_zero, g1]
    rw [eT]
    by_cases hz : qr.q - 1 - l = 0
    · rw [hz]
      simp only [givSeqT]
      unfold segApply
      split_ifs <;> simp_all
    · rw [if_neg hz]
  constructor
  · exact h.nbVar
  · refine OSeq.wf_append h.wf ?_ ⟨?_, g2⟩
    · simp only [Elem.n]
      split_ifs <;> omega
    · right; omega
  · show qr.q - 1 ≤ n
    omega
  · show qr.q - 1 ≤ qr.ldR
    omega
  · exact h.ldn
  · exact h.size
  · exact h.szE
  · intro k hk i hi
    have hk : k < qr.q - 1 := hk
    simp only [hap _ i hi]
    rw [hrem.tri k hk i hi]
    by_cases hik : i ≤ k
    · rw [if_pos hik, if_pos hik, WS.store_mat _ (by omega) _ (by omega) (by omega)]
    · rw [if_neg hik, if_neg hik]
  · intro k hk
    have hk : k < qr.q - 1 := hk
    show (WS.store _ _ _ _).mat _ k k ≠ 0
    rw [WS.store_mat _ (by omega) _ (by omega) (by omega)]
    exact hrem.diag k hk

end

end JrlQp
