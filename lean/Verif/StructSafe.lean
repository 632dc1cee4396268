import Verif.StructRel
import Verif.PropsExpSim

/-!
# The structured solver in any arithmetic: no fault, and results that do not depend on the content of the workspaces
-/

set_option linter.unusedSectionVars false

namespace JrlQp

open NumOps

variable {K B : Type} [Zero K] [One K] [Add K] [Sub K] [Neg K] [Mul K] [Div K] [NumOps K B] [SumOps K]

/-- What is needed of the arithmetic to know that the projection of a vector on the null space is null when there are as many
active constraints as variables. `nul` is `a == 0` for exact arithmetic, `a == 0` or `a` is NaN for IEEE doubles. -/
structure NulLaws {B : Type} [NumOps K B] (o : Opts K) (nul : K → Prop) : Prop where
  zero : nul 0
  add : ∀ {a b}, nul a → nul b → nul (a + b)
  sub : ∀ {a b}, nul a → nul b → nul (a - b)
  mul : ∀ (c : K) {a}, nul a → nul (c * a)
  mul' : ∀ (c : K) {a}, nul a → nul (a * c)
  div : ∀ (c : K) {a}, nul a → nul (a / c)
  sqrt : ∀ {a : K}, nul a → nul (sqrt a)
  /-- `!(a > tiny)` -/
  tiny : ∀ {a : K}, nul a → ltb o.tiny a = false

theorem NulLaws.rel {o : Opts K} {nul : K → Prop} (h : NulLaws o nul) : LinRel (fun a _ : K => nul a) :=
  ⟨h.zero, fun a b => h.add a b, fun a b => h.sub a b, fun c _ _ a => h.mul c a, fun c _ _ a => h.mul' c a, fun c _ _ a => h.div c a⟩

theorem NulLaws.norm {o : Opts K} {nul : K → Prop} (h : NulLaws o nul) {n : Nat} {z : Nat → K} (hz : ∀ i < n, nul (z i)) :
    ltb o.tiny (normn n z) = false :=
  h.tiny (h.sqrt (esum_rel h.rel (g := fun i => z i * z i) fun i hi => h.mul _ (hz i hi)))

/-! ## `StructuredG` -/

theorem SG.llt_keep (g : SG K) : g.llt.type = g.type ∧ g.llt.b = g.b ∧ g.llt.sz = g.sz := by
  unfold SG.llt
  split <;> exact ⟨rfl, rfl, rfl⟩

theorem SG.llt_ok {g : SG K} (h : g.ok) : g.llt.ok := by
  obtain ⟨h1, h2, h3⟩ := g.llt_keep
  unfold SG.ok
  rw [h1, h2, h3]; exact h

variable {r : K → K → Prop}

theorem SG.solveLHint_rel (hr : LinRel r) {g : SG K} (hok : g.ok) (start : Nat) (stop : Option Nat) {v w : Nat → K}
    (h : RelOn r g.nbVar v w) :
    ∃ X X', g.solveLHint v start stop = some X ∧ g.solveLHint w start stop = some X' ∧ RelOn r g.nbVar X X' := by
  unfold SG.solveLHint
  cases ht : g.type with
  | tri => exact ⟨_, _, rfl, rfl, triLSolve_rel hr g.b g.sz g.D g.S start h⟩
  | arrowUp => exact arrowLSolve_rel hr true hok.1 g.sz g.D g.S start stop (fun _ => hok.2 ht) h
  | arrowDown => exact arrowLSolve_rel hr false hok.1 g.sz g.D g.S start stop (fun e => by cases e) h

theorem SG.solveLT_rel (hr : LinRel r) {g : SG K} (hok : g.ok) (hd : g.decomposed = true) {v w : Nat → K}
    (h : RelOn r g.nbVar v w) : ∃ X X', g.solveLT v = some X ∧ g.solveLT w = some X' ∧ RelOn r g.nbVar X X' := by
  unfold SG.solveLT
  rw [if_pos hd, if_pos hd]
  cases ht : g.type with
  | tri => exact ⟨_, _, rfl, rfl, triLTSolve_rel hr g.b g.sz g.D g.S h⟩
  | arrowUp => exact ⟨_, _, rfl, rfl, arrowLTSolve_rel hr true hok.1 g.sz g.D g.S h⟩
  | arrowDown => exact ⟨_, _, rfl, rfl, arrowLTSolve_rel hr false hok.1 g.sz g.D g.S h⟩

theorem SegVec.toFull_congr {s : SegVec K} (h : s.start + s.len ≤ s.size) (u u' : Nat → K) : VEq s.size (s.toFull u) (s.toFull u') := by
  intro i hi
  unfold SegVec.toFull
  split_ifs with h1 h2 h3
  · rfl
  · rfl
  · rfl
  · omega

theorem SG.solveLSeg_sim {g : SG K} (hok : g.ok) (hd : g.decomposed = true) {s : SegVec K} (hs : s.start + s.len ≤ s.size)
    (hn : s.size = g.nbVar) (u u' : Nat → K) :
    ∃ X X', g.solveLSeg u s = some X ∧ g.solveLSeg u' s = some X' ∧ VEq g.nbVar X X' := by
  unfold SG.solveLSeg
  rw [if_pos ⟨hd, hn⟩, if_pos ⟨hd, hn⟩]
  exact SG.solveLHint_rel LinRel.eq hok _ _ (hn ▸ SegVec.toFull_congr hs u u')

/-! ## `StructuredQR` -/

theorem mkHouse_congr {len : Nat} (hl : 0 < len) {v v' : Nat → K} (h : VEq len v v') :
    (mkHouse len v).tau = (mkHouse len v').tau ∧ (mkHouse len v).beta = (mkHouse len v').beta ∧
      ∀ k < len - 1, (mkHouse len v).ess k = (mkHouse len v').ess k := by
  unfold mkHouse
  rw [esum_congr (g := fun i => v' (i + 1) * v' (i + 1)) (fun i hi => by rw [h _ (by omega)]), h 0 hl]
  simp only []
  split_ifs
  · exact ⟨rfl, rfl, fun _ _ => rfl⟩
  · exact ⟨rfl, rfl, fun k hk => by simp only []; rw [h _ (by omega)]⟩
  · exact ⟨rfl, rfl, fun k hk => by simp only []; rw [h _ (by omega)]⟩

/-- Two `StructuredQR` of size `n` that hold the same factorisation, possibly stored with different leading dimensions. -/
structure QSim (n : Nat) (qr qr' : SQR K) : Prop where
  sz : QSz n qr
  sz' : QSz n qr'
  qe : qr'.q = qr.q
  qn : qr.q ≤ n
  ld : qr.q ≤ qr.ldR
  ld' : qr.q ≤ qr'.ldR
  R : UEq qr.q (qr.R.mat qr.ldR) (qr'.R.mat qr'.ldR)
  Q : OSeq.Eqv n qr.Q qr'.Q

theorem QSz.getR_ok {n : Nat} {qr : SQR K} (h : QSz n qr) (hq : qr.q ≤ qr.ldR) {k : Nat} (hk : k ≤ n) (hk1 : k ≤ qr.q + 1) :
    ∃ w ld, qr.getR k = some { qr with R := w, ldR := ld } ∧ k ≤ ld ∧ qr.q ≤ ld ∧ QSz n { qr with R := w, ldR := ld } ∧
      ∀ i < qr.q, ∀ j < qr.q, w.mat ld i j = qr.R.mat qr.ldR i j := by
  have hmo : ∀ (w : WS K) ld k, w.size = qr.R.size → (0 < n → ld ≤ n) → k ≤ n → k ≤ ld → w.matOk k k ld = true := by
    intro w ld k hw hln hkn hkl
    simp only [WS.matOk, Bool.and_eq_true, decide_eq_true_eq]
    refine ⟨?_, hkl⟩
    rcases Nat.eq_zero_or_pos n with h0 | h0
    · obtain rfl : k = 0 := by omega
      simp
    · rw [hw]; exact le_trans (Nat.mul_le_mul (hln h0) hkn) h.size
  unfold SQR.getR
  rw [if_pos (by rw [h.nbVar]; exact hk)]
  by_cases hlt : qr.ldR < k
  · have hql : qr.q = qr.ldR := by omega
    have hn : 0 < n := by omega
    obtain ⟨hl0, hln⟩ := h.ld hn
    obtain ⟨nl, hnl⟩ : ∃ nl, nl = min (2 * qr.ldR) qr.nbVar := ⟨_, rfl⟩
    have hnl1 : k ≤ nl := by rw [hnl, h.nbVar]; omega
    have hnl2 : nl ≤ n := by rw [hnl, h.nbVar]; omega
    obtain ⟨w, hw, hws, hwm⟩ := C26_changeLd true qr.R qr.q qr.q qr.ldR nl (by omega)
      (hmo qr.R _ _ rfl (fun _ => hln) (by omega) hq) (hmo qr.R _ _ rfl (fun _ => hnl2) (by omega) (by omega))
      (fun _ _ => by
        calc qr.q * nl ≤ (n - 1) * n := Nat.mul_le_mul (by omega) hnl2
          _ < n * n := Nat.mul_lt_mul_of_pos_right (by omega) hn
          _ ≤ qr.R.size := h.size)
    rw [if_pos hlt, ← hnl, hw]
    simp only [Option.map_some, Option.bind_some]
    rw [if_pos (hmo w nl k hws (fun _ => hnl2) hk hnl1)]
    exact ⟨w, nl, rfl, hnl1, by omega, ⟨h.nbVar, fun _ => ⟨by simp only; omega, hnl2⟩, by simp only [hws]; exact h.size, h.szE⟩,
      hwm⟩
  · rw [if_neg hlt]
    simp only [Option.bind_some]
    rw [if_pos (hmo qr.R qr.ldR k rfl (fun hn => (h.ld hn).2) hk (by omega))]
    exact ⟨qr.R, qr.ldR, rfl, by omega, hq, h, fun _ _ _ _ => rfl⟩

theorem QSim.RSolve {n : Nat} {qr qr' : SQR K} (h : QSim n qr qr') {d d' : Nat → K} (hd : VEq n d d') :
    ∃ p p', qr.RSolve qr.q d = some p ∧ qr'.RSolve qr.q d' = some p' ∧ QSim n p.1 p'.1 ∧ p.1.q = qr.q ∧ VEq qr.q p.2 p'.2 := by
  have hl' : qr'.q ≤ qr'.ldR := by rw [h.qe]; exact h.ld'
  obtain ⟨w, ld, e, a1, a2, a3, a4⟩ := h.sz.getR_ok h.ld (k := qr.q) h.qn (by omega)
  obtain ⟨w', ld', e', a1', a2', a3', a4'⟩ := h.sz'.getR_ok hl' (k := qr'.q) (by rw [h.qe]; exact h.qn) (by omega)
  have hU : UEq qr.q (w.mat ld) (w'.mat ld') := by
    intro j hj i hi
    rw [a4 i (by omega) j hj, a4' i (by rw [h.qe]; omega) j (by rw [h.qe]; exact hj)]
    exact h.R j hj i hi
  unfold SQR.RSolve
  rw [if_pos rfl, if_pos h.qe.symm, e, e']
  refine ⟨_, _, rfl, rfl, ⟨a3, a3', h.qe, h.qn, a2, by rw [← h.qe]; exact a2', hU, h.Q⟩, rfl, ?_⟩
  simp only [h.qe]
  exact backSub_congr hU fun i hi => hd i (lt_of_lt_of_le hi h.qn)

theorem OSeq.Eqv.append {N : Nat} (Q : OSeq K) : ∀ {Q' : OSeq K} {o : Nat} {e e' : Elem K}, OSeq.Eqv N Q Q' → o + e.n ≤ N → e.Eqv e' →
    OSeq.Eqv N (Q ++ [(o, e)]) (Q' ++ [(o, e')]) := by
  induction Q with
  | nil =>
    intro Q' o e e' h h1 h2
    cases Q' with
    | nil => exact ⟨rfl, h1, h2, trivial⟩
    | cons => exact h.elim
  | cons a t ih =>
    intro Q' o e e' h h1 h2
    cases Q' with
    | nil => exact h.elim
    | cons a' t' =>
      obtain ⟨k1, k2, k3, k4⟩ := h
      exact ⟨k1, k2, k3, ih k4 h1 h2⟩

theorem QSim.add {n : Nat} {qr qr' : SQR K} (h : QSim n qr qr') (hq : qr.q < n) {d d' : Nat → K} (hd : VEq n d d') :
    ∃ p p', qr.add d = some p ∧ qr'.add d' = some p' ∧ QSim n p p' ∧ p.q = qr.q + 1 := by
  have hl' : qr'.q ≤ qr'.ldR := by rw [h.qe]; exact h.ld'
  obtain ⟨w, ld, e, a1, a2, a3, a4⟩ := h.sz.getR_ok h.ld (k := qr.q + 1) hq le_rfl
  obtain ⟨w', ld', e', a1', a2', a3', a4'⟩ := h.sz'.getR_ok hl' (k := qr'.q + 1) (by rw [h.qe]; exact hq) le_rfl
  have hU : UEq qr.q (w.mat ld) (w'.mat ld') := by
    intro j hj i hi
    rw [a4 i (by omega) j hj, a4' i (by rw [h.qe]; omega) j (by rw [h.qe]; exact hj)]
    exact h.R j hj i hi
  have hn := h.sz.nbVar
  have hn' := h.sz'.nbVar
  have hE := h.sz.szE
  have hE' := h.sz'.szE
  obtain ⟨t1, t2, t3⟩ := mkHouse_congr (len := n - qr.q) (by omega) (v := fun i => d (qr.q + i)) (v' := fun i => d' (qr.q + i))
    (fun i hi => hd _ (by omega))
  have hqe := h.qe
  have hsz := h.sz.szE
  unfold SQR.add
  rw [if_pos ⟨by omega, by omega⟩, if_pos ⟨by omega, by omega⟩]
  simp only []
  rw [e, e']
  simp only [Option.bind_some, OSeq.prepare, OSeq.addWith_append, Elem.count, List.length_nil, if_true, Elem.addHouse]
  have c1 : qr.nbVar - qr.q - 1 + 0 + 1 = qr.nbVar - qr.q := by omega
  have c1' : qr'.nbVar - qr'.q - 1 + 0 + 1 = qr'.nbVar - qr'.q := by omega
  rw [if_pos c1, if_pos c1']
  simp only [Option.map_some, List.nil_append]
  refine ⟨_, _, rfl, rfl, ⟨⟨a3.nbVar, a3.ld, a3.size, a3.szE⟩, ⟨a3'.nbVar, a3'.ld, a3'.size, a3'.szE⟩, by simp only [hqe], hq, a1,
    by rw [← hqe]; exact a1', ?_, ?_⟩, rfl⟩
  · intro j hj i hi
    simp only at hj ⊢
    rw [WS.store_mat _ a1 _ (by omega) hj, WS.store_mat _ a1' _ (by omega) (by omega)]
    rw [hqe, hn, hn']
    by_cases hjq : j = qr.q
    · rw [if_pos hjq, if_pos hjq]
      by_cases hiq : i = qr.q
      · rw [if_pos hiq, if_pos hiq]; exact t2
      · rw [if_neg hiq, if_neg hiq]; exact hd _ (by omega)
    · rw [if_neg hjq, if_neg hjq]
      exact hU j (by omega) i hi
  · simp only [hqe, hn, hn']
    refine h.Q.append _ (by simp only [Elem.n]; omega) ⟨rfl, ?_⟩
    exact ⟨by omega, fun k hk => t3 k (by omega), t1, trivial⟩

/-- The loop of `remove` cannot fail, and its effect on `R` is the one of the dense solver. -/
theorem remRotsQ_ok (dbg : Bool) (n : Nat) {q l : Nat} (R J : Nat → Nat → K) (Q : OSeq K) (k : Nat) :
    ∃ gs : List (K × K), gs.length = k ∧
      remRotsQ dbg q l R (Q.prepare (.givens (q - l + 1) [])) k
        = some ((remRots dbg n q l R J k).1, Q ++ [(if k = 0 then 0 else l, .givens (q - l + 1) gs)]) ∧
      ∀ i < k, gs[i]? = some ((remRotR dbg q (remRots dbg n q l R J i).1 (l + i)).2.c, (remRotR dbg q (remRots dbg n q l R J i).1 (l + i)).2.s) := by
  induction k with
  | zero => exact ⟨[], rfl, rfl, by intro i hi; omega⟩
  | succ k ih =>
    obtain ⟨gs, hlen, hrot, hgs⟩ := ih
    obtain ⟨RJ, hRJ⟩ : ∃ RJ, RJ = remRots dbg n q l R J k := ⟨_, rfl⟩
    obtain ⟨g, hg⟩ : ∃ g, g = (remRotR dbg q RJ.1 (l + k)).2 := ⟨_, rfl⟩
    rw [← hRJ] at hrot
    refine ⟨gs ++ [(g.c, g.s)], by simp [hlen], ?_, ?_⟩
    · rw [remRotsQ, hrot]
      simp only [Option.bind_some]
      rw [OSeq.addWith_append, ← hg]
      simp only [Elem.count, Elem.addGivens, hlen, Option.map_some, remRots, ← hRJ]
      by_cases h0 : k = 0
      · subst h0
        simp only [if_true, Nat.add_zero, Option.map_some]
        rfl
      · simp only [h0, if_false, if_true, Option.map_some, Nat.succ_ne_zero]
        rfl
    · intro i hi
      by_cases hik : i = k
      · subst hik
        rw [List.getElem?_append_right (by omega), hlen, Nat.sub_self, hg, hRJ]; rfl
      · rw [List.getElem?_append_left (by omega)]
        exact hgs i (by omega)

theorem QSim.remove {n : Nat} {qr qr' : SQR K} (h : QSim n qr qr') (dbg dbg' : Bool) {l : Nat} (hl : l < qr.q) :
    ∃ p p', qr.remove dbg l = some p ∧ qr'.remove dbg' l = some p' ∧ QSim n p p' ∧ p.q = qr.q - 1 := by
  have hqe := h.qe
  have hn := h.qn
  have hld := h.ld
  have hld' := h.ld'
  have hk : qr.q - 1 + 1 = qr.q := by omega
  have hk' : qr'.q - 1 + 1 = qr'.q := by omega
  obtain ⟨w, ld, e, a1, a2, a3, a4⟩ := (h.sz.setQ (qr.q - 1)).getR_ok (by simp only; omega) (k := qr.q - 1 + 1) (by omega) (by simp only; omega)
  obtain ⟨w', ld', e', a1', a2', a3', a4'⟩ := (h.sz'.setQ (qr'.q - 1)).getR_ok (by simp only; omega) (k := qr'.q - 1 + 1) (by omega)
    (by simp only; omega)
  -- the leading dimension is large enough already
  have hw : ∀ {qr : SQR K} {w ld}, qr.q - 1 + 1 = qr.q → qr.q ≤ qr.ldR →
      SQR.getR { qr with q := qr.q - 1 } (qr.q - 1 + 1) = some { qr with q := qr.q - 1, R := w, ldR := ld } →
      w = qr.R ∧ ld = qr.ldR := by
    intro qr w ld hk hl he
    unfold SQR.getR at he
    split_ifs at he with c1 c2
    · simp only at c2; omega
    · simp only [Option.bind_some] at he
      split_ifs at he
      simp only [Option.some.injEq, SQR.mk.injEq] at he
      exact ⟨he.2.2.2.1.symm, he.2.2.1.symm⟩
  obtain ⟨rfl, rfl⟩ := hw hk hld e
  obtain ⟨rfl, rfl⟩ := hw hk' (by omega) e'
  obtain ⟨gs, g1, g2, g3⟩ := remRotsQ_ok dbg n (q := qr.q - 1) (l := l) (qr.R.mat qr.ldR) (fun _ _ => 0) qr.Q (qr.q - 1 - l)
  obtain ⟨gs', g1', g2', g3'⟩ := remRotsQ_ok dbg' n (q := qr.q - 1) (l := l) (qr'.R.mat qr'.ldR) (fun _ _ => 0) qr'.Q (qr.q - 1 - l)
  have hR := fun k => remRots_congr (b := dbg) (b' := dbg') (n := n) (q := qr.q - 1) (l := l) (R := qr.R.mat qr.ldR) (R' := qr'.R.mat qr'.ldR)
    (J := fun _ _ => 0) (J' := fun _ _ => 0) (fun c hc _ r hr => h.R c (by omega) r hr) (fun _ _ _ _ => rfl) (by omega) k
  have hgs : gs = gs' := by
    apply List.ext_getElem? 
    intro i
    by_cases hi : i < qr.q - 1 - l
    · rw [g3 i hi, g3' i hi]
      obtain ⟨k1, _⟩ := hR i (by omega)
      have e1 := k1 (l + i + 1) (by omega) (by omega) (l + i) (by omega)
      have e2 := k1 (l + i + 1) (by omega) (by omega) (l + i + 1) le_rfl
      have e3 : (remRotR dbg (qr.q - 1) (remRots dbg n (qr.q - 1) l (qr.R.mat qr.ldR) (fun _ _ => 0) i).1 (l + i)).2
          = (remRotR dbg' (qr.q - 1) (remRots dbg' n (qr.q - 1) l (qr'.R.mat qr'.ldR) (fun _ _ => 0) i).1 (l + i)).2 := by
        simp only [remRotR]
        have f1 : ∀ (P : Nat → Nat → K), (if l + i + 1 = l + i ∧ l + i < l + i then P (l + i) (l + i + 1) else P (l + i) (l + i + 1)) = P (l + i) (l + i + 1) := by
          intro P; split_ifs <;> rfl
        have f2 : ∀ (P : Nat → Nat → K), (if l + i + 1 = l + i ∧ l + i + 1 < l + i then P (l + i + 1) (l + i + 1) else P (l + i + 1) (l + i + 1)) = P (l + i + 1) (l + i + 1) := by
          intro P; split_ifs <;> rfl
        rw [f1, f1, f2, f2, e1, e2]
      rw [e3]
    · rw [List.getElem?_eq_none (by omega), List.getElem?_eq_none (by omega)]
  subst hgs
  unfold SQR.remove
  rw [if_pos hl, if_pos (by omega), e, e']
  simp only [Option.bind_some, hqe]
  rw [g2, g2']
  simp only [Option.map_some]
  refine ⟨_, _, rfl, rfl, ⟨⟨a3.nbVar, a3.ld, a3.size, a3.szE⟩, ⟨a3'.nbVar, a3'.ld, a3'.size, a3'.szE⟩, rfl, by simp only; omega,
    by simp only; omega, by simp only; omega, ?_, ?_⟩, rfl⟩
  · intro j hj i hi
    simp only at hj ⊢
    rw [WS.store_mat _ (by omega) _ (by omega) (by omega), WS.store_mat _ (by omega) _ (by omega) (by omega)]
    exact (hR (qr.q - 1 - l) (by omega)).1 j (by omega) (by omega) i hi
  · simp only
    refine h.Q.append _ ?_ ⟨rfl, rfl, ?_⟩
    · simp only [Elem.n]; split_ifs <;> omega
    · right; omega

end JrlQp
