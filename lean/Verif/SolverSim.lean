import Verif.PropsSafety

/-!
# Simulation: results depend only on live entries of the workspaces

Two runs whose states agree on the live part of the workspaces (the entries that a later read can reach) stay in
agreement, whatever the garbage elsewhere, whatever the build type, and whatever the strict upper triangle of `G`.
-/

set_option linter.unusedSectionVars false

namespace JrlQp

open NumOps

variable {K B : Type} [Zero K] [One K] [Add K] [Sub K] [Neg K] [Mul K] [Div K] [NumOps K B] [SumOps K]

/-- Agreement of the first `n` entries. -/
def VEq (n : Nat) (u v : Nat → K) : Prop := ∀ i < n, u i = v i
/-- Agreement of the leading `n x n` block. -/
def MEq (n : Nat) (M N : Nat → Nat → K) : Prop := ∀ i < n, ∀ j < n, M i j = N i j
/-- Agreement of the upper triangle of the leading `q x q` block. -/
def UEq (q : Nat) (M N : Nat → Nat → K) : Prop := ∀ j < q, ∀ i ≤ j, M i j = N i j
/-- Agreement of the lower triangle of the leading `n x n` block. -/
def LEq (n : Nat) (M N : Nat → Nat → K) : Prop := ∀ i < n, ∀ j ≤ i, M i j = N i j

/-! ### Linear algebra congruences -/

theorem backSubK_congr {U U' : Nat → Nat → K} {n : Nat} {b b' : Nat → K} (hU : UEq n U U') (hb : VEq n b b') :
    ∀ k ≤ n, VEq n (backSubK U n b k) (backSubK U' n b' k) := by
  intro k
  induction k with
  | zero => intro _; exact hb
  | succ k ih =>
    intro hk
    have h := ih (by omega)
    intro i hi
    simp only [backSubK, upd]
    split_ifs with he
    · have h1 : n - 1 - k < n := by omega
      rw [h _ h1, hU _ h1 _ le_rfl]
      congr 1
      refine esub_congr rfl fun j hj => ?_
      rw [hU _ (by omega) _ (by omega), h _ (by omega)]
    · exact h i hi

theorem backSub_congr {U U' : Nat → Nat → K} {n : Nat} {b b' : Nat → K} (hU : UEq n U U') (hb : VEq n b b') :
    VEq n (backSub U n b) (backSub U' n b') := backSubK_congr hU hb n le_rfl

theorem fwdSub_congr {L L' : Nat → Nat → K} {n : Nat} {b b' : Nat → K} (hL : LEq n L L') (hb : VEq n b b') :
    ∀ k ≤ n, VEq n (fwdSub L b k) (fwdSub L' b' k) := by
  intro k
  induction k with
  | zero => intro _; exact hb
  | succ k ih =>
    intro hk
    have h := ih (by omega)
    intro i hi
    simp only [fwdSub, upd]
    split_ifs with he
    · have h1 : k < n := by omega
      rw [h _ h1, hL _ h1 _ le_rfl]
      congr 1
      refine esub_congr rfl fun j hj => ?_
      rw [hL _ h1 _ (by omega), h _ (by omega)]
    · exact h i hi

theorem cholCol_congr {n k : Nat} {M M' : Nat → Nat → K} (h : LEq n M M') (hk : k < n) :
    (cholCol n k M = none ∧ cholCol n k M' = none) ∨
    ∃ N N', cholCol n k M = some N ∧ cholCol n k M' = some N' ∧ LEq n N N' := by
  have hx : esub (.llt n k k) (M k k) (fun j => M k j * M k j) k = esub (.llt n k k) (M' k k) (fun j => M' k j * M' k j) k :=
    esub_congr (h k hk k le_rfl) fun j hj => by rw [h k hk j (by omega)]
  unfold cholCol
  simp only [hx]
  split_ifs with hc
  · exact Or.inl ⟨rfl, rfl⟩
  · right
    refine ⟨_, _, rfl, rfl, ?_⟩
    intro i hi j hj
    simp only []
    split_ifs with h1 h2 h3
    · rfl
    · subst h1
      congr 1
      exact esub_congr (h i hi j hj) fun l hl => by rw [h i hi l (by omega), h j hk l (by omega)]
    · exact h i hi j hj
    · exact h i hi j hj

theorem chol_congr {n : Nat} {M M' : Nat → Nat → K} (h : LEq n M M') :
    ∀ k ≤ n, LEq n (chol n M k).1 (chol n M' k).1 ∧ (chol n M k).2 = (chol n M' k).2 := by
  intro k
  induction k with
  | zero => intro _; exact ⟨h, rfl⟩
  | succ k ih =>
    intro hk
    have hi := ih (by omega)
    simp only [chol]
    rcases hc : chol n M k with ⟨N, o⟩
    rcases hc' : chol n M' k with ⟨N', o'⟩
    rw [hc, hc'] at hi
    obtain ⟨h1, h2⟩ := hi
    simp only at h1 h2
    subst h2
    cases o with
    | some c => exact ⟨h1, rfl⟩
    | none =>
      simp only []
      rcases cholCol_congr h1 (show k < n by omega) with ⟨e1, e2⟩ | ⟨P, P', e1, e2, e3⟩
      · rw [e1, e2]; exact ⟨h1, rfl⟩
      · rw [e1, e2]; exact ⟨e3, rfl⟩

theorem rotCols_congr {n : Nat} {J J' : Nat → Nat → K} (h : MEq n J J') (i : Nat) (hi : i + 1 < n) (g : Givens K) :
    MEq n (rotCols n J i g) (rotCols n J' i g) := by
  intro r hr c hc
  simp only [rotCols]
  split_ifs
  · exact h r hr c hc
  · simp [hr]; split_ifs <;> first | rw [h r hr i (by omega), h r hr (i + 1) hi] | exact h r hr c hc

/-! ### States -/

/-- Agreement of two states on live entries; `e` is the number of live entries of `u` beyond the active ones. -/
structure Sim (e : Nat) (s s' : State K) : Prop where
  nbVar : s'.nbVar = s.nbVar
  A : s'.A = s.A
  it : s'.it = s.it
  f : s'.f = s.f
  need : s'.needToExpand = s.needToExpand
  x : VEq s.nbVar s.x s'.x
  u : VEq (s.A.q + e) s.u s'.u
  J : MEq s.nbVar s.J s'.J
  R : UEq s.A.q s.R s'.R

theorem colDot_congr (pb : Pb K B) {n : Nat} {x x' : Nat → K} (h : VEq n x x') (i : Nat) :
    colDot pb n i x = colDot pb n i x' := esum_congr fun a ha => by rw [h a ha]

theorem foldl_congr' {α β : Type} (f g : α → β → α) (l : List β) (h : ∀ b ∈ l, ∀ a, f a b = g a b) (a : α) :
    l.foldl f a = l.foldl g a := by
  induction l generalizing a with
  | nil => rfl
  | cons b l ih =>
    simp only [List.foldl_cons]
    rw [h b List.mem_cons_self]
    exact ih (fun c hc => h c (List.mem_cons_of_mem _ hc)) _

theorem select_congr (pb : Pb K B) {n : Nat} (A : ActiveSet) {x x' : Nat → K} (h : VEq n x x')
    (hb : A.nbBnd ≤ n) : select pb n A x = select pb n A x' := by
  unfold select
  simp only []
  have h1 : selGen pb n A x = selGen pb n A x' := by
    funext acc i
    simp only [selGen, colDot_congr pb h]
  rw [h1]
  rw [foldl_congr' (selBnd pb A x) (selBnd pb A x') (List.range A.nbBnd)]
  intro i hi acc
  simp only [selBnd, h i (by have := List.mem_range.1 hi; omega)]

theorem preMult_congr {n m : Nat} (C : Nat → Nat → K) (sc : SC) {J J' : Nat → Nat → K} (h : MEq n J J')
    (hsc : sc.status.isBound = true → sc.p - m < n) : VEq n (preMult n m C sc J) (preMult n m C sc J') := by
  intro j hj
  unfold preMult
  cases hs : sc.status <;> simp only []
  · exact esum_congr fun a ha => by rw [h a ha j hj]
  · exact esum_congr fun a ha => by rw [h a ha j hj]
  · exact esum_congr fun a ha => by rw [h a ha j hj]
  · rw [h _ (hsc (by rw [hs]; rfl)) j hj]
  · rw [h _ (hsc (by rw [hs]; rfl)) j hj]
  · rw [h _ (hsc (by rw [hs]; rfl)) j hj]

theorem normalDot_congr {n m : Nat} (C : Nat → Nat → K) (sc : SC) {v v' : Nat → K} (h : VEq n v v')
    (hsc : sc.status.isBound = true → sc.p - m < n) : normalDot n m C sc v = normalDot n m C sc v' := by
  unfold normalDot
  have h1 : esum (.normalDot n) (fun a => v a * C a sc.p) n = esum (.normalDot n) (fun a => v' a * C a sc.p) n :=
    esum_congr fun a ha => by rw [h a ha]
  cases hs : sc.status <;> simp only [h1]
  · rw [h _ (hsc (by rw [hs]; rfl))]
  · rw [h _ (hsc (by rw [hs]; rfl))]
  · rw [h _ (hsc (by rw [hs]; rfl))]

/-- A selected bound designates an existing variable. -/
theorem cand_bound {pb : Pb K B} {s : State K} {sc : SC} (hd : Dim pb s) (hc : s.A.activatePre sc.p sc.status = true) :
    sc.status.isBound = true → sc.p - pb.m < s.nbVar := by
  intro hb
  rw [ActiveSet.activatePre_iff] at hc
  have h1 := hd.nbCstr
  have h2 := hd.nbBnd
  have h3 := hd.nbVar
  obtain ⟨hi, _, _, hk⟩ := hc
  have : ¬ (sc.status.isGeneral = true) := by cases h : sc.status <;> simp_all [Status.isGeneral, Status.isBound]
  rcases hk with h | h
  · exact absurd h.2 this
  · rw [h1, h2] at hi
    rw [h1] at h
    have hnb : pb.nb ≤ pb.n := by unfold Pb.nb; split_ifs <;> omega
    omega

/-- `Sim` plus agreement of the freshly computed `d`, `z`, `r`. -/
structure Sim2 (s s' : State K) : Prop extends Sim 1 s s' where
  d : VEq s.nbVar s.d s'.d
  z : VEq s.nbVar s.z s'.z
  r : VEq s.A.q s.r s'.r

theorem computeStep_sim {pb : Pb K B} {s s' : State K} {sc : SC} (h : Sim 1 s s')
    (hsc : sc.status.isBound = true → sc.p - pb.m < s.nbVar) (hq : s.A.q ≤ s.nbVar) :
    Sim2 (computeStep pb s sc) (computeStep pb s' sc) := by
  have hd : VEq s.nbVar (computeStep pb s sc).d (computeStep pb s' sc).d := by
    intro j hj
    simp only [computeStep, wr, h.nbVar, hj, if_true]
    exact preMult_congr pb.C sc h.J hsc j hj
  have hz : VEq s.nbVar (computeStep pb s sc).z (computeStep pb s' sc).z := by
    intro i hi
    have e1 : (computeStep pb s sc).z i
      = esum (.primalStep s.nbVar i) (fun k => s.J i (s.A.q + k) * (computeStep pb s sc).d (s.A.q + k)) (s.nbVar - s.A.q) := by
      simp only [computeStep]; simp only [wr, hi, if_true]
    have e2 : (computeStep pb s' sc).z i
      = esum (.primalStep s'.nbVar i) (fun k => s'.J i (s'.A.q + k) * (computeStep pb s' sc).d (s'.A.q + k)) (s'.nbVar - s'.A.q) := by
      simp only [computeStep]; simp only [wr, h.nbVar, hi, if_true]
    rw [e1, e2, h.A, h.nbVar]
    apply esum_congr
    intro k hk
    rw [h.J i hi _ (by omega), hd _ (by omega)]
  have hr : VEq s.A.q (computeStep pb s sc).r (computeStep pb s' sc).r := by
    have hb := backSub_congr h.R (b := (computeStep pb s sc).d) (b' := (computeStep pb s' sc).d)
      (fun i hi => hd i (by omega))
    intro i hi
    have e1 : (computeStep pb s sc).r i = backSub s.R s.A.q (computeStep pb s sc).d i := by
      simp only [computeStep]; simp only [wr, hi, if_true]
    have e2 : (computeStep pb s' sc).r i = backSub s'.R s.A.q (computeStep pb s' sc).d i := by
      simp only [computeStep, h.A]; simp only [wr, hi, if_true]
    rw [e1, e2]; exact hb i hi
  exact { nbVar := h.nbVar, A := h.A, it := h.it, f := h.f, need := h.need, x := h.x, u := h.u, J := h.J, R := h.R,
          d := hd, z := hz, r := hr }

theorem normn_congr {n : Nat} {v v' : Nat → K} (h : VEq n v v') : normn n v = normn n v' := by
  unfold normn dotn
  rw [esum_congr fun i hi => by rw [h i hi]]

theorem fullStep_congr (pb : Pb K B) {n : Nat} {x x' z z' : Nat → K} (hx : VEq n x x') (hz : VEq n z z') (sc : SC)
    (hsc : sc.status.isBound = true → sc.p - pb.m < n) : fullStep pb n x z sc = fullStep pb n x' z' sc := by
  unfold fullStep
  cases hs : sc.status <;> simp only [colDot_congr pb hx, colDot_congr pb hz]
  · rw [hx _ (hsc (by rw [hs]; rfl)), hz _ (hsc (by rw [hs]; rfl))]
  · rw [hx _ (hsc (by rw [hs]; rfl)), hz _ (hsc (by rw [hs]; rfl))]

/-- Same options up to the build type. -/
structure OEq (o o' : Opts K) : Prop where
  maxIter : o'.maxIter = o.maxIter
  bigBnd : o'.bigBnd = o.bigBnd
  tiny : o'.tiny = o.tiny

theorem stepLength_sim {o o' : Opts K} (ho : OEq o o') {pb : Pb K B} {s s' : State K} {sc : SC} (h : Sim2 s s')
    (hsc : sc.status.isBound = true → sc.p - pb.m < s.nbVar) :
    computeStepLength o' pb s' sc = computeStepLength o pb s sc := by
  unfold computeStepLength
  simp only [h.A, h.nbVar, ho.bigBnd, ho.tiny]
  rw [normn_congr (fun i hi => (h.z i hi).symm), fullStep_congr pb (fun i hi => (h.x i hi).symm)
    (fun i hi => (h.z i hi).symm) sc hsc]
  rw [foldl_congr' (ratioStep s.A s'.u s'.r) (ratioStep s.A s.u s.r) (List.range s.A.q)]
  intro k hk acc
  have hk := List.mem_range.1 hk
  simp only [ratioStep, h.u k (by omega), h.r k hk]

theorem dualUpdate_sim {s s' : State K} (h : Sim2 s s') (t : K) : Sim2 (dualUpdate s t) (dualUpdate s' t) := by
  refine { nbVar := h.nbVar, A := h.A, it := h.it, f := h.f, need := h.need, x := h.x, u := ?_, J := h.J, R := h.R,
           d := h.d, z := h.z, r := h.r }
  intro i hi
  simp only [dualUpdate, dualStep, h.A]
  simp only [dualUpdate] at hi
  split_ifs with h1 h2
  · rw [h.u i hi, h.r i h1]
  · rw [h.u s.A.q (by omega)]
  · exact h.u i hi

theorem fullUpdate_sim {pb : Pb K B} {s s' : State K} {sc : SC} (h : Sim2 s s') (t : K)
    (hsc : sc.status.isBound = true → sc.p - pb.m < s.nbVar) :
    Sim2 (fullUpdate pb s sc t) (fullUpdate pb s' sc t) := by
  apply dualUpdate_sim
  refine { nbVar := h.nbVar, A := h.A, it := h.it, f := ?_, need := h.need, x := ?_, u := h.u, J := h.J, R := h.R,
           d := h.d, z := h.z, r := h.r }
  · simp only [primalStep, h.nbVar, h.A, h.f, normalDot_congr pb.C sc h.z hsc, h.u s.A.q (by omega)]
  · intro i hi
    have hi' : i < s.nbVar := hi
    simp only [primalStep, wr, h.nbVar, hi', if_true, h.x i hi', h.z i hi']

/-- After `k` rotations the entries of `d` up to `n-1-k` are live. -/
theorem addRots_congr {b b' : Bool} {n : Nat} {d d' : Nat → K} {J J' : Nat → Nat → K} (hd : VEq n d d')
    (hJ : MEq n J J') : ∀ k, k + 1 ≤ n →
    VEq (n - k) (addRots b n d J k).1 (addRots b' n d' J' k).1 ∧
    MEq n (addRots b n d J k).2 (addRots b' n d' J' k).2 := by
  intro k
  induction k with
  | zero => intro _; exact ⟨by simpa [addRots] using hd, hJ⟩
  | succ k ih =>
    intro hk
    obtain ⟨h1, h2⟩ := ih (by omega)
    simp only [addRots, addRot]
    rw [h1 (n - 2 - k) (by omega), h1 (n - 2 - k + 1) (by omega)]
    refine ⟨?_, rotCols_congr h2 _ (by omega) _⟩
    intro i hi
    have hne : i ≠ n - 2 - k + 1 := by omega
    have key : ∀ (b : Bool) (v : Nat → K), (if b = true then upd v (n - 2 - k + 1) 0 else v) i = v i := by
      intro b v; split_ifs
      · simp [upd, hne]
      · rfl
    rw [key, key]
    simp only [upd]
    split_ifs
    · rfl
    · exact h1 i (by omega)

theorem addConstraint_sim {o o' : Opts K} {s s' : State K} {sc : SC} (h : Sim2 s s') (hw : s.A.WF)
    (hp : s.A.activatePre sc.p sc.status = true) (hq : s.A.q < s.nbVar) :
    Sim 0 (addConstraint o s sc) (addConstraint o' s' sc) := by
  have hqa := hw.q_activate hp
  obtain ⟨h1, h2⟩ := addRots_congr (b := o.dbg) (b' := o'.dbg) h.d h.J (s.nbVar - (s.A.q + 1)) (by omega)
  refine { nbVar := h.nbVar, A := ?_, it := h.it, f := h.f, need := h.need, x := h.x, u := ?_, J := ?_, R := ?_ }
  · simp only [addConstraint, h.A]
  · intro i hi
    simp only [addConstraint, hqa] at hi ⊢
    exact h.u i (by omega)
  · simp only [addConstraint, h.A, h.nbVar, hqa]
    exact h2
  · intro j hj i hi
    simp only [addConstraint, hqa, h.A, h.nbVar] at hj ⊢
    split_ifs with hc
    · exact h1 i (by omega)
    · exact h.R j (by omega) i hi

/-- After `k` rotations column `l+k` of `R` is dead; the upper triangle of the others is live. -/
theorem remRots_congr {b b' : Bool} {n q l : Nat} {R R' J J' : Nat → Nat → K}
    (hR : ∀ c ≤ q, c ≠ l → ∀ r ≤ c, R r c = R' r c) (hJ : MEq n J J') (hqn : q < n) : ∀ k, l + k ≤ q →
    (∀ c ≤ q, c ≠ l + k → ∀ r ≤ c, (remRots b n q l R J k).1 r c = (remRots b' n q l R' J' k).1 r c) ∧
    MEq n (remRots b n q l R J k).2 (remRots b' n q l R' J' k).2 := by
  intro k
  induction k with
  | zero => intro _; exact ⟨by simpa [remRots] using hR, hJ⟩
  | succ k ih =>
    intro hk
    obtain ⟨h1, h2⟩ := ih (by omega)
    simp only [remRots, remRot]
    generalize (remRots b n q l R J k).1 = P at *
    generalize (remRots b' n q l R' J' k).1 = P' at *
    have e1 : (if l + k + 1 = l + k ∧ l + k < l + k then P (l + k) (l + k + 1) else P (l + k) (l + k + 1))
      = P (l + k) (l + k + 1) := by simp
    have e1' : (if l + k + 1 = l + k ∧ l + k < l + k then P' (l + k) (l + k + 1) else P' (l + k) (l + k + 1))
      = P' (l + k) (l + k + 1) := by simp
    have e2 : (if l + k + 1 = l + k ∧ l + k + 1 < l + k then P (l + k + 1) (l + k + 1) else P (l + k + 1) (l + k + 1))
      = P (l + k + 1) (l + k + 1) := by simp
    have e2' : (if l + k + 1 = l + k ∧ l + k + 1 < l + k then P' (l + k + 1) (l + k + 1)
      else P' (l + k + 1) (l + k + 1)) = P' (l + k + 1) (l + k + 1) := by simp
    rw [e1, e1', e2, e2', h1 (l + k + 1) (by omega) (by omega) (l + k) (by omega),
      h1 (l + k + 1) (by omega) (by omega) (l + k + 1) le_rfl]
    generalize makeGivens (P' (l + k) (l + k + 1)) (P' (l + k + 1) (l + k + 1)) = g
    refine ⟨?_, rotCols_congr h2 _ (by omega) _⟩
    have key : ∀ c ≤ q, c ≠ l + (k + 1) → ∀ r ≤ c,
        (if b = true then upd2 (upd2 (fun r c => if c = l + k ∧ r < l + k then P r (l + k + 1) else P r c)
          (l + k) (l + k) g.r) (l + k + 1) (l + k + 1) 0
          else upd2 (fun r c => if c = l + k ∧ r < l + k then P r (l + k + 1) else P r c) (l + k) (l + k) g.r) r c
        = (if b' = true then upd2 (upd2 (fun r c => if c = l + k ∧ r < l + k then P' r (l + k + 1) else P' r c)
          (l + k) (l + k) g.r) (l + k + 1) (l + k + 1) 0
          else upd2 (fun r c => if c = l + k ∧ r < l + k then P' r (l + k + 1) else P' r c) (l + k) (l + k) g.r) r c := by
      intro c hc hne r hr
      have drop : ∀ (b : Bool) (M : Nat → Nat → K),
          (if b = true then upd2 M (l + k + 1) (l + k + 1) 0 else M) r c = M r c := by
        intro b M
        split_ifs
        · have : c ≠ l + k + 1 := by omega
          simp [upd2, this]
        · rfl
      rw [drop, drop]
      simp only [upd2]
      split_ifs with a1 a2
      · rfl
      · exact h1 (l + k + 1) (by omega) (by omega) r (by omega)
      · have hcl : c ≠ l + k := by
          rintro rfl
          rcases Nat.lt_or_ge r (l + k) with h | h
          · exact a2 ⟨rfl, h⟩
          · exact a1 ⟨by omega, rfl⟩
        exact h1 c hc hcl r hr
    generalize hM : (if b = true then upd2 (upd2 (fun r c => if c = l + k ∧ r < l + k then P r (l + k + 1) else P r c)
          (l + k) (l + k) g.r) (l + k + 1) (l + k + 1) 0
          else upd2 (fun r c => if c = l + k ∧ r < l + k then P r (l + k + 1) else P r c) (l + k) (l + k) g.r) = M at *
    generalize hM' : (if b' = true then upd2 (upd2 (fun r c => if c = l + k ∧ r < l + k then P' r (l + k + 1)
          else P' r c) (l + k) (l + k) g.r) (l + k + 1) (l + k + 1) 0
          else upd2 (fun r c => if c = l + k ∧ r < l + k then P' r (l + k + 1) else P' r c) (l + k) (l + k) g.r)
          = M' at *
    intro c hc hne r hr
    simp only [rotRows]
    by_cases hid : g.isId = true
    · simp only [hid, if_true]
      exact key c hc hne r hr
    · simp only [hid]
      simp only [Bool.false_eq_true, if_false]
      by_cases hcc : l + k + 2 ≤ c ∧ c < q + 1
      · rw [if_pos hcc, if_pos hcc, key c hc hne (l + k) (by omega), key c hc hne (l + k + 1) (by omega),
          key c hc hne r hr]
      · rw [if_neg hcc, if_neg hcc]
        exact key c hc hne r hr

theorem removeConstraint_sim {o o' : Opts K} {s s' : State K} {l : Nat} (h : Sim 1 s s') (hw : s.A.WF)
    (hl : l < s.A.q) (hq : s.A.q ≤ s.nbVar) :
    Sim 1 (removeConstraint o s l) (removeConstraint o' s' l) := by
  have hp : s.A.deactivatePre l = true := by
    rw [hw.q_eq] at hl; simpa [ActiveSet.deactivatePre] using hl
  have hqd := hw.q_deactivate hp
  obtain ⟨h1, h2⟩ := remRots_congr (b := o.dbg) (b' := o'.dbg) (n := s.nbVar) (q := s.A.q - 1) (l := l)
    (R := s.R) (R' := s'.R) (J := s.J) (J' := s'.J)
    (fun c hc _ r hr => h.R c (by omega) r hr) h.J (by omega) (s.A.q - 1 - l) (by omega)
  refine { nbVar := h.nbVar, A := ?_, it := h.it, f := h.f, need := h.need, x := h.x, u := ?_, J := ?_, R := ?_ }
  · simp only [removeConstraint, h.A]
  · intro i hi
    simp only [removeConstraint, hqd, h.A] at hi ⊢
    have hne : i ≠ s.A.q := by omega
    have key : ∀ (b : Bool) (v : Nat → K), (if b = true then upd v s.A.q 0 else v) i = v i := by
      intro b v; split_ifs
      · simp [upd, hne]
      · rfl
    rw [key, key]
    split_ifs
    · exact h.u _ (by omega)
    · exact h.u _ (by omega)
  · simp only [removeConstraint, h.A, h.nbVar, hqd]
    exact h2
  · intro j hj i hi
    simp only [removeConstraint, hqd, h.A, h.nbVar] at hj ⊢
    exact h1 j (by omega) (by omega) i hi

/-- Outcomes of an iteration that agree. -/
def ISim : Iter K → Iter K → Prop
  | .done t s, .done t' s' => t = t' ∧ Sim 0 s s'
  | .cont s sc skip, .cont s' sc' skip' => sc = sc' ∧ skip = skip' ∧ Sim (if skip then 1 else 0) s s'
  | _, _ => False

theorem Sim.weaken {s s' : State K} (h : Sim 1 s s') : Sim 0 s s' :=
  { h with u := fun i hi => h.u i (by omega) }

theorem iterBody_sim {o o' : Opts K} (ho : OEq o o') {pb : Pb K B} {s s' : State K} {sc : SC}
    (hs : Sim 1 s s') (hg : Good pb s) (hc : Cand s.A sc)
    {r r'} (hr : iterBody o pb s sc = .ok r) (hr' : iterBody o' pb s' sc = .ok r') : ISim r r' := by
  have hsc := cand_bound hg.dim hc.pre
  have h2 := computeStep_sim (pb := pb) hs hsc hg.q_le
  unfold iterBody at hr hr'
  by_cases a1 : (computeStepOk pb s sc && decide (s.A.q < s.szU) && decide (s.nbVar ≤ s.szX)) = true
  swap
  · rw [if_neg a1] at hr; cases hr
  by_cases a1' : (computeStepOk pb s' sc && decide (s'.A.q < s'.szU) && decide (s'.nbVar ≤ s'.szX)) = true
  swap
  · rw [if_neg a1'] at hr'; cases hr'
  rw [if_pos a1] at hr
  rw [if_pos a1'] at hr'
  simp only [] at hr hr'
  have hst := stepLength_sim ho (pb := pb) h2 hsc
  have hw1 : (computeStep pb s sc).A = s.A := rfl
  have hv1 : (computeStep pb s sc).nbVar = s.nbVar := rfl
  generalize computeStep pb s sc = s1 at *
  generalize computeStep pb s' sc = s1' at *
  by_cases a2 : stepLenOk o s1 sc = true
  swap
  · rw [if_neg a2] at hr; cases hr
  by_cases a2' : stepLenOk o' s1' sc = true
  swap
  · rw [if_neg a2'] at hr'; cases hr'
  rw [if_pos a2] at hr
  rw [if_pos a2'] at hr'
  rw [hst, ho.bigBnd] at hr'
  generalize computeStepLength o pb s1 sc = sl at *
  by_cases a3 : leb o.bigBnd (stdMin sl.t1 sl.t2) = true
  · rw [if_pos a3] at hr hr'
    cases hr; cases hr'
    exact ⟨rfl, h2.toSim.weaken⟩
  rw [if_neg a3] at hr hr'
  have hwf1 : s1.A.WF := by rw [hw1]; exact hg.dim.wf
  have hq1 : s1.A.q ≤ s1.nbVar := by rw [hw1, hv1]; exact hg.q_le
  by_cases a4 : leb o.bigBnd sl.t2 = true
  · rw [if_pos a4] at hr hr'
    have h3 := dualUpdate_sim h2 (stdMin sl.t1 sl.t2)
    have e1 : (dualUpdate s1 (stdMin sl.t1 sl.t2)).A = s1.A := rfl
    have e2 : (dualUpdate s1 (stdMin sl.t1 sl.t2)).nbVar = s1.nbVar := rfl
    generalize dualUpdate s1 (stdMin sl.t1 sl.t2) = s2 at *
    generalize dualUpdate s1' (stdMin sl.t1 sl.t2) = s2' at *
    by_cases a5 : removeOk s2 sl.l = true
    swap
    · rw [if_neg a5] at hr; cases hr
    by_cases a5' : removeOk s2' sl.l = true
    swap
    · rw [if_neg a5'] at hr'; cases hr'
    rw [if_pos a5] at hr
    rw [if_pos a5'] at hr'
    cases hr; cases hr'
    simp only [removeOk, Bool.and_eq_true, decide_eq_true_eq] at a5
    refine ⟨rfl, rfl, ?_⟩
    simp only [if_true]
    exact removeConstraint_sim h3.toSim (by rw [e1]; exact hwf1) a5.1.1.1.1.1 (by rw [e1, e2]; exact hq1)
  · rw [if_neg a4] at hr hr'
    have h3 := fullUpdate_sim (pb := pb) (sc := sc) h2 (stdMin sl.t1 sl.t2) (by rw [hv1]; exact hsc)
    have e1 : (fullUpdate pb s1 sc (stdMin sl.t1 sl.t2)).A = s1.A := rfl
    have e2 : (fullUpdate pb s1 sc (stdMin sl.t1 sl.t2)).nbVar = s1.nbVar := rfl
    generalize fullUpdate pb s1 sc (stdMin sl.t1 sl.t2) = s2 at *
    generalize fullUpdate pb s1' sc (stdMin sl.t1 sl.t2) = s2' at *
    by_cases a6 : eqb (stdMin sl.t1 sl.t2) sl.t2 = true
    · rw [if_pos a6] at hr hr'
      by_cases a5 : addOk s2 sc = true
      swap
      · rw [if_neg a5] at hr; cases hr
      by_cases a5' : addOk s2' sc = true
      swap
      · rw [if_neg a5'] at hr'; cases hr'
      rw [if_pos a5] at hr
      rw [if_pos a5'] at hr'
      cases hr; cases hr'
      simp only [addOk, Bool.and_eq_true, decide_eq_true_eq] at a5
      refine ⟨rfl, rfl, ?_⟩
      simp only [Bool.false_eq_true, if_false]
      exact addConstraint_sim h3 (by rw [e1]; exact hwf1) a5.1.1.1.1 a5.1.1.1.2
    · rw [if_neg a6] at hr hr'
      by_cases a5 : removeOk s2 sl.l = true
      swap
      · rw [if_neg a5] at hr; cases hr
      by_cases a5' : removeOk s2' sl.l = true
      swap
      · rw [if_neg a5'] at hr'; cases hr'
      rw [if_pos a5] at hr
      rw [if_pos a5'] at hr'
      cases hr; cases hr'
      simp only [removeOk, Bool.and_eq_true, decide_eq_true_eq] at a5
      refine ⟨rfl, rfl, ?_⟩
      simp only [if_true]
      exact removeConstraint_sim h3.toSim (by rw [e1]; exact hwf1) a5.1.1.1.1.1 (by rw [e1, e2]; exact hq1)

theorem upd_sim {s s' : State K} (h : Sim 0 s s') :
    Sim 1 { s with u := upd s.u s.A.q 0 } { s' with u := upd s'.u s'.A.q 0 } := by
  refine { nbVar := h.nbVar, A := h.A, it := h.it, f := h.f, need := h.need, x := h.x, u := ?_, J := h.J, R := h.R }
  intro i hi
  simp only [upd, h.A] at hi ⊢
  split_ifs with he
  · rfl
  · exact h.u i (by omega)

theorem nb_le (pb : Pb K B) : pb.nb ≤ pb.n := by unfold Pb.nb; split_ifs <;> omega

theorem iterate_sim {o o' : Opts K} (ho : OEq o o') {pb : Pb K B} {s s' : State K} {sc : SC} {skip : Bool}
    (hs : Sim (if skip then 1 else 0) s s') (hg : Good pb s) (hc : skip = true → Cand s.A sc)
    {r r'} (hr : iterate o pb s sc skip = .ok r) (hr' : iterate o' pb s' sc skip = .ok r') : ISim r r' := by
  unfold iterate at hr hr'
  cases skip with
  | true =>
    simp only [if_true] at hr hr' hs
    exact iterBody_sim ho hs hg (hc rfl) hr hr'
  | false =>
    simp only [Bool.false_eq_true, if_false] at hr hr' hs
    by_cases a1 : selectOk pb s = true
    swap
    · rw [if_neg a1] at hr; cases hr
    by_cases a1' : selectOk pb s' = true
    swap
    · rw [if_neg a1'] at hr'; cases hr'
    rw [if_pos a1] at hr
    rw [if_pos a1'] at hr'
    have hsel : select pb s'.nbVar s'.A s'.x = select pb s.nbVar s.A s.x := by
      rw [hs.nbVar, hs.A]
      exact select_congr pb s.A (fun i hi => (hs.x i hi).symm)
        (by rw [hg.dim.nbBnd, hg.dim.nbVar]; exact nb_le pb)
    rw [hsel] at hr'
    have hcand := select_cand pb s.nbVar s.A s.x
    generalize select pb s.nbVar s.A s.x = sc' at *
    by_cases hi : sc'.status = .inactive
    · rw [if_pos hi] at hr hr'
      cases hr; cases hr'
      exact ⟨rfl, hs⟩
    · rw [if_neg hi] at hr hr'
      by_cases a2 : (decide (s.A.q < s.szU) && decide (s.A.q ≤ s.szR)) = true
      swap
      · rw [if_neg a2] at hr; cases hr
      by_cases a2' : (decide (s'.A.q < s'.szU) && decide (s'.A.q ≤ s'.szR)) = true
      swap
      · rw [if_neg a2'] at hr'; cases hr'
      rw [if_pos a2] at hr
      rw [if_pos a2'] at hr'
      exact iterBody_sim ho (upd_sim hs) (hg.of_eq rfl rfl rfl rfl rfl rfl rfl rfl rfl)
        (hcand.resolve_left hi) hr hr'

theorem Sim.good {pb : Pb K B} {e : Nat} {s s' : State K} (h : Sim e s s') (hg : Good pb s) (hi : Inv s') :
    Good pb s' := by
  obtain ⟨h1, h2, h3, h4, h5, h6, h7, h8⟩ := hi
  exact ⟨⟨by rw [h.nbVar]; exact hg.dim.nbVar, h1, by rw [h.A]; exact hg.dim.nbCstr,
    by rw [h.A]; exact hg.dim.nbBnd, h2, h3, h4, h5, h6, h7, h8⟩, by rw [h.A, h.nbVar]; exact hg.q_le⟩

theorem loop_sim {o o' : Opts K} (ho : OEq o o') (law : FpLaws K o) (law' : FpLaws K o') {pb : Pb K B} (fuel : Nat) :
    ∀ {s s' : State K} {sc : SC} {skip : Bool}, Sim (if skip then 1 else 0) s s' → Good pb s → Good pb s' →
    (skip = true → Cand s.A sc) → ∀ {t t' s1 s1'}, loop o pb fuel s sc skip = .ok (t, s1) →
    loop o' pb fuel s' sc skip = .ok (t', s1') → t = t' ∧ Sim 0 s1 s1' := by
  induction fuel with
  | zero =>
    intro s s' sc skip hs _ _ _ t t' s1 s1' h h'
    simp only [loop, Except.ok.injEq, Prod.mk.injEq] at h h'
    obtain ⟨rfl, rfl⟩ := h
    obtain ⟨rfl, rfl⟩ := h'
    refine ⟨rfl, ?_⟩
    cases skip with
    | true => exact hs.weaken
    | false => exact hs
  | succ fuel ih =>
    intro s s' sc skip hs hg hg' hc t t' s1 s1' h h'
    obtain ⟨r, hr, hsafe⟩ := iterate_safe law (sc := sc) hg hc
    obtain ⟨r', hr', hsafe'⟩ := iterate_safe law' (sc := sc) hg' (by rw [hs.A]; exact hc)
    have hI := iterate_sim ho hs hg hc hr hr'
    simp only [loop, hr] at h
    simp only [loop, hr'] at h'
    cases r with
    | done t0 s0 =>
      cases r' with
      | done t0' s0' =>
        simp only [Except.ok.injEq, Prod.mk.injEq] at h h'
        obtain ⟨rfl, rfl⟩ := h
        obtain ⟨rfl, rfl⟩ := h'
        exact hI
      | cont _ _ _ => exact hI.elim
    | cont s0 sc0 k0 =>
      cases r' with
      | done _ _ => exact hI.elim
      | cont s0' sc0' k0' =>
        obtain ⟨rfl, rfl, hI⟩ := hI
        refine ih (s := { s0 with it := s0.it + 1 }) (s' := { s0' with it := s0'.it + 1 }) ?_
          (hsafe.1.of_eq rfl rfl rfl rfl rfl rfl rfl rfl rfl) (hsafe'.1.of_eq rfl rfl rfl rfl rfl rfl rfl rfl rfl)
          hsafe.2.2 h h'
        exact { nbVar := hI.nbVar, A := hI.A, it := by simp [hI.it], f := hI.f, need := hI.need, x := hI.x, u := hI.u,
                J := hI.J, R := hI.R }

/-! ### Initialisation -/

/-- Same problem up to the strict upper triangle of `G`. -/
structure PEq (pb pb' : Pb K B) : Prop where
  n : pb'.n = pb.n
  m : pb'.m = pb.m
  useBnd : pb'.useBnd = pb.useBnd
  G : LEq pb.n pb.G pb'.G
  a : pb'.a = pb.a
  C : pb'.C = pb.C
  bl : pb'.bl = pb.bl
  bu : pb'.bu = pb.bu
  xl : pb'.xl = pb.xl
  xu : pb'.xu = pb.xu

theorem initStep_sim {o o' : Opts K} (ho : OEq o o') {pb : Pb K B} {s s' : State K} {sc : SC} (h : Sim2 s s')
    (hsc : sc.status.isBound = true → sc.p - pb.m < s.nbVar) (hst : sc.status.isEq = true) :
    initStep o' pb s' sc = initStep o pb s sc := by
  unfold initStep
  simp only [h.nbVar, ho.tiny]
  rw [normn_congr (fun i hi => (h.z i hi).symm), colDot_congr pb (fun i hi => (h.x i hi).symm),
    colDot_congr pb (fun i hi => (h.z i hi).symm)]
  by_cases he : sc.status = .equality
  · simp [he]
  · have hb : sc.status.isBound = true := by cases hs : sc.status <;> simp_all [Status.isEq, Status.isBound]
    simp only [he, if_false, h.x _ (hsc hb), h.z _ (hsc hb)]

theorem addInitial_sim {o o' : Opts K} (ho : OEq o o') {pb : Pb K B} {s s' : State K} {sc : SC} (hs : Sim 0 s s')
    (hg : Good pb s) (hc : s.A.activatePre sc.p sc.status = true) (hst : sc.status.isEq = true) {s1 s1'}
    (h : addInitialConstraint o pb s sc = .ok s1) (h' : addInitialConstraint o' pb s' sc = .ok s1') :
    Sim 0 s1 s1' := by
  have hsc := cand_bound hg.dim hc
  have hsc' : sc.status.isBound = true → sc.p - pb.m < ({ s with u := upd s.u s.A.q 0 } : State K).nbVar := hsc
  have h2 := computeStep_sim (pb := pb) (upd_sim hs) hsc' hg.q_le
  unfold addInitialConstraint at h h'
  simp only [] at h h'
  by_cases a1 : (decide (s.A.q < s.szU) && decide (s.nbVar ≤ s.szX) && computeStepOk pb s sc) = true
  swap
  · rw [if_neg a1] at h; cases h
  by_cases a1' : (decide (s'.A.q < s'.szU) && decide (s'.nbVar ≤ s'.szX) && computeStepOk pb s' sc) = true
  swap
  · rw [if_neg a1'] at h'; cases h'
  rw [if_pos a1] at h
  rw [if_pos a1'] at h'
  have hw1 : (computeStep pb { s with u := upd s.u s.A.q 0 } sc).A = s.A := rfl
  have hv1 : (computeStep pb { s with u := upd s.u s.A.q 0 } sc).nbVar = s.nbVar := rfl
  generalize computeStep pb { s with u := upd s.u s.A.q 0 } sc = q1 at *
  generalize computeStep pb { s' with u := upd s'.u s'.A.q 0 } sc = q1' at *
  rw [initStep_sim ho (pb := pb) h2 (by rw [hv1]; exact hsc) hst] at h'
  generalize initStep o pb q1 sc = t at *
  have h3 := fullUpdate_sim (pb := pb) (sc := sc) h2 t (by rw [hv1]; exact hsc)
  have e1 : (fullUpdate pb q1 sc t).A = q1.A := rfl
  generalize fullUpdate pb q1 sc t = s2 at *
  generalize fullUpdate pb q1' sc t = s2' at *
  by_cases a5 : addOk s2 sc = true
  swap
  · rw [if_neg a5] at h; cases h
  by_cases a5' : addOk s2' sc = true
  swap
  · rw [if_neg a5'] at h'; cases h'
  rw [if_pos a5] at h
  rw [if_pos a5'] at h'
  cases h; cases h'
  simp only [addOk, Bool.and_eq_true, decide_eq_true_eq] at a5
  exact addConstraint_sim h3 (by rw [e1, hw1]; exact hg.dim.wf) a5.1.1.1.1 a5.1.1.1.2

theorem addInitials_sim {o o' : Opts K} (ho : OEq o o') {pb : Pb K B} (l : List SC) :
    ∀ {s s' : State K}, Sim 0 s s' → Good pb s → Good pb s' → ActAll s.A l → (∀ sc ∈ l, sc.status.isEq = true) →
    s.A.q + l.length ≤ s.nbVar → ∀ {s1 s1'}, addInitials o pb l s = .ok s1 → addInitials o' pb l s' = .ok s1' →
    Sim 0 s1 s1' := by
  induction l with
  | nil =>
    intro s s' hs _ _ _ _ _ s1 s1' h h'
    simp only [addInitials, Except.ok.injEq] at h h'
    subst h; subst h'; exact hs
  | cons sc l ih =>
    intro s s' hs hg hg' ha hl hq s1 s1' h h'
    simp only [List.length_cons] at hq
    obtain ⟨p, e1, e2, e3, e4, e5⟩ := addInitial_ok (o := o) hg ha.1 (by omega)
    obtain ⟨p', f1, f2, f3, f4, f5⟩ := addInitial_ok (o := o') (sc := sc) hg' (by rw [hs.A]; exact ha.1)
      (by rw [hs.A, hs.nbVar]; omega)
    have hsim := addInitial_sim ho hs hg ha.1 (hl _ List.mem_cons_self) e1 f1
    simp only [addInitials, e1] at h
    simp only [addInitials, f1] at h'
    have hqa := hg.dim.wf.q_activate ha.1
    exact ih hsim e2 f2 (by rw [e3]; exact ha.2) (fun sc hsc => hl sc (List.mem_cons_of_mem _ hsc))
      (by rw [e3, e4, hqa]; omega) h h'

theorem initPoint_sim {o o' : Opts K} {pb : Pb K B} {s s' : State K} (hn : s'.nbVar = s.nbVar)
    (hA : s'.A = s.A) (hit : s'.it = s.it)
    (hneed : s'.needToExpand = s.needToExpand) (hG : LEq s.nbVar s.G s'.G) :
    Sim 0 (initPoint o pb s) (initPoint o' pb s') := by
  have hU : UEq s.nbVar (fun i j => s.G j i) (fun i j => s'.G j i) := fun j hj i hi => hG j hj i hi
  have hx : VEq s.nbVar (unconstrMin s.nbVar s.G pb.a) (unconstrMin s.nbVar s'.G pb.a) := by
    intro i hi
    simp only [unconstrMin]
    rw [backSub_congr hU (fwdSub_congr hG (fun _ _ => rfl) s.nbVar le_rfl) i hi]
  have hx2 : ∀ i, i < s.nbVar → (initPoint o pb s).x i = (initPoint o' pb s').x i := by
    intro i hi
    simp only [initPoint, wr, hn, hi, if_true]
    exact hx i hi
  refine { nbVar := hn, A := ?_, it := hit, f := ?_, need := hneed, x := ?_, u := ?_, J := ?_, R := ?_ }
  · simp only [initPoint, hA]
  · have e1 : (initPoint o pb s).f = half * esum (.objective s.nbVar) (fun i => pb.a i * (initPoint o pb s).x i) s.nbVar := rfl
    have e2 : (initPoint o' pb s').f = half * esum (.objective s'.nbVar) (fun i => pb.a i * (initPoint o' pb s').x i) s'.nbVar := rfl
    rw [e1, e2, hn]
    congr 1
    exact esum_congr fun i hi => by rw [hx2 i hi]
  · exact hx2
  · intro i hi
    have : (initPoint o pb s).A.q = 0 := ActiveSet.reset_q _
    omega
  · intro i hi j hj
    have hi' : i < s.nbVar := hi
    have hj' : j < s.nbVar := hj
    simp only [initPoint, hn, hi', hj', and_self, if_true, invLt]
    exact backSub_congr hU (fun _ _ => rfl) i hi'
  · intro j hj
    have : (initPoint o pb s).A.q = 0 := ActiveSet.reset_q _
    omega

theorem PEq.eqList {pb pb' : Pb K B} (h : PEq pb pb') (A : ActiveSet) : eqList pb' A = eqList pb A := by
  simp only [JrlQp.eqList, h.bl, h.bu, h.xl, h.xu]

theorem PEq.numEq {pb pb' : Pb K B} (h : PEq pb pb') : numEq pb' = numEq pb := by
  simp only [JrlQp.numEq, h.bl, h.bu, h.xl, h.xu, h.m, Pb.nb, h.useBnd, h.n]

theorem eqList_isEq (pb : Pb K B) (A : ActiveSet) : ∀ sc ∈ eqList pb A, sc.status.isEq = true := by
  intro sc hsc
  simp only [eqList, List.mem_append, List.mem_map] at hsc
  rcases hsc with ⟨i, _, rfl⟩ | ⟨i, _, rfl⟩ <;> rfl

end JrlQp
