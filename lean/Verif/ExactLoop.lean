import Verif.ExactSelect
import Verif.PropsSafety

/-!
# Invariants of the main loop in exact arithmetic
-/

namespace JrlQp

open NumOps Finset Spec

/-! ### Bounds of active constraints -/

/-- The side(s) of the constraint that is active is finite. -/
def BndFin (pb : Pb ℝ EReal) (sc : SC) : Prop :=
  match sc.status with
  | .lower => ∃ r : ℝ, pb.bl sc.p = (r : EReal)
  | .upper => ∃ r : ℝ, pb.bu sc.p = (r : EReal)
  | .equality => ∃ r : ℝ, pb.bl sc.p = (r : EReal) ∧ pb.bu sc.p = (r : EReal)
  | .lowerBound => ∃ r : ℝ, pb.xl (sc.p - pb.m) = (r : EReal)
  | .upperBound => ∃ r : ℝ, pb.xu (sc.p - pb.m) = (r : EReal)
  | .fixed => ∃ r : ℝ, pb.xl (sc.p - pb.m) = (r : EReal) ∧ pb.xu (sc.p - pb.m) = (r : EReal)
  | .inactive => False

/-- A feasible point satisfies each signed constraint, and equalities as equalities. -/
theorem feas_rhs {pb : Pb ℝ EReal} {sc : SC} (hok : scOk pb sc = true) (hf : BndFin pb sc) {y : Nat → ℝ}
    (hy : Feasible pb y) : rhs pb sc ≤ ndot pb sc y ∧ (sc.status.isEq = true → ndot pb sc y = rhs pb sc) := by
  rw [ndot_cases pb sc hok]
  unfold rhs
  have hg := scOk_gen hok
  have hb := scOk_bnd hok
  cases hs : sc.status <;> simp only [BndFin, hs] at hf <;> simp only [Status.isEq]
  · obtain ⟨r, hr⟩ := hf
    have := (hy.gen _ (hg (by simp [hs]))).1
    rw [hr] at this ⊢
    rw [EReal.toReal_coe]
    exact ⟨by exact_mod_cast this, by simp⟩
  · obtain ⟨r, hr⟩ := hf
    have := (hy.gen _ (hg (by simp [hs]))).2
    rw [hr] at this ⊢
    rw [EReal.toReal_coe]
    have : row pb y sc.p ≤ r := by exact_mod_cast this
    exact ⟨by linarith, by simp⟩
  · obtain ⟨r, hr, hr'⟩ := hf
    have h1 := (hy.gen _ (hg (by simp [hs]))).1
    have h2 := (hy.gen _ (hg (by simp [hs]))).2
    rw [hr] at h1 ⊢
    rw [hr'] at h2
    rw [EReal.toReal_coe]
    have h1 : r ≤ row pb y sc.p := by exact_mod_cast h1
    have h2 : row pb y sc.p ≤ r := by exact_mod_cast h2
    exact ⟨h1, fun _ => le_antisymm h2 h1⟩
  · obtain ⟨r, hr⟩ := hf
    have hbb := hb (by simp [hs])
    have := (hy.bnd hbb.1 _ hbb.2.2).1
    rw [hr] at this ⊢
    rw [EReal.toReal_coe]
    exact ⟨by exact_mod_cast this, by simp⟩
  · obtain ⟨r, hr⟩ := hf
    have hbb := hb (by simp [hs])
    have := (hy.bnd hbb.1 _ hbb.2.2).2
    rw [hr] at this ⊢
    rw [EReal.toReal_coe]
    have : y (sc.p - pb.m) ≤ r := by exact_mod_cast this
    exact ⟨by linarith, by simp⟩
  · obtain ⟨r, hr, hr'⟩ := hf
    have hbb := hb (by simp [hs])
    have h1 := (hy.bnd hbb.1 _ hbb.2.2).1
    have h2 := (hy.bnd hbb.1 _ hbb.2.2).2
    rw [hr] at h1 ⊢
    rw [hr'] at h2
    rw [EReal.toReal_coe]
    have h1 : r ≤ y (sc.p - pb.m) := by exact_mod_cast h1
    have h2 : y (sc.p - pb.m) ≤ r := by exact_mod_cast h2
    exact ⟨h1, fun _ => le_antisymm h2 h1⟩

/-- What the selection gives: a violated constraint with a finite side. -/
theorem select_viol {pb : Pb ℝ EReal} (hp : Proper pb) (hx : NotCrossed pb) {A : ActiveSet} (hm : A.nbCstr = pb.m)
    (hnb : A.nbBnd = pb.nb) (x : Nat → ℝ) (hs : (select pb pb.n A x).status ≠ .inactive) :
    BndFin pb (select pb pb.n A x) ∧ ndot pb (select pb pb.n A x) x < rhs pb (select pb pb.n A x) := by
  obtain ⟨acc, hacc, hinv⟩ := select_inv hx hm hnb x
  rw [← hacc] at hs ⊢
  obtain ⟨h1, h2, h3, _⟩ := hinv.some hs
  rw [h2] at h1
  have key : ∀ (b : EReal) (c : ℝ), b ≠ ⊤ → (c : EReal) < b → (∃ r : ℝ, b = (r : EReal)) ∧ c < b.toReal := by
    intro b c hb hlt
    induction b using EReal.rec with
    | bot => simp at hlt
    | top => exact absurd rfl hb
    | coe r => exact ⟨⟨r, rfl⟩, by rw [EReal.toReal_coe]; exact_mod_cast hlt⟩
  have key' : ∀ (b : EReal) (c : ℝ), b ≠ ⊥ → b < (c : EReal) → (∃ r : ℝ, b = (r : EReal)) ∧ b.toReal < c := by
    intro b c hb hlt
    induction b using EReal.rec with
    | top => simp at hlt
    | bot => exact absurd rfl hb
    | coe r => exact ⟨⟨r, rfl⟩, by rw [EReal.toReal_coe]; exact_mod_cast hlt⟩
  have hok : scOk pb acc.sc = true := by
    rcases h3 with ⟨a, b | b⟩ | ⟨a, a', b | b⟩ <;> simp [scOk, b, a] <;> omega
  rw [ndot_cases pb acc.sc hok]
  unfold BndFin rhs
  rcases h3 with ⟨a, b | b⟩ | ⟨a, a', b | b⟩
  · simp only [viol, b, Status.isUpper, slackLo, a, if_true] at h1
    simp only [b]
    exact key _ _ (hp.bl _ a) ((coe_sub_neg _ _).1 (by simpa using h1))
  · simp only [viol, b, Status.isUpper, slackHi, a, if_true] at h1
    simp only [b]
    obtain ⟨k1, k2⟩ := key' _ _ (hp.bu _ a) ((sub_coe_neg _ _).1 h1)
    exact ⟨k1, by linarith⟩
  · have hbb := scOk_bnd hok (by simp [b])
    simp only [viol, b, Status.isUpper, slackLo, show ¬ acc.sc.p < pb.m by omega, if_false] at h1
    simp only [b]
    exact key _ _ (hp.xl hbb.1 _ hbb.2.2) ((coe_sub_neg _ _).1 (by simpa using h1))
  · have hbb := scOk_bnd hok (by simp [b])
    simp only [viol, b, Status.isUpper, slackHi, show ¬ acc.sc.p < pb.m by omega, if_false, if_true] at h1
    simp only [b]
    obtain ⟨k1, k2⟩ := key' _ _ (hp.xu hbb.1 _ hbb.2.2) ((sub_coe_neg _ _).1 h1)
    exact ⟨k1, by linarith⟩

/-! ### The algebraic loop invariant -/

/-- Invariant at the entry of an iteration. -/
structure LoopInv (pb : Pb ℝ EReal) (s : State ℝ) (sc : SC) (skip : Bool) : Prop where
  alg : Alg pb s (fun a => if skip then s.u s.A.q * normal pb sc a else 0)
  cand : skip = true → Cand s.A sc
  fin : ∀ k < s.A.q, BndFin pb (s.A.act k)
  finc : skip = true → BndFin pb sc

/-- Entry of Step 2: the state and constraint with which `iterBody` is called. -/
def Enter (pb : Pb ℝ EReal) (s : State ℝ) (sc : SC) (skip : Bool) (s1 : State ℝ) (sc1 : SC) : Prop :=
  if skip then s1 = s ∧ sc1 = sc
  else sc1 = select pb pb.n s.A s.x ∧ sc1.status ≠ .inactive ∧ s1 = { s with u := upd s.u s.A.q 0 }

/-- The thresholds are harmless at this iteration. -/
def RegIter (o : Opts ℝ) (pb : Pb ℝ EReal) (s : State ℝ) (sc : SC) (skip : Bool) : Prop :=
  ∀ s1 sc1, Enter pb s sc skip s1 sc1 → Regular o pb s1 sc1

theorem Alg.congr {pb : Pb ℝ EReal} {s : State ℝ} {w w' : Nat → ℝ} (h : Alg pb s w) (hw : ∀ a < pb.n, w' a = w a) :
    Alg pb s w' :=
  ⟨h.good, h.fac, fun a ha => by rw [hw a ha]; exact h.stat a ha, h.tight, h.f⟩

/-- `Alg` only depends on the first `q` multipliers. -/
theorem Alg.setU {pb : Pb ℝ EReal} {s : State ℝ} {w : Nat → ℝ} (h : Alg pb s w) (v : ℝ) :
    Alg pb { s with u := upd s.u s.A.q v } w := by
  refine ⟨h.good.of_eq rfl rfl rfl rfl rfl rfl rfl rfl rfl, h.fac, ?_, h.tight, h.f⟩
  intro a ha
  rw [h.stat a ha]
  congr 1
  apply sum_congr rfl
  intro k hk
  simp only [upd]
  rw [if_neg (by have := mem_range.1 hk; omega)]

theorem enter_inv {pb : Pb ℝ EReal} (hp : Proper pb) (hx : NotCrossed pb) {s : State ℝ} {sc : SC} {skip : Bool}
    (h : LoopInv pb s sc skip) {s1 : State ℝ} {sc1 : SC} (he : Enter pb s sc skip s1 sc1) :
    LoopInv pb s1 sc1 true ∧ (skip = false → ndot pb sc1 s1.x < rhs pb sc1 ∧ s1.u s1.A.q = 0) := by
  cases skip with
  | true =>
    simp only [Enter, if_true] at he
    obtain ⟨rfl, rfl⟩ := he
    exact ⟨h, by simp⟩
  | false =>
    simp only [Enter, Bool.false_eq_true, if_false] at he
    obtain ⟨h1, h2, rfl⟩ := he
    have hg := h.alg.good
    have hc := (select_cand pb pb.n s.A s.x).resolve_left (by rw [← h1]; exact h2)
    rw [← h1] at hc
    have hv := select_viol hp hx hg.dim.nbCstr hg.dim.nbBnd s.x (by rw [← h1]; exact h2)
    rw [← h1] at hv
    refine ⟨⟨?_, fun _ => hc, h.fin, fun _ => hv.1⟩, fun _ => ⟨hv.2, by simp [upd]⟩⟩
    refine (h.alg.setU 0).congr ?_
    intro a _
    simp [upd]

/-- One iteration, seen from its entry. -/
theorem iterate_exact {o : Opts ℝ} {pb : Pb ℝ EReal} (hp : Proper pb) (hx : NotCrossed pb) (ht0 : 0 ≤ o.tiny)
    {s : State ℝ} {sc : SC} {skip : Bool} (h : LoopInv pb s sc skip) (hreg : RegIter o pb s sc skip) {r}
    (hr : iterate o pb s sc skip = .ok r) :
    (r = .done .success s ∧ skip = false ∧ (select pb pb.n s.A s.x).status = .inactive) ∨
    ∃ s1 sc1, Enter pb s sc skip s1 sc1 ∧ StepR o pb (computeStep pb s1 sc1) sc1 r := by
  have hg := h.alg.good
  have hbody : ∀ s1 sc1, Enter pb s sc skip s1 sc1 → iterBody o pb s1 sc1 = .ok r →
      ∃ s1 sc1, Enter pb s sc skip s1 sc1 ∧ StepR o pb (computeStep pb s1 sc1) sc1 r := by
    intro s1 sc1 he hb
    obtain ⟨hi, _⟩ := enter_inv hp hx h he
    exact ⟨s1, sc1, he, iterBody_exact ht0 hi.alg.good (hi.cand rfl) hi.alg.fac (hreg s1 sc1 he) hb⟩
  unfold iterate at hr
  cases skip with
  | true =>
    simp only [if_true] at hr
    right
    exact hbody s sc (by simp [Enter]) hr
  | false =>
    simp only [Bool.false_eq_true, if_false] at hr
    have hsel : select pb s.nbVar s.A s.x = select pb pb.n s.A s.x := by rw [hg.dim.nbVar]
    rw [if_pos hg.selectOk, hsel] at hr
    by_cases hi : (select pb pb.n s.A s.x).status = .inactive
    · rw [if_pos hi] at hr
      cases hr
      exact Or.inl ⟨rfl, rfl, hi⟩
    · rw [if_neg hi] at hr
      split_ifs at hr
      right
      exact hbody _ _ (by simp [Enter, hi]) hr

/-! ### Preservation -/

/-- Conclusion of `stepR_alg`. -/
def AlgOut (pb : Pb ℝ EReal) (sc : SC) : Iter ℝ → Prop
  | .done t s => t = .infeasible ∧ LoopInv pb s sc true
  | .cont s sc' skip => sc' = sc ∧ LoopInv pb s sc skip

/-- The algebraic content of a step. -/
theorem stepR_alg {o : Opts ℝ} {pb : Pb ℝ EReal} {s0 : State ℝ} {sc : SC} (h : LoopInv pb s0 sc true) {r}
    (hr : StepR o pb (computeStep pb s0 sc) sc r) : AlgOut pb sc r := by
  have hcand := h.cand rfl
  have hg := h.alg.good
  have hsc := Cand.scOk (pb := pb) hcand.pre hg.dim.nbCstr hg.dim.nbBnd
  have hfacts := computeStep_facts (sc := sc) hg.dim.nbVar (by rw [← hg.dim.nbVar]; exact hg.q_le) h.alg.fac hsc
  have halg : Alg pb (computeStep pb s0 sc) (fun a => (computeStep pb s0 sc).u (computeStep pb s0 sc).A.q * normal pb sc a) :=
    (h.alg.step (sc := sc)).congr (by intro a _; simp [computeStep])
  have hcand1 : Cand (computeStep pb s0 sc).A sc := hcand
  have hfin1 : ∀ k < (computeStep pb s0 sc).A.q, BndFin pb ((computeStep pb s0 sc).A.act k) := h.fin
  have hfc := h.finc rfl
  generalize computeStep pb s0 sc = s at *
  have hw := halg.good.dim.wf
  -- removal
  have hrem : ∀ (s' : State ℝ) (l : Nat), s'.A = s.A → l < s.A.q → s'.u l = 0 →
      Alg pb s' (fun a => s'.u s.A.q * normal pb sc a) → LoopInv pb (removeConstraint o s' l) sc true := by
    intro s' l hA hl hu ha
    rw [← hA] at ha hl
    obtain ⟨a1, a2, a3, a4, a5⟩ := ha.remove (o := o) hl hu
    refine ⟨a1.congr (by intro a _; simp), fun _ => cand_remove ha.good.dim.wf hl (by rw [hA]; exact hcand1), ?_, fun _ => hfc⟩
    intro k hk
    rw [a3] at hk
    rw [a2, act_deactivate ha.good.dim.wf hl k hk, hA]
    apply hfin1
    rw [← hA]
    split_ifs <;> omega
  cases hr with
  | infeasible hz hr => exact ⟨rfl, halg.congr (by intro a _; simp), fun _ => hcand1, hfin1, fun _ => hfc⟩
  | dropDual hz l hl he hrl hmin =>
    refine ⟨rfl, hrem _ l rfl hl ?_ (halg.dual hfacts hz _)⟩
    simp only [dualUpdate, dualStep, hl, if_true]
    rw [div_mul_cancel₀ _ hrl.ne', sub_self]
  | dropFull hz l hl he hrl hmin ht =>
    refine ⟨rfl, hrem _ l rfl hl ?_ (halg.full hfacts hsc _).1⟩
    simp only [fullUpdate, dualUpdate, primalStep, dualStep, hl, if_true]
    rw [div_mul_cancel₀ _ hrl.ne', sub_self]
  | full hz hq hmin =>
    obtain ⟨b1, b2, _⟩ := halg.full hfacts hsc (tFull pb s sc)
    have hA : (fullUpdate pb s sc (tFull pb s sc)).A = s.A := rfl
    have htight : ndot pb sc (fullUpdate pb s sc (tFull pb s sc)).x = rhs pb sc := by
      rw [ndot_congr pb sc b2, ndot_add, tFull, div_mul_cancel₀ _ (hfacts.slope_pos hz).ne']
      ring
    obtain ⟨c1, c2⟩ := b1.add (o := o) hcand1.pre hq hfacts.d (hfacts.d_ne hz) htight
    refine ⟨rfl, c1.congr (by intro a _; simp), by simp, ?_, by simp⟩
    intro k hk
    rw [c2] at hk ⊢
    rw [hA] at hk ⊢
    rw [hw.q_activate hcand1.pre] at hk
    obtain ⟨d1, d2⟩ := act_activate hw hcand1.pre
    by_cases hkq : k = s.A.q
    · rw [hkq, d2]; exact hfc
    · rw [d1 k (by omega)]; exact hfin1 k (by omega)

/-! ### Induction along the loop -/

/-- All iterations of the run are regular. -/
def RegLoop (o : Opts ℝ) (pb : Pb ℝ EReal) : Nat → State ℝ → SC → Bool → Prop
  | 0, _, _, _ => True
  | fuel + 1, s, sc, skip => RegIter o pb s sc skip ∧
    match iterate o pb s sc skip with
    | .ok (.cont s' sc' skip') => RegLoop o pb fuel { s' with it := s'.it + 1 } sc' skip'
    | _ => True

/-- Induction principle for regular runs of the main loop. -/
theorem loop_induction {o : Opts ℝ} {pb : Pb ℝ EReal} {P : State ℝ → SC → Bool → Prop} {Q : Term → State ℝ → Prop}
    (hdone : ∀ s sc skip t s', P s sc skip → RegIter o pb s sc skip →
      iterate o pb s sc skip = .ok (.done t s') → Q t s')
    (hcont : ∀ s sc skip s' sc' skip', P s sc skip → RegIter o pb s sc skip →
      iterate o pb s sc skip = .ok (.cont s' sc' skip') → P { s' with it := s'.it + 1 } sc' skip')
    (hmax : ∀ s sc skip, P s sc skip → Q .maxIterReached s) (fuel : Nat) :
    ∀ {s sc skip t s'}, P s sc skip → RegLoop o pb fuel s sc skip → loop o pb fuel s sc skip = .ok (t, s') → Q t s' := by
  induction fuel with
  | zero =>
    intro s sc skip t s' h _ hl
    simp only [loop, Except.ok.injEq, Prod.mk.injEq] at hl
    obtain ⟨rfl, rfl⟩ := hl
    exact hmax s sc skip h
  | succ fuel ih =>
    intro s sc skip t s' h hreg hl
    simp only [loop] at hl
    simp only [RegLoop] at hreg
    cases hr : iterate o pb s sc skip with
    | error e => simp [hr] at hl
    | ok r =>
      rw [hr] at hl hreg
      cases r with
      | done t1 s1 =>
        simp only [Except.ok.injEq, Prod.mk.injEq] at hl
        obtain ⟨rfl, rfl⟩ := hl
        exact hdone s sc skip _ _ h hreg.1 hr
      | cont s1 sc1 k1 => exact ih (hcont s sc skip s1 sc1 k1 h hreg.1 hr) hreg.2 hl

theorem Alg.setIt {pb : Pb ℝ EReal} {s : State ℝ} {w : Nat → ℝ} (h : Alg pb s w) (k : Nat) :
    Alg pb { s with it := k } w :=
  ⟨h.good.of_eq rfl rfl rfl rfl rfl rfl rfl rfl rfl, h.fac, h.stat, h.tight, h.f⟩

theorem LoopInv.setIt {pb : Pb ℝ EReal} {s : State ℝ} {sc : SC} {skip : Bool} (h : LoopInv pb s sc skip) (k : Nat) :
    LoopInv pb { s with it := k } sc skip := ⟨h.alg.setIt k, h.cand, h.fin, h.finc⟩

/-- Conclusion of `iterate_loopInv`. -/
def LoopOut (pb : Pb ℝ EReal) (s : State ℝ) (skip : Bool) : Iter ℝ → Prop
  | .done t s' => (t = .success ∧ s' = s ∧ skip = false ∧ (select pb pb.n s.A s.x).status = .inactive) ∨
        (t = .infeasible ∧ ∃ sc', LoopInv pb s' sc' true)
  | .cont s' sc' skip' => LoopInv pb s' sc' skip'

theorem iterate_loopInv {o : Opts ℝ} {pb : Pb ℝ EReal} (hp : Proper pb) (hx : NotCrossed pb) (ht0 : 0 ≤ o.tiny)
    {s : State ℝ} {sc : SC} {skip : Bool} (h : LoopInv pb s sc skip) (hreg : RegIter o pb s sc skip) {r}
    (hr : iterate o pb s sc skip = .ok r) : LoopOut pb s skip r := by
  rcases iterate_exact hp hx ht0 h hreg hr with ⟨rfl, h1, h2⟩ | ⟨s1, sc1, he, hst⟩
  · exact Or.inl ⟨rfl, rfl, h1, h2⟩
  · obtain ⟨hi, _⟩ := enter_inv hp hx h he
    have := stepR_alg hi hst
    cases r with
    | done t s' => exact Or.inr ⟨this.1, sc1, this.2⟩
    | cont s' sc' skip' => rw [this.1]; exact this.2

end JrlQp
