import Verif.ExpSim
import Verif.ExpThreshold
import Verif.PropsBasic

/-!
# Experimental solver: sequences of calls (C37), history (C38), existence of harmless thresholds (C24)
-/

namespace JrlQp

open NumOps

section generic
variable {K B : Type} [Zero K] [One K] [Add K] [Sub K] [Neg K] [Mul K] [Div K] [NumOps K B] [SumOps K]

/-- Public calls on an experimental solver object. Each solve comes with the options in force. -/
inductive XCall (K B : Type)
  | resize (nbVar nbCstr : Nat) (useBounds : Bool)
  | solve (o : Opts K) (pb : Pb K B) (as : List Status)
  | multipliers
  | resetActiveSet

/-- Effect of a call; reading `multipliers()` views `work_u_` with size `nbAll` and `work_r_` with size `q`
(src/DualSolver.cpp:46-89). -/
def xcall (xs : XState K) : XCall K B → Except Fault (XState K)
  | .resize n m b => .ok (xresize xs n m b)
  | .solve o pb as => (xsolve o pb as xs).map Prod.snd
  | .multipliers =>
    if decide (xs.s.A.nbAll ≤ xs.s.szU) && decide (xs.s.A.q ≤ xs.s.szR) then .ok { xs with s := multipliers xs.s }
    else .error .outOfBounds
  | .resetActiveSet => .ok { xs with s := resetActiveSet xs.s }

/-- A sequence of calls. -/
def xcalls : List (XCall K B) → XState K → Except Fault (XState K)
  | [], xs => .ok xs
  | c :: cs, xs =>
    match xcall xs c with
    | .error e => .error e
    | .ok xs => xcalls cs xs

/-- Legal calls: the warm-start vector has the documented form; a debug build is not given an overconstrained problem, and
is not asked to reuse the statuses left by the previous problem. -/
def XCall.Admissible : XCall K B → Prop
  | .solve o pb as => FpLaws K o ∧ ArgOk o pb as ∧
      (o.dbg = false ∨ ((o.warmStart = true → as ≠ []) ∧ numWant o pb as (·.isEq) ≤ pb.n))
  | _ => True

theorem want_off {o : Opts K} (h : o.warmStart = false) (pb : Pb K B) (as as' : List Status) (i : Nat) :
    want o pb as i = want o pb as' i := by
  unfold want; rw [h]; simp

theorem numWant_off {o : Opts K} (h : o.warmStart = false) (pb : Pb K B) (as as' : List Status) (P : Status → Bool) :
    numWant o pb as P = numWant o pb as' P := by
  unfold numWant
  apply List.countP_congr
  intro i _
  rw [want_off h pb as as']

theorem usedAs_explicit {o : Opts K} {pb : Pb K B} {as : List Status} {xs : XState K} (h : o.warmStart = true) (ha : as ≠ []) :
    usedAs o pb as xs = as := by
  unfold usedAs; rw [if_pos h, if_neg ha]

theorem xcall_safe {xs : XState K} (h : XInv xs) (c : XCall K B) (hc : c.Admissible) : ∃ xs', xcall xs c = .ok xs' ∧ XInv xs' := by
  cases c with
  | resize n m b => exact ⟨_, rfl, xresize_inv h n m b⟩
  | solve o pb as =>
    obtain ⟨law, ha, hd⟩ := hc
    obtain ⟨t, xs', h1, h2⟩ := xsolve_safe (xs := xs) law h ha (by
      rcases hd with hd | ⟨h1, h2⟩
      · exact Or.inl hd
      · right
        by_cases hw : o.warmStart = true
        · rw [usedAs_explicit hw (h1 hw)]; exact h2
        · rw [numWant_off (by simpa using hw) pb _ as]; exact h2)
    exact ⟨xs', by simp [xcall, h1, Except.map], h2⟩
  | multipliers =>
    obtain ⟨s', h1, h2⟩ := call_safe h.inv (.multipliers : Call K B) trivial
    simp only [call] at h1
    split_ifs at h1 with hb
    cases h1
    refine ⟨_, by simp only [xcall]; rw [if_pos hb], h2, ?_, ?_, ?_⟩
    · have : (multipliers xs.s).nbVar = xs.s.nbVar := by unfold multipliers; split_ifs <;> rfl
      rw [this]; exact h.szB
    · have : (multipliers xs.s).nbVar = xs.s.nbVar := by unfold multipliers; split_ifs <;> rfl
      rw [this]; exact h.szT
    · have : (multipliers xs.s).nbVar = xs.s.nbVar := by unfold multipliers; split_ifs <;> rfl
      rw [this]; exact h.szH
  | resetActiveSet =>
    obtain ⟨s', h1, h2⟩ := call_safe h.inv (.resetActiveSet : Call K B) trivial
    cases h1
    exact ⟨_, rfl, h2, h.szB, h.szT, h.szH⟩

/-- **C37.** With any arithmetic satisfying the few laws `FpLaws`, no sequence of legal calls on an experimental solver
reads or writes outside of a buffer, fails an assertion or loops forever in the initialisation. -/
theorem C37_no_fault (cs : List (XCall K B)) (hcs : ∀ c ∈ cs, c.Admissible) :
    ∃ xs, xcalls cs (XState.empty : XState K) = .ok xs ∧ XInv xs := by
  have key : ∀ (cs : List (XCall K B)) (xs : XState K), XInv xs → (∀ c ∈ cs, c.Admissible) →
      ∃ xs', xcalls cs xs = .ok xs' ∧ XInv xs' := by
    intro cs
    induction cs with
    | nil => intro xs h _; exact ⟨xs, rfl, h⟩
    | cons c cs ih =>
      intro xs hs hc
      obtain ⟨s1, h1, h2⟩ := xcall_safe hs c (hc c List.mem_cons_self)
      obtain ⟨s2, h3, h4⟩ := ih s1 h2 (fun c' h' => hc c' (List.mem_cons_of_mem _ h'))
      exact ⟨s2, by simp only [xcalls, h1]; exact h3, h4⟩
  exact key cs _ XInv.empty hcs

/-- **C38.** With any arithmetic: if the warm-start vector is given explicitly, or the warm start is disabled, what a user
observes after `solve` does not depend on the earlier calls. -/
theorem C38_history_independence (cs cs' : List (XCall K B)) (hcs : ∀ c ∈ cs, c.Admissible) (hcs' : ∀ c ∈ cs', c.Admissible)
    (o : Opts K) (pb : Pb K B) (as : List Status) (ha : (XCall.solve o pb as).Admissible) (hex : o.warmStart = true → as ≠ []) :
    ∃ xs xs' r r', xcalls cs (XState.empty : XState K) = .ok xs ∧ xcalls cs' (XState.empty : XState K) = .ok xs' ∧
      xsolve o pb as xs = .ok r ∧ xsolve o pb as xs' = .ok r' ∧ xobs pb.n r = xobs pb.n r' := by
  obtain ⟨xs, h1, h2⟩ := C37_no_fault cs hcs
  obtain ⟨xs', h1', h2'⟩ := C37_no_fault cs' hcs'
  obtain ⟨law, hag, hd⟩ := ha
  have hnum : ∀ xs : XState K, o.dbg = false ∨ numWant o pb (usedAs o pb as xs) (·.isEq) ≤ pb.n := by
    intro xs
    rcases hd with hd | ⟨h1, h2⟩
    · exact Or.inl hd
    · right
      by_cases hw : o.warmStart = true
      · rw [usedAs_explicit hw (h1 hw)]; exact h2
      · rw [numWant_off (by simpa using hw) pb _ as]; exact h2
  obtain ⟨t, w, h3, _⟩ := xsolve_safe law h2 hag (hnum xs)
  obtain ⟨t', w', h3', _⟩ := xsolve_safe law h2' hag (hnum xs')
  refine ⟨xs, xs', _, _, h1, h1', h3, h3', ?_⟩
  refine xsolve_sim ⟨rfl, rfl, rfl⟩ law law h2 h2' hag hag (fun i _ => ?_) h3 h3'
  by_cases hw : o.warmStart = true
  · rw [usedAs_explicit hw (hex hw), usedAs_explicit hw (hex hw)]
  · exact want_off (by simpa using hw) pb _ _ i

/-- **C38, debug and release builds.** On problems that are not overconstrained the two builds give the same observable
results, for each legal warm start and each history. -/
theorem C38_debug_eq_release (o : Opts K) (law : FpLaws K o) (pb : Pb K B) (as : List Status) (ha : ArgOk o pb as)
    {xs : XState K} (h : XInv xs) (hq : numWant o pb (usedAs o pb as xs) (·.isEq) ≤ pb.n) :
    ∃ r r', xsolve { o with dbg := true } pb as xs = .ok r ∧ xsolve { o with dbg := false } pb as xs = .ok r' ∧
      xobs pb.n r = xobs pb.n r' := by
  have hag : ∀ b, ArgOk { o with dbg := b } pb as := fun b => ⟨ha.len, ha.opt, ⟨ha.kind.gen, ha.kind.bnd⟩⟩
  obtain ⟨t, w, h3, _⟩ := xsolve_safe (law.setDbg true) h (hag true) (Or.inr hq)
  obtain ⟨t', w', h3', _⟩ := xsolve_safe (law.setDbg false) h (hag false) (Or.inl rfl)
  have hoe : OEq { o with dbg := true } { o with dbg := false } := ⟨rfl, rfl, rfl⟩
  exact ⟨_, _, h3, h3', xsolve_sim hoe (law.setDbg true) (law.setDbg false) h h (hag true) (hag false)
    (fun i _ => rfl) h3 h3'⟩

end generic

open Finset Spec

/-- The state from which the main loop of a regular warm-started call starts. -/
theorem xsolve_ready {o : Opts ℝ} {pb : Pb ℝ EReal} (hp : Proper pb) {as : List Status}
    {xs : XState ℝ} (h : XInv xs) (ha : ArgOk o pb as) (hf : NoFalseEq o pb (usedAs o pb as xs)) {e : Nat}
    (he : EqFirst pb e) (ho : EqActFirst o pb (usedAs o pb as xs) e) (hr : RegX o pb as xs) {t xs'}
    (hs : xsolve o pb as xs = .ok (t, xs')) (h1 : t ≠ .overconstrainedProblem) (h2 : t ≠ .nonPosHessian) :
    ∃ s1, cholOk pb ∧ LoopInv pb s1 ⟨0, .inactive⟩ false ∧ DInv pb e s1 ⟨0, .inactive⟩ false ∧
      RegLoop o pb (o.maxIter - s1.it) s1 ⟨0, .inactive⟩ false ∧ s1.it ≤ pb.n ∧ s1.needToExpand = true ∧
      loop o pb (o.maxIter - s1.it) s1 ⟨0, .inactive⟩ false = .ok (t, xs'.s) := by
  obtain ⟨xs1, e1, e2, _⟩ := xsolve_run h ha hs h1 h2
  obtain ⟨g1, g2, _, g3⟩ := xinit_exact hp (xsolveStart_dim h) (usedAs_warmOk h ha.kind) (usedAs_len h ha.len) hf hr.indep e1
  have hpre := g3 e he ho
  have hD : DInv pb e xs1.s ⟨0, .inactive⟩ false := by
    refine ⟨hpre, fun k hk hek => ?_, by simp, by simp⟩
    have hs : (xs1.s.A.statusAt (xs1.s.A.get k)).isEq = false := by
      have := (hpre.act g1.good.good.dim.wf hk).not.2 (by omega)
      simpa [ActiveSet.act] using this
    by_contra hneg
    have h3 := hr.drop xs1 e1 k hk hs (by linarith)
    have h4 := g1.done k hk hs
    linarith
  obtain ⟨A, k, hA, hq, hit, _⟩ := C23_initialisation_drops h ha e1
  have hqn : A.q ≤ pb.n := by
    have hd := xsolveStart_dim (as := as) (o := o) (pb := pb) h
    obtain ⟨t', A', g1, _, _, _, g5⟩ := processInitial_spec (usedAs_warmOk h ha.kind) pb.n hd.dim.wf hd.dim.nbCstr hd.dim.nbBnd
    rw [hA] at g1
    cases g1
    rcases g5 with ⟨a, _⟩ | ⟨_, _, f2, _⟩
    · cases a
    · rw [f2]; exact Nat.min_le_right _ _
  refine ⟨xs1.s, g2, g1.inv, hD, hr.loop xs1 e1, by omega, ?_, e2⟩
  obtain ⟨t', xs2, c1, _, c3⟩ := xinit_spec (xsolveStart_dim (as := as) (o := o) (pb := pb) h) (usedAs_warmOk h ha.kind) (usedAs_len h ha.len)
  rw [e1] at c1
  cases c1
  rcases c3 with ⟨a, _⟩ | ⟨a, _⟩ | ⟨_, _, A', _, _, hg, hdl, _⟩
  · cases a
  · cases a
  obtain ⟨xs3, d1, _, d3⟩ := dropLoop_spec (o := o) (pb := pb) (P := fun xs => xs.s.needToExpand = true)
    (by intro xs l _ hn _; exact hn) A'.q hg rfl (le_refl A'.q)
  rw [hdl] at d1
  cases d1
  exact d3

/-- **C24 (partial), multipliers.** Under the hypotheses of `C24_success_optimal_partial`, the solution and the multipliers
returned with `SUCCESS` satisfy the KKT conditions. -/
theorem C24_KKT_partial {o : Opts ℝ} {pb : Pb ℝ EReal} (hp : Proper pb) (hx : NotCrossed pb) {as : List Status}
    {xs : XState ℝ} (h : XInv xs) (ha : ArgOk o pb as) (hf : NoFalseEq o pb (usedAs o pb as xs)) {e : Nat}
    (he : EqFirst pb e) (ho : EqActFirst o pb (usedAs o pb as xs) e) (hr : RegX o pb as xs) {xs'}
    (hs : xsolve o pb as xs = .ok (.success, xs')) : KKT pb xs'.s.x (multipliers xs'.s).u := by
  obtain ⟨s1, _, k1, k2, k3, _, k4, k5⟩ := xsolve_ready hp h ha hf he ho hr hs (by simp) (by simp)
  rcases (loop_finalDual hp hx hr.tiny k1 k2 k3 k5).1 with ⟨_, h1, h2, h3⟩ | ⟨h1, _⟩ | ⟨h1, _⟩
  · exact success_KKT hx h1 h3 h2 (by rw [loop_need _ k5]; exact k4)
  · cases h1
  · cases h1

/-- **C24 (partial), termination.** Under the hypotheses of `C24_success_optimal_partial`, a large enough `maxIter` is never
reached. -/
theorem C24_terminates_partial {o : Opts ℝ} {pb : Pb ℝ EReal} (hp : Proper pb) (hx : NotCrossed pb) {as : List Status}
    {xs : XState ℝ} (h : XInv xs) (ha : ArgOk o pb as) (hf : NoFalseEq o pb (usedAs o pb as xs)) {e : Nat}
    (he : EqFirst pb e) (ho : EqActFirst o pb (usedAs o pb as xs) e) (hr : RegX o pb as xs)
    (hmax : pb.n + (pb.n + 1) * (7 ^ (pb.m + pb.nb) + 1) ≤ o.maxIter) {t xs'}
    (hs : xsolve o pb as xs = .ok (t, xs')) : t ≠ .maxIterReached := by
  by_cases h1 : t = .overconstrainedProblem
  · rw [h1]; simp
  by_cases h2 : t = .nonPosHessian
  · rw [h2]; simp
  obtain ⟨s1, hc, k1, k2, k3, k6, k4, k5⟩ := xsolve_ready hp h ha hf he ho hr hs h1 h2
  have := remaining_le pb s1 k1.alg.good false
  rcases loop_terminates hp hx hr.tiny (posDef_of_chol hc) _ k1 k2 k3 (by omega) k5 with rfl | rfl <;> simp

/-- Specification: after every history, the warm-started solver answers correctly on this problem and warm start. -/
def XSound (o : Opts ℝ) (pb : Pb ℝ EReal) (as : List Status) : Prop :=
  ∀ cs : List (XCall ℝ EReal), (∀ c ∈ cs, c.Admissible) →
    ∃ xs t xs', xcalls cs (XState.empty : XState ℝ) = .ok xs ∧ xsolve o pb as xs = .ok (t, xs') ∧
      (t = .success ∨ t = .infeasible ∨ t = .maxIterReached) ∧
      (t = .success → IsUniqueOptimal pb xs'.s.x ∧ KKT pb xs'.s.x (multipliers xs'.s).u ∧ xs'.s.f = obj pb xs'.s.x) ∧
      (t = .infeasible → ¬ ∃ y, Feasible pb y) ∧
      (t = .maxIterReached → o.maxIter < pb.n + (pb.n + 1) * (7 ^ (pb.m + pb.nb) + 1))

/-- **C24 (partial), existence of harmless thresholds.** In exact arithmetic, for every problem with a positive definite
Hessian, bounds that do not cross and equality constraints first, and every explicit warm start of the documented form that
marks no inequality as `EQUALITY` and whose gradients, with those of the equality constraints, are linearly independent:
all small enough `tiny` and all large enough `bigBnd` make the warm-started solver sound, after any history and for all
other options. -/
theorem C24_thresholds_partial {pb : Pb ℝ EReal} (hp : Proper pb) (hx : NotCrossed pb)
    (hpd : (Matrix.of fun i j : Fin pb.n => hess pb i j).PosDef) {e : Nat} (he : EqFirst pb e) {o0 : Opts ℝ} {as : List Status}
    (hex : o0.warmStart = true → as ≠ []) (ha : ArgOk o0 pb as) (hf : NoFalseEq o0 pb as) (ho : EqActFirst o0 pb as e)
    (hind : WarmIndep o0.warmStart pb as) :
    ∃ ε > 0, ∃ β : ℝ, ∀ o : Opts ℝ, o.warmStart = o0.warmStart → 0 ≤ o.tiny → o.tiny < ε → β < o.bigBnd → XSound o pb as := by
  have hc : cholOk pb := (cholOk_iff pb).2 hpd
  have hu : ∀ (o : Opts ℝ) (xs : XState ℝ), o.warmStart = o0.warmStart →
      usedAs o pb as xs = as ∨ o.warmStart = false := by
    intro o xs hw
    by_cases h : o.warmStart = true
    · left; exact usedAs_explicit h (hex (by rw [← hw]; exact h))
    · right; simpa using h
  have hempty : ∀ o : Opts ℝ, o.warmStart = false → usedAs o pb as (XState.empty : XState ℝ) = [] := by
    intro o h
    unfold usedAs
    rw [h]; rfl
  have hua : ∀ o : Opts ℝ, o.warmStart = o0.warmStart → o.warmStart = true → usedAs o pb as (XState.empty : XState ℝ) = as :=
    fun o h h' => usedAs_explicit h' (hex (by rw [← h]; exact h'))
  have hf0 : ∀ o : Opts ℝ, o.warmStart = o0.warmStart → NoFalseEq o pb (usedAs o pb as (XState.empty : XState ℝ)) := by
    intro o hw ht
    rw [hua o hw ht]
    exact hf (by rw [← hw]; exact ht)
  have ho0 : ∀ o : Opts ℝ, o.warmStart = o0.warmStart → EqActFirst o pb (usedAs o pb as (XState.empty : XState ℝ)) e := by
    intro o hw
    rcases ho with h1 | h1 | h1
    · exact Or.inl h1
    · exact Or.inr (Or.inl h1)
    · refine Or.inr (Or.inr fun i hi => ⟨(h1 i hi).1, fun ht => ?_⟩)
      rw [hua o hw ht]
      exact (h1 i hi).2 (by rw [← hw]; exact ht)
  have hind0 : WarmIndep o0.warmStart pb (usedAs o0 pb as (XState.empty : XState ℝ)) := by
    intro c h1 h2
    apply hind c ?_ h2
    intro i hi
    apply h1
    intro hcon
    apply hi
    refine ⟨hcon.1, hcon.2.imp id fun hh => ⟨hh.1, ?_⟩⟩
    have := hh.2
    rw [hua o0 rfl hh.1] at this
    exact this
  have hindE : EqIndep pb := by
    intro c h1 h2
    exact hind c (fun i hi => h1 i (fun hcon => hi ⟨hcon.1, Or.inl hcon.2⟩)) h2
  have hnum := numEq_le hp hx hc he hindE
  obtain ⟨ε, hε, β, hev⟩ := ev_regX (dbg := false) hp hx he XInv.empty ha (hf0 o0 rfl) (ho0 o0 rfl) hind0
  refine ⟨ε, hε, β, ?_⟩
  intro o hw h0 h1 h2 cs hcs
  obtain ⟨xs, g1, g2⟩ := C37_no_fault cs hcs
  have law := fpLaws_real o h0
  have hag := ha.ws hw
  have hnw : numWant o pb (usedAs o pb as xs) (·.isEq) ≤ pb.n := by
    rw [numWant_isEq ?_ (usedAs_warmOk g2 hag.kind)]
    · exact hnum
    · intro ht
      rw [usedAs_explicit ht (hex (by rw [← hw]; exact ht))]
      exact hf (by rw [← hw]; exact ht)
  obtain ⟨t, xs', g3, _⟩ := xsolve_safe law g2 hag (Or.inr hnw)
  -- reference run
  obtain ⟨o1, ho1⟩ : ∃ o1 : Opts ℝ, o1 = { o with dbg := false } := ⟨_, rfl⟩
  have hw1 : o1.warmStart = o0.warmStart := by rw [ho1]; exact hw
  have hm1 : o1.maxIter = o.maxIter := by rw [ho1]
  have hag1 := ha.ws hw1
  have hr := hev o1 (by rw [ho1]) (by rw [ho1]; exact h0) (by rw [ho1]; exact h1) (by rw [ho1]; exact h2) hw1
  have law1 : FpLaws ℝ o1 := fpLaws_real o1 (by rw [ho1]; exact h0)
  obtain ⟨t1, xs1, k3, _⟩ := xsolve_safe law1 XInv.empty hag1 (Or.inl (by rw [ho1]))
  have hobs := xsolve_sim (o := o) (o' := o1) ⟨hm1, by rw [ho1], by rw [ho1]⟩ law law1 g2 XInv.empty hag hag1
    (fun i _ => by
      by_cases ht : o.warmStart = true
      · rw [usedAs_explicit ht (hex (by rw [← hw]; exact ht)), hua o1 hw1 (by rw [hw1, ← hw]; exact ht), ho1]; rfl
      · have ht' : o.warmStart = false := by simpa using ht
        rw [want_off ht' pb (usedAs o pb as xs) as, want_off (by rw [hw1, ← hw]; exact ht') pb _ as, ho1]; rfl) g3 k3
  have ht : t = t1 := congrArg XObs.status hobs
  subst ht
  have hno : t ≠ .overconstrainedProblem := by
    intro hcon
    subst hcon
    have := (C21_overconstrained_iff_partial XInv.empty hag1 (hf0 o1 hw1) (by rw [ho1])).1 ⟨_, k3⟩
    omega
  have hnp : t ≠ .nonPosHessian := by
    intro hcon
    subst hcon
    rcases xsolve_cases g2 hag with ⟨a, _⟩ | ⟨_, a, _⟩ | ⟨_, A, xs4, _, _, _, _, a⟩
    · omega
    · exact a hc
    · rw [g3] at a
      cases hl : loop o pb (o.maxIter - xs4.s.it) xs4.s ⟨0, .inactive⟩ false with
      | error e => rw [hl] at a; cases a
      | ok p =>
        obtain ⟨t5, s5⟩ := p
        rw [hl] at a
        simp only [] at a
        rcases loop_it _ hl with ⟨rfl, _⟩ | ⟨rfl | rfl, _⟩ <;> simp [terminate] at a
  have hbad : ¬ (t = .nonPosHessian ∨ t = .overconstrainedProblem) := by tauto
  obtain ⟨_, hfin⟩ := xsolve_finalDual hp hx XInv.empty hag1 (hf0 o1 hw1) he (ho0 o1 hw1) hr k3 hno hnp
  have hall : xs1.s.A.nbAll = pb.m + pb.nb := by
    have : Dim pb xs1.s := by
      rcases hfin with ⟨_, a, _⟩ | ⟨_, _, _, a, _⟩ | ⟨_, _, _, a, _⟩ <;> exact a.alg.good.dim
    simp [ActiveSet.nbAll, this.nbCstr, this.nbBnd]
  have hx1 := congrArg XObs.solution hobs
  have hf1 := congrArg XObs.objective hobs
  have hu1 := congrArg XObs.multipliers hobs
  simp only [xobs, hbad, if_false, Option.some.injEq] at hx1 hf1 hu1
  have hxx : ∀ i < pb.n, xs1.s.x i = xs'.s.x i := by
    intro i hi
    have := congrArg (fun l => l[i]?) hx1
    simpa [hi] using this.symm
  have huu : ∀ i < pb.m + pb.nb, (multipliers xs1.s).u i = (multipliers xs'.s).u i := by
    have hl := congrArg List.length hu1
    simp only [List.length_map, List.length_range] at hl
    intro i hi
    have := congrArg (fun l => l[i]?) hu1
    have hi1 : i < xs1.s.A.nbAll := by rw [hall]; exact hi
    have hi2 : i < xs'.s.A.nbAll := by rw [hl]; exact hi1
    simpa [hi1, hi2] using this.symm
  refine ⟨xs, t, xs', g1, g3, ?_, ?_, ?_, ?_⟩
  · rcases hfin with ⟨a, _⟩ | ⟨a, _⟩ | ⟨a, _⟩ <;> simp [a]
  · rintro rfl
    refine ⟨optimal_congr hxx (C24_success_optimal_partial hp hx XInv.empty hag1 (hf0 o1 hw1) he (ho0 o1 hw1) hr k3),
      KKT_congr hxx huu (C24_KKT_partial hp hx XInv.empty hag1 (hf0 o1 hw1) he (ho0 o1 hw1) hr k3), ?_⟩
    rw [hf1]
    rcases hfin with ⟨_, a, _⟩ | ⟨a, _⟩ | ⟨a, _⟩
    · rw [a.alg.f]; exact obj_congr pb hxx
    · cases a
    · cases a
  · rintro rfl
    exact C24_infeasible_partial hp hx XInv.empty hag1 (hf0 o1 hw1) he (ho0 o1 hw1) hr k3
  · rintro rfl
    by_contra hmax
    exact C24_terminates_partial hp hx XInv.empty hag1 (hf0 o1 hw1) he (ho0 o1 hw1) hr (by rw [hm1]; exact not_lt.1 hmax) k3 rfl

end JrlQp
