import Verif.PropsXSolveLog2
import Verif.PropsExpEx
import Verif.PropsSolveLogEx

/-!
# C74, C75: which discarded statuses the log explains; examples
-/

namespace JrlQp
namespace Log

open NumOps Matlab Spec

section

variable {K B : Type} [Zero K] [One K] [Add K] [Sub K] [Neg K] [Mul K] [Div K] [NumOps K B] [SumOps K]

/-- Specification: the script has a comment saying that the status of the constraint `k` (general constraints first, then bounds)
is ignored. -/
def Noted (pb : Pb K B) (S : List Stmt) (k : Nat) : Prop :=
  (k < pb.m ∧ (Stmt.comment (" Ignoring activation status for constraint " ++ toString k).toList ∈ S ∨
    Stmt.comment (" Ignoring activation status for constraint " ++ toString k ++ " (infinite bound)").toList ∈ S)) ∨
  (pb.m ≤ k ∧ (Stmt.comment (" Ignoring activation status for bound " ++ toString (k - pb.m) ++ " (bounds not equal)").toList ∈ S ∨
    Stmt.comment (" Ignoring activation status for bound " ++ toString (k - pb.m) ++ " (infinite bound)").toList ∈ S))

/-- **C74, reasons.** With `ACTIVE_SET`, for every legal call of the warm-started solver on a problem that is not overconstrained:
a status of the warm start is in the initial active set, unless the constraint is an equality of the problem, or the log says that
its status is ignored, or the warm start and the equalities give more constraints than there are variables. -/
theorem C74_explained {shw : K ⊕ B → Word} (hs : ∀ x, Clean (shw x)) {g : Logger} {pre : List (Word × Int)} {id : Word} (hg : Named g pre id)
    (hf : LogFlags.activeSet.bits &&& g.flags ≠ 0) {o : Opts K} {pb : Pb K B} {as : List Status} {xs : XState K} (h : XInv xs) (ha : ArgOk o pb as)
    (hw : o.warmStart = true) {A : ActiveSet}
    (hA : processInitial o pb pb.n (usedAs o pb as xs) (xsolveStart o pb as xs).s.A = .ok (.success, A)) :
    ∃ S, readScript (script shw g (xsolveLog o pb as xs)) = some S ∧ ∀ k < pb.m + pb.nb, (usedAs o pb as xs).getD k .inactive ≠ .inactive →
      A.statusAt k = (usedAs o pb as xs).getD k .inactive ∨ isEqB pb k = true ∨ Noted pb S k ∨
      pb.n < (List.range (pb.m + pb.nb)).countP fun i => isEqB pb i || (usedAs o pb as xs).getD i .inactive != .inactive := by
  obtain ⟨S, hS, s1, s2, s3, s4, -⟩ := C74_discarded hs hg hf o pb as xs
  refine ⟨S, hS, ?_⟩
  intro k hk hne
  by_cases hcount : pb.n < (List.range (pb.m + pb.nb)).countP fun i => isEqB pb i || (usedAs o pb as xs).getD i .inactive != .inactive
  · exact .inr (.inr (.inr hcount))
  by_cases he : isEqB pb k = true
  · exact .inr (.inl he)
  have hdim := xsolveStart_dim (o := o) (as := as) h (pb := pb)
  obtain ⟨-, -, -, -, -, -, -, hall⟩ := C21_initial_active_set (usedAs_warmOk h ha.kind) hdim.dim.wf hdim.dim.nbCstr hdim.dim.nbBnd hA
  have hle : ((List.range (pb.m + pb.nb)).countP fun i => want o pb (usedAs o pb as xs) i != .inactive) ≤ pb.n := by
    refine le_trans (List.countP_mono_left ?_) (Nat.not_lt.1 hcount)
    intro i _ hi
    simp only [bne_iff_ne, ne_eq, Bool.or_eq_true] at hi ⊢
    by_contra hc
    rw [not_or, not_not] at hc
    apply hi
    have hc1 : isEqC pb i = false := Bool.eq_false_iff.2 hc.1
    unfold want
    rw [hc1, hc.2]
    simp
  have hk' := hall hle k hk
  unfold want at hk'
  have he' : isEqC pb k = false := Bool.eq_false_iff.2 he
  rw [he', hw] at hk'
  simp only [Bool.false_eq_true, if_false, if_true] at hk'
  by_cases hd : (usedAs o pb as xs).getD k .inactive = .fixed ∨ infSide o pb k ((usedAs o pb as xs).getD k .inactive) = true
  · refine .inr (.inr (.inl ?_))
    by_cases hkm : k < pb.m
    · have hb : bEq K (pb.bl k) (pb.bu k) = false := by simpa [isEqC, hkm] using he'
      refine .inl ⟨hkm, ?_⟩
      rcases hd with hd | hd
      · exact .inl ((s3 k).2 ⟨hkm, hw, hb, hd⟩)
      · refine .inr ((s4 k).2 ⟨hkm, hw, hb, ?_⟩)
        have hgen := (usedAs_warmOk h ha.kind).gen hw (by intro e; rw [e] at hne; simp at hne) k hkm
        cases hst : (usedAs o pb as xs).getD k .inactive <;> rw [hst] at hd hgen <;> simp [infSide, Status.isGeneral] at hd hgen ⊢ <;> exact hd
    · have hb : bEq K (pb.xl (k - pb.m)) (pb.xu (k - pb.m)) = false := by simpa [isEqC, hkm] using he'
      have hkm' : pb.m + (k - pb.m) = k := by omega
      refine .inr ⟨by omega, ?_⟩
      rcases hd with hd | hd
      · exact .inl ((s1 (k - pb.m)).2 ⟨by omega, hw, hb, by rw [hkm']; exact hd⟩)
      · refine .inr ((s2 (k - pb.m)).2 ⟨by omega, hw, hb, ?_⟩)
        rw [hkm']
        have hbnd := (usedAs_warmOk h ha.kind).bnd hw (by intro e; rw [e] at hne; simp at hne) (k - pb.m) (by omega)
        rw [hkm'] at hbnd
        cases hst : (usedAs o pb as xs).getD k .inactive <;> rw [hst] at hd hbnd <;> simp [infSide, Status.isBound] at hd hbnd ⊢ <;> exact hd
  · rw [if_neg hd] at hk'
    exact .inl hk'

end

theorem exTrim_arg (o : Opts ℝ) (hw : o.warmStart = true) : ArgOk o (exPbF 2) [.lower, .lower] := by
  refine ⟨Or.inl (by simp [exPbF, Pb.nb]), Or.inl hw, ⟨?_, ?_⟩⟩
  · intro _ _ i hi
    right
    have : i < 2 := hi
    interval_cases i <;> rfl
  · intro _ _ i hi; simp [exPbF, Pb.nb] at hi

/-- The last reason of `C74_explained` is silent: for one variable and two constraints `-1 ≤ x ≤ 5`, the warm start `[LOWER, LOWER]`
is legal and not overconstrained; one of the two statuses is not in the initial active set, and the log does not say it. -/
theorem C74_silent {shw : ℝ ⊕ EReal → Word} (hs : ∀ x, Clean (shw x)) {g : Logger} {pre : List (Word × Int)} {id : Word} (hg : Named g pre id)
    (hf : LogFlags.activeSet.bits &&& g.flags ≠ 0) (o : Opts ℝ) (hw : o.warmStart = true) (hb : 5 < o.bigBnd) (xs : XState ℝ) (h : XInv xs) :
    ∃ A S, processInitial o (exPbF 2) 1 [.lower, .lower] (xsolveStart o (exPbF 2) [.lower, .lower] xs).s.A = .ok (.success, A) ∧
      readScript (script shw g (xsolveLog o (exPbF 2) [.lower, .lower] xs)) = some S ∧
      (A.statusAt 0 = .inactive ∨ A.statusAt 1 = .inactive) ∧ ∀ w, Stmt.comment (" Ignoring".toList ++ w) ∉ S := by
  have ha := exTrim_arg o hw
  have hu : usedAs o (exPbF 2) [.lower, .lower] xs = [.lower, .lower] := usedAs_explicit hw (by simp)
  have hlt : bLt ℝ (((-1 : ℝ) : EReal)) (ofK (-o.bigBnd)) = false := by
    simp only [bLt, ofK, decide_eq_false_iff_not, EReal.coe_lt_coe_iff]; linarith
  have hdim := xsolveStart_dim (o := o) (as := [.lower, .lower]) h (pb := exPbF 2)
  have hwk : WarmOk o (exPbF 2) [.lower, .lower] := ha.kind
  obtain ⟨t, A, e1, e2, e3, e4, e5⟩ := processInitial_spec hwk 1 hdim.dim.wf hdim.dim.nbCstr hdim.dim.nbBnd
  have hwant : ∀ i < 2, want o (exPbF 2) [.lower, .lower] i = .lower := by
    intro i hi
    have h1 : isEqC (exPbF 2) i = false := by
      simp only [isEqC, exPbF, hi, if_true]; exact exPbF_neq
    have h2 : [Status.lower, .lower].getD i .inactive = .lower := by interval_cases i <;> rfl
    unfold want
    rw [h1, h2, hw]
    have h3 : infSide o (exPbF 2) i .lower = false := hlt
    simp [h3]
  have hnE : numWant o (exPbF 2) [.lower, .lower] (·.isEq) = 0 := by
    unfold numWant
    rw [List.countP_eq_zero]
    intro i hi
    have hi : i < 2 := List.mem_range.1 hi
    rw [hwant i hi]; decide
  rcases e5 with ⟨-, h1⟩ | ⟨rfl, -, h2, h3, -⟩
  · omega
  obtain ⟨S, hS, s1, s2, s3, s4, s5⟩ := C74_discarded hs hg hf o (exPbF 2) [.lower, .lower] xs
  rw [hu] at s1 s2 s3 s4
  refine ⟨A, S, e1, hS, ?_, ?_⟩
  · by_contra hn
    rw [not_or] at hn
    have hq : A.q ≤ 1 := by rw [h2]; exact Nat.min_le_right _ _
    have hc := q_cnt e2
    have hl : A.status.length = 2 := by rw [e2.size, e3, e4]; rfl
    unfold ActiveSet.cnt at hc
    unfold ActiveSet.statusAt at hn
    obtain ⟨a, b, hab⟩ := List.length_eq_two.1 hl
    rw [hab] at hc hn
    have h0 : a ≠ .inactive := hn.1
    have h1 : b ≠ .inactive := hn.2
    simp [List.countP_cons, h0, h1] at hc
    omega
  · intro w hw'
    obtain ⟨i, e | e | e | e⟩ := s5 w hw'
    · rw [e, s1] at hw'; have := hw'.1; simp [exPbF, Pb.nb] at this
    · rw [e, s2] at hw'; have := hw'.1; simp [exPbF, Pb.nb] at this
    · rw [e, s3] at hw'
      obtain ⟨h1, -, -, h2⟩ := hw'
      have : i < 2 := h1
      interval_cases i <;> cases h2
    · rw [e, s4] at hw'
      obtain ⟨h1, -, -, ⟨-, h2⟩ | ⟨h2, -⟩⟩ := hw'
      · rw [show bLt ℝ ((exPbF 2).bl i) (ofK (-o.bigBnd)) = false from hlt] at h2; cases h2
      · have : i < 2 := h1
        interval_cases i <;> cases h2

/-- Non-vacuity of C74 and C75: a warm-started solve of `exPbW` after any history, with all the flags. The script is accepted, all
its indices are valid, its last iterate is the minimiser, and its last line says `SUCCESS`. -/
example {shw : ℝ ⊕ EReal → Word} (hs : ∀ x, Clean (shw x)) : ∃ o : Opts ℝ, o.warmStart = true ∧
    ∀ cs : List (XCall ℝ EReal), (∀ c ∈ cs, c.Admissible) → ∃ (xs xs' : XState ℝ) (S : List Stmt), xcalls cs (XState.empty : XState ℝ) = .ok xs ∧
      readScript (script shw allLogger (xsolveLog o exPbW exAs xs)) = some S ∧ (∀ st ∈ S, st.Valid) ∧
      IsUniqueOptimal exPbW xs'.s.x ∧
      Assigned S (pathOf [] ['l', 'o', 'g'] (xs'.s.it + 1) ['x']) (column shw exPbW.n xs'.s.x) ∧
      ∃ c text, S.getLast? = some (.comment (' ' :: c)) ∧ termText .success = some text ∧ c = text.toList := by
  obtain ⟨o, hw, ho⟩ := exPbW_solved
  refine ⟨o, hw, fun cs hcs => ?_⟩
  obtain ⟨xs, xs', h1, h2, h3⟩ := ho cs hcs
  obtain ⟨S, e1, e2⟩ := C74_valid hs allLogger_named (by simp) o exPbW exAs xs
  obtain ⟨S', e3, e4, -⟩ := C75_last hs allLogger_named h2 (.inl rfl)
  obtain ⟨S'', e5, e6, -⟩ := C75_status hs allLogger_named h2 (by decide)
  obtain rfl : S = S' := Option.some.inj (e1.symm.trans e3)
  obtain rfl : S = S'' := Option.some.inj (e1.symm.trans e5)
  obtain ⟨c, e7, e8⟩ := e6 (by simp)
  exact ⟨xs, xs', S, h1, e1, e2, h3, (e4 (by decide)).1, c, _, e7, rfl, (e8 .success _ rfl).2 rfl⟩

end Log
end JrlQp
