import Verif.PropsBlockLog2
import Verif.PropsStruct

/-!
# C84: a concrete case
-/

namespace JrlQp
namespace Log

open NumOps Matlab Spec

/-- The logger of the structured solver without the flags `INPUT` and `NO_ITER`. -/
def quietLogger : Logger :=
  Logger.new 0 "log" (LogFlags.iterationBasicDetails.bits ||| LogFlags.activeSetDetails.bits ||| LogFlags.termination.bits)

/-- The hypotheses of C84 are met: a new structured solver, on the problem of `C40_hypotheses_met` (a constraint is active at the
solution) with small thresholds, writes a script whose last line is the comment of SUCCESS and whose last iterate is the
minimiser; with all the flags, its log is not a script. -/
theorem C84_hypotheses_met {shw : ℝ ⊕ EReal → Word} (hs : ∀ x, Clean (shw x)) :
    ∃ (o : Opts ℝ) (bs' : BState ℝ) (S : List Stmt), bsolve o (exBPb ⊤) [] (fun _ => 0) BState.empty = .ok (.success, bs') ∧
      IsUniqueOptimal (exBPb ⊤).dense bs'.s.x ∧ readScript (blockText shw quietLogger o (exBPb ⊤) [] (fun _ => 0) BState.empty) = some S ∧
      (∀ st ∈ S, st.Valid) ∧ S.getLast? = some (.comment " Optimum reached.".toList) ∧
      Assigned S (pathOf [] ['l', 'o', 'g'] (bs'.s.it + 1) ['x']) (.mat [[shw (.inl (bs'.s.x 0))], [shw (.inl (bs'.s.x 1))]]) ∧
      readScript (blockText shw (Logger.new 0 "log" (~~~0)) o (exBPb ⊤) [] (fun _ => 0) BState.empty) = none := by
  obtain ⟨h1, h2, h3, h4, h5, h6, h7, -⟩ := C40_hypotheses_met
  obtain ⟨ε, hε, β, h⟩ := C40_structured_solves h1 h2 h3 h4 h5 h6
  let o : Opts ℝ := ⟨((exBPb ⊤).n + 1) * (7 ^ ((exBPb ⊤).m + (exBPb ⊤).nb) + 1), β + 1, false, ε / 2, true⟩
  obtain ⟨t, bs', e, hf, -⟩ := h o (by show 0 ≤ ε / 2; positivity) (by show ε / 2 < ε; linarith) (by show β < β + 1; linarith) rfl le_rfl
    (fun _ => 0) BState.empty .new
  obtain ⟨rfl, hopt⟩ := hf h7
  have hn : Named quietLogger [] ['l', 'o', 'g'] := ⟨by decide, by simp, by simp, by decide⟩
  have ha : Named (Logger.new 0 "log" (~~~0)) [] ['l', 'o', 'g'] := ⟨by decide, by simp, by simp, by decide⟩
  have hq : (LogFlags.input.bits ||| LogFlags.noIter.bits) &&& quietLogger.flags = 0 := by decide
  obtain ⟨S, s1, s2⟩ := C84_valid hs hn (by simp) hq o (exBPb ⊤) [] (fun _ => 0) BState.empty
  obtain ⟨S', c, s3, s4, s5⟩ := C84_status hs hn hq (by decide) e (by simp)
  obtain ⟨S'', s6, s7, -⟩ := C84_last hs hn hq e (.inl rfl)
  obtain rfl : S = S' := Option.some.inj (s1.symm.trans s3)
  obtain rfl : S = S'' := Option.some.inj (s1.symm.trans s6)
  refine ⟨o, bs', S, e, hopt, s1, s2, ?_, ?_, (C84_input hs ha (by decide) o (exBPb ⊤) [] (fun _ => 0) BState.empty).1⟩
  · rw [s4, (s5 .success _ rfl).2 rfl]
    simp
  · have hnn : (exBPb ⊤).n = 2 := by simp [BPb.n, exBPb, SG.nbVar, off]
    have := (s7 (by decide)).1
    rw [hnn] at this
    exact this

end Log
end JrlQp
