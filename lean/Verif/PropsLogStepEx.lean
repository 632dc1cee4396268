import Verif.PropsBlockLogStep
import Verif.PropsBlockLogEx
import Verif.PropsWarm

/-!
# C85: the hypotheses are met
-/

namespace JrlQp
namespace Log

open NumOps Matlab Spec Finset

/-- For `x₀ ≥ 1`, `x₀ + x₁ = 0`, the solve makes at least one iteration, and the log shows the first step. -/
theorem C85_hypotheses_met {shw : ℝ ⊕ EReal → Word} (hs : ∀ x, Clean (shw x)) :
    ∃ S a b, readScript (script shw allLogger (solveLog (exLogOpts false) cexEq State.empty)) = some S ∧
      solve { exLogOpts false with maxIter := 0 } cexEq State.empty = .ok (.maxIterReached, a) ∧
      solve { exLogOpts false with maxIter := 1 } cexEq State.empty = .ok (.maxIterReached, b) ∧
      StepShown shw allLogger.flags S [] ['l', 'o', 'g'] 2 1 1 a b := by
  have hpd : PosDefN cexEq.n (hess cexEq) := posDef_id (fun i j => rfl)
  have hc : cholOk cexEq := cholOk_of_posDefN hpd
  have hn : cexEq.n = 2 := rfl
  have heq := eqList_mid (pb := cexEq) rfl (Or.inl rfl) (by simp only [cexEq, if_true]; exact EReal.coe_ne_top _) rfl
    (by intro h; simp [cexEq] at h)
  have ht0 : (0 : ℝ) ≤ (exLogOpts false).tiny := by simp only [exLogOpts]; norm_num
  have ht : (exLogOpts false).tiny * (exLogOpts false).tiny ≤ 1 / 4 := by simp only [exLogOpts]; norm_num
  obtain ⟨s0, h1, hq0, hact0, hst0, hit0, hrun⟩ := solve_start_one (o := { exLogOpts false with maxIter := 0 }) ht0 hc inv_empty heq (z := fun _ => 1)
    (by intro a ha; rw [hn] at ha ⊢; interval_cases a <;> simp [normal, cexEq, hess, sum_range_succ])
    (lt_normn ht0 (by rw [hn]; simp; linarith))
  have h0 : solve { exLogOpts false with maxIter := 0 } cexEq State.empty = .ok (.maxIterReached, s0) := hrun _ _ rfl
  obtain ⟨s', h, -, hup, -⟩ := C15_equality_dropped (o := exLogOpts false) (by simp only [exLogOpts]; norm_num) (by simp only [exLogOpts]; norm_num)
    (by simp only [exLogOpts]; norm_num) (by simp only [exLogOpts]; norm_num) (s := State.empty) inv_empty
  have hpos : 0 < s'.it := by
    rcases Nat.eq_zero_or_pos s'.it with hz | hz
    · exfalso
      obtain ⟨e0, g1, g2, g3⟩ := solve_parts h (by simp)
      obtain ⟨-, g4⟩ := loop_le _ g3
      rcases g4 with g4 | ⟨sk, b, g4, -, -, g5, -⟩
      · cases g4
      · rw [hz, Nat.zero_sub] at g4
        have := solve_stop g1 g2 g4
        rw [h0] at this
        simp only [Except.ok.injEq, Prod.mk.injEq, true_and] at this
        rw [g5, ← this] at hup
        have e1 : s0.A.get 0 = 1 := congrArg SC.p hact0
        have e2 : s0.A.statusAt (s0.A.get 0) = .equality := congrArg SC.status hact0
        rw [e1, hup] at e2
        cases e2
    · exact hz
  obtain ⟨S, g1, g2⟩ := C85_step hs allLogger_named h (by simp)
  obtain ⟨a, b, g3, g4, g5⟩ := g2 0 hpos (by simp [exLogOpts])
  exact ⟨S, a, b, g1, g3, g4, by simpa [hn] using g5⟩

/-- For the problem of `C40_hypotheses_met` and small thresholds, the structured solver makes at least one iteration, and its log shows the first step. -/
theorem C85_structured_hypotheses_met {shw : ℝ ⊕ EReal → Word} (hs : ∀ x, Clean (shw x)) :
    ∃ (o : Opts ℝ) (S : List Stmt) (a b : BState ℝ), readScript (blockText shw quietLogger o (exBPb ⊤) [] (fun _ => 0) BState.empty) = some S ∧
      bsolve { o with maxIter := 0 } (exBPb ⊤) [] (fun _ => 0) BState.empty = .ok (.maxIterReached, a) ∧
      bsolve { o with maxIter := 1 } (exBPb ⊤) [] (fun _ => 0) BState.empty = .ok (.maxIterReached, b) ∧
      StepShown shw quietLogger.flags S [] ['l', 'o', 'g'] 2 1 1 a.s b.s := by
  obtain ⟨h1, h2, h3, h4, h5, h6, h7, h8⟩ := C40_hypotheses_met
  obtain ⟨ε, hε, β, h⟩ := C40_structured_solves h1 h2 h3 h4 h5 h6
  let o : Opts ℝ := ⟨((exBPb ⊤).n + 1) * (7 ^ ((exBPb ⊤).m + (exBPb ⊤).nb) + 1), β + 1, false, ε / 2, true⟩
  obtain ⟨t, bs', e, hf, -⟩ := h o (by show 0 ≤ ε / 2; positivity) (by show ε / 2 < ε; linarith) (by show β < β + 1; linarith) rfl le_rfl
    (fun _ => 0) BState.empty .new
  obtain ⟨rfl, hopt⟩ := hf h7
  have hnn : (exBPb ⊤).n = 2 := by simp [BPb.n, exBPb, SG.nbVar, off]
  have hn : Named quietLogger [] ['l', 'o', 'g'] := ⟨by decide, by simp, by simp, by decide⟩
  have hq : (LogFlags.input.bits ||| LogFlags.noIter.bits) &&& quietLogger.flags = 0 := by decide
  have hmi : 0 < o.maxIter := by show 0 < _ * _; positivity
  have hpos : 0 < bs'.s.it := by
    rcases Nat.eq_zero_or_pos bs'.s.it with hz | hz
    · exfalso
      obtain ⟨b0, k1, k2, k3, k4, k5⟩ := (bsolve_run e).2.2 (by simp) (by simp)
      obtain ⟨-, ⟨k6, -⟩ | ⟨-, -, bk, b, k6, k7, -⟩⟩ := bloop_le _ k3
      · cases k6
      · rw [hz, Nat.zero_sub] at k6
        have k8 := k5 _ _ _ k6
        obtain ⟨t1, b1, s0, s1, j1, j2, j3, j4⟩ := C40_structured_equals_dense h1 h2 h3 h4 (o := { o with maxIter := 0 }) (by show 0 ≤ ε / 2; positivity) rfl
          (fun _ => 0) .new [] (by simp)
        rw [k8] at j1
        simp only [Except.ok.injEq, Prod.mk.injEq] at j1
        obtain ⟨rfl, rfl⟩ := j1
        have hc : cholOk (exBPb ⊤).dense := cholOk_of_posDefN (by rw [hess_dense']; exact h2)
        obtain ⟨e0, a1, a2, a3, a4, a5⟩ := solve_start_nil (o := { o with maxIter := 0 }) (by show 0 ≤ ε / 2; positivity) hc inv_empty
          (fun A hA hB => eqList_none h4 hA hB)
        have a6 := a5 _ _ rfl
        simp only [calls, Except.ok.injEq] at j2
        rw [← j2, a6] at j3
        simp only [terminate, Except.ok.injEq, Prod.mk.injEq, true_and] at j3
        subst j3
        obtain ⟨a7, -⟩ := Alg.point (posDef_of_chol hc) a1 (x := fun _ => 0) (u := fun _ => 0)
          (by intro a _; simp [BPb.dense, exBPb]) (by intro k hk; rw [a2] at hk; omega)
        have hx : ∀ i < (exBPb ⊤).n, bs'.s.x i = 0 := by
          intro i hi
          have h9 : (obs (exBPb ⊤).n (Term.maxIterReached, bk.s)).solution = (obs (exBPb ⊤).n (Term.maxIterReached, e0)).solution := congrArg Obs.solution j4
          simp only [obs, reduceCtorEq, if_false, Option.some.injEq] at h9
          have h10 := List.map_inj_left.1 h9 i (List.mem_range.2 hi)
          rw [k7, h10]
          exact a7 i hi
        refine h8 ?_
        exact feasible_congr (fun i hi => (hx i hi).symm) hopt.1.1
    · exact hz
  obtain ⟨S, g1, g2⟩ := C85_structured hs hn hq e (by simp) (by simp)
  obtain ⟨a, b, g3, g4, g5⟩ := g2 0 hpos hmi
  exact ⟨o, S, a, b, g1, g3, g4, by simpa [hnn] using g5⟩

end Log
end JrlQp
