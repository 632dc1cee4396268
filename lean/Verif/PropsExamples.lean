import Verif.PropsIeeeObj
import Verif.PropsExpLower
import Verif.PropsBox

/-!
# Concrete cases of the hypotheses of theorems stated in files without examples (C37, C38, C39, C78, C79)
-/

namespace JrlQp

open NumOps Spec

/-- C37, C38 over the reals: a history with a warm-started solve and a change of sizes, and the empty one; then a warm-started solve. -/
example : (∀ c ∈ ([.solve exOptsW exPbW exAs, .resize 5 3 true, .solve { exOptsW with warmStart := false } exPbW []] : List (XCall ℝ EReal)),
    c.Admissible) ∧ (XCall.solve exOptsW exPbW exAs : XCall ℝ EReal).Admissible ∧ exOptsW.warmStart = true ∧ exAs ≠ [] := by
  obtain ⟨h1, h2, h3, h4, h5, h6, h7, h8⟩ := exPbW_hyps
  have hA : (XCall.solve exOptsW exPbW exAs : XCall ℝ EReal).Admissible := ⟨fpLaws_real _ (by norm_num [exOptsW]), h5, Or.inl rfl⟩
  refine ⟨fun c hc => ?_, hA, rfl, by simp [exAs]⟩
  simp only [List.mem_cons, List.not_mem_nil, or_false] at hc
  rcases hc with rfl | rfl | rfl
  · exact hA
  · trivial
  · exact ⟨fpLaws_real _ (by norm_num [exOptsW]), ⟨Or.inr rfl, Or.inr rfl, ⟨by intros; simp_all, by intros; simp_all⟩⟩, Or.inl rfl⟩

/-- C39 in IEEE arithmetic: a box given with a NaN and crossed bounds is an admissible call. -/
example : (⟨Ieee.exOptsF Ieee.binary64, 3, fun _ => .nan, fun i => if i = 0 then 1 else .nan, .inf true, .inf false, fun _ => 1, fun _ => 0⟩ :
    BoxCall (Ieee.Fl Ieee.binary64) (Ieee.Fl Ieee.binary64)).Admissible :=
  Ieee.fpLaws Ieee.exOptsF_ok

namespace Ieee

/-- C78, C79 for `double`: an unconstrained problem of any size up to `2^22` whose Hessian is full meets all the hypotheses, after any history. -/
example {n : ℕ} (hn : n ≤ 2 ^ 22) (cs : List (Call (Fl binary64) (Fl binary64))) (h : ∀ c ∈ cs, CallOk c) :
    ∃ (pb : Pb (Fl binary64) (Fl binary64)) (s s' : _), pb.n = n ∧ (∀ i j, i ≠ j → (pb.G i j).val = 1 / 2) ∧
      calls cs (State.empty : State (Fl binary64)) = .ok s ∧ solve (exOptsF binary64) pb s = .ok (.success, s') ∧ s'.it = 0 ∧ numEq pb = 0 ∧
      (∀ i < pb.n, ∀ j ≤ i, (s'.G i j).Finite) ∧ ∀ i < pb.n, (s'.x i).Finite := by
  obtain ⟨G, a, h1, h2, h3, h4⟩ := C81_hypotheses_met hn
  let pb : Pb (Fl binary64) (Fl binary64) := ⟨n, 0, false, G, a, fun _ _ => 0, fun _ => 0, fun _ => 0, fun _ => 0, fun _ => 0⟩
  obtain ⟨s, s', y, e1, e2, e3, e4, -, -⟩ := C81_unconstrained_solved binary64_std cs h (o := exOptsF binary64) (by simp [exOptsF])
    (pb := pb) rfl rfl h1 h2
  refine ⟨pb, s, s', rfl, h3, e1, e2, e3, by simp [numEq, pb, Pb.nb], ?_, e4⟩
  obtain ⟨s1, hs1, hi⟩ := calls_inv cs h
  rw [e1] at hs1
  cases hs1
  obtain ⟨L, hL, hfin⟩ := h1.chol
  have e : s'.G = L := by rw [(solve_chol hi e2).1]; show (chol n G n).1 = L; rw [hL]
  rw [e]
  exact hfin

end Ieee
end JrlQp
