import Verif.EnumsIO
import Verif.PropsInputLog
import Verif.PropsSafety

/-! C97: the text printed for a termination status identifies it. -/

namespace JrlQp
namespace Log

theorem showTerm_default {s : Int} (h : ¬ (0 ≤ s ∧ s ≤ 6)) : showTerm s = "unknown failure (".toList ++ decInt s ++ ")".toList := by
  unfold showTerm
  rw [if_neg (by omega), if_neg (by omega), if_neg (by omega), if_neg (by omega), if_neg (by omega), if_neg (by omega), if_neg (by omega)]

theorem showTerm_head {s : Int} (h : 0 ≤ s ∧ s ≤ 6) : (showTerm s).head? ≠ some 'u' := by
  obtain ⟨h0, h6⟩ := h
  interval_cases s <;> decide

/-- **C97.** Two values of the enumeration, declared or not, never print the same text. -/
theorem C97_injective {s s' : Int} (h : showTerm s = showTerm s') : s = s' := by
  by_cases h1 : 0 ≤ s ∧ s ≤ 6
  · by_cases h2 : 0 ≤ s' ∧ s' ≤ 6
    · obtain ⟨a, b⟩ := h1
      obtain ⟨c, d⟩ := h2
      interval_cases s <;> interval_cases s' <;> first | rfl | exact absurd h (by decide)
    · refine absurd ?_ (showTerm_head h1)
      rw [h, showTerm_default h2]; rfl
  · by_cases h2 : 0 ≤ s' ∧ s' ≤ 6
    · refine absurd ?_ (showTerm_head h2)
      rw [← h, showTerm_default h1]; rfl
    · rw [showTerm_default h1, showTerm_default h2] at h
      exact decInt_inj (List.append_cancel_left (List.append_cancel_right h))

/-- **C97**, the statuses: the text of each, and no two the same. -/
theorem C97_statuses (t t' : Term) : (showTerm (termVal t) = showTerm (termVal t') ↔ t = t') ∧
    (showTerm (termVal t) = "success".toList ↔ t = .success) ∧ (showTerm (termVal t) = "infeasible".toList ↔ t = .infeasible) ∧
    (showTerm (termVal t) = "maximum iteration reached".toList ↔ t = .maxIterReached) ∧
    (showTerm (termVal t) = "non positive hessian matrix".toList ↔ t = .nonPosHessian) := by
  have inj : ∀ a b : Term, termVal a = termVal b → a = b := by intro a b h; cases a <;> cases b <;> first | rfl | exact absurd h (by decide)
  have key : ∀ (u : Term) (w : Word), showTerm (termVal u) = w → (showTerm (termVal t) = w ↔ t = u) := fun u w hw =>
    ⟨fun h => inj _ _ (C97_injective (h.trans hw.symm)), fun h => by rw [h, hw]⟩
  exact ⟨⟨fun h => inj _ _ (C97_injective h), fun h => by rw [h]⟩, key .success _ rfl, key .infeasible _ rfl, key .maxIterReached _ rfl,
    key .nonPosHessian _ rfl⟩

/-- **C97**, after a solve: what is printed is one of four texts, in any arithmetic and from any state; never "unknown failure". -/
theorem C97_solve {K B : Type} [Zero K] [One K] [Add K] [Sub K] [Neg K] [Mul K] [Div K] [NumOps K B] [SumOps K] (o : Opts K) (pb : Pb K B) (s s' : State K) (t : Term) (h : solve o pb s = .ok (t, s')) :
    showTerm (termVal t) ∈ ["success".toList, "non positive hessian matrix".toList, "infeasible".toList, "maximum iteration reached".toList] := by
  rcases (C05_status_and_iterations o pb s s' t h).1 with rfl | rfl | rfl | rfl <;> simp [termVal, showTerm]

/-- A value outside the declaration prints its number; so does `UNKNOWN`. -/
theorem C97_hypotheses_met : showTerm (termVal .unknown) = "unknown failure (7)".toList ∧ showTerm (-12) = "unknown failure (-12)".toList := by
  constructor <;> decide +kernel

end Log
end JrlQp
