import Verif.PropsInputLog
import Verif.PropsXSolveLog2
import Verif.PropsWarm
import Verif.IeeeSubst

/-! C75, the factorisation shown in the log of a warm-started solve (src/experimental/GoldfarbIdnaniSolver.cpp:457). -/

namespace JrlQp
namespace Log

open NumOps Matlab

variable {K B : Type} [Zero K] [One K] [Add K] [Sub K] [Neg K] [Mul K] [Div K] [NumOps K B] [SumOps K]

/-- Names of the factorisation data. -/
def factNames : List Word := [['N'], ['J'], "b_act".toList]

theorem dropLoop_it_le {o : Opts K} {pb : Pb K B} (fuel : Nat) : ∀ {xs xs' : XState K}, dropLoop o pb fuel xs = .ok xs' → xs.s.it ≤ xs'.s.it := by
  induction fuel with
  | zero =>
    intro xs xs' h
    simp only [dropLoop] at h
    split_ifs at h
    cases h; exact le_rfl
  | succ fuel ih =>
    intro xs xs' h
    simp only [dropLoop] at h
    split at h
    · cases h; exact le_rfl
    · split_ifs at h
      exact (Nat.le_succ _).trans (ih h)

theorem dropLoop_none {o : Opts K} {pb : Pb K B} {fuel : Nat} {xs xs' : XState K} (h : dropLoop o pb fuel xs = .ok xs') (hi : xs'.s.it = 0) : xs' = xs := by
  cases fuel with
  | zero =>
    simp only [dropLoop] at h
    split_ifs at h
    cases h; rfl
  | succ fuel =>
    simp only [dropLoop] at h
    split at h
    · cases h; rfl
    · split_ifs at h
      have := (Nat.succ_le_of_lt (Nat.lt_succ_self _)).trans (dropLoop_it_le _ h)
      rw [hi] at this
      exact absurd this (by simp [initPoints, dropAt])

theorem pointsLog_avoidsF (pb : Pb K B) (xs : XState K) : ∀ c ∈ pointsLog pb xs, c.Avoids factNames := by
  intro c hc
  simp only [pointsLog, List.mem_singleton] at hc
  subst hc
  refine log_avoids fun v hv => ?_
  simp only [List.mem_cons, List.not_mem_nil, or_false] at hv
  rcases hv with rfl | rfl | rfl | rfl | rfl <;> (dsimp only; decide)

theorem dropLog_avoidsF (o : Opts K) (pb : Pb K B) (fuel : Nat) : ∀ (xs : XState K), ∀ c ∈ dropLog o pb fuel xs, c.Avoids factNames := by
  induction fuel with
  | zero => intro xs c hc; simp [dropLog] at hc
  | succ fuel ih =>
    intro xs c hc
    simp only [dropLog] at hc
    split at hc
    · simp at hc
    · rcases List.mem_append.1 hc with hc | hc
      · exact pointsLog_avoidsF _ _ c hc
      · exact ih _ c hc

/-- When one call logs data and no other call logs their names, each of these names is assigned exactly its value. -/
theorem assigned_mid {V : Type} {shw : V → Word} {flags : BitVec 32} {pre : List (Word × Int)} {id : Word} {f : BitVec 32} (hf : f &&& flags ≠ 0)
    (h0 : f &&& noIterationFlag ≠ 0) {vals : List (Word × LVal V)} {l r : List (LogCall V)} {nms : List Word} (hl : ∀ c ∈ l, c.Avoids nms)
    (hr : ∀ c ∈ r, c.Avoids nms) {nm : Word} (hn : nm ≠ ['i', 't']) (hnm : nm ∈ nms) {w : LVal V} (hw : ∀ w', (nm, w') ∈ vals ↔ w' = w)
    (he : emptyVec w = false) (iter : Int) :
    Assigned (expectedAll shw flags pre id iter (l ++ .log f vals :: r)) (dataPath pre id nm) (w.value shw) := by
  intro v
  rw [mem_expectedAll_data hn]
  constructor
  · rintro ⟨w', ⟨c, hc, h⟩, rfl⟩
    rcases List.mem_append.1 hc with hc | hc
    · exact absurd h (hl c hc nm hnm _ _)
    · rcases List.mem_cons.1 hc with rfl | hc
      · obtain ⟨f', v', e, -, -, h3, -⟩ := h
        injection e with e1 e2
        subst e2
        rw [(hw w').1 h3]
      · exact absurd h (hr c hc nm hnm _ _)
  · rintro rfl
    exact ⟨w, ⟨.log f vals, by simp, f, vals, rfl, hf, h0, (hw w).2 rfl, he⟩, rfl⟩

/-- **C75, factorisation.** When the warm-started solver starts its iterations from the full initial active set (no constraint removed: the same call with
`maxIter = 0` returns with `iterations() = 0`), the members `N`, `J`, `b_act` of the data in the script are assigned exactly once-and-for-all values:
the matrix `R` with `nbVar` rows and one column per active constraint, the square matrix `J` and the right-hand sides of the active constraints with
which the iterations start. -/
theorem C75_factors {shw : K ⊕ B → Word} (hs : ∀ x, Clean (shw x)) {g : Logger} {pre : List (Word × Int)} {id : Word} (hg : Named g pre id)
    (hf : (LogFlags.init.bits ||| LogFlags.noIter.bits) &&& g.flags ≠ 0)
    {o : Opts K} {pb : Pb K B} {as : List Status} {xs xs' : XState K} {t : Term} (h : xsolve o pb as xs = .ok (t, xs'))
    (ht : t ≠ .nonPosHessian) (ht' : t ≠ .overconstrainedProblem) :
    ∃ S x0, readScript (script shw g (xsolveLog o pb as xs)) = some S ∧ xsolve { o with maxIter := 0 } pb as xs = .ok (.maxIterReached, x0) ∧
      (x0.s.it = 0 →
        Assigned S (dataPath pre id ['N']) (matrix shw pb.n x0.s.A.q x0.s.R) ∧
        Assigned S (dataPath pre id ['J']) (matrix shw pb.n pb.n x0.s.J) ∧
        Assigned S (dataPath pre id "b_act".toList) (column shw x0.s.A.q x0.bact)) := by
  obtain ⟨x0, h0, h1, -⟩ := xsolve_parts h ht ht'
  have ha := xsolve_args h
  have hn0 : x0.s.nbVar = pb.n := (xinit_nbVar h0).trans (xstart_nbVar o pb as xs)
  refine ⟨_, x0, C71_script hs hg _ (xsolveLog_ok o pb as xs),
    (xsolve_stop (sk := x0.s) (b := false) (j := 0) ha h0 (by simp) rfl).trans rfl, fun hi => ?_⟩
  obtain ⟨t0, A, hP, ⟨g1, g2, -⟩ | ⟨-, -, g2, -⟩ | ⟨rfl, hc, -, hd⟩⟩ := xinit_parts h0
  · exact absurd g2.symm g1
  · cases g2
  have hx := dropLoop_none hd hi
  have key : ∃ l r : Calls K B, xsolveLog o pb as xs = l ++ .log initFlags [(['N'], lmat pb.n x0.s.A.q x0.s.R), (['J'], lmat pb.n pb.n x0.s.J),
      ("b_act".toList, lvec x0.s.A.q x0.bact)] :: r ∧ (∀ c ∈ l, c.Avoids factNames) ∧ ∀ c ∈ r, c.Avoids factNames := by
    have e1 : xinitLog o pb (xsolveStart o pb as xs) = processLog o pb (xsolveStart o pb as xs).as (xsolveStart o pb as xs).s.A ++
        .log initFlags [(['N'], lmat pb.n x0.s.A.q x0.s.R), (['J'], lmat pb.n pb.n x0.s.J), ("b_act".toList, lvec x0.s.A.q x0.bact)] ::
        (pointsLog pb (initData o pb (xfact o pb (xsolveStart o pb as xs) A)) ++
          dropLog o pb (initData o pb (xfact o pb (xsolveStart o pb as xs) A)).s.A.q (initPoints pb (initData o pb (xfact o pb (xsolveStart o pb as xs) A)))) := by
      unfold xinitLog
      simp only [hP, ne_eq, not_true_eq_false, if_false]
      rw [if_neg hc]
      have e0 : (dataLog (initData o pb (xfact o pb (xsolveStart o pb as xs) A)) : Calls K B)
          = [.log initFlags [(['N'], lmat pb.n x0.s.A.q x0.s.R), (['J'], lmat pb.n pb.n x0.s.J), ("b_act".toList, lvec x0.s.A.q x0.bact)]] := by
        rw [← hn0, hx]; rfl
      have e2 : ∀ p d1 d2 (d0 d0' : Calls K B), d0 = d0' → p ++ (d0 ++ d1 ++ d2) = p ++ (d0' ++ (d1 ++ d2)) := by
        intro p d1 d2 d0 d0' e; rw [e, List.append_assoc]
      exact e2 _ _ _ _ _ e0
    refine ⟨xhead pb as ++ processLog o pb (xsolveStart o pb as xs).as (xsolveStart o pb as xs).s.A,
      pointsLog pb (initData o pb (xfact o pb (xsolveStart o pb as xs) A)) ++
        (dropLog o pb (initData o pb (xfact o pb (xsolveStart o pb as xs) A)).s.A.q (initPoints pb (initData o pb (xfact o pb (xsolveStart o pb as xs) A))) ++
          (loopLog o pb (o.maxIter - x0.s.it) x0.s ⟨0, .inactive⟩ false ++ termLog t)), ?_, ?_, ?_⟩
    rotate_left
    · intro c hc
      rcases List.mem_append.1 hc with hc | hc
      · simp only [xhead, List.mem_cons, List.not_mem_nil, or_false] at hc
        rcases hc with rfl | rfl
        · rintro nm _ flags w ⟨f', v', e, -⟩; cases e
        · refine log_avoids fun v hv => ?_
          simp only [inputLog, List.cons_append, List.nil_append, List.mem_cons, List.not_mem_nil, or_false] at hv
          rcases hv with rfl | rfl | rfl | rfl | rfl | rfl | rfl | rfl <;> (dsimp only; decide)
      · exact processLog_avoids _ _ _ _ _ c hc
    rotate_left
    · rw [xsolveLog_eq, h0, e1]
      simp only [ne_eq, not_true_eq_false, if_false, h1, List.append_assoc, List.cons_append]
    · intro c hc
      simp only [List.mem_append] at hc
      rcases hc with hc | hc | hc | hc
      · exact pointsLog_avoidsF _ _ c hc
      · exact dropLog_avoidsF _ _ _ _ c hc
      · exact (loopLog_noData _ _ _ _ _ _ c hc).avoids _
      · exact (termLog_noData _ c hc).avoids _
  obtain ⟨l, r, e, k1, k2⟩ := key
  rw [e]
  refine ⟨?_, ?_, ?_⟩
  · exact assigned_mid hf (by decide) k1 k2 (by decide) (by decide) (w := lmat pb.n x0.s.A.q x0.s.R) (by simp) rfl _
  · exact assigned_mid hf (by decide) k1 k2 (by decide) (by decide) (w := lmat pb.n pb.n x0.s.J) (by simp) rfl _
  · rw [← value_lvec]
    exact assigned_mid hf (by decide) k1 k2 (by decide) (by decide) (w := lvec x0.s.A.q x0.bact) (by simp) rfl _

/-- The hypothesis of `C75_factors` is met by the warm start of `C51_hypotheses_met` (two active constraints): no constraint is removed. -/
theorem C75_factors_hypotheses_met : ∃ x0 xs', xsolve exOptsW exPbW exAs XState.empty = .ok (.success, xs') ∧
    xsolve { exOptsW with maxIter := 0 } exPbW exAs XState.empty = .ok (.maxIterReached, x0) ∧ x0.s.it = 0 := by
  obtain ⟨xs', h, hi, -⟩ := C51_hypotheses_met
  obtain ⟨x0, h0, h1, -⟩ := xsolve_parts h (by simp) (by simp)
  have hge := loop_it_ge _ h1
  exact ⟨x0, xs', h, (xsolve_stop (sk := x0.s) (b := false) (j := 0) (xsolve_args h) h0 (by simp) rfl).trans rfl, by omega⟩

end Log
end JrlQp
