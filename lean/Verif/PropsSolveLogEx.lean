import Verif.PropsSolveLog
import Verif.PropsCounter

/-!
# The hypotheses of C72 and C73 are met

The problem `min ½(x₀² + x₁²)` subject to `x₀ ≥ 1` and `x₀ + x₁ = 0` (`cexEq`), a new solver, and the logger of a solver with all
flags enabled.
-/

namespace JrlQp
namespace Log

open NumOps Matlab

/-- The logger of `DualSolver`, with all flags. -/
def allLogger : Logger := Logger.new 0 "log" (~~~0)

theorem allLogger_named : Named allLogger [] ['l', 'o', 'g'] := ⟨by decide, by simp, by simp, by decide⟩

/-- Reasonable options. -/
noncomputable def exLogOpts (dbg : Bool) : Opts ℝ := ⟨100, 1e100, false, 1e-14, dbg⟩

/-- The script of a solve of `cexEq` in a release build: it is accepted, its last iterate is `(1, -1)`, at the index `iterations() + 1`. -/
example {shw : ℝ ⊕ EReal → Word} (hs : ∀ x, Clean (shw x)) :
    ∃ S k, readScript (script shw allLogger (solveLog (exLogOpts false) cexEq State.empty)) = some S ∧ (∀ st ∈ S, st.Valid) ∧
      Assigned S (pathOf [] ['l', 'o', 'g'] (k + 1) ['x']) (.mat [[shw (.inl 1)], [shw (.inl (-1))]]) := by
  obtain ⟨s', h, -, -, hx0, hx1⟩ := C15_equality_dropped (o := exLogOpts false) (by simp only [exLogOpts]; norm_num) (by simp only [exLogOpts]; norm_num)
    (by simp only [exLogOpts]; norm_num) (by simp only [exLogOpts]; norm_num) (s := State.empty) inv_empty
  obtain ⟨S, h1, h2⟩ := C72_valid hs allLogger_named (by simp) (exLogOpts false) cexEq State.empty (.inl rfl)
  obtain ⟨S', h3, h4, -⟩ := C73_last hs allLogger_named h (.inl rfl)
  obtain rfl : S = S' := Option.some.inj (h1.symm.trans h3)
  refine ⟨S, s'.it, h1, h2, ?_⟩
  have := (h4 (by decide)).1
  have e : column shw cexEq.n s'.x = .mat [[shw (.inl 1)], [shw (.inl (-1))]] := by
    show Val.mat [[shw (.inl (s'.x 0))], [shw (.inl (s'.x 1))]] = _
    rw [hx0, hx1]
  rw [e] at this
  exact this

/-- In a debug build the script of the same problem is rejected: it assigns `log(0).J`. -/
example {shw : ℝ ⊕ EReal → Word} (hs : ∀ x, Clean (shw x)) :
    ∃ S v, readScript (script shw allLogger (solveLog (exLogOpts true) cexEq State.empty)) = some S ∧
      Stmt.assign [(['l', 'o', 'g'], some 0), (['J'], none)] v ∈ S := by
  obtain ⟨S, v, h1, h2, -⟩ := C72_debug hs allLogger_named (by decide) (exLogOpts true) cexEq State.empty rfl
    (cholOk_of_posDefN (posDef_id (pb := cexEq) fun i j => rfl)) (by
      rintro ⟨h, -⟩
      have := h 1 (by decide)
      simp [cexEq, NumOps.bEq] at this)
  exact ⟨S, v, h1, h2⟩

end Log
end JrlQp
