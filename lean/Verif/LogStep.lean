import Verif.PropsSolveLogSel
import Verif.PropsXSolveLog2

/-!
# The steps shown by a log: specification and the part common to the solvers
-/

namespace JrlQp
namespace Log

open NumOps Matlab

variable {K B : Type} [Zero K] [One K] [Add K] [Sub K] [Neg K] [Mul K] [Div K] [NumOps K B] [SumOps K]

/-- The change between two successive iterates `a` and `b`, for a direction `z` of the primal variables, `r` of the multipliers of the active constraints, a step
length `t`, and a multiplier `m` of the constraint `p` being added (with the status `st`). Either `p` becomes active, after the ones that were, and all the
variables move; or the active constraint at the position `l` is removed, all the multipliers move, and the primal variables move or not. -/
def Moves (n : Nat) (a b : State K) (p : Nat) (st : Status) (z r : Nat → K) (t m : K) (act : Bool) (l : Nat) : Prop :=
  (act = true → b.A.active = a.A.active ++ [p] ∧ b.A.status = a.A.status.set p st ∧ (∀ i < n, b.x i = a.x i + t * z i) ∧
    (∀ j < a.A.q, b.u j = a.u j - t * r j) ∧ b.u a.A.q = m + t) ∧
  (act = false → l < a.A.q ∧ b.A.active = a.A.active.eraseIdx l ∧ b.A.status = a.A.status.set (a.A.get l) .inactive ∧
    ((∀ i < n, b.x i = a.x i + t * z i) ∨ ∀ i < n, b.x i = a.x i) ∧
    (∀ j < l, b.u j = a.u j - t * r j) ∧ (∀ j, l ≤ j → j + 1 < a.A.q → b.u j = a.u (j + 1) - t * r (j + 1)) ∧ b.u (a.A.q - 1) = m + t)

/-- The script `S` shows the step from the iterate `a`, of the index `i`, to the iterate `b`: the members `z`, `r`, `t` (with `ITERATION_BASIC_DETAILS`), `Activate`
and `l` (with `ACTIVE_SET`) of this index explain the change, and the constraint being added is the last one shown by a member `sc`, from the index `i0` on. -/
def StepShown (shw : K ⊕ B → Word) (flags : BitVec 32) (S : List Stmt) (pre : List (Word × Int)) (id : Word) (n : Nat) (i0 i : Int) (a b : State K) : Prop :=
  ∃ (p : Nat) (st : Status) (z r : Nat → K) (t m : K) (act : Bool) (l : Nat), Moves n a b p st z r t m act l ∧ (m = 0 ∨ m = a.u a.A.q) ∧
    (LogFlags.iterationBasicDetails.bits &&& flags ≠ 0 →
      Assigned S (pathOf pre id i ['z']) (column shw n z) ∧ Assigned S (pathOf pre id i ['r']) (column shw a.A.q r) ∧
      Assigned S (pathOf pre id i ['t']) (.mat [[shw (.inl t)]])) ∧
    (LogFlags.activeSet.bits &&& flags ≠ 0 →
      Assigned S (pathOf pre id i "Activate".toList) (.mat [[if act then ['1'] else ['0']]]) ∧ Assigned S (pathOf pre id i ['l']) (.mat [[decInt l]]) ∧
      ∃ j, i0 ≤ j ∧ j ≤ i ∧ Assigned S (pathOf pre id j ['s', 'c']) (.cell [decInt p, decInt st.toNat]) ∧
        ∀ j', j < j' → j' ≤ i → ∀ v, Stmt.assign (pathOf pre id j' ['s', 'c']) v ∉ S)

/-- `k` steps of a partial function. -/
def trail {γ : Type} (step : γ → Option γ) : Nat → γ → Option γ
  | 0, c => some c
  | k + 1, c => (step c).bind (trail step k)

theorem trail_succ {γ : Type} (step : γ → Option γ) (k : Nat) : ∀ c, trail step (k + 1) c = (trail step k c).bind step := by
  induction k with
  | zero => intro c; cases h : step c <;> simp [trail, h]
  | succ k ih =>
    intro c
    rw [trail]
    conv_rhs => rw [trail]
    cases h : step c with
    | none => rfl
    | some d => exact ih d

theorem trail_le {γ : Type} {step : γ → Option γ} {c d : γ} {j k : Nat} (h : trail step k c = some d) (hj : j ≤ k) : ∃ e, trail step j c = some e := by
  induction k generalizing d with
  | zero => exact ⟨d, by rw [show j = 0 by omega]; exact h⟩
  | succ k ih =>
    rcases Nat.lt_or_ge j (k + 1) with h1 | h1
    · rw [trail_succ] at h
      cases hk : trail step k c with
      | none => rw [hk] at h; cases h
      | some e => exact ih hk (by omega)
    · exact ⟨d, by rw [show j = k + 1 by omega]; exact h⟩

/-- What a script assigns to the members of the iterations: what the calls of each iteration log. -/
def Shows {γ : Type} (shw : K ⊕ B → Word) (flags : BitVec 32) (S : List Stmt) (pre : List (Word × Int)) (id : Word) (step : γ → Option γ) (tail : γ → Calls K B)
    (c0 : γ) (i0 : Int) (N : Nat) (nms : List Word) : Prop :=
  ∀ nm ∈ nms, ∀ i v, Stmt.assign (pathOf pre id i nm) v ∈ S ↔
    ∃ k, k < N ∧ i = i0 + k ∧ ∃ c, trail step k c0 = some c ∧ ∃ w, (∃ e ∈ tail c, Member flags nm w e) ∧ v = w.value shw

/-- The calls of an iteration log exactly the value `w` under the name `nm`. -/
def Logs (flags : BitVec 32) (l : Calls K B) (nm : Word) (w : LVal (K ⊕ B)) : Prop := ∀ w', (∃ e ∈ l, Member flags nm w' e) ↔ w' = w

theorem Shows.assigned {γ : Type} {shw : K ⊕ B → Word} {flags : BitVec 32} {S : List Stmt} {pre : List (Word × Int)} {id : Word} {step : γ → Option γ}
    {tail : γ → Calls K B} {c0 : γ} {i0 : Int} {N : Nat} {nms : List Word} (h : Shows shw flags S pre id step tail c0 i0 N nms) {nm : Word} (hn : nm ∈ nms) {k : Nat}
    (hk : k < N) {c : γ} (hc : trail step k c0 = some c) {w : LVal (K ⊕ B)} (hw : Logs flags (tail c) nm w) : Assigned S (pathOf pre id (i0 + k) nm) (w.value shw) := by
  intro v
  rw [h nm hn]
  constructor
  · rintro ⟨k', -, h1, c', h2, w', h3, rfl⟩
    have : k' = k := by omega
    subst this
    rw [hc] at h2
    cases h2
    rw [(hw w').1 h3]
  · rintro rfl
    exact ⟨k, hk, rfl, c, hc, w, (hw w).2 rfl, rfl⟩

/-- The names of the members that show a step. -/
def stepNames : List Word := [['z'], ['r'], ['t'], "Activate".toList, ['l'], ['s', 'c']]

/-- What an iteration that goes on does and logs; `view` gives the state, the selected constraint and the flag `skipStep1`. -/
def Goes {γ : Type} (flags : BitVec 32) (step : γ → Option γ) (tail : γ → Calls K B) (view : γ → State K × SC × Bool) : Prop :=
  ∀ c c', step c = some c' → ∃ (z r : Nat → K) (t m : K) (act : Bool) (l : Nat),
    Moves (view c).1.nbVar (view c).1 (view c').1 (view c').2.1.p (view c').2.1.status z r t m act l ∧ (m = 0 ∨ m = (view c).1.u (view c).1.A.q) ∧
    (view c').2.2 = !act ∧
    (LogFlags.iterationBasicDetails.bits &&& flags ≠ 0 → Logs flags (tail c) ['z'] (lvec (view c).1.nbVar z) ∧
      Logs flags (tail c) ['r'] (lvec (view c).1.A.q r) ∧ Logs flags (tail c) ['t'] (.num (.inl t))) ∧
    (LogFlags.activeSet.bits &&& flags ≠ 0 → Logs flags (tail c) "Activate".toList (.bool act) ∧ Logs flags (tail c) ['l'] (.int l)) ∧
    ((view c).2.2 = true → (view c').2.1 = (view c).2.1 ∧ ∀ w, ¬ ∃ e ∈ tail c, Member flags ['s', 'c'] w e) ∧
    ((view c).2.2 = false → LogFlags.activeSet.bits &&& flags ≠ 0 →
      Logs flags (tail c) ['s', 'c'] (.sel (view c').2.1.p (view c').2.1.status.toNat))

/-- The last selection. -/
theorem Goes.selected {γ : Type} {flags : BitVec 32} {step : γ → Option γ} {tail : γ → Calls K B} {view : γ → State K × SC × Bool}
    (hg : Goes flags step tail view) (hf : LogFlags.activeSet.bits &&& flags ≠ 0) {c0 : γ} (h0 : (view c0).2.2 = false) (k : Nat) : ∀ {d : γ},
    trail step (k + 1) c0 = some d → ∃ j ≤ k, (∃ c, trail step j c0 = some c ∧ Logs flags (tail c) ['s', 'c'] (.sel (view d).2.1.p (view d).2.1.status.toNat)) ∧
      ∀ j', j < j' → j' ≤ k → ∀ c, trail step j' c0 = some c → ∀ w, ¬ ∃ e ∈ tail c, Member flags ['s', 'c'] w e := by
  induction k with
  | zero =>
    intro d hd
    rw [trail_succ] at hd
    obtain ⟨z, r, t, m, act, l, -, -, -, -, -, -, g⟩ := hg c0 d hd
    exact ⟨0, le_rfl, ⟨c0, rfl, g h0 hf⟩, fun j' h1 h2 => by omega⟩
  | succ k ih =>
    intro d hd
    rw [trail_succ] at hd
    cases hc : trail step (k + 1) c0 with
    | none => rw [hc] at hd; cases hd
    | some c =>
      rw [hc] at hd
      obtain ⟨z, r, t, m, act, l, -, -, -, -, -, g1, g2⟩ := hg c d hd
      cases hb : (view c).2.2 with
      | false => exact ⟨k + 1, le_rfl, ⟨c, hc, g2 hb hf⟩, fun j' h1 h2 => by omega⟩
      | true =>
        obtain ⟨e1, e2⟩ := g1 hb
        obtain ⟨j, hj, ⟨c1, e3, e4⟩, e5⟩ := ih hc
        refine ⟨j, by omega, ⟨c1, e3, by rw [e1]; exact e4⟩, fun j' h1 h2 => ?_⟩
        rcases Nat.lt_or_ge j' (k + 1) with h3 | h3
        · exact e5 j' h1 (by omega)
        · intro c2 h4
          rw [show j' = k + 1 by omega, hc] at h4
          cases h4
          exact e2

theorem Goes.step {γ : Type} {shw : K ⊕ B → Word} {flags : BitVec 32} {S : List Stmt} {pre : List (Word × Int)} {id : Word} {step : γ → Option γ}
    {tail : γ → Calls K B} {view : γ → State K × SC × Bool} {c0 : γ} {i0 : Int} {N : Nat} (hg : Goes flags step tail view)
    (h : Shows shw flags S pre id step tail c0 i0 N stepNames) (h0 : (view c0).2.2 = false) {k : Nat} (hk : k < N) {c d : γ}
    (hc : trail step k c0 = some c) (hd : trail step (k + 1) c0 = some d) : StepShown shw flags S pre id (view c).1.nbVar i0 (i0 + k) (view c).1 (view d).1 := by
  have hs : step c = some d := by rw [trail_succ, hc] at hd; exact hd
  obtain ⟨z, r, t, m, act, l, g1, g2, -, g3, g4, -, -⟩ := hg c d hs
  refine ⟨_, _, z, r, t, m, act, l, g1, g2, fun hf => ?_, fun hf => ?_⟩
  · obtain ⟨e1, e2, e3⟩ := g3 hf
    have f1 := h.assigned (by simp [stepNames]) hk hc e1
    have f2 := h.assigned (by simp [stepNames]) hk hc e2
    have f3 := h.assigned (by simp [stepNames]) hk hc e3
    rw [value_lvec] at f1 f2
    exact ⟨f1, f2, f3⟩
  · obtain ⟨e1, e2⟩ := g4 hf
    have f1 := h.assigned (by simp [stepNames]) hk hc e1
    have f2 := h.assigned (by simp [stepNames]) hk hc e2
    refine ⟨f1, f2, ?_⟩
    obtain ⟨j, hj, ⟨c1, e3, e4⟩, e5⟩ := hg.selected hf h0 k hd
    refine ⟨i0 + j, by omega, by omega, h.assigned (by simp [stepNames]) (by omega) e3 e4, ?_⟩
    intro j' h1 h2 v hv
    rw [h _ (by simp [stepNames])] at hv
    obtain ⟨k', -, rfl, c', e6, w, e7, -⟩ := hv
    exact e5 k' (by omega) (by omega) c' e6 w e7

end Log
end JrlQp
