import Verif.ActiveSetProofs
import Mathlib.Data.List.Range

/-!
# Properties C01-C04 of the active set

Specifications are in terms of the observers of the class only: `statusAt` (activationStatus), `get` (operator[]),
the counters, `nbCstr`, `nbBnd`.
-/

namespace JrlQp
namespace ActiveSet

/-- A state obtained by constructing an `ActiveSet` and calling operations whose preconditions hold. -/
def Reachable (A : ActiveSet) : Prop := ∃ c b os, (mk' c b).run os = some A

/-- Specification: number of constraint/bound indices whose reported status satisfies `P`. -/
def numWith (A : ActiveSet) (P : Status → Bool) : Nat :=
  (List.range (A.nbCstr + A.nbBnd)).countP (fun i => P (A.statusAt i))

theorem Reachable.wf {A : ActiveSet} (h : Reachable A) : WF A := by
  obtain ⟨c, b, os, h⟩ := h
  exact wf_run os _ _ (wf_mk' c b) h

theorem countP_range (l : List Status) (P : Status → Bool) :
    (List.range l.length).countP (fun i => P (l.getD i .inactive)) = l.countP P := by
  induction l with
  | nil => rfl
  | cons a l ih =>
    rw [List.length_cons, List.range_succ_eq_map, List.countP_cons, List.countP_map, List.countP_cons, ← ih]
    rfl

theorem numWith_eq {A : ActiveSet} (h : WF A) (P : Status → Bool) : (A.numWith P : Int) = A.cnt P := by
  rw [numWith, ← h.size, cnt, ← countP_range]; rfl

/-- **C01.** After any legal history every counter equals the number of indices with the corresponding status,
and `nbActiveCstr` is the length of the list read through `operator[]`. -/
theorem C01_counters {A : ActiveSet} (h : Reachable A) :
    A.me = A.numWith (fun s => s = .equality) ∧
    A.ml = A.numWith (fun s => s = .lower) ∧
    A.mu = A.numWith (fun s => s = .upper) ∧
    A.mi = A.numWith (fun s => s = .lower ∨ s = .upper) ∧
    A.mbl = A.numWith (fun s => s = .lowerBound) ∧
    A.mbu = A.numWith (fun s => s = .upperBound) ∧
    A.mbe = A.numWith (fun s => s = .fixed) ∧
    A.mb = A.numWith (fun s => s = .lowerBound ∨ s = .upperBound ∨ s = .fixed) ∧
    A.nbActiveCstr = A.numWith (fun s => s ≠ .inactive) ∧
    A.nbActiveCstr = A.active.length := by
  have w := h.wf
  have hb : (fun s : Status => s.isBound) = fun s => decide (s = .lowerBound ∨ s = .upperBound ∨ s = .fixed) := by
    funext s; cases s <;> rfl
  have hi : (fun s : Status => (s == .lower || s == .upper)) = fun s => decide (s = .lower ∨ s = .upper) := by
    funext s; cases s <;> rfl
  have hn : (fun s : Status => (s != .inactive)) = fun s => decide (s ≠ .inactive) := by
    funext s; cases s <;> rfl
  have he : ∀ t : Status, (fun s : Status => (s == t)) = fun s => decide (s = t) := by
    intro t; funext s; cases s <;> cases t <;> rfl
  simp only [numWith_eq w]
  refine ⟨?_, ?_, ?_, ?_, ?_, ?_, ?_, ?_, ?_, nbActive_eq_length A w⟩
  · rw [w.me, he]
  · rw [w.ml, he]
  · rw [w.mu, he]
  · rw [w.mi, hi]
  · rw [w.mbl, he]
  · rw [w.mbu, he]
  · rw [w.mbe, he]
  · rw [w.mb, hb]
  · rw [nbActive_eq_length A w, w.len, hn]

/-- **C02.** After any legal history the list of active indices has no duplicate, contains exactly the in-range
indices with a status other than `INACTIVE`, and the status of each active index is of the right kind. -/
theorem C02_list_matches_status {A : ActiveSet} (h : Reachable A) :
    A.active.Nodup ∧
    (∀ i, i ∈ A.active ↔ (i < A.nbCstr + A.nbBnd ∧ A.statusAt i ≠ .inactive)) ∧
    (∀ i, i ∈ A.active → i < A.nbCstr →
      A.statusAt i = .lower ∨ A.statusAt i = .upper ∨ A.statusAt i = .equality) ∧
    (∀ i, i ∈ A.active → A.nbCstr ≤ i →
      A.statusAt i = .lowerBound ∨ A.statusAt i = .upperBound ∨ A.statusAt i = .fixed) := by
  have w := h.wf
  refine ⟨w.nodup, ?_, ?_, ?_⟩
  · intro i; rw [w.mem, w.size]
  · intro i hi hc
    have h1 := ((w.mem i).1 hi).2
    have h2 := w.kindG i hc h1
    cases hs : A.statusAt i <;> simp_all [Status.isGeneral]
  · intro i hi hc
    have h1 := ((w.mem i).1 hi).2
    have h2 := w.kindB i hc h1
    cases hs : A.statusAt i <;> simp_all [Status.isBound]

theorem _root_.List.map_eraseIdx' {α β : Type} (f : α → β) (l : List α) (k : Nat) :
    (l.eraseIdx k).map f = (l.map f).eraseIdx k := by
  induction l generalizing k with
  | nil => simp
  | cons a l ih => cases k <;> simp [ih]

/-- Specification: the active set as an ordered list of (index, status) pairs. -/
def pairs (A : ActiveSet) : List (Nat × Status) := A.active.map fun i => (i, A.statusAt i)

/-- **C03 (activate).** `activate(i,s)` appends `(i,s)` and changes no other status. -/
theorem C03_activate {A : ActiveSet} (h : Reachable A) (i : Nat) (s : Status) (hp : A.activatePre i s = true) :
    (A.activate i s).pairs = A.pairs ++ [(i, s)] ∧
    (∀ j, (A.activate i s).statusAt j = if j = i then s else A.statusAt j) ∧
    Reachable (A.activate i s) := by
  have w := h.wf
  have hp' := (activatePre_iff A i s).1 hp
  have hi : i < A.status.length := by rw [w.size]; exact hp'.1
  have hni : i ∉ A.active := by rw [w.mem]; simp [hp'.2.1]
  refine ⟨?_, fun j => activate_statusAt A i j s hi, ?_⟩
  · simp only [pairs, activate_active, List.map_append, List.map_cons, List.map_nil,
      activate_statusAt A i _ s hi, if_true]
    congr 1
    apply List.map_congr_left
    intro j hj
    have : j ≠ i := fun e => hni (e ▸ hj)
    simp [this]
  · obtain ⟨c, b, os, hr⟩ := h
    refine ⟨c, b, os ++ [.activate i s], ?_⟩
    have : ∀ (os : List Op) (B : ActiveSet), B.run os = some A →
        B.run (os ++ [.activate i s]) = some (A.activate i s) := by
      intro os
      induction os with
      | nil => intro B hB; simp [run] at hB; subst hB; simp [run, step, hp]
      | cons o os ih =>
        intro B hB
        simp only [run, List.cons_append] at hB ⊢
        cases hs : B.step o with
        | none => simp [hs] at hB
        | some B' => simp [hs] at hB ⊢; exact ih B' hB
    exact this os _ hr

/-- **C03 (deactivate).** `deactivate(k)` removes the `k`-th pair, keeps the order of the others and changes no
other status. -/
theorem C03_deactivate {A : ActiveSet} (h : Reachable A) (k : Nat) (hk : k < A.active.length) :
    (A.deactivate k).pairs = A.pairs.eraseIdx k ∧
    (∀ j, (A.deactivate k).statusAt j = if j = A.get k then .inactive else A.statusAt j) := by
  have w := h.wf
  refine ⟨?_, fun j => deactivate_statusAt A w k j hk⟩
  have hget : A.get k = A.active[k] := by simp only [get]; rw [List.getD_eq_getElem _ _ hk]
  simp only [pairs, deactivate_active]
  rw [← List.map_eraseIdx']
  apply List.map_congr_left
  intro j hj
  rw [deactivate_statusAt A w k j hk]
  have : j ≠ A.get k := by
    rw [← w.nodup.erase_getElem k hk, w.nodup.mem_erase_iff] at hj
    rw [hget]; exact hj.1
  simp [this]

/-- Statuses compatible with their index: what the documentation asks of a status vector. -/
def Compatible (as : List Status) (nBnd : Nat) : Prop :=
  nBnd ≤ as.length ∧ ∀ i < as.length, as.getD i .inactive = .inactive ∨
    (i < as.length - nBnd ∧ (as.getD i .inactive).isGeneral = true) ∨
    (as.length - nBnd ≤ i ∧ (as.getD i .inactive).isBound = true)

/-- Indices below `n` with a non-`INACTIVE` status, in increasing order. -/
def activeBelow (as : List Status) (n : Nat) : List Nat :=
  (List.range n).filter (fun i => as.getD i .inactive != .inactive)

theorem activateAll_spec (c b : Nat) (rest : List Status) : ∀ (pre : List Status) (A : ActiveSet),
    WF A → A.nbCstr = c → A.nbBnd = b → (pre ++ rest).length = c + b →
    (∀ i < (pre ++ rest).length, (pre ++ rest).getD i .inactive = .inactive ∨
      (i < c ∧ ((pre ++ rest).getD i .inactive).isGeneral = true) ∨
      (c ≤ i ∧ ((pre ++ rest).getD i .inactive).isBound = true)) →
    A.status = pre ++ List.replicate rest.length .inactive →
    A.active = activeBelow A.status pre.length →
    WF (A.activateAll pre.length rest) ∧ (A.activateAll pre.length rest).status = pre ++ rest ∧
      (A.activateAll pre.length rest).nbCstr = c ∧ (A.activateAll pre.length rest).nbBnd = b ∧
      (A.activateAll pre.length rest).active = activeBelow (pre ++ rest) (pre ++ rest).length := by
  induction rest with
  | nil =>
    intro pre A w hc hb _ _ hs ha
    simp only [activateAll]
    have hs' : A.status = pre := by simpa using hs
    exact ⟨w, by simpa using hs', hc, hb, by rw [ha, hs']; simp⟩
  | cons s rest ih =>
    intro pre A w hc hb hlen hcomp hs ha
    have hl : (pre ++ [s]).length = pre.length + 1 := by simp
    have happ : pre ++ s :: rest = (pre ++ [s]) ++ rest := by simp
    have hst0 : A.statusAt pre.length = .inactive := by
      simp [statusAt, hs]
    have hlt : pre.length < A.status.length := by rw [hs]; simp
    rw [show A.activateAll pre.length (s :: rest) =
      (if s ≠ .inactive then A.activate pre.length s else A).activateAll (pre ++ [s]).length rest from by
        rw [hl]; rfl]
    rw [happ] at hcomp hlen ⊢
    by_cases hi : s = .inactive
    · subst hi
      simp only [ne_eq, not_true_eq_false, if_false]
      apply ih (pre ++ [Status.inactive]) A w hc hb hlen hcomp
      · rw [hs]; simp [List.replicate_succ]
      · rw [ha, hl, activeBelow, activeBelow, List.range_succ, List.filter_append]
        have : A.status.getD pre.length .inactive = .inactive := hst0
        rw [List.filter_cons, this]; simp
    · simp only [ne_eq, hi, not_false_eq_true, if_true]
      have hcp := hcomp pre.length (by simp)
      have hgs : ((pre ++ [s]) ++ rest).getD pre.length .inactive = s := by simp
      rw [hgs] at hcp
      have hpre : A.activatePre pre.length s = true := by
        rw [activatePre_iff]
        refine ⟨by rw [← w.size]; exact hlt, hst0, hi, ?_⟩
        rw [hc]
        rcases hcp with h | h | h
        · exact absurd h hi
        · exact Or.inl h
        · exact Or.inr h
      apply ih (pre ++ [s]) _ (wf_activate _ w _ _ hpre) (by rw [activate_nbCstr, hc])
        (by rw [activate_nbBnd, hb]) hlen hcomp
      · rw [activate_status, hs]; simp [List.replicate_succ]
      · rw [activate_active, activate_status, ha, hl, activeBelow, activeBelow, List.range_succ,
          List.filter_append]
        congr 1
        · apply List.filter_congr
          intro j hj
          have : j ≠ pre.length := by have := List.mem_range.1 hj; omega
          rw [getD_set _ _ _ _ hlt, if_neg this]
        · rw [List.filter_cons, getD_set _ _ _ _ hlt, if_pos rfl]; simp [hi]

/-- **C04.** The constructor from a (compatible) status vector gives the vector back, with the active indices in
increasing order. -/
theorem C04_ofStatus_roundtrip (as : List Status) (nBnd : Nat) (h : Compatible as nBnd) :
    (ofStatus as nBnd).status = as ∧
    (ofStatus as nBnd).nbBnd = nBnd ∧ (ofStatus as nBnd).nbCstr = as.length - nBnd ∧
    (ofStatus as nBnd).active = (List.range as.length).filter (fun i => as.getD i .inactive != .inactive) ∧
    WF (ofStatus as nBnd) := by
  obtain ⟨hn, hc⟩ := h
  have := activateAll_spec (as.length - nBnd) nBnd as [] (mk' (as.length - nBnd) nBnd) (wf_mk' _ _) rfl rfl
    (by simp; omega) (by simpa using hc)
    (by simp [mk', resize, reset, length_vecResize]; omega) (by simp [mk', resize, reset, activeBelow])
  obtain ⟨h1, h2, h3, h4, h5⟩ := this
  exact ⟨h2, h4, h3, h5, h1⟩

/-! ### Non-vacuity -/

/-- A concrete legal history with activations, a deactivation in the middle and a re-activation. -/
example : ∃ A, (mk' 3 2).run [.activate 1 .upper, .activate 4 .fixed, .activate 0 .equality,
    .deactivate 0, .activate 1 .lower] = some A ∧ A.active = [4, 0, 1] ∧ A.nbActiveCstr = 3 ∧ A.mu = 0 ∧ A.ml = 1 :=
  ⟨_, rfl, rfl, rfl, rfl, rfl⟩

example : Reachable ((mk' 3 2).activate 1 .upper) ∧
    ((mk' 3 2).activate 1 .upper).activatePre 4 .lowerBound = true :=
  ⟨⟨3, 2, [.activate 1 .upper], rfl⟩, rfl⟩

example : Compatible [.lower, .inactive, .equality, .upperBound, .fixed] 2 := by
  refine ⟨by decide, by decide⟩

end ActiveSet
end JrlQp
