import Verif.ActiveSet
import Mathlib.Data.List.GetD

namespace JrlQp
namespace ActiveSet

/-- Number of entries of the status vector satisfying `p` (specification only). -/
def cnt (A : ActiveSet) (p : Status → Bool) : Int := (A.status.countP p : Int)

/-- The consistency invariant between the members of an `ActiveSet`. -/
structure WF (A : ActiveSet) : Prop where
  size : A.status.length = A.nbCstr + A.nbBnd
  nodup : A.active.Nodup
  mem : ∀ i, i ∈ A.active ↔ (i < A.status.length ∧ A.statusAt i ≠ .inactive)
  kindG : ∀ i, i < A.nbCstr → A.statusAt i ≠ .inactive → (A.statusAt i).isGeneral = true
  kindB : ∀ i, A.nbCstr ≤ i → A.statusAt i ≠ .inactive → (A.statusAt i).isBound = true
  me : A.me = A.cnt (· == .equality)
  mi : A.mi = A.cnt (fun s => s == .lower || s == .upper)
  ml : A.ml = A.cnt (· == .lower)
  mu : A.mu = A.cnt (· == .upper)
  mb : A.mb = A.cnt (·.isBound)
  mbl : A.mbl = A.cnt (· == .lowerBound)
  mbu : A.mbu = A.cnt (· == .upperBound)
  mbe : A.mbe = A.cnt (· == .fixed)
  len : (A.active.length : Int) = A.cnt (· != .inactive)

theorem countP_set (l : List Status) (i : Nat) (s : Status) (p : Status → Bool) (h : i < l.length) :
    ((l.set i s).countP p : Int)
      = l.countP p + (if p s then 1 else 0) - (if p (l.getD i .inactive) then 1 else 0) := by
  induction l generalizing i with
  | nil => simp at h
  | cons a l ih =>
    cases i with
    | zero =>
      simp only [List.set_cons_zero, List.countP_cons, List.getD_cons_zero]
      push_cast
      split_ifs <;> omega
    | succ i =>
      simp only [List.set_cons_succ, List.countP_cons, List.getD_cons_succ]
      have := ih i (by simpa using h)
      push_cast
      split_ifs at * <;> omega

theorem getD_set (l : List Status) (i j : Nat) (s : Status) (h : i < l.length) :
    (l.set i s).getD j .inactive = if j = i then s else l.getD j .inactive := by
  simp only [List.getD_eq_getElem?_getD, List.getElem?_set]
  by_cases h1 : i = j
  · subst h1; simp [h]
  · have h2 : ¬ j = i := fun h => h1 h.symm
    simp [h1, h2]

theorem wf_reset (A : ActiveSet) (h : A.status.length = A.nbCstr + A.nbBnd) : WF A.reset := by
  have hs : ∀ i, A.reset.statusAt i = .inactive := by
    intro i
    simp only [reset, statusAt, List.getD_eq_getElem?_getD, List.getElem?_replicate]
    split_ifs <;> rfl
  refine ⟨by simp [reset, h], by simp [reset], ?_, ?_, ?_, ?_, ?_, ?_, ?_, ?_, ?_, ?_, ?_, ?_⟩
  · intro i; simp [hs]; simp [reset]
  · intro i _ hi; exact absurd (hs i) hi
  · intro i _ hi; exact absurd (hs i) hi
  all_goals simp [reset, cnt, List.countP_replicate, Status.isBound]

theorem length_vecResize (l : List Status) (n : Nat) : (vecResize l n).length = n := by
  simp [vecResize]; omega

theorem wf_resize (A : ActiveSet) (c b : Nat) : WF (A.resize c b) := by
  apply wf_reset
  simp [length_vecResize]

theorem wf_mk' (c b : Nat) : WF (mk' c b) := wf_resize _ c b

theorem bump_status (A : ActiveSet) (s d) : (A.bump s d).status = A.status := by
  cases s <;> rfl
theorem bump_active (A : ActiveSet) (s d) : (A.bump s d).active = A.active := by
  cases s <;> rfl
theorem bump_nbCstr (A : ActiveSet) (s d) : (A.bump s d).nbCstr = A.nbCstr := by
  cases s <;> rfl
theorem bump_nbBnd (A : ActiveSet) (s d) : (A.bump s d).nbBnd = A.nbBnd := by
  cases s <;> rfl

theorem activate_status (A : ActiveSet) (i s) : (A.activate i s).status = A.status.set i s := by
  simp [activate, bump_status]
theorem activate_active (A : ActiveSet) (i s) : (A.activate i s).active = A.active ++ [i] := by
  simp [activate, bump_active]
theorem activate_nbCstr (A : ActiveSet) (i s) : (A.activate i s).nbCstr = A.nbCstr := by
  simp [activate, bump_nbCstr]
theorem activate_nbBnd (A : ActiveSet) (i s) : (A.activate i s).nbBnd = A.nbBnd := by
  simp [activate, bump_nbBnd]
theorem deactivate_status (A : ActiveSet) (k) :
    (A.deactivate k).status = A.status.set (A.get k) .inactive := by
  simp [deactivate, bump_status]
theorem deactivate_active (A : ActiveSet) (k) : (A.deactivate k).active = A.active.eraseIdx k := by
  simp [deactivate, bump_active]
theorem deactivate_nbCstr (A : ActiveSet) (k) : (A.deactivate k).nbCstr = A.nbCstr := by
  simp [deactivate, bump_nbCstr]
theorem deactivate_nbBnd (A : ActiveSet) (k) : (A.deactivate k).nbBnd = A.nbBnd := by
  simp [deactivate, bump_nbBnd]

theorem activatePre_iff (A : ActiveSet) (i s) : A.activatePre i s = true ↔
    i < A.nbCstr + A.nbBnd ∧ A.statusAt i = .inactive ∧ s ≠ .inactive ∧
      ((i < A.nbCstr ∧ s.isGeneral = true) ∨ (A.nbCstr ≤ i ∧ s.isBound = true)) := by
  simp [activatePre, and_assoc]

theorem activate_statusAt (A : ActiveSet) (i j s) (h : i < A.status.length) :
    (A.activate i s).statusAt j = if j = i then s else A.statusAt j := by
  simp only [statusAt, activate_status]
  exact getD_set _ _ _ _ h

theorem get_lt (A : ActiveSet) (hA : WF A) (k : Nat) (h : k < A.active.length) :
    A.get k < A.status.length ∧ A.statusAt (A.get k) ≠ .inactive := by
  rw [← hA.mem]
  simp only [get, List.getD_eq_getElem _ _ h]
  exact List.getElem_mem h

theorem deactivate_statusAt (A : ActiveSet) (hA : WF A) (k j) (h : k < A.active.length) :
    (A.deactivate k).statusAt j = if j = A.get k then .inactive else A.statusAt j := by
  simp only [statusAt, deactivate_status]
  exact getD_set _ _ _ _ (get_lt A hA k h).1

theorem wf_activate (A : ActiveSet) (hA : WF A) (i s) (hp : A.activatePre i s = true) :
    WF (A.activate i s) := by
  rw [activatePre_iff] at hp
  obtain ⟨hi, hst, hs, hk⟩ := hp
  have hi' : i < A.status.length := by rw [hA.size]; exact hi
  have hni : i ∉ A.active := by rw [hA.mem]; simp [hst]
  have hget : A.status.getD i .inactive = .inactive := hst
  have hc : ∀ p : Status → Bool, (A.activate i s).cnt p
      = A.cnt p + (if p s then 1 else 0) - (if p .inactive then 1 else 0) := by
    intro p
    simp only [cnt, activate_status]
    rw [countP_set _ _ _ _ hi', hget]
  refine ⟨?_, ?_, ?_, ?_, ?_, ?_, ?_, ?_, ?_, ?_, ?_, ?_, ?_, ?_⟩
  · simp [activate_status, activate_nbCstr, activate_nbBnd, hA.size]
  · rw [activate_active]
    simp only [List.nodup_append, List.nodup_singleton, List.mem_singleton, true_and, hA.nodup]
    rintro a ha b rfl rfl
    exact hni ha
  · intro j
    rw [activate_active, activate_statusAt _ _ _ _ hi', activate_status]
    simp only [List.mem_append, List.mem_singleton, hA.mem, List.length_set]
    by_cases hj : j = i
    · subst hj; simp [hi', hs]
    · simp [hj]
  · intro j hj
    rw [activate_statusAt _ _ _ _ hi']
    rw [activate_nbCstr] at hj
    by_cases hji : j = i
    · subst hji
      simp only [if_true]
      intro _
      rcases hk with ⟨_, h⟩ | ⟨h, _⟩
      · exact h
      · omega
    · simp only [hji, if_false]; exact hA.kindG j hj
  · intro j hj
    rw [activate_statusAt _ _ _ _ hi']
    rw [activate_nbCstr] at hj
    by_cases hji : j = i
    · subst hji
      simp only [if_true]
      intro _
      rcases hk with ⟨h, _⟩ | ⟨_, h⟩
      · omega
      · exact h
    · simp only [hji, if_false]; exact hA.kindB j hj
  all_goals rw [hc]
  · rw [← hA.me]; cases s <;> simp [activate, bump]
  · rw [← hA.mi]; cases s <;> simp [activate, bump]
  · rw [← hA.ml]; cases s <;> simp [activate, bump]
  · rw [← hA.mu]; cases s <;> simp [activate, bump]
  · rw [← hA.mb]; cases s <;> simp [activate, bump, Status.isBound]
  · rw [← hA.mbl]; cases s <;> simp [activate, bump]
  · rw [← hA.mbu]; cases s <;> simp [activate, bump]
  · rw [← hA.mbe]; cases s <;> simp [activate, bump]
  · rw [← hA.len]; cases s <;> simp [activate, bump] <;> contradiction

theorem wf_deactivate (A : ActiveSet) (hA : WF A) (k) (hp : A.deactivatePre k = true) :
    WF (A.deactivate k) := by
  have hk : k < A.active.length := by simpa [deactivatePre] using hp
  obtain ⟨hi', hst⟩ := get_lt A hA k hk
  have hc : ∀ p : Status → Bool, (A.deactivate k).cnt p
      = A.cnt p + (if p .inactive then 1 else 0) - (if p (A.statusAt (A.get k)) then 1 else 0) := by
    intro p
    simp only [cnt, deactivate_status]
    rw [countP_set _ _ _ _ hi']
    rfl
  have hget : A.get k = A.active[k] := by simp only [get]; rw [List.getD_eq_getElem _ _ hk]
  refine ⟨?_, ?_, ?_, ?_, ?_, ?_, ?_, ?_, ?_, ?_, ?_, ?_, ?_, ?_⟩
  · simp [deactivate_status, deactivate_nbCstr, deactivate_nbBnd, hA.size]
  · rw [deactivate_active]; exact hA.nodup.eraseIdx k
  · intro j
    rw [deactivate_active, deactivate_statusAt _ hA _ _ hk, deactivate_status]
    rw [← hA.nodup.erase_getElem k hk, hA.nodup.mem_erase_iff, hA.mem, ← hget]
    by_cases hj : j = A.get k
    · simp [hj]
    · simp [hj]
  · intro j hj
    rw [deactivate_statusAt _ hA _ _ hk]
    rw [deactivate_nbCstr] at hj
    split_ifs
    · simp
    · exact hA.kindG j hj
  · intro j hj
    rw [deactivate_statusAt _ hA _ _ hk]
    rw [deactivate_nbCstr] at hj
    split_ifs
    · simp
    · exact hA.kindB j hj
  all_goals rw [hc]
  · rw [← hA.me]; cases h : A.statusAt (A.get k) <;> simp [deactivate, bump, h] <;> omega
  · rw [← hA.mi]; cases h : A.statusAt (A.get k) <;> simp [deactivate, bump, h] <;> omega
  · rw [← hA.ml]; cases h : A.statusAt (A.get k) <;> simp [deactivate, bump, h] <;> omega
  · rw [← hA.mu]; cases h : A.statusAt (A.get k) <;> simp [deactivate, bump, h] <;> omega
  · rw [← hA.mb]; cases h : A.statusAt (A.get k) <;> simp [deactivate, bump, h, Status.isBound] <;> omega
  · rw [← hA.mbl]; cases h : A.statusAt (A.get k) <;> simp [deactivate, bump, h] <;> omega
  · rw [← hA.mbu]; cases h : A.statusAt (A.get k) <;> simp [deactivate, bump, h] <;> omega
  · rw [← hA.mbe]; cases h : A.statusAt (A.get k) <;> simp [deactivate, bump, h] <;> omega
  · rw [← hA.len, deactivate_active, List.length_eraseIdx]
    have : (A.statusAt (A.get k) != .inactive) = true := by simpa using hst
    simp only [hk, if_true, this]
    simp; omega

theorem wf_step (A A' : ActiveSet) (hA : WF A) (o : Op) (h : A.step o = some A') : WF A' := by
  cases o with
  | resize c b => simp [step] at h; subst h; exact wf_resize _ _ _
  | reset => simp [step] at h; subst h; exact wf_reset _ hA.size
  | activate i s =>
    simp only [step] at h; split_ifs at h with hp; cases h; exact wf_activate _ hA _ _ hp
  | deactivate k =>
    simp only [step] at h; split_ifs at h with hp; cases h; exact wf_deactivate _ hA _ hp

theorem wf_run (os : List Op) (A A' : ActiveSet) (hA : WF A) (h : A.run os = some A') : WF A' := by
  induction os generalizing A with
  | nil => simp [run] at h; subst h; exact hA
  | cons o os ih =>
    simp only [run] at h
    cases hs : A.step o with
    | none => simp [hs] at h
    | some B => simp [hs] at h; exact ih B (wf_step _ _ hA _ hs) h

theorem nbActive_eq_length (A : ActiveSet) (hA : WF A) : A.nbActiveCstr = A.active.length := by
  rw [nbActiveCstr, hA.me, hA.mi, hA.mb, hA.len]
  simp only [cnt]
  generalize A.status = l
  induction l with
  | nil => rfl
  | cons a l ih => cases a <;> simp [List.countP_cons, Status.isBound] at ih ⊢ <;> omega

end ActiveSet
end JrlQp
