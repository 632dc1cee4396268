import Verif.PropsSafety

/-!
# Sizes of the buffers

`Bufs` collects the sizes that the members of the solver have; all the computations of `solve` after `resize` leave them unchanged.
-/

namespace JrlQp

open NumOps

variable {K B : Type} [Zero K] [One K] [Add K] [Sub K] [Neg K] [Mul K] [Div K] [NumOps K B] [SumOps K]

/-- The sizes of the members of a solver: number of variables, of constraints and of bounds, and the sizes of the buffers
`work_x_`, `work_z_`, `work_u_`, `work_r_`, `work_d_`, `work_J_`, `work_R_`. -/
def State.bufs (s : State K) : List Nat :=
  [s.nbVar, s.A.nbCstr, s.A.nbBnd, s.szX, s.szZ, s.szU, s.szR, s.szD, s.szJ, s.szRm]

theorem activate_dims (A : ActiveSet) (i : Nat) (st : Status) : (A.activate i st).nbCstr = A.nbCstr ∧ (A.activate i st).nbBnd = A.nbBnd := by
  unfold ActiveSet.activate ActiveSet.bump
  cases st <;> exact ⟨rfl, rfl⟩

theorem deactivate_dims (A : ActiveSet) (k : Nat) : (A.deactivate k).nbCstr = A.nbCstr ∧ (A.deactivate k).nbBnd = A.nbBnd := by
  unfold ActiveSet.deactivate ActiveSet.bump
  cases A.statusAt (A.get k) <;> exact ⟨rfl, rfl⟩

theorem reset_dims (A : ActiveSet) : A.reset.nbCstr = A.nbCstr ∧ A.reset.nbBnd = A.nbBnd := ⟨rfl, rfl⟩

theorem computeStep_bufs (pb : Pb K B) (s : State K) (sc : SC) : (computeStep pb s sc).bufs = s.bufs := rfl

theorem fullUpdate_bufs (pb : Pb K B) (s : State K) (sc : SC) (t : K) : (fullUpdate pb s sc t).bufs = s.bufs := rfl

theorem dualUpdate_bufs (s : State K) (t : K) : (dualUpdate s t).bufs = s.bufs := rfl

theorem addConstraint_bufs (o : Opts K) (s : State K) (sc : SC) : (addConstraint o s sc).bufs = s.bufs := by
  unfold addConstraint State.bufs
  simp only [(activate_dims _ _ _).1, (activate_dims _ _ _).2]

theorem removeConstraint_bufs (o : Opts K) (s : State K) (l : Nat) : (removeConstraint o s l).bufs = s.bufs := by
  unfold removeConstraint State.bufs
  simp only [(deactivate_dims _ _).1, (deactivate_dims _ _).2]

theorem iterBody_bufs {o : Opts K} {pb : Pb K B} {s : State K} {sc : SC} :
    (∀ t s', iterBody o pb s sc = .ok (.done t s') → s'.bufs = s.bufs) ∧
    ∀ s' sc' b, iterBody o pb s sc = .ok (.cont s' sc' b) → s'.bufs = s.bufs := by
  unfold iterBody
  constructor
  · intro t s' h
    simp only [] at h
    split_ifs at h
    all_goals first
      | (simp only [Except.ok.injEq, Iter.done.injEq] at h; obtain ⟨-, rfl⟩ := h; rfl)
      | simp at h
  · intro s' sc' b h
    simp only [] at h
    split_ifs at h
    all_goals first
      | (simp only [Except.ok.injEq, Iter.cont.injEq] at h; obtain ⟨rfl, -, -⟩ := h
         first
           | (rw [removeConstraint_bufs]; rfl)
           | (rw [addConstraint_bufs]; rfl))
      | simp at h

theorem iterate_bufs {o : Opts K} {pb : Pb K B} {s : State K} {sc : SC} {skip : Bool} :
    (∀ t s', iterate o pb s sc skip = .ok (.done t s') → s'.bufs = s.bufs) ∧
    ∀ s' sc' b, iterate o pb s sc skip = .ok (.cont s' sc' b) → s'.bufs = s.bufs := by
  unfold iterate
  constructor
  · intro t s' h
    simp only [] at h
    split at h
    · exact iterBody_bufs.1 _ _ h
    split at h
    · split at h
      · simp only [Except.ok.injEq, Iter.done.injEq] at h
        rw [h.2]
      split at h
      · rw [iterBody_bufs.1 _ _ h]; rfl
      · simp at h
    · simp at h
  · intro s' sc' b h
    simp only [] at h
    split at h
    · exact iterBody_bufs.2 _ _ _ h
    split at h
    · split at h
      · simp at h
      split at h
      · rw [iterBody_bufs.2 _ _ _ h]; rfl
      · simp at h
    · simp at h

theorem loop_bufs {o : Opts K} {pb : Pb K B} : ∀ (fuel : Nat) {s : State K} {sc : SC} {skip : Bool} {t : Term} {s' : State K},
    loop o pb fuel s sc skip = .ok (t, s') → s'.bufs = s.bufs := by
  intro fuel
  induction fuel with
  | zero =>
    intro s sc skip t s' h
    simp only [loop, Except.ok.injEq, Prod.mk.injEq] at h
    rw [← h.2]
  | succ k ih =>
    intro s sc skip t s' h
    simp only [loop] at h
    split at h
    · simp at h
    · rename_i t1 s1 h1
      simp only [Except.ok.injEq, Prod.mk.injEq] at h
      rw [← h.2]; exact iterate_bufs.1 _ _ h1
    · rename_i s1 sc1 b1 h1
      rw [ih h, ← iterate_bufs.2 _ _ _ h1]; rfl

theorem addInitials_bufs {o : Opts K} {pb : Pb K B} : ∀ (l : List SC) {s s' : State K}, addInitials o pb l s = .ok s' → s'.bufs = s.bufs := by
  intro l
  induction l with
  | nil => intro s s' h; simp only [addInitials, Except.ok.injEq] at h; rw [h]
  | cons sc l ih =>
    intro s s' h
    simp only [addInitials] at h
    split at h
    · simp at h
    · rename_i s1 h1
      refine (ih h).trans ?_
      unfold addInitialConstraint at h1
      simp only [] at h1
      split at h1
      · split at h1
        · simp only [Except.ok.injEq] at h1
          rw [← h1, addConstraint_bufs]; rfl
        · simp at h1
      · simp at h1

theorem init_bufs {o : Opts K} {pb : Pb K B} {s s' : State K} {t : Term} (h : init_ o pb s = .ok (t, s')) : s'.bufs = s.bufs := by
  unfold init_ initActiveSet at h
  simp only [] at h
  split at h
  · split at h
    · simp only [Except.ok.injEq, Prod.mk.injEq] at h
      rw [← h.2]; rfl
    split at h
    · split at h
      · simp at h
      · rename_i s1 h1
        simp only [Except.ok.injEq, Prod.mk.injEq] at h
        split at h1
        · rw [← h.2, addInitials_bufs _ h1]; rfl
        · simp at h1
    · simp at h
  · simp at h

theorem terminate_state {o : Opts K} {t t' : Term} {s s' : State K} (h : terminate o t s = .ok (t', s')) : s' = s := by
  unfold terminate at h
  cases t <;> simp at h <;> first | exact h.2.symm | (split at h <;> simp at h; exact h.2.symm) | exact h.2.2.symm

theorem dualSolve_bufs {o : Opts K} {pb : Pb K B} {s s' : State K} {t : Term} (h : dualSolve (init_ o pb) o pb s = .ok (t, s')) :
    s'.bufs = s.bufs := by
  have hp : (preInit o s).bufs = s.bufs := by
    unfold preInit State.bufs
    cases o.warmStart <;> rfl
  unfold dualSolve at h
  split at h
  · simp at h
  · rename_i t1 s1 h1
    rw [← hp, ← init_bufs h1]
    split at h
    · rw [terminate_state h]
    · split at h
      · simp at h
      · rename_i t2 s2 h2
        rw [terminate_state h, loop_bufs _ h2]

/-- `solve` has the sizes that its call of `resize` gives. -/
theorem solve_bufs {o : Opts K} {pb : Pb K B} {s s' : State K} {t : Term} (h : solve o pb s = .ok (t, s')) :
    s'.bufs = (resize s pb.n pb.m pb.useBnd).bufs := dualSolve_bufs h

end JrlQp
