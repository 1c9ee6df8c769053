import Verif.Model.Prog
/-!
# Executions are finite

Every step replaces the program of one thread by a strict subterm, except for `diverge`.
-/
namespace K
variable {S α : Type}

/-- `q` is the rest of `p` after one step -/
def Rest (q p : Prog S α) : Prop := p ≠ .diverge ∧ ∃ h h', step1 p h = some (q, h')

theorem acc_rest (p : Prog S α) : Acc Rest p := by
  induction p with
  | ret a => exact ⟨_, fun q ⟨_, h, h', e⟩ => by cases e⟩
  | panic a => exact ⟨_, fun q ⟨_, h, h', e⟩ => by cases e⟩
  | diverge => exact ⟨_, fun q ⟨n, _⟩ => absurd rfl n⟩
  | lock n k ih =>
    refine ⟨_, fun q ⟨_, h, h', e⟩ => ?_⟩
    simp only [step1] at e; split at e
    · cases e
    · cases e; exact ih
  | unlock n k ih => exact ⟨_, fun q ⟨_, h, h', e⟩ => by cases e; exact ih⟩
  | read n k ih => exact ⟨_, fun q ⟨_, h, h', e⟩ => by cases e; exact ih _⟩
  | write n f k ih => exact ⟨_, fun q ⟨_, h, h', e⟩ => by cases e; exact ih⟩
  | upgrade n k ih => exact ⟨_, fun q ⟨_, h, h', e⟩ => by cases e; exact ih _⟩
  | alloc s k ih => exact ⟨_, fun q ⟨_, h, h', e⟩ => by cases e; exact ih _⟩

/-- one thread made a step -/
def RestL (qs ps : List (Prog S α)) : Prop :=
  ∃ i p q, ps[i]? = some p ∧ Rest q p ∧ qs = ps.set i q

theorem acc_restL (ps : List (Prog S α)) : Acc RestL ps := by
  induction ps with
  | nil => exact ⟨_, fun q ⟨i, p, q, e, _⟩ => by simp at e⟩
  | cons p ps ih =>
    have hp := acc_rest p
    revert ps
    induction hp with
    | intro p _ ihp =>
      intro ps hs
      induction hs with
      | intro ps hs ihs =>
        refine ⟨_, fun qs ⟨i, x, y, e, r, hq⟩ => ?_⟩
        cases i with
        | zero =>
          simp only [List.getElem?_cons_zero, Option.some.injEq] at e; subst e
          rw [hq]; exact ihp y r ps ⟨_, hs⟩
        | succ i =>
          simp only [List.getElem?_cons_succ] at e
          rw [hq]; exact ihs _ ⟨i, x, y, e, r, rfl⟩

theorem finite_executions (f : Nat → Config S α) (st : ∀ k, Step (f k) (f (k + 1))) :
    ∃ k, (Prog.diverge : Prog S α) ∈ (f k).threads := by
  apply Classical.byContradiction
  intro nd
  have nd : ∀ k, (Prog.diverge : Prog S α) ∉ (f k).threads := fun k h => nd ⟨k, h⟩
  have : ∀ ps : List (Prog S α), Acc RestL ps → ∀ k, (f k).threads = ps → False := by
    intro ps a
    induction a with
    | intro ps _ ih =>
      rintro k rfl
      refine ih (f (k + 1)).threads ?_ (k + 1) rfl
      generalize hd : f (k + 1) = d
      have s := st k; rw [hd] at s
      cases s with
      | mk i p p' h' hi hs =>
        refine ⟨i, p, p', hi, ⟨fun e => ?_, _, h', hs⟩, rfl⟩
        exact nd k (e ▸ List.mem_of_getElem? hi)
  exact this _ (acc_restL _) 0 rfl

end K
