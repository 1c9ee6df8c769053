import Verif.Model.Prog
/-!
# Executing a given schedule
-/
namespace K
variable {S α : Type}

/-- let the listed threads make one step each, in this order -/
def runSched : List Nat → Config S α → Option (Config S α)
  | [], c => some c
  | i :: is, c => match c.threads[i]? with
    | none => none
    | some p => match step1 p c.heap with
      | none => none
      | some (p', h') => runSched is ⟨h', c.threads.set i p'⟩

theorem Steps.trans {c d e : Config S α} (a : Steps c d) (b : Steps d e) : Steps c e := by
  induction b with
  | refl => exact a
  | tail _ s ih => exact ih.tail s

theorem runSched_steps {is : List Nat} {c d : Config S α} (h : runSched is c = some d) :
    Steps c d := by
  induction is generalizing c with
  | nil => cases h; exact .refl _
  | cons i is ih =>
    unfold runSched at h
    split at h
    · cases h
    · rename_i p hp
      split at h
      · cases h
      · rename_i p' h' hs
        exact ((Steps.refl c).tail (Step.mk c i p p' h' hp hs)).trans (ih h)

theorem Prog.bind_assoc {β γ : Type} (p : Prog S α) (f : α → Prog S β) (g : β → Prog S γ) :
    (p >>= f) >>= g = p >>= fun a => f a >>= g := by
  show (p.bind f).bind g = p.bind fun a => (f a).bind g
  induction p with
  | ret a => rfl
  | panic m => rfl
  | diverge => rfl
  | lock n k ih => simp only [Prog.bind, ih]
  | unlock n k ih => simp only [Prog.bind, ih]
  | read n k ih => simp only [Prog.bind, ih]
  | write n f k ih => simp only [Prog.bind, ih]
  | upgrade n k ih => simp only [Prog.bind, ih]
  | alloc s k ih => simp only [Prog.bind, ih]

/-- A thread may run alone for a while. -/
theorem steps_run {β : Type} {p : Prog S β} {f : β → Prog S α} {h h' : Heap S} {a : β}
    (e : run p h = .ok a h') {ts : List (Prog S α)} {i : Nat} (hi : ts[i]? = some (p >>= f)) :
    Steps ⟨h, ts⟩ ⟨h', ts.set i (f a)⟩ := by
  have one : ∀ {q q' : Prog S α} {h1 h2 : Heap S} {ts : List (Prog S α)}, ts[i]? = some q →
      step1 q h1 = some (q', h2) → Steps ⟨h1, ts⟩ ⟨h2, ts.set i q'⟩ := fun hq hs =>
    (Steps.refl _).tail (Step.mk _ i _ _ _ hq hs)
  have go : ∀ {q : Prog S β} {h1 : Heap S} {ts : List (Prog S α)} {q0 : Prog S α} {h0 : Heap S},
      ts[i]? = some q0 → step1 q0 h0 = some (q >>= f, h1) →
      (∀ {ts : List (Prog S α)}, ts[i]? = some (q >>= f) → Steps ⟨h1, ts⟩ ⟨h', ts.set i (f a)⟩) →
      Steps ⟨h0, ts⟩ ⟨h', ts.set i (f a)⟩ := by
    intro q h1 ts q0 h0 hq hs ih
    have lt : i < ts.length := (List.getElem?_eq_some_iff.1 hq).1
    have := (one hq hs).trans (ih (ts := ts.set i (q >>= f)) (by simp [lt]))
    rwa [List.set_set] at this
  induction p generalizing h ts with
  | ret b =>
    cases e
    have lt : i < ts.length := (List.getElem?_eq_some_iff.1 hi).1
    have : ts.set i (f a) = ts := by
      apply List.ext_getElem?
      intro j
      rw [List.getElem?_set]
      split
      · rename_i ej; subst ej; rw [hi]; simp [lt]; rfl
      · rfl
    rw [this]; exact .refl _
  | panic m => cases e
  | diverge => cases e
  | lock n k ih =>
    simp only [run] at e; split at e
    · cases e
    · rename_i nh
      refine go (q := k) hi (h1 := h.setHeld n true) ?_ fun hq => ih e hq
      show step1 (Prog.lock n (k.bind f)) h = _
      simp only [step1, nh]; rfl
  | unlock n k ih => exact go (q := k) hi rfl fun hq => ih e hq
  | read n k ih => exact go (q := k _) hi rfl fun hq => ih _ e hq
  | write n g k ih => exact go (q := k) hi rfl fun hq => ih e hq
  | upgrade n k ih => exact go (q := k _) hi rfl fun hq => ih _ e hq
  | alloc s k ih => exact go (q := k _) hi rfl fun hq => ih _ e hq

end K
