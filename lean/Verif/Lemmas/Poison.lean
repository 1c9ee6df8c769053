import Verif.Model.Poison
import Verif.Lemmas.Deadlock
import Verif.Lemmas.Sched
/-!
# Disciplined programs do not poison mutexes
-/

namespace K
open Prog
variable {S α : Type} {A : List NodeId → NodeId → Prop} {pk : List NodeId → Prop} {lo : Nat}
  {P : NodeId → S → Prop} {Q : List NodeId → α → Prop}

/-- every thread is disciplined and holds exactly the mutexes it owns -/
structure OwnInv (A : List NodeId → NodeId → Prop) (pk : List NodeId → Prop) (lo : Nat)
    (P : NodeId → S → Prop) (Q : List NodeId → α → Prop) (d : PConfig S α) : Prop where
  inv : HeapInv lo P d.heap
  disc : ∀ i p, d.threads[i]? = some p → ∃ L : List NodeId, Lk A pk lo P (Pres P) Q p L ∧ L.Nodup ∧
    ∀ n, n ∈ L ↔ d.owner n = some i
  held : ∀ n, d.heap.held n = true ↔ (d.owner n).isSome
  clean : ∀ n, d.poisoned n = false

/-- If panics happen only without locks, the discipline is kept and nothing is poisoned. -/
theorem pstep_own (h0 : ∀ L, pk L → L = []) {d e : PConfig S α} (s : PStep d e)
    (t : OwnInv A pk lo P Q d) : OwnInv A pk lo P Q e ∧ Step d.plain e.plain := by
  cases s with
  | poison i n k hi free bad => rw [t.clean] at bad; cases bad
  | unwind i m n hi mine =>
    obtain ⟨L, k, _, o⟩ := t.disc i _ hi
    have := (o n).2 mine
    rw [h0 L k] at this; cases this
  | run i p p' h' hi hs ok =>
    refine ⟨?_, Step.mk d.plain i p p' h' hi hs⟩
    have hlt : i < d.threads.length := (List.getElem?_eq_some_iff.1 hi).1
    obtain ⟨L, hp, nd, o⟩ := t.disc i p hi
    have same : Lk A pk lo P (Pres P) Q p' L → HeapInv lo P h' → h'.held = d.heap.held → own i p d.owner = d.owner →
        OwnInv A pk lo P Q ⟨h', d.threads.set i p', own i p d.owner, d.poisoned⟩ := by
      intro k iv hh ho
      refine ⟨iv, ?_, fun n => by simp only [hh, ho]; exact t.held n, t.clean⟩
      intro j q hj
      simp only [ho]
      simp only [List.getElem?_set] at hj
      split at hj
      · rename_i e; subst e; simp [hlt] at hj; subst hj; exact ⟨L, k, nd, o⟩
      · exact t.disc j q hj
    cases p with
    | ret a => cases hs
    | panic m => cases hs
    | diverge => cases hs; exact same hp t.inv rfl rfl
    | read n k => cases hs; exact same (hp.2 _ (t.inv.2 n)) t.inv rfl rfl
    | write n f k => cases hs; exact same hp.2.2 (t.inv.modify hp.2.1) rfl rfl
    | upgrade n k => cases hs; exact same (hp _) t.inv rfl rfl
    | alloc s k => cases hs; exact same (hp _ t.inv.1).2 (t.inv.push (hp _ t.inv.1).1) rfl rfl
    | lock n k =>
      simp only [step1] at hs; split at hs
      · cases hs
      · rename_i nh
        cases hs
        have free : d.owner n = none := by
          rw [t.held n] at nh; simpa using nh
        refine ⟨t.inv, ?_, fun m => ?_, t.clean⟩
        · intro j q hj
          simp only [List.getElem?_set] at hj
          simp only [own]
          split at hj
          · rename_i e; subst e; simp [hlt] at hj; subst hj
            refine ⟨n :: L, hp.2, List.nodup_cons.2 ⟨?_, nd⟩, fun m => ?_⟩
            · rw [o n, free]; simp
            · by_cases e : m = n <;> simp [e, o m]
          · rename_i e
            obtain ⟨L', k', nd', o'⟩ := t.disc j q hj
            refine ⟨L', k', nd', fun m => ?_⟩
            by_cases em : m = n
            · subst em; simp [o' m, free, e]
            · simp [em, o' m]
        · simp only [Heap.setHeld, own]
          by_cases em : m = n
          · simp [em]
          · simp [em, t.held m]
    | unlock n k =>
      cases hs
      have mine : d.owner n = some i := (o n).1 hp.1
      refine ⟨t.inv, ?_, fun m => ?_, t.clean⟩
      · intro j q hj
        simp only [List.getElem?_set] at hj
        simp only [own]
        split at hj
        · rename_i e; subst e; simp [hlt] at hj; subst hj
          refine ⟨L.erase n, hp.2, nd.erase n, fun m => ?_⟩
          rw [nd.mem_erase_iff]
          by_cases e : m = n <;> simp [e, o m]
        · rename_i e
          obtain ⟨L', k', nd', o'⟩ := t.disc j q hj
          refine ⟨L', k', nd', fun m => ?_⟩
          by_cases em : m = n
          · subst em; simp [o' m, mine, e]
          · simp [em, o' m]
      · simp only [Heap.setHeld, own]
        by_cases em : m = n
        · simp [em]
        · simp [em, t.held m]

theorem psteps_own (h0 : ∀ L, pk L → L = []) {c d : PConfig S α} (s : PSteps c d)
    (t : OwnInv A pk lo P Q c) : OwnInv A pk lo P Q d ∧ Steps c.plain d.plain := by
  induction s with
  | refl => exact ⟨t, .refl _⟩
  | tail h s ih =>
    obtain ⟨o, st⟩ := ih
    obtain ⟨o', s'⟩ := pstep_own h0 s o
    exact ⟨o', st.tail s'⟩

/-- the same with nodes freed at any moments -/
theorem pdsteps_own (h0 : ∀ L, pk L → L = []) {c d : PConfig S α} (s : PDSteps c d)
    (t : OwnInv A pk lo P Q c) : OwnInv A pk lo P Q d ∧ DSteps c.plain d.plain := by
  induction s with
  | refl => exact ⟨t, .refl _⟩
  | tail h s ih =>
    obtain ⟨o, st⟩ := ih
    cases s with
    | thread s =>
      obtain ⟨o', s'⟩ := pstep_own h0 s o
      exact ⟨o', st.tail (.thread s')⟩
    | free F => exact ⟨⟨o.inv, o.disc, o.held, o.clean⟩, st.tail (.free _ F)⟩

theorem PSteps.trans {c d e : PConfig S α} (a : PSteps c d) (b : PSteps d e) : PSteps c e := by
  induction b with
  | refl => exact a
  | tail _ s ih => exact ih.tail s

/-- Without poisoned mutexes the refined semantics has all the steps of the plain one. -/
theorem Steps.lift {c d : Config S α} (s : Steps c d) (o : NodeId → Option Nat) :
    ∃ o', PSteps ⟨c.heap, c.threads, o, fun _ => false⟩ ⟨d.heap, d.threads, o', fun _ => false⟩ := by
  induction s with
  | refl => exact ⟨o, .refl _⟩
  | tail h s ih =>
    obtain ⟨o', ps⟩ := ih
    cases s with
    | mk i p p' h' hi hs =>
      exact ⟨_, ps.tail (PStep.run ⟨_, _, o', fun _ => false⟩ i p p' h' hi hs fun _ _ _ => rfl)⟩

/-- the same with nodes freed at any moments -/
theorem DSteps.lift {c d : Config S α} (s : DSteps c d) (o : NodeId → Option Nat) :
    ∃ o', PDSteps ⟨c.heap, c.threads, o, fun _ => false⟩ ⟨d.heap, d.threads, o', fun _ => false⟩ := by
  induction s with
  | refl => exact ⟨o, .refl _⟩
  | tail h s ih =>
    obtain ⟨o', ps⟩ := ih
    cases s with
    | free F => exact ⟨o', ps.tail (.free _ F)⟩
    | thread s =>
      obtain ⟨i, p, p', h', hi, hs⟩ := s
      exact ⟨_, ps.tail (.thread (PStep.run ⟨_, _, o', fun _ => false⟩ i p p' h' hi hs fun _ _ _ => rfl))⟩

/-- let the listed threads make one ordinary step each -/
def prunSched : List Nat → PConfig S α → Option (PConfig S α)
  | [], c => some c
  | i :: is, c => match c.threads[i]? with
    | none => none
    | some p => match step1 p c.heap with
      | none => none
      | some (p', h') => prunSched is ⟨h', c.threads.set i p', own i p c.owner, c.poisoned⟩

theorem prunSched_psteps {is : List Nat} {c d : PConfig S α} (clean : ∀ n, c.poisoned n = false)
    (h : prunSched is c = some d) : PSteps c d := by
  induction is generalizing c with
  | nil => cases h; exact .refl _
  | cons i is ih =>
    unfold prunSched at h
    split at h
    · cases h
    · rename_i p hp
      split at h
      · cases h
      · rename_i p' h' hs
        exact ((PSteps.refl c).tail (PStep.run c i p p' h' hp hs fun n _ _ => clean n)).trans
          (ih clean h)

end K
