import Verif.Lemmas.Poison
/-!
# Executions with panics

`OwnInv` (`Lemmas/Poison.lean`) is about programs that never panic while they hold a mutex.  Here threads may
panic at any time; `X` bounds the mutexes that can become poisoned.
-/

namespace K
open Prog
variable {S α : Type} {A : List NodeId → NodeId → Prop} {pk : List NodeId → Prop} {lo : Nat}
  {P : NodeId → S → Prop} {Q : List NodeId → α → Prop} {X : NodeId → Prop}

/-- every thread has panicked or is disciplined and holds exactly the mutexes it owns; panicked threads own, and
poison is on, nodes in `X` only -/
structure UnwindInv (A : List NodeId → NodeId → Prop) (pk : List NodeId → Prop) (lo : Nat)
    (P : NodeId → S → Prop) (Q : List NodeId → α → Prop) (X : NodeId → Prop) (d : PConfig S α) : Prop where
  inv : HeapInv lo P d.heap
  disc : ∀ i p, d.threads[i]? = some p →
    (∃ m, p = .panic m ∧ ∀ n, d.owner n = some i → X n) ∨
    ∃ L : List NodeId, Lk A pk lo P (Pres P) Q p L ∧ L.Nodup ∧ ∀ n, n ∈ L ↔ d.owner n = some i
  thread : ∀ n i, d.owner n = some i → i < d.threads.length
  held : ∀ n, d.heap.held n = true ↔ (d.owner n).isSome
  bad : ∀ n, d.poisoned n = true → X n ∧ d.owner n = none

/-- Panics with held mutexes stay in `X`. -/
theorem pstep_unwind (hp : ∀ L, pk L → ∀ n ∈ L, X n) (hA : ∀ L n, A L n → X n → ∀ m ∈ L, X m)
    {d e : PConfig S α} (s : PStep d e) (t : UnwindInv A pk lo P Q X d) : UnwindInv A pk lo P Q X e := by
  cases s with
  | poison i n k hi free bad =>
    have hlt : i < d.threads.length := (List.getElem?_eq_some_iff.1 hi).1
    refine ⟨t.inv, ?_, fun n j h => by simpa using t.thread n j h, t.held, t.bad⟩
    intro j q hj
    simp only [List.getElem?_set] at hj
    split at hj
    · rename_i e; subst e; simp [hlt] at hj; subst hj
      refine .inl ⟨_, rfl, fun m hm => ?_⟩
      rcases t.disc i _ hi with ⟨m', h, -⟩ | ⟨L, lk, -, o⟩
      · cases h
      · exact hA L n lk.1 (t.bad n bad).1 m ((o m).2 hm)
    · exact t.disc j q hj
  | unwind i m n hi mine =>
    have hx : ∀ n, d.owner n = some i → X n := by
      rcases t.disc i _ hi with ⟨m', -, h⟩ | ⟨L, lk, -, o⟩
      · exact h
      · exact fun n hn => hp L lk n ((o n).2 hn)
    refine ⟨t.inv, ?_, fun x j h => ?_, fun x => ?_, fun x h => ?_⟩
    · intro j q hj
      by_cases e : j = i
      · subst e
        rw [hi] at hj; cases hj
        refine .inl ⟨m, rfl, fun x h => ?_⟩
        by_cases ex : x = n
        · simp [ex] at h
        · simp only [ex, if_false] at h; exact hx x h
      · rcases t.disc j q hj with ⟨m', h, hx'⟩ | ⟨L, lk, nd, o⟩
        · refine .inl ⟨m', h, fun x h => ?_⟩
          by_cases ex : x = n
          · simp [ex] at h
          · simp only [ex, if_false] at h; exact hx' x h
        · refine .inr ⟨L, lk, nd, fun x => ?_⟩
          by_cases ex : x = n
          · subst ex; simp [o x, mine, Ne.symm e]
          · simp [ex, o x]
    · by_cases ex : x = n
      · simp [ex] at h
      · simp only [ex, if_false] at h; exact t.thread x j h
    · simp only [Heap.setHeld]
      by_cases ex : x = n
      · simp [ex]
      · simp [ex, t.held x]
    · by_cases ex : x = n
      · subst ex; exact ⟨hx _ mine, by simp⟩
      · simp only [ex, if_false] at h ⊢; exact t.bad x h
  | run i p p' h' hi hs ok =>
    have hlt : i < d.threads.length := (List.getElem?_eq_some_iff.1 hi).1
    rcases t.disc i p hi with ⟨m, rfl, -⟩ | ⟨L, hl, nd, o⟩
    · cases hs
    have same : Lk A pk lo P (Pres P) Q p' L → HeapInv lo P h' → h'.held = d.heap.held →
        own i p d.owner = d.owner →
        UnwindInv A pk lo P Q X ⟨h', d.threads.set i p', own i p d.owner, d.poisoned⟩ := by
      intro k iv hh ho
      refine ⟨iv, ?_, fun n j h => ?_, fun n => by simp only [hh, ho]; exact t.held n,
        fun n => by simp only [ho]; exact t.bad n⟩
      · intro j q hj
        simp only [ho]
        simp only [List.getElem?_set] at hj
        split at hj
        · rename_i e; subst e; simp [hlt] at hj; subst hj; exact .inr ⟨L, k, nd, o⟩
        · exact t.disc j q hj
      · simp only [ho] at h; simpa using t.thread n j h
    cases p with
    | ret a => cases hs
    | panic m => cases hs
    | diverge => cases hs; exact same hl t.inv rfl rfl
    | read n k => cases hs; exact same (hl.2 _ (t.inv.2 n)) t.inv rfl rfl
    | write n f k => cases hs; exact same hl.2.2 (t.inv.modify hl.2.1) rfl rfl
    | upgrade n k => cases hs; exact same (hl _) t.inv rfl rfl
    | alloc s k => cases hs; exact same (hl _ t.inv.1).2 (t.inv.push (hl _ t.inv.1).1) rfl rfl
    | lock n k =>
      have fine := ok n k rfl
      simp only [step1] at hs; split at hs
      · cases hs
      · rename_i nh
        cases hs
        have free : d.owner n = none := by
          rw [t.held n] at nh; simpa using nh
        refine ⟨t.inv, ?_, fun x j h => ?_, fun m => ?_, fun x h => ?_⟩
        · intro j q hj
          simp only [List.getElem?_set] at hj
          simp only [own]
          split at hj
          · rename_i e; subst e; simp [hlt] at hj; subst hj
            refine .inr ⟨n :: L, hl.2, List.nodup_cons.2 ⟨?_, nd⟩, fun m => ?_⟩
            · rw [o n, free]; simp
            · by_cases e : m = n <;> simp [e, o m]
          · rename_i e
            rcases t.disc j q hj with ⟨m', h, hx'⟩ | ⟨L', k', nd', o'⟩
            · refine .inl ⟨m', h, fun x h => ?_⟩
              by_cases ex : x = n
              · simp [ex] at h; exact absurd h e
              · simp only [ex, if_false] at h; exact hx' x h
            · refine .inr ⟨L', k', nd', fun m => ?_⟩
              by_cases em : m = n
              · subst em; simp [o' m, free, e]
              · simp [em, o' m]
        · simp only [own] at h
          by_cases ex : x = n
          · simp [ex] at h; subst h; simpa using hlt
          · simp only [ex, if_false] at h; simpa using t.thread x j h
        · simp only [Heap.setHeld, own]
          by_cases em : m = n
          · simp [em]
          · simp [em, t.held m]
        · have ex : x ≠ n := by rintro rfl; simp only at h; rw [fine] at h; cases h
          simp only [own, ex, if_false]; exact t.bad x h
    | unlock n k =>
      cases hs
      have mine : d.owner n = some i := (o n).1 hl.1
      refine ⟨t.inv, ?_, fun x j h => ?_, fun m => ?_, fun x h => ?_⟩
      · intro j q hj
        simp only [List.getElem?_set] at hj
        simp only [own]
        split at hj
        · rename_i e; subst e; simp [hlt] at hj; subst hj
          refine .inr ⟨L.erase n, hl.2, nd.erase n, fun m => ?_⟩
          rw [nd.mem_erase_iff]
          by_cases e : m = n <;> simp [e, o m]
        · rename_i e
          rcases t.disc j q hj with ⟨m', h, hx'⟩ | ⟨L', k', nd', o'⟩
          · refine .inl ⟨m', h, fun x h => ?_⟩
            by_cases ex : x = n
            · simp [ex] at h
            · simp only [ex, if_false] at h; exact hx' x h
          · refine .inr ⟨L', k', nd', fun m => ?_⟩
            by_cases em : m = n
            · subst em; simp [o' m, mine, e]
            · simp [em, o' m]
      · simp only [own] at h
        by_cases ex : x = n
        · simp [ex] at h
        · simp only [ex, if_false] at h; simpa using t.thread x j h
      · simp only [Heap.setHeld, own]
        by_cases em : m = n
        · simp [em]
        · simp [em, t.held m]
      · simp only [own]
        by_cases ex : x = n
        · simp only [ex, if_true, and_true]; exact ex ▸ (t.bad x h).1
        · simp only [ex, if_false]; exact t.bad x h

theorem psteps_unwind (hp : ∀ L, pk L → ∀ n ∈ L, X n) (hA : ∀ L n, A L n → X n → ∀ m ∈ L, X m)
    {c d : PConfig S α} (s : PDSteps c d) (t : UnwindInv A pk lo P Q X c) : UnwindInv A pk lo P Q X d := by
  induction s with
  | refl => exact t
  | tail h s ih =>
    cases s with
    | thread s => exact pstep_unwind hp hA s ih
    | free F => exact ⟨ih.inv, ih.disc, ih.thread, ih.held, ih.bad⟩

/-- With a lock order, when nothing can happen any more, every thread has returned or panicked, and no mutex is
locked. -/
theorem unwind_done (rank : NodeId → Nat) {d : PConfig S α} (ra : ∀ L n, A L n → ∀ m ∈ L, rank m < rank n)
    (rq : ∀ L a, Q L a → L = [])
    (t : UnwindInv A pk lo P Q X d) (stuck : ¬ ∃ e, PStep d e) :
    (∀ p ∈ d.threads, (∃ a, p = .ret a) ∨ ∃ m, p = .panic m) ∧ ∀ n, d.heap.held n = false := by
  have mv : ∀ (i : Nat) p p' h', d.threads[i]? = some p → step1 p d.heap = some (p', h') →
      (∀ n k, p = .lock n k → d.poisoned n = false) → False := fun i p p' h' hi e ok =>
    stuck ⟨_, PStep.run d i p p' h' hi e ok⟩
  have pan : ∀ (i : Nat) m n, d.threads[i]? = some (Prog.panic m) → d.owner n ≠ some i := fun i m n hi ho =>
    stuck ⟨_, PStep.unwind d i m n hi ho⟩
  have waits : ∀ (i : Nat) n k, d.threads[i]? = some (Prog.lock n k) → d.heap.held n = true := by
    intro i n k hi
    cases hb : d.heap.held n with
    | true => rfl
    | false =>
      cases hd : d.poisoned n with
      | true => exact absurd ⟨_, PStep.poison d i n k hi hb hd⟩ stuck
      | false =>
        exact (mv i _ k (d.heap.setHeld n true) hi (by simp [step1, hb])
          fun m k' e => by cases e; exact hd).elim
  -- whoever owns a mutex waits for another one
  have owns : ∀ n i, d.owner n = some i → ∃ (m : NodeId) (k : Prog S α), d.threads[i]? = some (Prog.lock m k) ∧ rank n < rank m := by
    intro n i ho
    have hi : d.threads[i]? = some (d.threads[i]'(t.thread n i ho)) := List.getElem?_eq_getElem _
    generalize d.threads[i]'(t.thread n i ho) = p at hi
    rcases t.disc i p hi with ⟨m, rfl, -⟩ | ⟨L, lk, -, o⟩
    · exact absurd ho (pan i m n hi)
    have nl := (o n).2 ho
    cases p with
    | ret a => rw [rq L a lk] at nl; cases nl
    | panic m => exact absurd ho (pan i m n hi)
    | lock m k => exact ⟨m, k, hi, ra L m lk.1 n nl⟩
    | unlock m k' => exact (mv i _ _ _ hi rfl (by simp)).elim
    | read m k' => exact (mv i _ _ _ hi rfl (by simp)).elim
    | write m f k' => exact (mv i _ _ _ hi rfl (by simp)).elim
    | upgrade m k' => exact (mv i _ _ _ hi rfl (by simp)).elim
    | alloc s k' => exact (mv i _ _ _ hi rfl (by simp)).elim
    | diverge => exact (mv i _ _ _ hi rfl (by simp)).elim
  have nw : ¬ ∃ (i : Nat) (n : NodeId) (k : Prog S α), d.threads[i]? = some (Prog.lock n k) := by
    rintro ⟨i0, n0, k0, h0⟩
    let want : Nat → Nat := fun i => match d.threads[i]? with
      | some (.lock n _) => rank n
      | _ => 0
    obtain ⟨i, ⟨n, k, hi⟩, mx⟩ := exists_max (X := fun i => ∃ (n : NodeId) (k : Prog S α), d.threads[i]? = some (Prog.lock n k)) want
      d.threads.length (fun i ⟨n, k, h⟩ => (List.getElem?_eq_some_iff.1 h).1) ⟨i0, n0, k0, h0⟩
    obtain ⟨j, hj⟩ := Option.isSome_iff_exists.1 ((t.held n).1 (waits i n k hi))
    obtain ⟨m, k', hm, lt⟩ := owns n j hj
    have := mx j ⟨m, k', hm⟩
    simp only [want, hi, hm] at this
    omega
  refine ⟨fun p hp => ?_, fun n => ?_⟩
  · obtain ⟨i, hi⟩ := List.getElem?_of_mem hp
    cases p with
    | ret a => exact .inl ⟨a, rfl⟩
    | panic m => exact .inr ⟨m, rfl⟩
    | lock n k => exact absurd ⟨i, n, k, hi⟩ nw
    | unlock m k' => exact (mv i _ _ _ hi rfl (by simp)).elim
    | read m k' => exact (mv i _ _ _ hi rfl (by simp)).elim
    | write m f k' => exact (mv i _ _ _ hi rfl (by simp)).elim
    | upgrade m k' => exact (mv i _ _ _ hi rfl (by simp)).elim
    | alloc s k' => exact (mv i _ _ _ hi rfl (by simp)).elim
    | diverge => exact (mv i _ _ _ hi rfl (by simp)).elim
  · cases hb : d.heap.held n with
    | false => rfl
    | true =>
      obtain ⟨j, hj⟩ := Option.isSome_iff_exists.1 ((t.held n).1 hb)
      obtain ⟨m, k, hm, -⟩ := owns n j hj
      exact absurd ⟨j, m, k, hm⟩ nw

end K
