import Verif.Lemmas.Watch
/-!
# A poisoned mutex is like one that is held forever
-/

set_option linter.unusedSectionVars false

namespace K
open Prog
variable {T : Type} [Scalar T] {α : Type}

/-- `e` is the state without poisoning: the threads that got a `PoisonError` still wait, and the mutexes that are
poisoned are still held -/
structure Jammed (d : PConfig (NodeImpl T) α) (e : Config (NodeImpl T) α) : Prop where
  same : e.heap.SameNodes d.heap
  held : ∀ n, e.heap.held n = (d.heap.held n || d.poisoned n)
  owner : ∀ n, d.heap.held n = (d.owner n).isSome
  apart : ∀ n, d.poisoned n = true → d.owner n = none
  length : e.threads.length = d.threads.length
  thread : ∀ i p, d.threads[i]? = some p → (∃ L, Holding d.owner i p L) ∧
    (e.threads[i]? = some p ∨ (p = .panic "PoisonError" ∧ ∃ n k, e.threads[i]? = some (.lock n k) ∧ d.poisoned n = true))

namespace Jammed
variable {d : PConfig (NodeImpl T) α} {e : Config (NodeImpl T) α}

/-- the other threads after thread `i` has gone on to `p'` -/
theorem others (w : Jammed d e) {i : Nat} {p' q' : KProg T α} {o : NodeId → Option Nat} {po : NodeId → Bool}
    (h : ∃ L, Holding o i p' L)
    (x : q' = p' ∨ (p' = .panic "PoisonError" ∧ ∃ n k, q' = .lock n k ∧ po n = true))
    (ot : ∀ n j, j ≠ i → (o n = some j ↔ d.owner n = some j)) (gr : ∀ n, d.poisoned n = true → po n = true)
    (j : Nat) (q : KProg T α) (hj : (d.threads.set i p')[j]? = some q) : (∃ L, Holding o j q L) ∧
      ((e.threads.set i q')[j]? = some q ∨
        (q = .panic "PoisonError" ∧ ∃ n k, (e.threads.set i q')[j]? = some (.lock n k) ∧ po n = true)) := by
  rw [List.getElem?_set] at hj
  by_cases ij : i = j
  · subst ij
    simp only [if_true] at hj
    split at hj
    · rename_i lt
      cases hj
      refine ⟨h, ?_⟩
      have : (e.threads.set i q')[i]? = some q' := List.getElem?_set_self (by rw [w.length]; exact lt)
      rw [this]
      rcases x with rfl | ⟨a, n, k, rfl, b⟩
      · exact .inl rfl
      · exact .inr ⟨a, n, k, rfl, b⟩
    · cases hj
  · rw [if_neg ij] at hj
    obtain ⟨⟨L, t⟩, y⟩ := w.thread j q hj
    refine ⟨⟨L, t.own, t.nodup, fun n => (t.mine n).trans (ot n j (Ne.symm ij)).symm⟩, ?_⟩
    rw [List.getElem?_set_ne ij]
    rcases y with y | ⟨a, n, k, b, c⟩
    · exact .inl y
    · exact .inr ⟨a, n, k, b, gr n c⟩

theorem step (w : Jammed d e) {d' : PConfig (NodeImpl T) α} (s : PDStep d d') :
    Jammed d' e ∨ ∃ e', DStep e e' ∧ Jammed d' e' := by
  cases s with
  | free F =>
    exact .inr ⟨_, .free e F, ⟨w.same.1, w.same.2.1, by simp [Heap.free, w.same.2.2]⟩, w.held, w.owner, w.apart, w.length,
      w.thread⟩
  | thread s =>
    cases s with
    | run i p p' h' hi hs ok =>
      obtain ⟨⟨L, t⟩, y⟩ := w.thread i p hi
      have np : e.threads[i]? = some p := by
        rcases y with y | ⟨rfl, -⟩
        · exact y
        · cases hs
      obtain ⟨L', t', ot, hd, -, -⟩ := t.step w.owner hs
      obtain ⟨s1, s2, s3⟩ := w.same
      have : ∃ g', step1 p e.heap = some (p', g') ∧ g'.SameNodes h' ∧ (∀ n, g'.held n = (h'.held n || d.poisoned n)) ∧
          ∀ n, d.poisoned n = true → own i p d.owner n = none := by
        cases p with
        | ret a => cases hs
        | panic m => cases hs
        | diverge => cases hs; exact ⟨e.heap, rfl, w.same, w.held, w.apart⟩
        | read n k => cases hs; exact ⟨e.heap, by simp [step1, s1], w.same, w.held, w.apart⟩
        | write n f k => cases hs; exact ⟨_, rfl, ⟨by simp [Heap.modify, s1], s2, s3⟩, w.held, w.apart⟩
        | upgrade n k => cases hs; exact ⟨e.heap, by simp [step1, s3], w.same, w.held, w.apart⟩
        | alloc s k =>
          cases hs
          exact ⟨e.heap.push s, by simp [step1, s2], ⟨by simp [Heap.push, s1, s2], by simp [Heap.push, s2],
            by simp [Heap.push, s2, s3]⟩, w.held, w.apart⟩
        | lock n k =>
          have cl : d.poisoned n = false := ok n k rfl
          simp only [step1] at hs; split at hs
          · cases hs
          · rename_i nh
            cases hs
            have : e.heap.held n = false := by rw [w.held n, cl]; simpa using nh
            refine ⟨e.heap.setHeld n true, by simp [step1, this], ⟨s1, s2, s3⟩, fun m => ?_, fun m hm => ?_⟩
            · by_cases c : m = n
              · simp [Heap.setHeld, c]
              · simp only [Heap.setHeld, if_neg c]; exact w.held m
            · by_cases c : m = n
              · subst c; rw [cl] at hm; cases hm
              · simp only [own, if_neg c]; exact w.apart m hm
        | unlock n k =>
          cases hs
          have mine : d.owner n = some i := (t.mine n).1 t.own.1
          have cl : d.poisoned n = false := by
            cases c : d.poisoned n with
            | false => rfl
            | true => rw [w.apart n c] at mine; cases mine
          refine ⟨_, rfl, ⟨s1, s2, s3⟩, fun m => ?_, fun m hm => ?_⟩
          · by_cases c : m = n
            · simp [Heap.setHeld, c, cl]
            · simp only [Heap.setHeld, if_neg c]; exact w.held m
          · by_cases c : m = n
            · simp [own, c]
            · simp only [own, if_neg c]; exact w.apart m hm
      obtain ⟨g', hg, sm, hl, ap⟩ := this
      refine .inr ⟨_, .thread (Step.mk e i p p' g' np hg), sm, hl, hd, ap, by simp [w.length], ?_⟩
      exact w.others ⟨L', t'⟩ (.inl rfl) ot fun _ h => h
    | poison i n k hi fr bad =>
      obtain ⟨⟨L, t⟩, y⟩ := w.thread i _ hi
      have np : e.threads[i]? = some (.lock n k) := by
        rcases y with y | ⟨c, -⟩
        · exact y
        · cases c
      refine .inl ⟨w.same, w.held, w.owner, w.apart, by simp [w.length], ?_⟩
      have eq : e.threads.set i (.lock n k) = e.threads := by
        refine List.ext_getElem? fun j => ?_
        by_cases c : i = j
        · subst c
          rw [np]
          exact List.getElem?_set_self (List.getElem?_eq_some_iff.1 np).1
        · rw [List.getElem?_set_ne c]
      have := w.others (i := i) (p' := .panic "PoisonError") (q' := .lock n k) (o := d.owner) (po := d.poisoned)
        ⟨L, trivial, t.nodup, t.mine⟩ (.inr ⟨rfl, n, k, rfl, bad⟩) (fun _ _ _ => .rfl) fun _ h => h
      rw [eq] at this
      exact this
    | unwind i m n hi mine =>
      obtain ⟨⟨L, t⟩, -⟩ := w.thread i _ hi
      refine .inl ⟨w.same, fun a => ?_, fun a => ?_, fun a ha => ?_, w.length, fun j q hj => ?_⟩
      · by_cases c : a = n
        · subst c
          simp only [Heap.setHeld, if_true, Bool.or_true]
          rw [w.held a, w.owner a, mine]; rfl
        · simp only [Heap.setHeld, if_neg c]; exact w.held a
      · by_cases c : a = n
        · simp [Heap.setHeld, c]
        · simp only [Heap.setHeld, if_neg c]; exact w.owner a
      · by_cases c : a = n
        · simp [c]
        · simp only [if_neg c] at ha ⊢; exact w.apart a ha
      · obtain ⟨⟨M, tM⟩, y⟩ := w.thread j q hj
        refine ⟨?_, ?_⟩
        · by_cases ij : j = i
          · subst ij
            rw [hi] at hj; cases hj
            refine ⟨L.erase n, trivial, t.nodup.erase n, fun a => ?_⟩
            rw [t.nodup.mem_erase_iff]
            by_cases c : a = n <;> simp [c, t.mine a]
          · refine ⟨M, tM.own, tM.nodup, fun a => ?_⟩
            by_cases c : a = n
            · subst c; simp [tM.mine a, mine, Ne.symm ij]
            · simp [c, tM.mine a]
        · rcases y with y | ⟨a, n', k, b, c⟩
          · exact .inl y
          · refine .inr ⟨a, n', k, b, ?_⟩
            by_cases nn : n' = n
            · simp [nn]
            · simp only [if_neg nn]; exact c

theorem steps {c : PConfig (NodeImpl T) α} {c' : Config (NodeImpl T) α} (w : Jammed c c') (st : PDSteps c d) :
    ∃ e, DSteps c' e ∧ Jammed d e := by
  induction st with
  | refl => exact ⟨c', .refl _, w⟩
  | tail _ s ih =>
    obtain ⟨e, se, we⟩ := ih
    rcases we.step s with we | ⟨e', s', we⟩
    · exact ⟨e, se, we⟩
    · exact ⟨e', se.tail s', we⟩

theorem start {h : KHeap T} (u : h.Unlocked) (ts : List (Client T α)) :
    Jammed (.init ⟨h, ts.map Client.prog⟩) ⟨h, ts.map Client.prog⟩ := by
  refine ⟨.refl h, fun n => by simp [PConfig.init], fun n => u n, fun _ _ => rfl, rfl, fun i p hi => ⟨⟨[], ?_, by simp, ?_⟩, .inl hi⟩⟩
  · simp only [PConfig.init, List.getElem?_map, Option.map_eq_some_iff] at hi
    obtain ⟨c, -, rfl⟩ := hi
    induction c with
    | done a => exact ⟨rfl, trivial⟩
    | call c k ih => exact Keep.lk (own_call c) fun r _ => ih r
  · simp [PConfig.init]

end Jammed
end K
