import Verif.Lemmas.Watch
import Verif.Props.Concurrency
/-!
# C107: threads that only ask are not noticed
-/

set_option linter.unusedSectionVars false

namespace K
open Prog
variable {T : Type} [Scalar T] {α : Type}

/-! ## one thread -/

private theorem looks_run {p : KProg T α} {L : List NodeId} {h : KHeap T} (l : Looks p)
    (o : Own (fun L' _ => L' = [] ∧ True) p L) (hd : HeldIs h L) :
    match run p h with
    | .ok _ g => g.SameNodes h ∧ g.Unlocked
    | .panic _ g => g.SameNodes h
    | .blocked _ g => g.SameNodes h
    | .diverged => True := by
  induction p generalizing h L with
  | ret a => obtain ⟨rfl, -⟩ := o; exact ⟨.refl _, hd.unlocked⟩
  | panic m => exact .refl _
  | diverge => trivial
  | lock n k ih =>
    simp only [run]
    by_cases c : h.held n = true
    · rw [if_pos c]; exact .refl _
    · rw [if_neg c]
      have : n ∉ L := fun m => c ((hd.2 n).2 m)
      exact ih l o.2 (hd.lock this)
  | unlock n k ih => exact ih l o.2 hd.unlock
  | read n k ih => exact ih _ (l _) (o.2 _ trivial) hd
  | write n f k ih => exact l.elim
  | upgrade n k ih => exact ih _ (l _) (o _) hd
  | alloc s k ih => exact l.elim

private theorem own_client (cl : Client T α) : Own (fun L' _ => L' = [] ∧ True) cl.prog [] := by
  induction cl with
  | done a => exact ⟨rfl, trivial⟩
  | call c k ih => exact Keep.lk (own_call c) fun r _ => ih r

/-- Asking changes nothing: whatever a client asks, in whatever state, it leaves the memory as it was, and also where
it panics or waits forever all nodes are as they were. -/
theorem C107_alone (cl : Client T α) (a : cl.Only Call.Asks) (h : KHeap T) (u : h.Unlocked) :
    match run cl.prog h with
    | .ok _ g => g = h
    | .panic _ g => g.SameNodes h
    | .blocked _ g => g.SameNodes h
    | .diverged => True := by
  have := looks_run (looks_client cl a) (own_client cl) (HeldIs.nil u)
  cases e : run cl.prog h with
  | ok x g =>
    rw [e] at this
    exact this.1.eq (funext fun n => (this.2 n).trans (u n).symm)
  | panic m g => rw [e] at this; exact this
  | blocked n g => rw [e] at this; exact this
  | diverged => trivial

/-! ## threads -/

/-- Take any execution of some threads together with others that only ask, with nodes freed at any moments. The threads
without the others have an execution that brings each of them exactly as far, with the same content of all nodes; the
only difference are the mutexes that the others hold, and there is none when they all have returned. -/
theorem C107_threads (h : KHeap T) (u : h.Unlocked) (ws os : List (Client T α))
    (ask : ∀ o ∈ os, o.Only Call.Asks) (d : Config (NodeImpl T) α) (st : DSteps (start h (ws ++ os)) d) :
    ∃ g, DSteps (start h ws) ⟨g, d.threads.take ws.length⟩ ∧ g.SameNodes d.heap ∧
      (∀ n, g.held n = true → d.heap.held n = true) ∧
      ((∀ p ∈ d.threads.drop ws.length, ∃ a, p = .ret a) → g = d.heap) := by
  obtain ⟨e, o, o', se, w⟩ := (Watched.start (G := False) u ws os
    fun o ho => ⟨looks_client o (ask o ho), fun f => f.elim⟩).dsteps st
  have ht : e.threads = d.threads.take ws.length := w.threads
  refine ⟨e.heap, by rw [← ht]; exact se, w.same, w.free, fun ret => w.same.eq (funext fun n => ?_)⟩
  have h1 : d.heap.held n = (o n).isSome := w.held n
  have h2 : e.heap.held n = (o' n).isSome := w.held' n
  have h3 : o' n = o n := by
    cases c : o n with
    | none =>
      cases c' : o' n with
      | none => rfl
      | some j =>
        have := ((w.owner n j).1 c').1
        simp only [c] at this; cases this
    | some j =>
      refine (w.owner n j).2 ⟨c, ?_⟩
      apply Classical.byContradiction
      intro nk
      have lt : j < d.threads.length := w.inside n j c
      have hj : d.threads[j]? = some d.threads[j] := List.getElem?_eq_getElem lt
      obtain ⟨L, t, -⟩ := w.thread j _ hj
      obtain ⟨a, ha⟩ := ret d.threads[j] (by
        rw [List.mem_iff_getElem?]
        refine ⟨j - ws.length, ?_⟩
        rw [List.getElem?_drop, show ws.length + (j - ws.length) = j by omega]; exact hj)
      have ow := t.own
      rw [ha] at ow
      have := (t.mine n).2 c
      rw [ow.1] at this; cases this
  simp only [h1, h2, h3]

/-- If the others ask only with calls that hold no guard while they lock a second node or may panic, then they cannot
hold up the threads for good: wherever the execution has got to, the others can go on to a state that is the one the
threads have reached alone, mutexes included. -/
theorem C107_catch_up (h : KHeap T) (u : h.Unlocked) (ws os : List (Client T α))
    (ask : ∀ o ∈ os, o.Only Call.AsksBriefly) (d : Config (NodeImpl T) α) (st : DSteps (start h (ws ++ os)) d) :
    ∃ e rest, DSteps (start h ws) e ∧ e.threads = d.threads.take ws.length ∧ e.heap.SameNodes d.heap ∧
      Steps d ⟨e.heap, e.threads ++ rest⟩ := by
  obtain ⟨e, o, o', se, w⟩ := (Watched.start (G := True) u ws os
    fun o ho => ⟨(glance_client o (ask o ho)).looks, fun _ => glance_client o (ask o ho)⟩).dsteps st
  obtain ⟨rest, s⟩ := w.catch_up
  exact ⟨e, rest, se, w.threads, w.same, s⟩

/-- Such threads poison no mutex either: with poisoning the threads without the others have an execution that brings
each of them exactly as far (also to the same panics), with the same nodes and the same poisoned mutexes. -/
theorem C107_poison (h : KHeap T) (u : h.Unlocked) (ws os : List (Client T α))
    (ask : ∀ o ∈ os, o.Only Call.AsksBriefly) (d : PConfig (NodeImpl T) α)
    (st : PDSteps (.init (start h (ws ++ os))) d) :
    ∃ e, PDSteps (.init (start h ws)) e ∧ e.threads = d.threads.take ws.length ∧ e.heap.SameNodes d.heap ∧
      e.poisoned = d.poisoned ∧ ∀ n i, e.owner n = some i ↔ d.owner n = some i ∧ i < ws.length := by
  obtain ⟨e, se, w⟩ := (Watched.start (G := True) u ws os
    fun o ho => ⟨(glance_client o (ask o ho)).looks, fun _ => glance_client o (ask o ho)⟩).pdsteps trivial st
  exact ⟨e, se, w.threads, w.same, w.poisoned, w.owner⟩

/-- And the other way round, whatever threads do alone they can do beside any others. -/
theorem C107_beside (h : KHeap T) (ws os : List (Client T α)) (d : Config (NodeImpl T) α)
    (st : DSteps (start h ws) d) : DSteps (start h (ws ++ os)) ⟨d.heap, d.threads ++ os.map Client.prog⟩ := by
  have : start h (ws ++ os) = ⟨(start h ws).heap, (start h ws).threads ++ os.map Client.prog⟩ := by
    simp [start]
  rw [this]
  induction st with
  | refl => exact .refl _
  | @tail a b _ s ih =>
    refine ih.tail ?_
    cases s with
    | free F => exact .free ⟨a.heap, a.threads ++ os.map Client.prog⟩ F
    | thread s =>
      obtain ⟨i, p, p', h', hi, hs⟩ := s
      have lt : i < a.threads.length := (List.getElem?_eq_some_iff.1 hi).1
      have := Step.mk (⟨a.heap, a.threads ++ os.map Client.prog⟩ : Config (NodeImpl T) α) i p p' h'
        (by simp only [List.getElem?_append_left lt, hi]) hs
      simp only [List.set_append_left _ _ lt] at this
      exact .thread this

/-! ## what is not so -/

/-- a node with a link -/
def exLinked (l : Link T) : KHeap T := exTwo.modify 0 fun s => { s with link := some l }

/-- `iter_links` only asks, but it panics with the guard in its hands when the link is taken away between its two
locks, and so a thread that returns when it is alone panics. -/
theorem C107_links_noticed (l : Link T) :
    (∃ g, run (Client.call (.setLink 0 none) fun _ => .call (.jointPosition 0) fun _ => .done () : Client T Unit).prog
      (exLinked l) = .ok () g) ∧
    ∃ d : PConfig (NodeImpl T) Unit,
      PSteps (.init (start (exLinked l) [.call (.setLink 0 none) fun _ => .call (.jointPosition 0) fun _ => .done (),
        .call (.iterLinks ⟨[0], [0], 1⟩) fun _ => .done ()])) d ∧
      d.threads[0]? = some (.panic "PoisonError") := by
  refine ⟨⟨_, rfl⟩, _, ((prunSched_psteps (is := [1, 1, 1, 0, 0, 0, 1, 1]) (fun _ => rfl) rfl).tail
    (PStep.unwind _ 1 "called `Option::unwrap()` on a `None` value" 0 rfl rfl)).tail
    (PStep.poison _ 0 0 _ rfl rfl rfl), rfl⟩

/-- a node that is its own child -/
def exOwnChild : KHeap T := exTwo.modify 0 fun s => { s with children := [0] }

/-- Printing only asks, but it keeps its guards while it goes down, and where a node is below itself it waits forever
for its own guard, and everybody else with it. -/
theorem C107_display_noticed :
    (∃ g, run (Client.call (.jointPosition 0) fun _ => .done () : Client T Unit).prog exOwnChild = .ok () g) ∧
    ∃ d : Config (NodeImpl T) Unit,
      Steps (start exOwnChild [.call (.jointPosition 0) fun _ => .done (),
        .call (.display 2 ⟨[0], [0], 1⟩) fun _ => .done ()]) d ∧ Deadlocked d := by
  refine ⟨⟨_, rfl⟩, _, runSched_steps (is := [1, 1, 1, 1, 1]) rfl, List.cons_ne_nil _ _, ?_⟩
  intro p hp
  rcases List.mem_cons.1 hp with rfl | hp
  · exact ⟨0, rfl, rfl⟩
  rcases List.mem_cons.1 hp with rfl | hp
  · exact ⟨0, rfl, rfl⟩
  · cases hp

/-- `update_transforms` and `jacobian` give back what they compute and take a shared reference like the calls that
ask, but they are noticed: another thread finds a world transform where it would find none. -/
theorem C107_update_noticed :
    (∃ g, run (Client.call (.worldTransform 0) fun w => .done w.isSome : Client T Bool).prog exTwo = .ok false g) ∧
    (∃ g, run (Client.call (.updateTransforms ⟨[0], [0], 1⟩) fun _ => .call (.worldTransform 0) fun w => .done w.isSome :
      Client T Bool).prog exTwo = .ok true g) ∧
    ∃ g, run (Client.call (.jacobian ⟨[0], [0], 1⟩) fun _ => .call (.worldTransform 0) fun w => .done w.isSome :
      Client T Bool).prog exTwo = .ok true g :=
  ⟨⟨_, rfl⟩, ⟨_, rfl⟩, _, rfl⟩

/-! ## the hypotheses are met -/

/-- one thread sets a position while another one asks for it and for the end of the chain -/
example (x : T) : ∃ d : Config (NodeImpl T) Unit,
    Steps (start exTwo ([.call (.setJointPositionUnchecked 0 x) fun _ => .done ()] ++
      [.call (.jointPosition 0) fun _ => .call (.endTransform ⟨[0, 1], [0, 1], 2⟩) fun _ => .done ()])) d ∧
    (Client.call (.jointPosition 0) fun _ => .call (.endTransform ⟨[0, 1], [0, 1], 2⟩) fun _ => .done () :
      Client T Unit).Only Call.AsksBriefly ∧
    -- the one that asks holds node 0, the setter waits
    d.heap.held 0 = true ∧ ¬ ∃ r, step1 (d.threads[0]?.getD (.ret ())) d.heap = some r := by
  refine ⟨_, runSched_steps (is := [1, 1]) rfl, ⟨⟨trivial, trivial⟩, fun _ => ⟨⟨trivial, trivial⟩, fun _ => trivial⟩⟩,
    rfl, ?_⟩
  rintro ⟨r, hr⟩
  cases hr

end K
