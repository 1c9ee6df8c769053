import Verif.Lemmas.Downward
import Verif.Props.Atomic
/-!
# C83, C65: clients that ask for no parent do not see nodes being freed

Only `Weak` references tell whether a node is freed, and only parents and mimic parents are `Weak`.
-/

set_option linter.unusedSectionVars false

namespace K
open Prog
variable {T : Type} [Scalar T] {α : Type}

/-- **C83** (clients that ask for no parent).  If no thread makes a call that looks up, then whatever is freed while
they run, also nodes that the threads use, the threads could have got where they are without any drop, with the same
content of every node. -/
theorem C83_down {h : KHeap T} {cs : List (Client T α)} (only : ∀ c ∈ cs, c.Only fun c => ¬ c.LooksUp)
    {d : Config (NodeImpl T) α} (st : DSteps (Config.ofClients h cs) d) :
    ∃ e, Steps (Config.ofClients h cs) e ∧ e.threads = d.threads ∧ SameMemory e.heap d.heap := by
  obtain ⟨e, se, te, me, -⟩ := Downward.drops (a := Config.ofClients h cs) st (fun p hp => by
    obtain ⟨c, hc, rfl⟩ := List.mem_map.1 hp
    exact Downward.client c (only c hc)) ⟨fun _ => rfl, fun _ => rfl, rfl⟩ rfl
  exact ⟨e, se, te, me⟩

/-- One thread: if it returns although nodes are freed meanwhile, it returns what it returns without, and leaves every
node as it leaves it without. -/
theorem C83_down_alone {h : KHeap T} {c : Client T α} (only : c.Only fun c => ¬ c.LooksUp)
    {d : Config (NodeImpl T) α} (st : DSteps (Config.ofClients h [c]) d) (a : α) (e : d.threads = [.ret a]) :
    ∃ g, run c.prog h = .ok a g ∧ SameMemory g d.heap := by
  obtain ⟨f, sf, ft, fm⟩ := C83_down (by simpa using only) st
  have one : ∀ {x : Config (NodeImpl T) α}, Steps (Config.ofClients h [c]) x →
      ∃ p, x.threads = [p] ∧ run c.prog h = run p x.heap := by
    intro x sx
    induction sx with
    | refl => exact ⟨_, rfl, rfl⟩
    | tail _ s ih =>
      obtain ⟨p, hp, er⟩ := ih
      obtain ⟨i, q, q', h', hi, hs⟩ := s
      rw [hp] at hi
      match i, hi with
      | 0, hi =>
        cases hi
        exact ⟨q', by simp [hp], er.trans (run_step1 hs)⟩
  obtain ⟨p, hp, er⟩ := one sf
  rw [ft, e] at hp
  cases hp
  exact ⟨_, er, fm⟩

/-- The same when threads panic and poison mutexes: the same mutexes are poisoned without the drops. -/
theorem C83_down_poison {h : KHeap T} {cs : List (Client T α)} (only : ∀ c ∈ cs, c.Only fun c => ¬ c.LooksUp)
    {d : PConfig (NodeImpl T) α} (st : PDSteps (.init (Config.ofClients h cs)) d) :
    ∃ e, PSteps (.init (Config.ofClients h cs)) e ∧ e.threads = d.threads ∧ SameMemory e.heap d.heap ∧
      e.owner = d.owner ∧ e.poisoned = d.poisoned := by
  obtain ⟨e, se, te, me, oe, xe, -⟩ := Downward.pdrops (a := .init (Config.ofClients h cs)) st (fun p hp => by
    obtain ⟨c, hc, rfl⟩ := List.mem_map.1 hp
    exact Downward.client c (only c hc)) ⟨fun _ => rfl, fun _ => rfl, rfl⟩ rfl rfl rfl
  exact ⟨e, se, te, me, oe, xe⟩

/-- **C65** with nodes freed meanwhile, for the methods of single nodes other than `parent` and `mimic_parent`: they are
linearizable as in `C65_linearizable`.  (The serial execution has no drops; its last state is the one reached, apart from
which nodes are freed.) -/
theorem C65_drops {h : KHeap T} {cs : List (Client T α)} {e d : Config (NodeImpl T) α}
    (u : h.Unlocked) (al : ∀ n, (h.get n).mimicChildren = [])
    (only : ∀ c ∈ cs, c.Only fun c => NodeCall c ∧ ¬ c.LooksUp)
    (st : DSteps ⟨h, cs.map Client.prog⟩ e) (st' : DSteps e d) (u' : d.heap.Unlocked) :
    ∃ (hm hd : KHeap T) (csm cs' : List (Client T α)), d.threads = cs'.map Client.prog ∧
      CallSteps (h, cs) (hm, csm) ∧ CallSteps (hm, csm) (hd, cs') ∧ SameMemory hd d.heap ∧
      csm.length = e.threads.length ∧ (∀ n, e.heap.held n = false → hm.get n = e.heap.get n) ∧
      ∀ (i : Nat) (p : KProg T α) (cl : Client T α), e.threads[i]? = some p → csm[i]? = some cl →
        p = cl.prog ∨ ∃ (β : Type) (c : Call T β) (k : β → Client T α) (q : KProg T β) (h' : KHeap T),
          cl = .call c k ∧ (p = q >>= fun r => (k r).prog) ∧ StepsOf 0 ⟨hm, [c.prog]⟩ ⟨h', [q]⟩ := by
  obtain ⟨e1, s1, t1, m1, d1⟩ := Downward.drops (a := ⟨h, cs.map Client.prog⟩) st (fun p hp => by
    obtain ⟨c, hc, rfl⟩ := List.mem_map.1 hp
    exact Downward.client c (Client.Only.mono (fun _ x => x.2) c (only c hc))) ⟨fun _ => rfl, fun _ => rfl, rfl⟩ rfl
  obtain ⟨e2, s2, t2, m2, -⟩ := Downward.drops (a := e1) st' d1 m1 t1
  obtain ⟨hm, csm, cs', a, b, c, l, g, r⟩ := C65_linearizable u al
    (fun c hc => Client.Only.mono (fun _ x => x.1) c (only c hc)) s1 s2 (fun n => by rw [← m2.held n]; exact u' n)
  refine ⟨hm, e2.heap, csm, cs', t2 ▸ a, b, c, m2, by rw [l, t1], fun n hn => ?_, fun i p cl hp hc => ?_⟩
  · rw [g n (by rw [← m1.held n]; exact hn), m1.get n]
  · exact r i p cl (by rw [t1]; exact hp) hc

private theorem then_drops {S : Type} {c d e : Config S α} (s : DSteps c d) (t : DSteps d e) : DSteps c e := by
  induction t with
  | refl => exact s
  | tail _ x ih => exact .tail ih x

/-- The condition is needed: `parent` sees a drop that happens while it holds the lock. -/
theorem C83_parent_seen : ∃ d : Config (NodeImpl ℝ) (Option NodeId),
    DSteps (Config.ofClients exForked [.call (.parent 1) .done]) d ∧ d.threads = [.ret none] ∧
      ∃ e : Config (NodeImpl ℝ) (Option NodeId), Steps (Config.ofClients exForked [.call (.parent 1) .done]) e ∧
        e.threads = [.ret (some 0)] := by
  refine ⟨_, then_drops (.tail (runSched_steps (is := [0]) rfl).drops (.free _ fun n => n == 0))
    (runSched_steps (is := [0, 0, 0]) rfl).drops, rfl, _, runSched_steps (is := [0, 0, 0, 0]) rfl, rfl⟩

/-! ## the hypotheses are met -/

/-- a client that moves node 0 and asks where node 0 is, and one that asks for node 1 -/
def movers (x : T) : List (Client T (Option T)) :=
  [.call (.setJointPositionUnchecked 0 x) fun _ => .call (.jointPosition 0) .done, .call (.jointPosition 1) .done]

theorem movers_only (x : T) : ∀ c ∈ movers x, c.Only fun c => NodeCall c ∧ ¬ c.LooksUp := by
  intro c hc
  simp only [movers, List.mem_cons, List.not_mem_nil, or_false] at hc
  rcases hc with rfl | rfl
  · exact ⟨⟨trivial, id⟩, fun _ => ⟨⟨trivial, id⟩, fun _ => trivial⟩⟩
  · exact ⟨⟨trivial, id⟩, fun _ => trivial⟩

/-- both nodes are freed while node 0 is locked -/
theorem C65_drops_runs (x : T) : ∃ d : Config (NodeImpl T) (Option T), DSteps ⟨exPair, (movers x).map Client.prog⟩ d ∧
    d.heap.Unlocked ∧ (∀ n, d.heap.dead n = true) ∧
    d.threads = [.ret ((Joint.setJointPositionUnchecked ((exPair (T := T)).get 0).joint x).jointPosition),
      .ret ((exPair (T := T)).get 1).joint.jointPosition] := by
  refine ⟨_, then_drops (.tail (runSched_steps (is := [0, 1]) rfl).drops (.free _ fun _ => true))
    (runSched_steps (is := [0, 0, 1, 1, 0, 0, 0]) rfl).drops, fun n => ?_, fun n => ?_, rfl⟩
  · simp [Heap.setHeld, Heap.modify, Heap.free, exPair]
    tauto
  · simp [Heap.setHeld, Heap.modify, Heap.free, exPair]

/-- so the calls of that execution can be put in a row -/
example (x : T) : ∃ (hd : KHeap T) (cs' : List (Client T (Option T))), CallSteps (exPair, movers x) (hd, cs') ∧
    cs'.length = 2 := by
  obtain ⟨d, st, u, -, t⟩ := C65_drops_runs x
  obtain ⟨hm, hd, csm, cs', a, b, c, -⟩ := C65_drops (h := exPair) (fun _ => rfl)
    (fun n => by simp only [exPair]; split <;> rfl) (movers_only x) (.refl _) st u
  exact ⟨hd, cs', b.trans c, by have := congrArg List.length a; rw [t] at this; simpa using this.symm⟩

/-- a node is freed while it is moved: the position is stored all the same -/
example (x : T) : ∃ d : Config (NodeImpl T) (Option T),
    DSteps (Config.ofClients exPair [.call (.setJointPositionUnchecked 0 x) fun _ => .call (.jointPosition 0) .done]) d ∧
      ∃ r g, d.threads = [.ret r] ∧ run (Client.call (.setJointPositionUnchecked 0 x)
        fun _ => .call (.jointPosition 0) .done : Client T (Option T)).prog exPair = .ok r g ∧ SameMemory g d.heap := by
  have st := then_drops (.tail (runSched_steps (is := [0]) rfl).drops (.free _ fun _ => true))
    (runSched_steps (c := ⟨(exPair (T := T)).setHeld 0 true |>.free fun _ => true, _⟩) (is := [0, 0, 0, 0, 0]) rfl).drops
    (c := Config.ofClients exPair [.call (.setJointPositionUnchecked 0 x) fun _ => .call (.jointPosition 0) .done])
  exact ⟨_, st, _, _, rfl, (C83_down_alone (c := .call (.setJointPositionUnchecked 0 x) fun _ => .call (.jointPosition 0) .done)
    ⟨id, fun _ => ⟨id, fun _ => trivial⟩⟩ st _ rfl).choose_spec⟩

/-- two threads that ask for the position of the fixed joint 1 -/
def fixedReaders : List (Client ℝ (List ℝ)) :=
  [.call (.jointPositions ⟨[1], [1], 1⟩) .done, .call (.jointPositions ⟨[1], [1], 1⟩) .done]

/-- the first one panics with the guard; then all nodes are freed; then the second one finds the mutex poisoned -/
theorem C83_down_poison_runs : ∃ d : PConfig (NodeImpl ℝ) (List ℝ),
    PDSteps (.init (Config.ofClients exForked fixedReaders)) d ∧ d.poisoned 1 = true ∧ (∀ n, d.heap.dead n = true) ∧
      d.threads = [.panic "Must be a bug: movable joint must have position", .panic "PoisonError"] := by
  let c : PConfig (NodeImpl ℝ) (List ℝ) := .init (Config.ofClients exForked fixedReaders)
  have s1 : PDSteps c _ := .tail (.refl _) (.thread (.run c 0 _ _ _ rfl rfl (fun _ _ _ => rfl)))
  have s2 := s1.tail (.thread (.run _ 0 _ _ _ rfl rfl (fun _ _ _ => rfl)))
  have s3 := s2.tail (.thread (.unwind _ 0 _ 1 rfl rfl))
  have s4 := s3.tail (.free _ fun _ => true)
  have s5 := s4.tail (.thread (.poison _ 1 1 _ rfl rfl rfl))
  exact ⟨_, s5, rfl, fun _ => by simp [Heap.free], rfl⟩

/-- the same without the drop -/
example : ∃ e : PConfig (NodeImpl ℝ) (List ℝ), PSteps (.init (Config.ofClients exForked fixedReaders)) e ∧
    e.poisoned 1 = true ∧
    e.threads = [.panic "Must be a bug: movable joint must have position", .panic "PoisonError"] := by
  obtain ⟨d, st, bad, -, t⟩ := C83_down_poison_runs
  obtain ⟨e, se, te, -, -, x⟩ := C83_down_poison (h := exForked) (fun c hc => by
    simp only [fixedReaders, List.mem_cons, List.not_mem_nil, or_false, or_self] at hc
    subst hc
    exact ⟨id, fun _ => trivial⟩) st
  exact ⟨e, se, by rw [x]; exact bad, te.trans t⟩

/-- and could have been made without the drop -/
example (x : T) : ∃ e : Config (NodeImpl T) (Option T), Steps (Config.ofClients exPair (movers x)) e ∧
    e.threads = [.ret ((Joint.setJointPositionUnchecked ((exPair (T := T)).get 0).joint x).jointPosition),
      .ret ((exPair (T := T)).get 1).joint.jointPosition] := by
  obtain ⟨d, st, -, -, t⟩ := C65_drops_runs x
  obtain ⟨e, se, te, -⟩ := C83_down (h := exPair)
    (fun c hc => Client.Only.mono (fun _ y => y.2) c (movers_only x c hc)) st
  exact ⟨e, se, te.trans t⟩

end K
