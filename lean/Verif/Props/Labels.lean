import Verif.Lemmas.Labels
import Verif.Props.IkEx
import Verif.Props.ChainSet
import Mathlib.Data.String.Basic
/-!
# C105: names are only labels

A client that uses a robot under other names finds the same robot.
-/

namespace K
open Prog
variable {T : Type} [Scalar T] {α β : Type} (L : Labels)

/-- **C105.** Names are only labels: a client that makes the same calls under other names, on the robot under the other
names, has the same outcome - the same result, the same panic, the same lock it waits for - and leaves the memory the
same but for the names. -/
theorem C105_sequential {p q : Client T α} (same : p.SameNamed L q) (h : KHeap T) :
    run q.prog (L.heap h) = (run p.prog h).named L := by
  have := (Alias.client same).outcome h
  cases e : run p.prog h <;> cases e' : run q.prog (L.heap h) <;> rw [e, e'] at this <;>
    simp only [AliasOutcome] at this
  · obtain ⟨rfl, rfl⟩ := this; rfl
  · obtain ⟨rfl, rfl⟩ := this; rfl
  · obtain ⟨rfl, rfl⟩ := this; rfl
  · rfl

/-- **C105**, one call: under the other names it gives the same answer under the other names. -/
theorem C105_call (c : Call T β) (h : KHeap T) :
    (∀ a g, run c.prog h = .ok a g →
      ∃ a', run (c.named L).prog (L.heap h) = .ok a' (L.heap g) ∧ c.NamedAnswer L a a') ∧
    (∀ m g, run c.prog h = .panic m g → run (c.named L).prog (L.heap h) = .panic m (L.heap g)) ∧
    (∀ n g, run c.prog h = .blocked n g → run (c.named L).prog (L.heap h) = .blocked n (L.heap g)) ∧
    (run c.prog h = .diverged → run (c.named L).prog (L.heap h) = .diverged) := by
  have := (Alias.call (L := L) c).outcome h
  refine ⟨fun a g x => ?_, fun m g x => ?_, fun n g x => ?_, fun x => ?_⟩ <;> rw [x] at this <;>
    cases e' : run (c.named L).prog (L.heap h) <;> rw [e'] at this <;>
    simp only [AliasOutcome] at this
  · exact ⟨_, by rw [this.2], this.1⟩
  · rw [this.1, this.2]
  · rw [this.1, this.2]

/-- **C105**, threads: whatever threads can do - with any interleaving, nodes being freed at any moment - threads that
make the calls under the other names can do, with the same results and panics, and each waiting for the same lock. -/
theorem C105_threads (pq : List (Client T α × Client T α)) (same : ∀ x ∈ pq, x.1.SameNamed L x.2) (h : KHeap T)
    (d : Config (NodeImpl T) α) (st : DSteps ⟨h, pq.map fun x => x.1.prog⟩ d) :
    ∃ d', DSteps ⟨L.heap h, pq.map fun x => x.2.prog⟩ d' ∧ d'.heap = L.heap d.heap ∧
      (∀ (i : Nat) a, d.threads[i]? = some (Prog.ret a) → d'.threads[i]? = some (Prog.ret a)) ∧
      (∀ (i : Nat) m, d.threads[i]? = some (Prog.panic m) → d'.threads[i]? = some (Prog.panic m)) ∧
      ∀ (i : Nat) n k, d.threads[i]? = some (Prog.lock n k) → ∃ k, d'.threads[i]? = some (Prog.lock n k) := by
  suffices ∃ ts, DSteps ⟨L.heap h, pq.map fun x => x.2.prog⟩ ⟨L.heap d.heap, ts⟩ ∧ Alias.All L d.threads ts by
    obtain ⟨ts, a, b⟩ := this
    refine ⟨_, a, rfl, fun i x e => ?_, fun i m e => ?_, fun i n k e => ?_⟩
    all_goals
      obtain ⟨q, e', s⟩ := b.get i e
      cases s
    · rename_i q; subst q; exact e'
    · exact e'
    · exact ⟨_, e'⟩
  induction st with
  | refl =>
    refine ⟨_, .refl _, ?_⟩
    induction pq with
    | nil => exact .nil
    | cons x pq ih =>
      exact .cons (Alias.client (same x (by simp))) (ih fun y hy => same y (List.mem_cons_of_mem _ hy))
  | @tail d e _ s ih =>
    obtain ⟨ts, a, b⟩ := ih
    cases s with
    | free F => exact ⟨ts, a.tail (by rw [L.heap_free]; exact DStep.free ⟨L.heap d.heap, ts⟩ F), b⟩
    | thread s =>
      cases s with
      | mk i p p' h' hi hs =>
        obtain ⟨q, e', s⟩ := b.get i hi
        obtain ⟨q', x, y⟩ := s.step _ _ hs
        exact ⟨ts.set i q', a.tail (.thread (Step.mk ⟨L.heap d.heap, ts⟩ i q q' (L.heap h') e' x)), b.set i y⟩

/-- **C105**, threads, the other way round: under the other names threads can do nothing else. -/
theorem C105_threads_back (pq : List (Client T α × Client T α)) (same : ∀ x ∈ pq, x.1.SameNamed L x.2) (h : KHeap T)
    (d' : Config (NodeImpl T) α) (st : DSteps ⟨L.heap h, pq.map fun x => x.2.prog⟩ d') :
    ∃ d, DSteps ⟨h, pq.map fun x => x.1.prog⟩ d ∧ d'.heap = L.heap d.heap ∧
      (∀ (i : Nat) a, d'.threads[i]? = some (Prog.ret a) → d.threads[i]? = some (Prog.ret a)) ∧
      (∀ (i : Nat) m, d'.threads[i]? = some (Prog.panic m) → d.threads[i]? = some (Prog.panic m)) ∧
      ∀ (i : Nat) n k, d'.threads[i]? = some (Prog.lock n k) → ∃ k, d.threads[i]? = some (Prog.lock n k) := by
  suffices ∃ g ts, DSteps ⟨h, pq.map fun x => x.1.prog⟩ ⟨g, ts⟩ ∧ d'.heap = L.heap g ∧ Alias.All L ts d'.threads by
    obtain ⟨g, ts, a, x, b⟩ := this
    refine ⟨_, a, x, fun i x e => ?_, fun i m e => ?_, fun i n k e => ?_⟩
    all_goals
      obtain ⟨p, e', s⟩ := b.get' i e
      cases s
    · rename_i q; subst q; exact e'
    · exact e'
    · exact ⟨_, e'⟩
  induction st with
  | refl =>
    refine ⟨_, _, .refl _, rfl, ?_⟩
    induction pq with
    | nil => exact .nil
    | cons x pq ih =>
      exact .cons (Alias.client (same x (by simp))) (ih fun y hy => same y (List.mem_cons_of_mem _ hy))
  | @tail d e _ s ih =>
    obtain ⟨g, ts, a, x, b⟩ := ih
    cases s with
    | free F => exact ⟨g.free F, ts, a.tail (DStep.free ⟨g, ts⟩ F), by rw [L.heap_free, ← x], b⟩
    | thread s =>
      cases s with
      | mk i q q' h' hi hs =>
        obtain ⟨p, e', s⟩ := b.get' i hi
        rw [x] at hs
        obtain ⟨p', g', y, z, w⟩ := s.back _ hs
        exact ⟨g', ts.set i p', a.tail (.thread (Step.mk ⟨g, ts⟩ i p p' g' e' y)), z, b.set i w⟩

/-! ## Concrete cases -/

/-- all names with a prefix, as for the left one of two equal arms -/
def withPrefix (pre : String) : Labels where
  joint := (pre ++ ·)
  part := (pre ++ ·)
  inj := fun a b e => by
    have := congrArg String.toList e
    simp only [String.toList_append, List.append_cancel_left_eq] at this
    exact String.toList_injective this

noncomputable section

/-- find a joint and read its position; move the arm with that joint ignored; give back the position it had and what
inverse kinematics said -/
def holdStill (name : String) : Client ℝ (Option ℝ × Bool) :=
  .call (.find arm2 name) fun o => .call (.jointPosition (o.getD 0)) fun x =>
    .call (.solve (railSolver 1) arm2 (atX 4) (onlyX [name])) fun r => .done (x, r.toBool)

/-- the client that holds "left_b" still does with the prefixed robot what the one holding "b" still does -/
theorem C105_prefix : (holdStill "b").SameNamed (withPrefix "left_") (holdStill "left_b") := by
  refine .call (.find arm2 "b") _ _ fun o o' e => ?_
  cases (show o' = o from e)
  refine .call (.jointPosition _) _ _ fun x x' e => ?_
  cases (show x' = x from e)
  refine .call (.solve _ _ _ (onlyX ["b"])) _ _ fun r r' e => ?_
  cases (show r' = _ from e)
  cases r <;> exact .done _

theorem find_at {h : KHeap ℝ} (u : h.Unlocked) {name : String} {n : NodeId}
    (e : ([0, 1].find? fun n => (h.get n).joint.name == name) = some n) {g : KHeap ℝ} (hg : g = h) :
    run (arm2.find name) h = .ok (some n) g := by
  subst hg
  rw [← e]
  refine run_findFirst_pure fun n _ => ?_
  simp [run_Node_joint _ _ (u n)]

/-- the prefixed rail: "left_a" and "left_b"; `find` tells them apart as before, and nothing is called "b" any more -/
theorem C105_find :
    ((((withPrefix "left_").heap (rail none none 0 0)).get 1).joint.name = "left_b") ∧
    run (arm2.find "b") (rail none none 0 0) = .ok (some 1) (rail none none 0 0) ∧
    run (arm2.find "left_b") ((withPrefix "left_").heap (rail none none 0 0)) =
      .ok (some 1) ((withPrefix "left_").heap (rail none none 0 0)) ∧
    run (arm2.find "b") ((withPrefix "left_").heap (rail none none 0 0)) =
      .ok none ((withPrefix "left_").heap (rail none none 0 0)) := by
  refine ⟨rfl, find_at (fun _ => rfl) rfl rfl, find_at (fun _ => rfl) rfl rfl, ?_⟩
  obtain ⟨r, e, x, -⟩ := C44_find ((withPrefix "left_").heap (rail none none 0 0)) (fun _ => rfl) arm2 "b"
  rw [e, x.2]
  intro n hn
  have : n = 0 ∨ n = 1 := by simpa [arm2] using hn
  rcases this with rfl | rfl
  · show "left_" ++ "a" ≠ "b"; decide
  · show "left_" ++ "b" ≠ "b"; decide

/-- C26's witness under the other names: the ignored joint "left_a" is the one that moves -/
theorem C105_solve : ∃ h', run (solveWithConstraints (railSolver 1) arm2 (atX 1) (onlyX ["left_a"]))
      ((withPrefix "left_").heap (rail none none 0 0)) = .ok (.ok ()) h' ∧
    posOf h' 0 = some 1 ∧ posOf h' 1 = some 0 := by
  obtain ⟨g, e, -, a, b⟩ := C26_refuted
  obtain ⟨r, e', x⟩ := (C105_call (withPrefix "left_") (.solve (railSolver 1) arm2 (atX 1) (onlyX ["a"])) _).1 _ _ e
  cases (show r = .ok () from x)
  exact ⟨_, e', a, b⟩

/-- all joints with one and the same name -/
def oneName (h : KHeap T) : KHeap T :=
  { h with get := fun n => { h.get n with joint := { (h.get n).joint with name := "joint" } } }

/-- **C105** needs that different names stay different: with one and the same name for both joints, `find` finds the
other one. -/
theorem C105_one_name :
    run (arm2.find "b") (rail none none 0 0) = .ok (some 1) (rail none none 0 0) ∧
    run (arm2.find "joint") (oneName (rail none none 0 0)) = .ok (some 0) (oneName (rail none none 0 0)) :=
  ⟨find_at (fun _ => rfl) rfl rfl, find_at (fun _ => rfl) rfl rfl⟩

end

end K
