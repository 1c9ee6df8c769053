import Verif.Lemmas.Hung
import Verif.Props.IkLocalEx
/-!
# C112: attaching or detaching something is not seen by the rest

A tool is attached to the end of an arm, or taken off.  Whoever works with a chain made before sees nothing of it.
-/

namespace K
open Prog

section any
variable {T : Type} [Scalar T] {D : NodeId → Prop} {α β : Type}

/-- **C112.** Attaching or detaching something is not seen by the rest: when nodes `D` hang somewhere else than before,
or nowhere, a client whose chains contain no node of `D`, and that does not ask what hangs below what, has the same
outcome - the same result, the same panic, the same lock it waits for - and leaves the memory the same but for what
hangs where. -/
theorem C112_sequential {p : Client T α} (av : p.Without D) {h g : KHeap T} (r : Rehung D h g) :
    (∀ a h', run p.prog h = .ok a h' → ∃ g', run p.prog g = .ok a g' ∧ Rehung D h' g') ∧
    (∀ m h', run p.prog h = .panic m h' → ∃ g', run p.prog g = .panic m g' ∧ Rehung D h' g') ∧
    (∀ n h', run p.prog h = .blocked n h' → ∃ g', run p.prog g = .blocked n g' ∧ Rehung D h' g') ∧
    (run p.prog h = .diverged → run p.prog g = .diverged) := by
  have := (Hung.client av).outcome r
  refine ⟨fun a h' x => ?_, fun m h' x => ?_, fun n h' x => ?_, fun x => ?_⟩ <;> rw [x] at this <;>
    cases e : run p.prog g <;> rw [e] at this <;> simp only [HangOutcome] at this
  · obtain ⟨rfl, y⟩ := this; exact ⟨_, rfl, y⟩
  · obtain ⟨rfl, y⟩ := this; exact ⟨_, rfl, y⟩
  · obtain ⟨rfl, y⟩ := this; exact ⟨_, rfl, y⟩

/-- **C112**, one call: it gives the same answer. -/
theorem C112_call {c : Call T β} (av : c.Without D) {h g : KHeap T} (r : Rehung D h g) :
    (∀ a h', run c.prog h = .ok a h' → ∃ g', run c.prog g = .ok a g' ∧ Rehung D h' g') ∧
    (∀ m h', run c.prog h = .panic m h' → ∃ g', run c.prog g = .panic m g' ∧ Rehung D h' g') ∧
    (∀ n h', run c.prog h = .blocked n h' → ∃ g', run c.prog g = .blocked n g' ∧ Rehung D h' g') ∧
    (run c.prog h = .diverged → run c.prog g = .diverged) := by
  have := (Hung.same c av).outcome r
  refine ⟨fun a h' x => ?_, fun m h' x => ?_, fun n h' x => ?_, fun x => ?_⟩ <;> rw [x] at this <;>
    cases e : run c.prog g <;> rw [e] at this <;> simp only [HangOutcome] at this
  · obtain ⟨rfl, y⟩ := this; exact ⟨_, rfl, y⟩
  · obtain ⟨rfl, y⟩ := this; exact ⟨_, rfl, y⟩
  · obtain ⟨rfl, y⟩ := this; exact ⟨_, rfl, y⟩

/-- **C112**, threads: whatever threads can do - with any interleaving, nodes being freed at any moment - they can do
with `D` hung elsewhere, with the same results and panics, and each waiting for the same lock. -/
theorem C112_threads (ps : List (Client T α)) (av : ∀ p ∈ ps, p.Without D) {h g : KHeap T}
    (r : Rehung D h g) (d : Config (NodeImpl T) α) (st : DSteps ⟨h, ps.map Client.prog⟩ d) :
    ∃ d', DSteps ⟨g, ps.map Client.prog⟩ d' ∧ Rehung D d.heap d'.heap ∧
      (∀ (i : Nat) a, d.threads[i]? = some (Prog.ret a) → d'.threads[i]? = some (Prog.ret a)) ∧
      (∀ (i : Nat) m, d.threads[i]? = some (Prog.panic m) → d'.threads[i]? = some (Prog.panic m)) ∧
      ∀ (i : Nat) n k, d.threads[i]? = some (Prog.lock n k) → ∃ k, d'.threads[i]? = some (Prog.lock n k) := by
  suffices ∃ k ts, DSteps ⟨g, ps.map Client.prog⟩ ⟨k, ts⟩ ∧ Rehung D d.heap k ∧ Hung.All D d.threads ts by
    obtain ⟨k, ts, a, x, b⟩ := this
    refine ⟨_, a, x, fun i x e => ?_, fun i m e => ?_, fun i n k e => ?_⟩
    all_goals
      obtain ⟨q, e', s⟩ := b.get i e
      cases s
    · rename_i q; subst q; exact e'
    · exact e'
    · exact ⟨_, e'⟩
  induction st with
  | refl =>
    refine ⟨_, _, .refl _, r, ?_⟩
    induction ps with
    | nil => exact .nil
    | cons x ps ih =>
      exact .cons (Hung.client (av x (by simp))) (ih fun y hy => av y (List.mem_cons_of_mem _ hy))
  | @tail d e _ s ih =>
    obtain ⟨k, ts, a, r, b⟩ := ih
    cases s with
    | free F => exact ⟨_, ts, a.tail (DStep.free ⟨k, ts⟩ F), r.free F, b⟩
    | thread s =>
      cases s with
      | mk i p p' h' hi hs =>
        obtain ⟨q, e', s⟩ := b.get i hi
        obtain ⟨q', k', x, y, z⟩ := s.step r hs
        exact ⟨k', ts.set i q', a.tail (.thread (Step.mk ⟨k, ts⟩ i q q' k' e' x)), y, b.set i z⟩

/-- **C112**, threads, the other way round: with `D` hung elsewhere threads can do nothing else. -/
theorem C112_threads_back (ps : List (Client T α)) (av : ∀ p ∈ ps, p.Without D) {h g : KHeap T}
    (r : Rehung D h g) (d' : Config (NodeImpl T) α) (st : DSteps ⟨g, ps.map Client.prog⟩ d') :
    ∃ d, DSteps ⟨h, ps.map Client.prog⟩ d ∧ Rehung D d.heap d'.heap ∧
      (∀ (i : Nat) a, d'.threads[i]? = some (Prog.ret a) → d.threads[i]? = some (Prog.ret a)) ∧
      (∀ (i : Nat) m, d'.threads[i]? = some (Prog.panic m) → d.threads[i]? = some (Prog.panic m)) ∧
      ∀ (i : Nat) n k, d'.threads[i]? = some (Prog.lock n k) → ∃ k, d.threads[i]? = some (Prog.lock n k) := by
  suffices ∃ k ts, DSteps ⟨h, ps.map Client.prog⟩ ⟨k, ts⟩ ∧ Rehung D k d'.heap ∧ Hung.All D ts d'.threads by
    obtain ⟨k, ts, a, x, b⟩ := this
    refine ⟨_, a, x, fun i x e => ?_, fun i m e => ?_, fun i n k e => ?_⟩
    all_goals
      obtain ⟨q, e', s⟩ := b.back i e
      cases s
    · rename_i q; subst q; exact e'
    · exact e'
    · exact ⟨_, e'⟩
  induction st with
  | refl =>
    refine ⟨_, _, .refl _, r, ?_⟩
    induction ps with
    | nil => exact .nil
    | cons x ps ih =>
      exact .cons (Hung.client (av x (by simp))) (ih fun y hy => av y (List.mem_cons_of_mem _ hy))
  | @tail d e _ s ih =>
    obtain ⟨k, ts, a, r, b⟩ := ih
    cases s with
    | free F => exact ⟨_, ts, a.tail (DStep.free ⟨k, ts⟩ F), r.free F, b⟩
    | thread s =>
      cases s with
      | mk i p p' h' hi hs =>
        obtain ⟨q, e', s⟩ := b.back i hi
        obtain ⟨q', k', x, y, z⟩ := s.back r hs
        exact ⟨k', ts.set i q', a.tail (.thread (Step.mk ⟨k, ts⟩ i q q' k' e' x)), y, b.set i z⟩

/-! ## Attaching and detaching -/

theorem Rehung.refl (h : KHeap T) : Rehung D h h :=
  ⟨fun _ => ⟨_, _, rfl, fun _ => rfl⟩, rfl, rfl, rfl⟩

theorem Rehung.hang (h : KHeap T) (n m : NodeId) (p : Option NodeId) (f : List NodeId → List NodeId) :
    Rehung (· = n) h ((h.modify n fun s => { s with parent := p }).modify m fun s =>
      { s with children := f s.children }) := by
  refine ⟨fun k => ?_, rfl, rfl, rfl⟩
  simp only [Heap.modify]
  by_cases e : k = n <;> by_cases e' : k = m
  · simp only [if_pos e, if_pos e']
    exact ⟨_, _, rfl, fun x => absurd e x⟩
  · simp only [if_neg e', if_pos e]
    exact ⟨_, _, rfl, fun x => absurd e x⟩
  · simp only [if_pos e', if_neg e]
    exact ⟨_, _, rfl, fun _ => rfl⟩
  · simp only [if_neg e', if_neg e]
    exact ⟨_, _, rfl, fun _ => rfl⟩

theorem C112_set_parent (h : KHeap T) (u : h.Unlocked) (n m : NodeId) :
    ∃ g, run (Node.setParent n m) h = .ok () g ∧ Rehung (· = n) h g :=
  ⟨_, by
    simp only [Node.setParent, run_bind, run_poke _ _ _ (u n), Res.bind_ok]
    exact run_poke _ _ _ (u m), Rehung.hang h n m (some m) (· ++ [n])⟩

theorem C112_remove_parent (h : KHeap T) (u : h.Unlocked) (n m : NodeId) :
    ∃ g, run (Node.removeParent n m) h = .ok () g ∧ Rehung (· = n) h g :=
  ⟨_, by
    simp only [Node.removeParent, run_bind, run_poke _ _ _ (u n), Res.bind_ok]
    exact run_poke _ _ _ (u m), Rehung.hang h n m none (List.filter fun x => x != n)⟩

/-- **C112, attaching.**  First attaching a node and then doing something has the same result as doing it without. -/
theorem C112_attach (h : KHeap T) (u : h.Unlocked) (n m : NodeId) {p : Client T α} (av : p.Without (· = n)) (a : α)
    (h' : KHeap T) (e : run p.prog h = .ok a h') :
    ∃ g', run (Node.setParent n m >>= fun _ => p.prog) h = .ok a g' ∧ Rehung (· = n) h' g' := by
  obtain ⟨g, e1, r⟩ := C112_set_parent h u n m
  obtain ⟨g', e2, r'⟩ := (C112_sequential av r).1 a h' e
  exact ⟨g', by rw [run_bind, e1]; exact e2, r'⟩

/-- **C112, detaching.** -/
theorem C112_detach (h : KHeap T) (u : h.Unlocked) (n m : NodeId) {p : Client T α} (av : p.Without (· = n)) (a : α)
    (h' : KHeap T) (e : run p.prog h = .ok a h') :
    ∃ g', run (Node.removeParent n m >>= fun _ => p.prog) h = .ok a g' ∧ Rehung (· = n) h' g' := by
  obtain ⟨g, e1, r⟩ := C112_remove_parent h u n m
  obtain ⟨g', e2, r'⟩ := (C112_sequential av r).1 a h' e
  exact ⟨g', by rw [run_bind, e1]; exact e2, r'⟩

end any

/-! ## Concrete cases -/

noncomputable section

/-- move the end of the arm to a height, and give back the angle, the end and the center of mass -/
def moveAndWeigh (s : IkSolver ℝ) : Client ℝ (List ℝ × Iso ℝ × V3 ℝ) :=
  .call (.solve s swingArm (atX 1) onlyY) fun _ => .call (.updateVelocities swingArm) fun _ =>
    .call (.jointPositions swingArm) fun xs => .call (.endTransform swingArm) fun t =>
      .call (.centerOfMass swingArm) fun c => .done (xs, t, c)

/-- attaching node 2 to the tip of the arm is not seen by a client that moves the arm -/
theorem C112_moveAndWeigh (s : IkSolver ℝ) : (moveAndWeigh s).Without (· = 2) := by
  have av : swingArm.Without (· = 2) := by simp [Chain.Without, swingArm]
  exact .call _ (c := .solve s swingArm (atX 1) onlyY) av fun _ => .call _ (c := .updateVelocities swingArm) av fun _ =>
    .call _ (c := .jointPositions swingArm) trivial fun _ => .call _ (c := .endTransform swingArm) trivial fun _ =>
    .call _ (c := .centerOfMass swingArm) av fun _ => .done _

/-- the arm, and beside it a fixed joint, the tool -/
def bench : KHeap ℝ := { swing 0 with next := 3 }

/-- the arm with node 2 attached to its tip -/
def tooled : KHeap ℝ := (bench.modify 2 fun s => { s with parent := some 1 }).modify 1 fun s =>
  { s with children := s.children ++ [2] }

theorem C112_tooled : run (Node.setParent 2 1) bench = .ok () tooled ∧ Rehung (· = 2) bench tooled := by
  refine ⟨?_, Rehung.hang bench 2 1 (some 1) (· ++ [2])⟩
  simp only [Node.setParent, run_bind]
  rw [run_poke _ _ _ rfl]
  exact run_poke _ _ _ rfl

/-- **C112, what is seen.**  Who asks for the children of the tip sees the tool, and so does a chain made afterwards. -/
theorem C112_listed :
    run (Node.children 1) bench = .ok [] bench ∧ run (Node.children 1) tooled = .ok [2] tooled ∧
    run (Chain.fromRoot 3 0) bench = .ok ⟨[0, 1], [0], 1⟩ bench ∧
    run (Chain.fromRoot 4 0) tooled = .ok ⟨[0, 1, 2], [0], 1⟩ tooled := by
  have c0 : ∀ h : KHeap ℝ, h.held = (fun _ => false) → ∀ n, run (Node.children n) h = .ok (h.get n).children h := by
    intro h u n
    simp only [Node.children, run_bind, run_peek _ _ (show h.held n = false by rw [u])]
    rfl
  have j0 : ∀ h : KHeap ℝ, h.held = (fun _ => false) → ∀ n, run (Node.joint n) h = .ok (h.get n).joint h := by
    intro h u n
    simp only [Node.joint, run_bind, run_peek _ _ (show h.held n = false by rw [u])]
    rfl
  have mv : ∀ h : KHeap ℝ, (h.get 0).joint.jointType = .rotational ⟨0, 0, 1⟩ → (h.get 1).joint.jointType = .fixed →
      (h.get 0).joint.isMovable = true ∧ (h.get 1).joint.isMovable = false := by
    intro h a b
    simp [Joint.isMovable, a, b]
  refine ⟨c0 _ rfl 1, c0 _ rfl 1, ?_, ?_⟩
  · have c := c0 _ (show bench.held = _ from rfl)
    have j := j0 _ (show bench.held = _ from rfl)
    obtain ⟨m0, m1⟩ := mv bench rfl rfl
    have k0 : (bench.get 0).children = [1] := rfl
    have k1 : (bench.get 1).children = [] := rfl
    generalize bench = h at *
    simp [Chain.fromRoot, descendants, Chain.fromNodes, run_bind, c, j, k0, k1, m0, m1, filterList]
  · have c := c0 _ (show tooled.held = _ from rfl)
    have j := j0 _ (show tooled.held = _ from rfl)
    obtain ⟨m0, m1⟩ := mv tooled rfl rfl
    have m2 : (tooled.get 2).joint.isMovable = false := rfl
    have k0 : (tooled.get 0).children = [1] := rfl
    have k1 : (tooled.get 1).children = [2] := rfl
    have k2 : (tooled.get 2).children = [] := rfl
    generalize tooled = h at *
    simp [Chain.fromRoot, descendants, Chain.fromNodes, run_bind, c, j, k0, k1, k2, m0, m1, m2, filterList]

/-- **C112, what is seen.**  A chain that contains the node that is attached sees it: the transform of the tool alone can
be had before, and makes the program panic afterwards. -/
theorem C112_tool_itself :
    (∃ X h, run (Chain.updateTransforms ⟨[2], [], 0⟩) bench = .ok X h) ∧
    ∃ h, run (Chain.updateTransforms ⟨[2], [], 0⟩) tooled = .panic "cache must exist" h := by
  constructor
  · obtain ⟨X, h, e, -⟩ := run_updateTransforms bench (fun _ => rfl) ⟨[2], [], 0⟩ (by
      intro pre n post e p hp
      have : n = 2 := by
        have : n ∈ [2] := by rw [show [2] = pre ++ n :: post from e]; simp
        simpa using this
      subst this
      simp [liveParent, bench, swing, NodeImpl.fresh] at hp)
    exact ⟨X, h, e⟩
  · obtain ⟨h, e, -⟩ := run_updateTransforms_panic tooled (fun _ => rfl) ⟨[2], [], 0⟩ [] [] 2 1 rfl
      (by intro pre n post e; simp at e) (by simp [liveParent, tooled, Heap.modify, bench, swing, NodeImpl.fresh]) (by simp)
      (by simp [tooled, Heap.modify, bench, swing, NodeImpl.fresh, Joint.new])
    exact ⟨h, e⟩

end

end K
