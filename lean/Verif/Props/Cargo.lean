import Verif.Lemmas.Carried
import Verif.Props.Com
import Verif.Props.IkLocalEx
/-!
# C111: what a robot carries is not seen by its kinematics

Links hold names, masses and shapes.  The kinematics of a robot depends on its joints only.
-/

namespace K
open Prog

section any
variable {T : Type} [Scalar T] {V : View} {α β : Type}

/-- **C111.** What a robot carries is not seen by its kinematics: with other links on the nodes, or none, a client that
makes the same calls - putting on other links, perhaps - has the same outcome: the same result, the same panic, the same
lock it waits for; and leaves the memory the same but for the links.  The links themselves are not asked for; the center
of mass is asked for only when the links weigh the same, and the tree is printed only when they are called the same. -/
theorem C111_sequential {p q : Client T α} (same : p.Reloaded V q) {h g : KHeap T} (r : Reloaded V h g) :
    (∀ a h', run p.prog h = .ok a h' → ∃ g', run q.prog g = .ok a g' ∧ Reloaded V h' g') ∧
    (∀ m h', run p.prog h = .panic m h' → ∃ g', run q.prog g = .panic m g' ∧ Reloaded V h' g') ∧
    (∀ n h', run p.prog h = .blocked n h' → ∃ g', run q.prog g = .blocked n g' ∧ Reloaded V h' g') ∧
    (run p.prog h = .diverged → run q.prog g = .diverged) := by
  have := (Carried.client same).outcome r
  refine ⟨fun a h' x => ?_, fun m h' x => ?_, fun n h' x => ?_, fun x => ?_⟩ <;> rw [x] at this <;>
    cases e : run q.prog g <;> rw [e] at this <;> simp only [CargoOutcome] at this
  · obtain ⟨rfl, y⟩ := this; exact ⟨_, rfl, y⟩
  · obtain ⟨rfl, y⟩ := this; exact ⟨_, rfl, y⟩
  · obtain ⟨rfl, y⟩ := this; exact ⟨_, rfl, y⟩

/-- **C111**, one call: it gives the same answer. -/
theorem C111_call {c c' : Call T β} (same : c.Reloaded V c') {h g : KHeap T} (r : Reloaded V h g) :
    (∀ a h', run c.prog h = .ok a h' → ∃ g', run c'.prog g = .ok a g' ∧ Reloaded V h' g') ∧
    (∀ m h', run c.prog h = .panic m h' → ∃ g', run c'.prog g = .panic m g' ∧ Reloaded V h' g') ∧
    (∀ n h', run c.prog h = .blocked n h' → ∃ g', run c'.prog g = .blocked n g' ∧ Reloaded V h' g') ∧
    (run c.prog h = .diverged → run c'.prog g = .diverged) := by
  have := (Carried.call same).outcome r
  refine ⟨fun a h' x => ?_, fun m h' x => ?_, fun n h' x => ?_, fun x => ?_⟩ <;> rw [x] at this <;>
    cases e : run c'.prog g <;> rw [e] at this <;> simp only [CargoOutcome] at this
  · obtain ⟨rfl, y⟩ := this; exact ⟨_, rfl, y⟩
  · obtain ⟨rfl, y⟩ := this; exact ⟨_, rfl, y⟩
  · obtain ⟨rfl, y⟩ := this; exact ⟨_, rfl, y⟩

/-- **C111**, threads: whatever threads can do - with any interleaving, nodes being freed at any moment - they can do
with other links, with the same results and panics, and each waiting for the same lock. -/
theorem C111_threads (pq : List (Client T α × Client T α)) (same : ∀ x ∈ pq, x.1.Reloaded V x.2) {h g : KHeap T}
    (r : Reloaded V h g) (d : Config (NodeImpl T) α) (st : DSteps ⟨h, pq.map fun x => x.1.prog⟩ d) :
    ∃ d', DSteps ⟨g, pq.map fun x => x.2.prog⟩ d' ∧ Reloaded V d.heap d'.heap ∧
      (∀ (i : Nat) a, d.threads[i]? = some (Prog.ret a) → d'.threads[i]? = some (Prog.ret a)) ∧
      (∀ (i : Nat) m, d.threads[i]? = some (Prog.panic m) → d'.threads[i]? = some (Prog.panic m)) ∧
      ∀ (i : Nat) n k, d.threads[i]? = some (Prog.lock n k) → ∃ k, d'.threads[i]? = some (Prog.lock n k) := by
  suffices ∃ k ts, DSteps ⟨g, pq.map fun x => x.2.prog⟩ ⟨k, ts⟩ ∧ Reloaded V d.heap k ∧ Carried.All V d.threads ts by
    obtain ⟨k, ts, a, x, b⟩ := this
    refine ⟨_, a, x, fun i x e => ?_, fun i m e => ?_, fun i n k e => ?_⟩
    all_goals
      obtain ⟨q, e', s⟩ := b.get i e
      cases s
    · rename_i q; subst q; exact e'
    · exact e'
    · exact ⟨_, e'⟩
  induction st with
  | refl =>
    refine ⟨_, _, .refl _, r, ?_⟩
    induction pq with
    | nil => exact .nil
    | cons x pq ih =>
      exact .cons (Carried.client (same x (by simp))) (ih fun y hy => same y (List.mem_cons_of_mem _ hy))
  | @tail d e _ s ih =>
    obtain ⟨k, ts, a, r, b⟩ := ih
    cases s with
    | free F => exact ⟨_, ts, a.tail (DStep.free ⟨k, ts⟩ F), r.free F, b⟩
    | thread s =>
      cases s with
      | mk i p p' h' hi hs =>
        obtain ⟨q, e', s⟩ := b.get i hi
        obtain ⟨q', k', x, y, z⟩ := s.step r hs
        exact ⟨k', ts.set i q', a.tail (.thread (Step.mk ⟨k, ts⟩ i q q' k' e' x)), y, b.set i z⟩

/-- **C111**, threads, the other way round: with other links threads can do nothing else. -/
theorem C111_threads_back (pq : List (Client T α × Client T α)) (same : ∀ x ∈ pq, x.1.Reloaded V x.2) {h g : KHeap T}
    (r : Reloaded V h g) (d' : Config (NodeImpl T) α) (st : DSteps ⟨g, pq.map fun x => x.2.prog⟩ d') :
    ∃ d, DSteps ⟨h, pq.map fun x => x.1.prog⟩ d ∧ Reloaded V d.heap d'.heap ∧
      (∀ (i : Nat) a, d'.threads[i]? = some (Prog.ret a) → d.threads[i]? = some (Prog.ret a)) ∧
      (∀ (i : Nat) m, d'.threads[i]? = some (Prog.panic m) → d.threads[i]? = some (Prog.panic m)) ∧
      ∀ (i : Nat) n k, d'.threads[i]? = some (Prog.lock n k) → ∃ k, d.threads[i]? = some (Prog.lock n k) := by
  suffices ∃ k ts, DSteps ⟨h, pq.map fun x => x.1.prog⟩ ⟨k, ts⟩ ∧ Reloaded V k d'.heap ∧ Carried.All V ts d'.threads by
    obtain ⟨k, ts, a, x, b⟩ := this
    refine ⟨_, a, x, fun i x e => ?_, fun i m e => ?_, fun i n k e => ?_⟩
    all_goals
      obtain ⟨q, e', s⟩ := b.back i e
      cases s
    · rename_i q; subst q; exact e'
    · exact e'
    · exact ⟨_, e'⟩
  induction st with
  | refl =>
    refine ⟨_, _, .refl _, r, ?_⟩
    induction pq with
    | nil => exact .nil
    | cons x pq ih =>
      exact .cons (Carried.client (same x (by simp))) (ih fun y hy => same y (List.mem_cons_of_mem _ hy))
  | @tail d e _ s ih =>
    obtain ⟨k, ts, a, r, b⟩ := ih
    cases s with
    | free F => exact ⟨_, ts, a.tail (DStep.free ⟨k, ts⟩ F), r.free F, b⟩
    | thread s =>
      cases s with
      | mk i p p' h' hi hs =>
        obtain ⟨q, e', s⟩ := b.back i hi
        obtain ⟨q', k', x, y, z⟩ := s.back r hs
        exact ⟨k', ts.set i q', a.tail (.thread (Step.mk ⟨k, ts⟩ i q q' k' e' x)), y, b.set i z⟩

/-! ## Any links can be taken off or put on -/

/-- nothing of the links is looked at -/
def View.nothing : View := ⟨False, False⟩

/-- the robot with other links -/
def KHeap.carrying (h : KHeap T) (f : NodeId → Option (Link T)) : KHeap T :=
  { h with get := fun n => { h.get n with link := f n } }

theorem C111_any_links (h : KHeap T) (f : NodeId → Option (Link T)) : Reloaded .nothing h (h.carrying f) :=
  ⟨fun n => ⟨f n, rfl, nofun, nofun⟩, rfl, rfl, rfl⟩

/-- **C111, inverse kinematics.**  With any links, or none, on the nodes, inverse kinematics gives the same answer and
ends at the same posture. -/
theorem C111_solve (s : IkSolver T) (arm : Chain) (t : Iso T) (c : Constraints) (h : KHeap T)
    (f : NodeId → Option (Link T)) (a : Except (KError T) Unit) (h' : KHeap T)
    (e : run (solveWithConstraints s arm t c) h = .ok a h') :
    ∃ g', run (solveWithConstraints s arm t c) (h.carrying f) = .ok a g' ∧
      ∀ n, (g'.get n).joint = (h'.get n).joint := by
  obtain ⟨g', e', r⟩ := (C111_call (.other (.solve s arm t c) trivial) (C111_any_links h f)).1 a h' e
  exact ⟨g', e', fun n => by obtain ⟨l, e, -⟩ := r.node n; rw [e]⟩

end any

/-! ## What is seen -/

noncomputable section

/-- a tool with its mass at a place -/
def toolAt (name : String) (p : V3 ℝ) : Link ℝ := ⟨name, ⟨⟨p, Quat.one⟩, 1, M3.one, none⟩, [], []⟩

/-- a fixed joint that carries something -/
def stand (l : Option (Link ℝ)) : KHeap ℝ :=
  { get := fun _ => { NodeImpl.fresh (Joint.new "base" .fixed) with link := l }
    next := 1, dead := fun _ => false, held := fun _ => false }

def standChain : Chain := ⟨[0], [], 0⟩

/-- tools of different names that weigh the same are alike for all but the printed tree -/
theorem C111_renamed : Reloaded ⟨True, False⟩ (stand (some (toolAt "drill" ⟨1, 0, 0⟩))) (stand (some (toolAt "saw" ⟨1, 0, 0⟩))) :=
  ⟨fun _ => ⟨_, rfl, fun _ => ⟨rfl, rfl⟩, nofun⟩, rfl, rfl, rfl⟩

/-- tools of one name that weigh differently are alike for all but the center of mass -/
theorem C111_shifted : Reloaded ⟨False, True⟩ (stand (some (toolAt "drill" ⟨1, 0, 0⟩))) (stand (some (toolAt "drill" ⟨2, 0, 0⟩))) :=
  ⟨fun _ => ⟨_, rfl, nofun, fun _ => rfl⟩, rfl, rfl, rfl⟩

theorem stand_com (name : String) (p : V3 ℝ) :
    ∃ g, run (centerOfMass standChain) (stand (some (toolAt name p))) = .ok p g := by
  obtain ⟨Xs, v, g, w, e, -, m⟩ := C23_center_of_mass (stand (some (toolAt name p))) (fun _ => rfl) standChain
    (fun pre n post e => by simp [liveParent, stand, NodeImpl.fresh])
  have tm : totalMass (stand (some (toolAt name p))) standChain.nodes = 1 := by
    simp [totalMass, massOf, stand, standChain, toolAt]
  rw [tm] at m
  have m' := m one_ne_zero
  refine ⟨g, ?_⟩
  rw [e]
  congr 1
  cases w with
  | cons a b =>
    cases b
    rename_i X
    have hX : X = Iso.one := by
      cases a with
      | root => simp [stand, NodeImpl.fresh, Joint.localTransform, Joint.new, Joint.jointTransform, Iso.one_mul']
      | step x => simp [liveParent, stand, NodeImpl.fresh] at x
    subst hX
    have hx := congrArg V3.x m'
    have hy := congrArg V3.y m'
    have hz := congrArg V3.z m'
    have o : (Iso.one : Iso ℝ).trans = ⟨0, 0, 0⟩ := rfl
    simp [totalMoment, momentOf, stand, toolAt, Iso.apply_one, V3.scale, V3.add, V3.zero, standChain, o] at hx hy hz
    ext <;> assumption

/-- **C111, the center of mass** sees where the mass is. -/
theorem C111_center_of_mass :
    (∃ g, run (centerOfMass standChain) (stand (some (toolAt "drill" ⟨1, 0, 0⟩))) = .ok ⟨1, 0, 0⟩ g) ∧
    ∃ g, run (centerOfMass standChain) (stand (some (toolAt "drill" ⟨2, 0, 0⟩))) = .ok ⟨2, 0, 0⟩ g :=
  ⟨stand_com _ _, stand_com _ _⟩

/-- **C111, the printed tree** shows the name. -/
theorem C111_display :
    run (standChain.display 1) (stand (some (toolAt "drill" ⟨1, 0, 0⟩))) =
      .ok "base [⚓] => /drill/\n" (stand (some (toolAt "drill" ⟨1, 0, 0⟩))) ∧
    run (standChain.display 1) (stand (some (toolAt "saw" ⟨1, 0, 0⟩))) =
      .ok "base [⚓] => /saw/\n" (stand (some (toolAt "saw" ⟨1, 0, 0⟩))) := by
  have one : ∀ l, run (standChain.display 1) (stand l) = .ok (String.join [displayLine 0 ((stand l).get 0)]) (stand l) := by
    intro l
    have u : (stand l).held 0 = false := rfl
    have e : ((stand l).get 0).children = [] := rfl
    simp [standChain, Chain.display, Chain.fmtWithIndentLevel, run_bind, run_peek _ _ u, run_doLock_free _ _ u, e,
      mapList, Heap.setHeld_setHeld_false _ _ u]
  constructor <;> rw [one] <;> congr 1

/-! ## A concrete case -/

/-- pick up a tool, move the end of the arm to a height, and give back the angle and the end -/
def pickUpAndMove (s : IkSolver ℝ) (tool : Link ℝ) : Client ℝ (List ℝ × Iso ℝ) :=
  .call (.setLink 1 (some tool)) fun _ => .call (.solve s swingArm (atX 1) onlyY) fun _ =>
    .call (.updateLinkTransforms swingArm) fun _ => .call (.jointPositions swingArm) fun xs =>
      .call (.endTransform swingArm) fun t => .done (xs, t)

theorem C111_pickUpAndMove (s : IkSolver ℝ) (tool tool' : Link ℝ) :
    (pickUpAndMove s tool).Reloaded .nothing (pickUpAndMove s tool') :=
  .call _ _ (.setLink 1 ⟨nofun, nofun⟩) fun _ => .call _ _ (.other (.solve s swingArm (atX 1) onlyY) trivial) fun _ =>
    .call _ _ (.other (.updateLinkTransforms swingArm) trivial) fun _ =>
    .call _ _ (.other (.jointPositions swingArm) trivial) fun _ =>
    .call _ _ (.other (.endTransform swingArm) trivial) fun _ => .done _

end

end K
