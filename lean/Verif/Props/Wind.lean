import Verif.Lemmas.Wound
import Verif.Props.TargetEx
/-!
# C110: a whole turn of a continuous joint is not seen

A joint that turns, and has no limits, may be turned round as often as one likes: the API does the same at `x` and at
`x + 2πk`.
-/

namespace K
open Prog

section any
variable {α β : Type} {W : Winding}

/-- **C110.** Whole turns are not seen: on a robot with some of its continuous joints turned round any number of times, a
client that makes the same calls, shifted by the turns, has the same outcome - the same result, the same panic, the same
lock it waits for - and leaves the memory the same but for the turns. -/
theorem C110_sequential {p q : Client ℝ α} (same : p.Wound W q) {h g : KHeap ℝ} (r : Wound W h g) :
    (∀ a h', run p.prog h = .ok a h' → ∃ g', run q.prog g = .ok a g' ∧ Wound W h' g') ∧
    (∀ m h', run p.prog h = .panic m h' → ∃ g', run q.prog g = .panic m g' ∧ Wound W h' g') ∧
    (∀ n h', run p.prog h = .blocked n h' → ∃ g', run q.prog g = .blocked n g' ∧ Wound W h' g') ∧
    (run p.prog h = .diverged → run q.prog g = .diverged) := by
  have := (Winds.client same).outcome r
  refine ⟨fun a h' x => ?_, fun m h' x => ?_, fun n h' x => ?_, fun x => ?_⟩ <;> rw [x] at this <;>
    cases e : run q.prog g <;> rw [e] at this <;> simp only [WoundOutcome] at this
  · obtain ⟨rfl, y⟩ := this; exact ⟨_, rfl, y⟩
  · obtain ⟨rfl, y⟩ := this; exact ⟨_, rfl, y⟩
  · obtain ⟨rfl, y⟩ := this; exact ⟨_, rfl, y⟩

/-- **C110**, one call: it gives the same answer: joint positions are shifted by the turns, and orientations are the same, with either
sign of the quaternion. -/
theorem C110_call {c c' : Call ℝ β} (same : c.Wound W c') {h g : KHeap ℝ} (r : Wound W h g) :
    (∀ a h', run c.prog h = .ok a h' → ∃ a' g', run c'.prog g = .ok a' g' ∧ c.WoundAnswer W a a' ∧ Wound W h' g') ∧
    (∀ m h', run c.prog h = .panic m h' → ∃ g', run c'.prog g = .panic m g' ∧ Wound W h' g') ∧
    (∀ n h', run c.prog h = .blocked n h' → ∃ g', run c'.prog g = .blocked n g' ∧ Wound W h' g') ∧
    (run c.prog h = .diverged → run c'.prog g = .diverged) := by
  have := (Winds.call same).outcome r
  refine ⟨fun a h' x => ?_, fun m h' x => ?_, fun n h' x => ?_, fun x => ?_⟩ <;> rw [x] at this <;>
    cases e : run c'.prog g <;> rw [e] at this <;> simp only [WoundOutcome] at this
  · exact ⟨_, _, rfl, this.1, this.2⟩
  · obtain ⟨rfl, y⟩ := this; exact ⟨_, rfl, y⟩
  · obtain ⟨rfl, y⟩ := this; exact ⟨_, rfl, y⟩

/-- **C110**, threads: whatever threads can do - with any interleaving, nodes being freed at any moment - threads that
make the calls shifted by the turns can do, with the same results and panics, and each waiting for the same lock. -/
theorem C110_threads (pq : List (Client ℝ α × Client ℝ α)) (same : ∀ x ∈ pq, x.1.Wound W x.2) {h g : KHeap ℝ}
    (r : Wound W h g) (d : Config (NodeImpl ℝ) α) (st : DSteps ⟨h, pq.map fun x => x.1.prog⟩ d) :
    ∃ d', DSteps ⟨g, pq.map fun x => x.2.prog⟩ d' ∧ Wound W d.heap d'.heap ∧
      (∀ (i : Nat) a, d.threads[i]? = some (Prog.ret a) → d'.threads[i]? = some (Prog.ret a)) ∧
      (∀ (i : Nat) m, d.threads[i]? = some (Prog.panic m) → d'.threads[i]? = some (Prog.panic m)) ∧
      ∀ (i : Nat) n k, d.threads[i]? = some (Prog.lock n k) → ∃ k, d'.threads[i]? = some (Prog.lock n k) := by
  suffices ∃ k ts, DSteps ⟨g, pq.map fun x => x.2.prog⟩ ⟨k, ts⟩ ∧ Wound W d.heap k ∧ Winds.All W d.threads ts by
    obtain ⟨k, ts, a, x, b⟩ := this
    refine ⟨_, a, x, fun i x e => ?_, fun i m e => ?_, fun i n k e => ?_⟩
    all_goals
      obtain ⟨q, e', s⟩ := b.get i e
      cases s
    · rename_i q; subst q; exact e'
    · exact e'
    · exact ⟨_, e'⟩
  induction st with
  | refl =>
    refine ⟨_, _, .refl _, r, ?_⟩
    induction pq with
    | nil => exact .nil
    | cons x pq ih =>
      exact .cons (Winds.client (same x (by simp))) (ih fun y hy => same y (List.mem_cons_of_mem _ hy))
  | @tail d e _ s ih =>
    obtain ⟨k, ts, a, r, b⟩ := ih
    cases s with
    | free F => exact ⟨_, ts, a.tail (DStep.free ⟨k, ts⟩ F), r.free F, b⟩
    | thread s =>
      cases s with
      | mk i p p' h' hi hs =>
        obtain ⟨q, e', s⟩ := b.get i hi
        obtain ⟨q', k', x, y, z⟩ := s.step r hs
        exact ⟨k', ts.set i q', a.tail (.thread (Step.mk ⟨k, ts⟩ i q q' k' e' x)), y, b.set i z⟩

/-- **C110**, threads, the other way round: after the turns threads can do nothing else. -/
theorem C110_threads_back (pq : List (Client ℝ α × Client ℝ α)) (same : ∀ x ∈ pq, x.1.Wound W x.2) {h g : KHeap ℝ}
    (r : Wound W h g) (d' : Config (NodeImpl ℝ) α) (st : DSteps ⟨g, pq.map fun x => x.2.prog⟩ d') :
    ∃ d, DSteps ⟨h, pq.map fun x => x.1.prog⟩ d ∧ Wound W d.heap d'.heap ∧
      (∀ (i : Nat) a, d'.threads[i]? = some (Prog.ret a) → d.threads[i]? = some (Prog.ret a)) ∧
      (∀ (i : Nat) m, d'.threads[i]? = some (Prog.panic m) → d.threads[i]? = some (Prog.panic m)) ∧
      ∀ (i : Nat) n k, d'.threads[i]? = some (Prog.lock n k) → ∃ k, d.threads[i]? = some (Prog.lock n k) := by
  suffices ∃ k ts, DSteps ⟨h, pq.map fun x => x.1.prog⟩ ⟨k, ts⟩ ∧ Wound W k d'.heap ∧ Winds.All W ts d'.threads by
    obtain ⟨k, ts, a, x, b⟩ := this
    refine ⟨_, a, x, fun i x e => ?_, fun i m e => ?_, fun i n k e => ?_⟩
    all_goals
      obtain ⟨q, e', s⟩ := b.back i e
      cases s
    · rename_i q; subst q; exact e'
    · exact e'
    · exact ⟨_, e'⟩
  induction st with
  | refl =>
    refine ⟨_, _, .refl _, r, ?_⟩
    induction pq with
    | nil => exact .nil
    | cons x pq ih =>
      exact .cons (Winds.client (same x (by simp))) (ih fun y hy => same y (List.mem_cons_of_mem _ hy))
  | @tail d e _ s ih =>
    obtain ⟨k, ts, a, r, b⟩ := ih
    cases s with
    | free F => exact ⟨_, ts, a.tail (DStep.free ⟨k, ts⟩ F), r.free F, b⟩
    | thread s =>
      cases s with
      | mk i p p' h' hi hs =>
        obtain ⟨q, e', s⟩ := b.back i hi
        obtain ⟨q', k', x, y, z⟩ := s.back r hs
        exact ⟨k', ts.set i q', a.tail (.thread (Step.mk ⟨k, ts⟩ i q q' k' e' x)), y, b.set i z⟩

end any

noncomputable section

/-! ## Nullspace functions that ask for a posture are shifted with it -/

/-- asking for a posture is the same as asking for the turned posture after the turns -/
theorem C110_reference (W : Winding) (c : Chain) (s : IkSolver ℝ) (ref w : List ℝ) :
    ({ s with nullspaceFunction := some (referenceNullspace ref w) } : IkSolver ℝ).Wound W c
      { s with nullspaceFunction := some (referenceNullspace (W.coords c ref) w) } := by
  refine ⟨_, rfl, fun xs => ?_⟩
  have len : ∀ ns (xs : List ℝ), (W.list ns xs).length = xs.length := by
    intro ns
    induction ns with
    | nil => intro xs; cases xs <;> rfl
    | cons n ns ih => intro xs; cases xs <;> simp [Winding.list, ih]
  have sub : ∀ ns (xs ys : List ℝ), List.zipWith (· - ·) (W.list ns xs) (W.list ns ys) = List.zipWith (· - ·) xs ys := by
    intro ns
    induction ns with
    | nil => intro xs ys; cases xs <;> cases ys <;> rfl
    | cons n ns ih =>
      intro xs ys
      cases xs <;> cases ys <;> simp [Winding.list, Winding.coord, ih]
  simp only [referenceNullspace, Winding.coords, len, sub]

/-- no nullspace function at all -/
theorem IkSolver.Wound.refl (W : Winding) (c : Chain) {s : IkSolver ℝ} (e : s.nullspaceFunction = none) :
    s.Wound W c s := by
  refine ⟨none, ?_, ?_⟩
  · rcases s with ⟨a, b, c, d, f, l⟩; simp only at e; rw [e]
  · rw [e]; trivial

/-! ## Concrete cases -/

/-- the first joint is turned round `k` times -/
def firstTurned (k : Int) : Winding := fun n => if n = 0 then k else 0

/-- an arm, and the arm turned round `k` times -/
theorem C110_swing (q : ℝ) (k : Int) : Wound (firstTurned k) (swing q) (swing (q + k * (2 * Real.pi))) := by
  refine ⟨fun n => ?_, rfl, rfl, rfl, fun n hn => ?_⟩
  · by_cases h0 : n = 0
    · subst h0
      exact ⟨_, _, rfl, ⟨_, _, rfl, .refl _, trivial, fun _ => ⟨⟨_, rfl⟩, rfl⟩⟩, trivial, fun c hc => by cases hc⟩
    · have z : firstTurned k n = 0 := if_neg h0
      have e : (swing (q + k * (2 * Real.pi))).get n = (swing q).get n := by simp only [swing, if_neg h0]
      rw [e]
      refine ⟨((swing q).get n).joint, ((swing q).get n).link, rfl, ?_, BothOrNone.refl .refl _, fun c hc => ?_⟩
      · rw [z]; exact Winds.woundZero ⟨_, _, rfl, .refl _, BothOrNone.refl .refl _⟩
      · exfalso
        by_cases h1 : n = 1 <;> simp [swing, NodeImpl.fresh, h0, h1] at hc
  · have : n ≠ 0 := by rintro rfl; exact absurd hn (by simp [swing])
    exact if_neg this

/-- turn the arm, move its end, and give back what came out -/
def turnAndMove (s : IkSolver ℝ) (x : ℝ) (t : Iso ℝ) : Client ℝ (Except (KError ℝ) Unit × List (List ℝ)) :=
  .call (.setJointPosition 0 x) fun _ => .call (.solve s swingArm t onlyY) fun r =>
    .call (.jacobian swingArm) fun j => .done (r, j)

theorem C110_turnAndMove {s : IkSolver ℝ} (e : s.nullspaceFunction = none) (x : ℝ) (t : Iso ℝ) (k : Int) :
    (turnAndMove s x t).Wound (firstTurned k) (turnAndMove s (x + k * (2 * Real.pi)) t) := by
  refine .call _ _ (.setJointPosition 0 x) fun _ _ _ => .call _ _ (.solve swingArm (.refl _ _ e) (.refl _) onlyY ?_)
    fun r r' er => .call _ _ (.other (.jacobian swingArm) trivial) fun j j' ej => ?_
  · simp [Constraints.Turning, onlyY]
  · cases er; cases ej; exact .done _

/-- the solve that converges from near zero converges from near any whole turn, to the posture turned likewise -/
theorem C110_converges (k : Int) : ∃ ε, 0 < ε ∧ ∃ N, ∀ n, N ≤ n → ∀ q : ℝ, |q| < ε →
    ∃ h', run (solveWithConstraints (swingSolver n) swingArm (atX 1) onlyY) (swing (q + k * (2 * Real.pi))) =
      .ok (.ok ()) h' ∧ |(h'.get 0).joint.position - k * (2 * Real.pi)| < 1 / 10 := by
  obtain ⟨ε, ε0, N, f⟩ := C74_swing
  refine ⟨ε, ε0, N, fun n hn q hq => ?_⟩
  obtain ⟨h', e, b⟩ := f n hn q hq
  obtain ⟨a', g', e', ea, w⟩ := (C110_call (c := .solve (swingSolver n) swingArm (atX 1) onlyY)
    (.solve swingArm (.refl _ _ rfl) (.refl _) onlyY (by simp [Constraints.Turning, onlyY])) (C110_swing q k)).1 _ _ e
  cases ea
  refine ⟨g', e', ?_⟩
  obtain ⟨j, l, ej, ⟨o, w, ew, -⟩, -⟩ := w.node 0
  have : (g'.get 0).joint.position = (h'.get 0).joint.position + k * (2 * Real.pi) := by
    rw [ej, ew]; simp [firstTurned]
  rw [this, add_sub_cancel_right]
  exact b

/-- with limits a turn is seen: an arm with limits of one radian can be put at zero, and not at a whole turn -/
theorem C110_limits : ∃ h, run (Node.setJointPosition 0 0) gated = .ok (.ok ()) h ∧
    ∃ e, run (Node.setJointPosition 0 (2 * Real.pi)) gated = .ok (.error e) gated := by
  have wf : MimicWF gated := by
    intro m c hc
    exfalso
    by_cases h0 : m = 0
    · subst h0; simp [gated, swing, NodeImpl.fresh, Heap.modify] at hc
    · by_cases h1 : m = 1 <;> simp [gated, swing, NodeImpl.fresh, Heap.modify, h0, h1] at hc
  have far : (1 : ℝ) < 2 * Real.pi := by linarith [Real.two_le_pi]
  refine ⟨(setPos 0 0 gated).2, ?_, .outOfLimit "a" (2 * Real.pi) 1 (-1), ?_⟩
  · rw [run_setJointPosition _ _ _ (fun _ => rfl) wf]
    congr 1
    simp [setPos, gated, swing, NodeImpl.fresh, Heap.modify, Joint.new, Joint.setJointPosition, Joint.isMovable,
      Range.isValid, Scalar.le, mimicLoop]
  · rw [run_setJointPosition _ _ _ (fun _ => rfl) wf]
    have : ¬ 2 * Real.pi ≤ 1 := not_le.2 far
    simp [setPos, gated, swing, NodeImpl.fresh, Heap.modify, Joint.new, Joint.setJointPosition, Joint.isMovable,
      Range.isValid, Scalar.le, this]

/-- node 1 follows node 0 at half its angle -/
def geared : KHeap ℝ :=
  { get := fun n =>
      if n = 0 then { NodeImpl.fresh (Joint.new "a" (.rotational ⟨0, 0, 1⟩)) with mimicChildren := [1] }
      else if n = 1 then { NodeImpl.fresh (Joint.new "b" (.rotational ⟨0, 0, 1⟩)) with
        mimicParent := some 0, mimic := some ⟨1 / 2, 0⟩ }
      else NodeImpl.fresh (Joint.new "c" .fixed)
    next := 2, dead := fun _ => false, held := fun _ => false }

/-- in a mimic relation a turn is seen: after a whole turn of node 0, node 1 is turned by half a turn -/
theorem C110_mimic : ∃ h g, run (Node.setJointPosition 0 0) geared = .ok (.ok ()) h ∧
    run (Node.setJointPosition 0 (2 * Real.pi)) geared = .ok (.ok ()) g ∧
    ¬ (h.get 1).joint.localTransform.EitherSign (g.get 1).joint.localTransform := by
  have wf : MimicWF geared := by
    intro m c hc
    by_cases h0 : m = 0
    · subst h0
      have : c = 1 := by simpa [geared] using hc
      subst this
      simp [geared]
    · exfalso
      by_cases h1 : m = 1 <;> simp [geared, NodeImpl.fresh, h0, h1] at hc
  have ok : ∀ x : ℝ, ∃ h, run (Node.setJointPosition 0 x) geared = .ok (.ok ()) h ∧
      (h.get 1).joint.localTransform.rot = Quat.fromAxisAngle ⟨0, 0, 1⟩ (1 / 2 * x) := by
    intro x
    refine ⟨(setPos 0 x geared).2, ?_, ?_⟩
    · rw [run_setJointPosition _ _ _ (fun _ => rfl) wf]
      congr 1
    · simp [setPos, geared, NodeImpl.fresh, Heap.modify, Joint.new, Joint.setJointPosition, Joint.isMovable, mimicLoop,
        Heap.setJoint, Joint.setJointPositionUnchecked, Joint.localTransform, Joint.jointTransform, Iso.mul, Iso.one,
        Quat.mul, Quat.one, Mimic.mimicPosition, mul_comm]
  obtain ⟨h, e, x⟩ := ok 0
  obtain ⟨g, e', y⟩ := ok (2 * Real.pi)
  refine ⟨h, g, e, e', fun r => ?_⟩
  have a : (h.get 1).joint.localTransform.rot.w = 1 := by rw [x]; simp [Quat.fromAxisAngle, Scalar.cos]
  have b : (g.get 1).joint.localTransform.rot.w = 0 := by
    rw [y, show (1 / 2 * (2 * Real.pi) : ℝ) = Real.pi by ring]
    have : (Real.pi / (1 + 1) : ℝ) = Real.pi / 2 := by ring
    simp [Quat.fromAxisAngle, Scalar.cos, this]
  rcases r with r | r <;> rw [r] at b
  · linarith
  · simp only [Iso.otherSign] at b; linarith

end

end K
