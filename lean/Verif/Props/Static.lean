import Verif.Lemmas.Calls
import Verif.Spec.Answers
import Verif.Props.JointSet
import Verif.Props.Poison
/-!
# C53, C54: joint velocities, and the data of a joint that never changes
-/

set_option linter.unusedSectionVars false

namespace K
open Prog
variable {T : Type} [Scalar T]

/-! ## C53 -/

/-- **C53**, `joint_velocity()`: `None` exactly for Fixed joints; a new joint has velocity zero. -/
theorem C53_get (j : Joint T) : (j.jointVelocity = none ↔ j.jointType = .fixed) ∧
    (∀ name jt, jt ≠ .fixed → (Joint.new name jt : Joint T).jointVelocity = some 0) := by
  refine ⟨?_, fun name jt h => ?_⟩
  · unfold Joint.jointVelocity; cases j.jointType <;> simp
  · unfold Joint.jointVelocity Joint.new; cases jt <;> simp_all

/-- **C53**, `set_joint_velocity(v)` on a movable joint: succeeds whatever `v` is, `joint_velocity()`
is then `v`, the cached world velocity is dropped, and name, type, position, limits, origin, cached
world transform and local transform are what they were. -/
theorem C53_set (j : Joint T) (v : T) (m : j.jointType ≠ .fixed) :
    let r := j.setJointVelocity v
    r.2 = .ok () ∧ r.1.jointVelocity = some v ∧ r.1.worldVelocity = none ∧
    r.1.name = j.name ∧ r.1.jointType = j.jointType ∧ r.1.jointPosition = j.jointPosition ∧
    r.1.limits = j.limits ∧ r.1.origin = j.origin ∧ r.1.worldTransform = j.worldTransform ∧
    r.1.localTransform = j.localTransform := by
  unfold Joint.setJointVelocity Joint.jointVelocity Joint.jointPosition Joint.localTransform
    Joint.jointTransform Joint.worldVelocity Joint.worldTransform
  cases e : j.jointType <;> simp_all

/-- **C53**, `set_joint_velocity(v)` on a Fixed joint: `SetToFixedError`, nothing changes. -/
theorem C53_fixed (j : Joint T) (v : T) (m : j.jointType = .fixed) :
    j.setJointVelocity v = (j, .error (.setToFixed j.name)) := by
  unfold Joint.setJointVelocity; rw [m]

/-- **C53**: no position or origin setter changes the velocity of a joint. -/
theorem C53_kept (j : Joint T) (x : T) (o : Iso T) :
    (j.setJointPosition x).1.jointVelocity = j.jointVelocity ∧
    (j.setJointPositionClamped x).jointVelocity = j.jointVelocity ∧
    (j.setJointPositionUnchecked x).jointVelocity = j.jointVelocity ∧
    (j.setOrigin o).jointVelocity = j.jointVelocity := by
  refine ⟨?_, ?_, rfl, rfl⟩
  · unfold Joint.setJointPosition
    split
    · rfl
    · cases j.limits with
      | none => rfl
      | some r => simp only; split <;> rfl
  · unfold Joint.setJointPositionClamped; split <;> rfl

/-- a rotational joint turning at speed 3, and a Fixed joint refusing it -/
example : let j := ((Joint.new "j" (.rotational ⟨0, 0, 1⟩) : Joint ℝ).setJointVelocity 3).1
    j.jointVelocity = some 3 ∧ (j.setJointPositionClamped 2).jointVelocity = some 3 :=
  ⟨rfl, by rw [(C53_kept _ _ Iso.one).2.1]; rfl⟩

/-! ## C54 -/

theorem sameData_set (j j0 : Joint T) (x : T) (s : j0.sameData j) :
    j0.sameData (j.setJointPosition x).1 := by
  unfold Joint.setJointPosition
  split
  · exact s
  · cases e : j.limits with
    | none => simpa [Joint.sameData, e] using s
    | some r =>
      simp only; split
      · exact s
      · simpa [Joint.sameData, e] using s

theorem sameData_clamp (j j0 : Joint T) (x : T) (s : j0.sameData j) :
    j0.sameData (j.setJointPositionClamped x) := by
  unfold Joint.setJointPositionClamped
  split <;> exact s

theorem frozen_call (h : KHeap T) {β : Type} (c : Call T β) :
    Safe h.next (fun n s => n < h.next → (h.get n).joint.sameData s.joint) (fun _ => True)
      c.prog := by
  refine safe_call c ?_ (fun n _ => .all (fun m y s z l => sameData_set _ _ _ (z l)) n) ?_
  · intro n f w s z l
    cases c <;> simp only [Call.MayWrite] at w
    case setParent => rcases w with ⟨_, rfl⟩ | ⟨_, rfl⟩ <;> exact z l
    case removeParent => rcases w with ⟨_, rfl⟩ | ⟨_, rfl⟩ <;> exact z l
    case setMimicParent => rcases w with ⟨_, rfl⟩ | ⟨_, rfl⟩ | ⟨_, rfl⟩ <;> exact z l
    case setLink => obtain ⟨_, rfl⟩ := w; exact z l
    case setOrigin => obtain ⟨_, rfl⟩ := w; exact z l
    case setJointPositionClamped => obtain ⟨_, rfl⟩ := w; exact sameData_clamp _ _ _ (z l)
    case setJointPositionUnchecked => obtain ⟨_, rfl⟩ := w; exact z l
    case chainSetOrigin => obtain ⟨_, rfl⟩ := w; exact z l
    case setJointPositionsClamped =>
      obtain ⟨_, y, _, rfl⟩ := w; exact sameData_clamp _ _ _ (z l)
    case setJointPositionsUnchecked => obtain ⟨_, y, _, rfl⟩ := w; exact z l
    case updateTransforms => obtain ⟨_, t, rfl⟩ := w; exact z l
    case updateVelocities => rcases w with ⟨_, ⟨t, rfl⟩ | ⟨t, rfl⟩⟩ <;> exact z l
    case updateLinkTransforms => rcases w with ⟨_, ⟨t, rfl⟩ | ⟨t, rfl⟩⟩ <;> exact z l
    case cloneChain => exact absurd l (Nat.not_lt.2 w.1)
    case jacobian => obtain ⟨_, t, rfl⟩ := w; exact z l
    case centerOfMass => obtain ⟨_, t, rfl⟩ := w; exact z l
    case solve =>
      rcases w with ⟨_, t, rfl⟩ | ⟨_, y, rfl⟩
      · exact z l
      · exact sameData_clamp _ _ _ (z l)
  · cases c <;> simp only [Call.AllocOK]
    case newNode => exact fun m hm l => absurd l (Nat.not_lt.2 hm)
    case cloneChain => exact fun _ _ _ m hm l => absurd l (Nat.not_lt.2 hm)

theorem frozen_client (h : KHeap T) {α : Type} (cl : Client T α) :
    Safe h.next (fun n s => n < h.next → (h.get n).joint.sameData s.joint) (fun _ => True)
      cl.prog := by
  induction cl with
  | done x => trivial
  | call c k ih => exact (frozen_call h c).bind fun r _ => ih r

/-- **C54**.  Once a node exists, no client program changes the name, type, limits or velocity of its
joint, however the program ends. -/
theorem C54_frozen {α : Type} (cl : Client T α) (h : KHeap T) (n : NodeId) (hn : n < h.next) :
    match run cl.prog h with
    | .ok _ h' => (h.get n).joint.sameData (h'.get n).joint
    | .panic _ h' => (h.get n).joint.sameData (h'.get n).joint
    | .blocked _ h' => (h.get n).joint.sameData (h'.get n).joint
    | .diverged => True := by
  have i : HeapInv h.next (fun n s => n < h.next → (h.get n).joint.sameData s.joint) h :=
    ⟨Nat.le_refl _, fun n _ => ⟨rfl, rfl, rfl, rfl⟩⟩
  have := run_safe (frozen_client h cl) i
  cases e : run cl.prog h with
  | ok x h' => rw [e] at this; exact this.2.2 n hn
  | panic m h' => rw [e] at this; exact this.2 n hn
  | blocked m h' => rw [e] at this; exact this.2 n hn
  | diverged => trivial

/-- **C54**, for any number of client threads and any interleaving of their individual steps. -/
theorem C54_frozen_threads {α : Type} (cls : List (Client T α)) (h : KHeap T)
    (d : Config (NodeImpl T) α) (st : DSteps ⟨h, cls.map Client.prog⟩ d) (n : NodeId)
    (hn : n < h.next) : (h.get n).joint.sameData (d.heap.get n).joint := by
  have i : HeapInv h.next (fun n s => n < h.next → (h.get n).joint.sameData s.joint) h :=
    ⟨Nat.le_refl _, fun n _ => ⟨rfl, rfl, rfl, rfl⟩⟩
  exact (steps_safe (Q := fun _ => True) st (fun p hp => by
    obtain ⟨cl, _, rfl⟩ := List.mem_map.1 hp
    exact frozen_client h cl) i).2.2 n hn

/-- **C54**: a chain stays a chain.  What `from_nodes` (and so every chain constructor) computed from
the joint types - the list of movable nodes and the number of degrees of freedom - is what it would
compute after any execution of any client threads. -/
theorem C54_chain_data {α : Type} (cls : List (Client T α)) (h : KHeap T) (u : h.Unlocked)
    (ns : List NodeId) (hn : ∀ n ∈ ns, n < h.next)
    (d : Config (NodeImpl T) α) (st : DSteps ⟨h, cls.map Client.prog⟩ d) (ud : d.heap.Unlocked) :
    ∃ c, run (Chain.fromNodes ns : KProg T Chain) h = .ok c h ∧
      run (Chain.fromNodes ns : KProg T Chain) d.heap = .ok c d.heap := by
  have one : ∀ g : KHeap T, g.Unlocked → ∀ n,
      run (do return (← Node.joint n).isMovable : KProg T Bool) g
        = .ok (g.get n).joint.isMovable g := by
    intro g ug n
    simp only [run_bind, run_Node_joint _ _ (ug n), Res.bind_ok, run_pure]
  have all : ∀ g : KHeap T, g.Unlocked → run (Chain.fromNodes ns : KProg T Chain) g
      = .ok ⟨ns, ns.filter fun n => (g.get n).joint.isMovable,
          (ns.filter fun n => (g.get n).joint.isMovable).length⟩ g := by
    intro g ug
    unfold Chain.fromNodes
    rw [run_bind, run_filterList_pure (g := fun n => (g.get n).joint.isMovable)
      fun n _ => one g ug n]
    rfl
  refine ⟨_, all h u, ?_⟩
  rw [all d.heap ud]
  have : (ns.filter fun n => (d.heap.get n).joint.isMovable)
      = ns.filter fun n => (h.get n).joint.isMovable := by
    apply List.filter_congr
    intro n m
    have := (C54_frozen_threads cls h d st n (hn n m)).2.1
    unfold Joint.isMovable; rw [this]
  rw [this]

/-- a client that sets, clamps and moves a node leaves its limits alone -/
example : ∃ (h : KHeap ℝ) (cl : Client ℝ Unit),
    (0 : Nat) < h.next ∧ ∃ h', run cl.prog h = .ok () h' ∧ (h'.get 0).joint.position = 1 ∧
      (h.get 0).joint.position = 0 := by
  refine ⟨{ get := fun _ => NodeImpl.fresh (Joint.new "j" (.rotational ⟨0, 1, 0⟩)), next := 1,
            dead := fun _ => false, held := fun _ => false },
    .call (.setJointPositionUnchecked 0 1) fun _ => .done (), by decide, ?_⟩
  refine ⟨_, rfl, ?_, rfl⟩
  rfl

end K
