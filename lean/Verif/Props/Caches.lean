import Verif.Lemmas.Calls
import Verif.Props.Fk
import Verif.Props.Mimic
/-!
# C15, C16, C17: caches, velocities, link transforms
-/

set_option linter.unusedSectionVars false

namespace K
open Prog
variable {T : Type} [Scalar T]

/-! ## C15 -/

/-- what `world_transform()` of node `m` answers in state `h` -/
def cached (h : KHeap T) (m : NodeId) : Option (Iso T) := (h.get m).joint.worldTransformCache

/-- **C15** (meaning of `cached`): it is the answer of `world_transform()`. -/
theorem C15_world_transform (h : KHeap T) (u : h.Unlocked) (m : NodeId) :
    run (Node.worldTransform m) h = .ok (cached h m) h := run_Node_worldTransform m h (u m)

private theorem one_write {p : KProg T Unit} {h h' : KHeap T} {n : NodeId} {f : Joint T → Joint T}
    (e : run p h = .ok () (h.modify n fun s => { s with joint := f s.joint }))
    (hf : (f (h.get n).joint).worldTransformCache = none) (ok : run p h = .ok () h') :
    cached h' n = none ∧ ∀ m, m ≠ n → h'.get m = h.get m ∧ cached h' m = cached h m := by
  rw [e] at ok; cases ok
  refine ⟨by simp [cached, hf], fun m hm => ?_⟩
  have : (h.modify n fun s => { s with joint := f s.joint }).get m = h.get m :=
    Heap.get_modify_of_ne _ _ hm
  exact ⟨this, by unfold cached; rw [this]⟩

/-- **C15** (`set_origin`).  It always returns, clears the cached transform of that node and leaves every
other node as it was. -/
theorem C15_set_origin (h : KHeap T) (u : h.Unlocked) (n : NodeId) (t : Iso T) :
    ∃ h', run (Node.setOrigin n t) h = .ok () h' ∧ cached h' n = none ∧
      ∀ m, m ≠ n → h'.get m = h.get m ∧ cached h' m = cached h m :=
  ⟨_, run_Node_setOrigin n t h u,
    one_write (f := fun j => j.setOrigin t) (run_Node_setOrigin n t h u) rfl
      (run_Node_setOrigin n t h u)⟩

/-- **C15** (`set_joint_position_clamped` on a movable joint). -/
theorem C15_set_joint_position_clamped (h : KHeap T) (u : h.Unlocked) (n : NodeId) (x : T)
    (mv : (h.get n).joint.jointType ≠ .fixed) :
    ∃ h', run (Node.setJointPositionClamped n x) h = .ok () h' ∧ cached h' n = none ∧
      ∀ m, m ≠ n → h'.get m = h.get m ∧ cached h' m = cached h m :=
  ⟨_, run_Node_setJointPositionClamped n x h u,
    one_write (f := fun j => j.setJointPositionClamped x)
      (run_Node_setJointPositionClamped n x h u) (by
        have := (isMovable_iff (h.get n).joint).2 mv
        simp [Joint.setJointPositionClamped, this, Joint.setJointPositionUnchecked])
      (run_Node_setJointPositionClamped n x h u)⟩

/-- **C15** (`set_joint_position_unchecked`, any joint). -/
theorem C15_set_joint_position_unchecked (h : KHeap T) (u : h.Unlocked) (n : NodeId) (x : T) :
    ∃ h', run (Node.setJointPositionUnchecked n x) h = .ok () h' ∧ cached h' n = none ∧
      ∀ m, m ≠ n → h'.get m = h.get m ∧ cached h' m = cached h m :=
  ⟨_, run_Node_setJointPositionUnchecked n x h u,
    one_write (f := fun j => j.setJointPositionUnchecked x)
      (run_Node_setJointPositionUnchecked n x h u) rfl
      (run_Node_setJointPositionUnchecked n x h u)⟩

private theorem setJoint_keeps_none (h : KHeap T) (n k : NodeId) (x : T) (e : cached h k = none) :
    cached (h.setJoint n x) k = none := by
  unfold cached at *
  by_cases hk : k = n
  · subst hk
    rw [setJoint_get_joint]
    cases r : ((h.get k).joint.setJointPosition x).2 with
    | error er => rw [(C01_err _ _ _ r).1]; exact e
    | ok w => rw [(C01_ok_effect _ _ r).1]
  · rw [setJoint_get_of_ne h x hk]; exact e

private theorem mimicLoop_keeps_none (x : T) (cs : List NodeId) (h : KHeap T) (k : NodeId)
    (e : cached h k = none) : cached (mimicLoop x cs h).2 k = none := by
  induction cs generalizing h with
  | nil => exact e
  | cons c cs ih =>
    simp only [mimicLoop]
    split
    · exact e
    · split
      · exact setJoint_keeps_none h c k _ e
      · exact ih _ (setJoint_keeps_none h c k _ e)

private theorem mimicLoop_clears (x : T) (cs : List NodeId) (h : KHeap T)
    (wf : ∀ c ∈ cs, (h.get c).mimic.isSome) (ok : (mimicLoop x cs h).1 = .ok ()) :
    ∀ c ∈ cs, cached (mimicLoop x cs h).2 c = none := by
  induction cs generalizing h with
  | nil => intro c hc; cases hc
  | cons d cs ih =>
    obtain ⟨m, hm⟩ := Option.isSome_iff_exists.1 (wf d (by simp))
    simp only [mimicLoop, hm] at ok ⊢
    cases r : ((h.get d).joint.setJointPosition (m.mimicPosition x)).2 with
    | error er => rw [r] at ok; cases ok
    | ok w =>
      simp only [r] at ok ⊢
      intro c hc
      rcases List.mem_cons.1 hc with rfl | hc
      · refine mimicLoop_keeps_none x cs _ c ?_
        unfold cached
        rw [setJoint_get_joint, (C01_ok_effect _ _ r).1]
      · exact ih _ (fun c hc => by rw [setJoint_get_mimic]; exact wf c (by simp [hc])) ok c hc

/-- **C15** (`set_joint_position` answering `Ok`): the transforms of the node and of its mimic children,
which moved with it, are cleared; every other node is as it was. -/
theorem C15_set_joint_position (h h' : KHeap T) (u : h.Unlocked) (wf : MimicWF h) (n : NodeId) (x : T)
    (nm : (h.get n).mimicParent = none)
    (ok : run (Node.setJointPosition n x) h = .ok (.ok ()) h') :
    cached h' n = none ∧ (∀ c ∈ (h.get n).mimicChildren, cached h' c = none) ∧
    ∀ m, m ≠ n → m ∉ (h.get n).mimicChildren → h'.get m = h.get m ∧ cached h' m = cached h m := by
  have fr := (C05_children_follow h h' u wf n x nm ok).2.2.1
  rw [run_setJointPosition n x h u wf] at ok
  obtain ⟨o1, o2⟩ : (setPos n x h).1 = .ok () ∧ (setPos n x h).2 = h' := by
    injection ok with a b; exact ⟨a, b⟩
  subst o2
  simp only [setPos, nm, Option.isSome_none, Bool.false_eq_true, if_false] at o1 ⊢
  cases r : ((h.get n).joint.setJointPosition x).2 with
  | error er => rw [r] at o1; cases o1
  | ok w =>
    simp only [r] at o1 ⊢
    refine ⟨mimicLoop_keeps_none x _ _ n ?_, mimicLoop_clears x _ _ ?_ o1, ?_⟩
    · unfold cached; rw [setJoint_get_joint, (C01_ok_effect _ _ r).1]
    · intro c hc; rw [setJoint_get_mimic]; exact (wf n c hc).2
    · intro m hm hmc
      have := fr m hm hmc
      simp only [setPos, nm, Option.isSome_none, Bool.false_eq_true, if_false, r] at this
      exact ⟨this, by unfold cached; rw [this]⟩

/-- The calls that never compute a world transform: everything but `update_transforms` and the calls
built on it (velocities, link transforms, Jacobian, center of mass, inverse kinematics). -/
def NoTransformCall {β : Type} : Call T β → Prop
  | .updateTransforms _ | .updateVelocities _ | .updateLinkTransforms _ | .jacobian _
  | .centerOfMass _ | .solve _ _ _ _ => False
  | _ => True

/-- **C15** (histories).  Whatever a client does without computing transforms, the cached transform of
every existing node is at all times the one it had at the start or `None`: descendants of a moved joint
keep their old value. -/
theorem C15_only_updates_fill {α : Type} (cl : Client T α) (a : cl.Only NoTransformCall) (h h' : KHeap T)
    (r : α) (e : run cl.prog h = .ok r h') (n : NodeId) (hn : n < h.next) :
    cached h' n = cached h n ∨ cached h' n = none := by
  let P : NodeId → NodeImpl T → Prop := fun m s => m < h.next →
    s.joint.worldTransformCache = cached h m ∨ s.joint.worldTransformCache = none
  have hset : ∀ m y s, P m s → P m { s with joint := (s.joint.setJointPosition y).1 } := by
    intro m y s hs hm
    cases r : (s.joint.setJointPosition y).2 with
    | error er => simp only [(C01_err _ _ _ r).1]; exact hs hm
    | ok w => right; simp only [(C01_ok_effect _ _ r).1]
  have hcl : ∀ m y s, P m s → P m { s with joint := s.joint.setJointPositionClamped y } := by
    intro m y s hs hm
    unfold Joint.setJointPositionClamped
    split
    · exact hs hm
    · exact .inr rfl
  have safe : Safe h.next P (fun _ => True) cl.prog := by
    refine safe_client_of (φ := NoTransformCall) ?_ cl a
    intro β c hc
    refine safe_call c ?_ (fun n _ => .all hset n) ?_
    · intro m f hf s hs
      cases c <;> first
        | exact hc.elim
        | exact hf.elim
        | skip
      case setParent => rcases hf with ⟨-, rfl⟩ | ⟨-, rfl⟩ <;> exact hs
      case removeParent => rcases hf with ⟨-, rfl⟩ | ⟨-, rfl⟩ <;> exact hs
      case setMimicParent => rcases hf with ⟨-, rfl⟩ | ⟨-, rfl⟩ | ⟨-, rfl⟩ <;> exact hs
      case setLink => rcases hf with ⟨-, rfl⟩; exact hs
      case setOrigin => rcases hf with ⟨-, rfl⟩; exact fun _ => .inr rfl
      case setJointPositionClamped => rcases hf with ⟨-, rfl⟩; exact hcl m _ s hs
      case setJointPositionUnchecked => rcases hf with ⟨-, rfl⟩; exact fun _ => .inr rfl
      case chainSetOrigin => rcases hf with ⟨-, rfl⟩; exact fun _ => .inr rfl
      case setJointPositionsClamped => rcases hf with ⟨-, y, -, rfl⟩; exact hcl m _ s hs
      case setJointPositionsUnchecked => rcases hf with ⟨-, y, -, rfl⟩; exact fun _ => .inr rfl
      case cloneChain =>
        rcases hf with ⟨-, ⟨_, rfl⟩ | ⟨_, rfl⟩ | ⟨_, -, rfl⟩ | ⟨_, rfl⟩ | ⟨_, -, rfl⟩ | ⟨_, rfl⟩⟩ <;> exact hs
    · cases c <;> first
        | trivial
        | exact hc.elim
        | exact fun m hm hm' => absurd hm' (Nat.not_lt.2 hm)
        | exact fun _ _ _ m hm hm' => absurd hm' (Nat.not_lt.2 hm)
  exact (run_safe_ok safe ⟨Nat.le_refl _, fun m hm => .inl rfl⟩ e).2.2 n hn

/-- two linear joints, 1 below 0, with caches filled for positions 0 -/
noncomputable def exStale : KHeap ℝ :=
  { get := fun n =>
      let j : Joint ℝ := (Joint.new "j" (.linear ⟨1, 0, 0⟩)).setWorldTransform Iso.one
      if n = 0 then { NodeImpl.fresh j with children := [1] }
      else { NodeImpl.fresh j with parent := some 0 }
    next := 2, dead := fun _ => false, held := fun _ => false }

private theorem exStale_world0 : World exStale 0 Iso.one := by
  have h0 : liveParent exStale 0 = none := by simp [liveParent, exStale, NodeImpl.fresh]
  have l0 : (exStale.get 0).joint.localTransform = Iso.one := by
    simp [exStale, NodeImpl.fresh, Joint.new, Joint.setWorldTransform, Joint.localTransform,
      Joint.jointTransform, V3.scale, Iso.one_mul', Iso.one, V3.zero]
    exact Iso.one_mul' _
  have := World.root h0
  rwa [l0, Iso.mul_one'] at this

/-- **C15** (stale descendants).  Moving joint 0 leaves node 1 with a cached transform that is not its
pose any more, although it was before. -/
theorem C15_descendants_stale : ∃ (h h' : KHeap ℝ) (X Y : Iso ℝ), h.Unlocked ∧
    cached h 1 = some X ∧ World h 1 X ∧
    run (Node.setJointPosition 0 1) h = .ok (.ok ()) h' ∧
    cached h' 0 = none ∧ cached h' 1 = some X ∧ World h' 1 Y ∧ X ≠ Y := by
  have u : exStale.Unlocked := fun _ => rfl
  have wf : MimicWF exStale := by
    intro m c hc
    simp only [exStale] at hc
    split at hc <;> simp [NodeImpl.fresh] at hc
  have nm : (exStale.get 0).mimicParent = none := by simp [exStale, NodeImpl.fresh]
  have nc : (exStale.get 0).mimicChildren = [] := by simp [exStale, NodeImpl.fresh]
  have ok : run (Node.setJointPosition 0 1) exStale = .ok (.ok ()) (exStale.setJoint 0 1) := by
    rw [run_setJointPosition 0 1 exStale u wf]
    have : ((exStale.get 0).joint.setJointPosition 1).2 = .ok () := by
      simp [exStale, NodeImpl.fresh, Joint.new, Joint.setWorldTransform, Joint.setJointPosition,
        Joint.isMovable]
    simp only [setPos, nm, nc, Option.isSome_none, Bool.false_eq_true, if_false, this, mimicLoop]
  obtain ⟨c0, -, fr⟩ := C15_set_joint_position _ _ u wf 0 1 nm ok
  have f1 := fr 1 (by decide) (by simp [nc])
  have c1 : cached exStale 1 = some Iso.one := by
    simp [cached, exStale, NodeImpl.fresh, Joint.setWorldTransform]
  have lp1 : liveParent exStale 1 = some 0 := by simp [liveParent, exStale]
  have l1 : (exStale.get 1).joint.localTransform = Iso.one := by
    simp [exStale, NodeImpl.fresh, Joint.new, Joint.setWorldTransform, Joint.localTransform,
      Joint.jointTransform, V3.scale, Iso.one, V3.zero]
    exact Iso.one_mul' _
  have w1 : World exStale 1 Iso.one := by
    have := World.step lp1 exStale_world0
    rwa [l1, Iso.one_mul'] at this
  have lp1' : liveParent (exStale.setJoint 0 1) 1 = some 0 := by
    unfold liveParent; rw [f1.1]; simp [exStale, Heap.setJoint]
  have lp0' : liveParent (exStale.setJoint 0 1) 0 = none := by
    simp [liveParent, exStale, Heap.setJoint, NodeImpl.fresh]
  have l0' : ((exStale.setJoint 0 1).get 0).joint.localTransform = ⟨⟨1, 0, 0⟩, Quat.one⟩ := by
    rw [setJoint_get_joint]
    have : ((exStale.get 0).joint.setJointPosition 1).1.localTransform =
        Iso.one.mul ⟨⟨1, 0, 0⟩, Quat.one⟩ := by
      simp [exStale, NodeImpl.fresh, Joint.new, Joint.setWorldTransform, Joint.setJointPosition,
        Joint.isMovable, Joint.localTransform, Joint.jointTransform, V3.scale]
    rw [this, Iso.one_mul']
  have w1' : World (exStale.setJoint 0 1) 1 ⟨⟨1, 0, 0⟩, Quat.one⟩ := by
    have := World.step lp1' (World.root lp0')
    rwa [l0', f1.1, l1, Iso.one_mul', Iso.mul_one'] at this
  refine ⟨exStale, _, _, _, u, c1, w1, ok, c0, f1.2.trans c1, w1', ?_⟩
  intro e
  have := congrArg (fun X : Iso ℝ => X.trans.x) e
  simp [Iso.one, V3.zero] at this

end K
