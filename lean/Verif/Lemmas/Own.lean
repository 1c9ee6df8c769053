import Verif.Lemmas.Deadlock
/-!
# Every call touches only what it has locked and unlocks what it locks

Unlike `keep_call` this needs nothing of the state or of the call.
-/

set_option linter.unusedSectionVars false

namespace K
open Prog
variable {T : Type} [Scalar T] {α β : Type}

/-- the lock discipline without any condition on states and lock order -/
abbrev Own (Q : List NodeId → α → Prop) (p : KProg T α) (L : List NodeId) : Prop :=
  Lk (fun _ _ => True) (fun _ => True) 0 (fun _ _ => True) (fun _ _ => True) Q p L

theorem own_updateVelocity (n : NodeId) :
    Own (T := T) (fun L' _ => L' = [] ∧ True) (Chain.updateVelocity n) [] := by
  refine Keep.lk (keep_Node_parentWorldTransform (fun _ => trivial) n) fun _ _ => ?_
  refine Keep.lk (keep_expect' trivial) fun _ _ => ?_
  refine Keep.lk (Q := fun _ => True) ?_ fun _ _ => ?_
  · refine Keep.lk (keep_Node_parent trivial) fun o _ => ?_
    cases o with
    | none => exact keep_pure'
    | some p => exact keep_Node_worldVelocity trivial
  refine Keep.lk (keep_expect' trivial) fun _ _ => ?_
  refine lk_lock trivial (lk_read fun s _ => ?_)
  refine Keep.lk (Q := fun _ => True) ?_ fun _ _ => lk_unlock
    (Keep.lk (keep_poke trivial trivial) fun _ _ => keep_pure')
  cases s.joint.jointType with
  | fixed => exact keep_pure'
  | rotational axis =>
    refine Keep.lk (keep_Node_parent trivial) fun _ _ => Keep.lk (keep_expect' trivial) fun _ _ => ?_
    refine Keep.lk (keep_Node_joint trivial) fun _ _ => ?_
    refine Keep.lk (keep_Node_worldTransform trivial) fun _ _ =>
      Keep.lk (keep_expect' trivial) fun _ _ => ?_
    refine Keep.lk (keep_Node_joint trivial) fun _ _ => Keep.lk (keep_expect' trivial) fun _ _ => ?_
    exact keep_pure'
  | linear axis =>
    refine Keep.lk (keep_Node_worldTransform trivial) fun _ _ =>
      Keep.lk (keep_expect' trivial) fun _ _ => ?_
    refine Keep.lk (keep_Node_joint trivial) fun _ _ => Keep.lk (keep_expect' trivial) fun _ _ => ?_
    exact keep_pure'

/-- Every call, in every state: it reads and writes only nodes whose mutex it has locked, and when it
returns it has unlocked all of them. -/
theorem own_call (c : Call T β) : Own (fun L' _ => L' = [] ∧ True) c.prog [] := by
  have mc : ∀ (n : NodeId) (s : NodeImpl T), True → s.mimicParent = none → ∀ c ∈ s.mimicChildren,
      True ∧ ∀ s' : NodeImpl T, True → s'.mimic = none → True ∧ True :=
    fun _ _ _ _ _ _ => ⟨trivial, fun _ _ _ => ⟨trivial, trivial⟩⟩
  have a0 : ∀ _ : NodeId, True := fun _ => trivial
  cases c with
  | newNode j => exact fun m hm => ⟨trivial, rfl, trivial⟩
  | setParent n p => exact keep_Node_setParent trivial trivial trivial trivial
  | removeParent n p => exact keep_Node_removeParent trivial trivial trivial trivial
  | setMimicParent n p m => exact keep_Node_setMimicParent trivial trivial trivial trivial trivial
  | setLink n k => exact keep_poke trivial trivial
  | setOrigin n t => exact keep_poke trivial trivial
  | setJointPosition n x => exact keep_Node_setJointPosition trivial (mc n) fun _ _ => trivial
  | setJointPositionClamped n x => exact keep_poke trivial trivial
  | setJointPositionUnchecked n x => exact keep_poke trivial trivial
  | joint n => exact keep_Node_joint trivial
  | jointPosition n => exact keep_Node_jointPosition trivial
  | parent n => exact keep_Node_parent trivial
  | mimicParent n => exact keep_Node_mimicParent trivial
  | children n => exact keep_Node_children trivial
  | link n => exact keep_Node_link trivial
  | isRoot n => exact keep_Node_isRoot trivial
  | isEnd n => exact keep_Node_isEnd trivial
  | origin n => exact keep_Node_origin trivial
  | worldTransform n => exact keep_Node_worldTransform trivial
  | worldVelocity n => exact keep_Node_worldVelocity trivial
  | iterAncestors fuel n => exact keep_ancestors a0 _ _
  | iterDescendants fuel n => exact keep_descendants a0 _ _
  | fromNodes ns => exact Chain.keep_fromNodes a0 ns
  | fromRoot fuel n => exact Chain.keep_fromRoot a0 _ _
  | fromEnd fuel n => exact Chain.keep_fromEnd a0 _ _
  | fromEndToRoot fuel e r => exact Chain.keep_fromEndToRoot a0 _ _ _
  | chainSetOrigin c t => exact Chain.keep_setOrigin a0 trivial c t fun _ _ => trivial
  | chainOrigin c => exact Chain.keep_origin a0 trivial c
  | iterJoints c => exact Chain.keep_iterJoints a0 c
  | iterLinks c => exact Chain.keep_iterLinks a0 (fun _ => trivial) c
  | find c name => exact Chain.keep_find a0 c name
  | jointPositions c => exact Chain.keep_jointPositions a0 (fun _ => trivial) c
  | setJointPositions c xs => exact Chain.keep_setJointPositions a0 c xs mc fun _ _ => trivial
  | setJointPositionsClamped c xs =>
    exact Chain.keep_setJointPositionsClamped a0 c xs fun _ _ _ _ => trivial
  | setJointPositionsUnchecked c xs =>
    exact Chain.keep_setJointPositionsUnchecked a0 c xs fun _ _ _ _ => trivial
  | updateTransforms c => exact Chain.keep_updateTransforms a0 trivial c fun _ _ => trivial
  | updateVelocities c =>
    refine Keep.lk (Chain.keep_updateTransforms a0 trivial c fun _ _ => trivial) fun _ _ => ?_
    exact (keep_mapList (Q := fun _ => True) fun n _ => own_updateVelocity n).true
  | updateLinkTransforms c =>
    exact Chain.keep_updateLinkTransforms a0 trivial c (fun _ _ => trivial) fun _ _ => trivial
  | cloneChain f c =>
    exact Chain.keep_clone a0 trivial c f (fun _ _ _ _ => trivial) (fun _ _ _ _ _ _ => trivial)
      (fun _ _ _ _ => trivial) fun _ _ _ _ _ _ _ _ => trivial
  | tryNew c => exact Chain.keep_tryNew a0 trivial c
  | endTransform c => exact Chain.keep_endTransform a0 c
  | display fuel c =>
    exact Chain.keep_display trivial c (fun _ _ => True) (fun _ _ _ => trivial)
      (fun _ _ _ _ _ _ _ => trivial) a0 fuel
  | jacobian c => exact keep_jacobian a0 trivial (fun _ => trivial) c fun _ _ => trivial
  | centerOfMass c => exact keep_centerOfMass a0 trivial c fun _ _ => trivial
  | solve s c t cs =>
    exact keep_solveWithConstraints a0 trivial (fun _ => trivial) s c t cs (fun _ _ => trivial)
      (fun _ _ => trivial) mc fun _ _ => trivial

end K
