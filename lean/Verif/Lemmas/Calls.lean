import Verif.Lemmas.Safe
/-!
# Which writes a call may make

`Call.MayWrite lo c n f`: the call may, when ids below `lo` are taken, replace the content `s` of node `n` by `f s`.  An invariant of
single nodes that is kept by these writes is kept by the call, and so by every client (`safe_client`).
-/

set_option linter.unusedSectionVars false

namespace K
open Prog
variable {T : Type} [Scalar T]

/-- the write of `set_world_transform` -/
def WTrans (f : NodeImpl T → NodeImpl T) : Prop :=
  ∃ t, f = fun s => { s with joint := s.joint.setWorldTransform t }
/-- the write of a clamped setter -/
def WClamp (f : NodeImpl T → NodeImpl T) : Prop :=
  ∃ y, f = fun s => { s with joint := s.joint.setJointPositionClamped y }

/-- an upper bound of the writes of a call, apart from those of `set_joint_position` -/
def Call.MayWrite (lo : Nat) {β : Type} : Call T β → NodeId → (NodeImpl T → NodeImpl T) → Prop
  | .setParent n p, m, f => (m = n ∧ f = fun s => { s with parent := some p }) ∨
      (m = p ∧ f = fun s => { s with children := s.children ++ [n] })
  | .removeParent n p, m, f => (m = n ∧ f = fun s => { s with parent := none }) ∨
      (m = p ∧ f = fun s => { s with children := s.children.filter (fun x => x != n) })
  | .setMimicParent n p mi, m, f => (m = n ∧ f = fun s => { s with mimicParent := some p }) ∨
      (m = p ∧ f = fun s => { s with mimicChildren := s.mimicChildren ++ [n] }) ∨
      (m = n ∧ f = fun s => { s with mimic := some mi })
  | .setLink n l, m, f => m = n ∧ f = fun s => { s with link := l }
  | .setOrigin n t, m, f => m = n ∧ f = fun s => { s with joint := s.joint.setOrigin t }
  | .setJointPositionClamped n x, m, f =>
      m = n ∧ f = fun s => { s with joint := s.joint.setJointPositionClamped x }
  | .setJointPositionUnchecked n x, m, f =>
      m = n ∧ f = fun s => { s with joint := s.joint.setJointPositionUnchecked x }
  | .chainSetOrigin c t, m, f =>
      m ∈ c.nodes ∧ f = fun s => { s with joint := s.joint.setOrigin t }
  | .setJointPositionsClamped c xs, m, f => m ∈ c.movableNodes ∧ ∃ y ∈ xs,
      f = fun s => { s with joint := s.joint.setJointPositionClamped y }
  | .setJointPositionsUnchecked c xs, m, f => m ∈ c.movableNodes ∧ ∃ y ∈ xs,
      f = fun s => { s with joint := s.joint.setJointPositionUnchecked y }
  | .updateTransforms c, m, f => m ∈ c.nodes ∧ WTrans f
  | .updateVelocities c, m, f => m ∈ c.nodes ∧ (WTrans f ∨
      ∃ v, f = fun s => { s with joint := s.joint.setWorldVelocity v })
  | .updateLinkTransforms c, m, f => m ∈ c.nodes ∧ (WTrans f ∨
      ∃ t, f = fun s => { s with link := s.link.map (Chain.placeLink t) })
  | .cloneChain _ _, m, f => lo ≤ m ∧ ((∃ l, f = fun s => { s with link := l }) ∨
      (∃ p, f = fun s => { s with parent := some p }) ∨
      (∃ c, lo ≤ c ∧ f = fun s => { s with children := s.children ++ [c] }) ∨
      (∃ p, f = fun s => { s with mimicParent := some p }) ∨
      (∃ c, lo ≤ c ∧ f = fun s => { s with mimicChildren := s.mimicChildren ++ [c] }) ∨
      (∃ mi, f = fun s => { s with mimic := some mi }))
  | .jacobian c, m, f => m ∈ c.nodes ∧ WTrans f
  | .centerOfMass c, m, f => m ∈ c.nodes ∧ WTrans f
  | .solve _ c _ _, m, f => (m ∈ c.nodes ∧ WTrans f) ∨ (m ∈ c.movableNodes ∧ WClamp f)
  | _, _, _ => False

/-- the nodes on which a call may call `set_joint_position` -/
def Call.MaySet {β : Type} : Call T β → NodeId → Prop
  | .setJointPosition n _, m => m = n
  | .setJointPositions c _, m => m ∈ c.movableNodes
  | .solve _ c _ _, m => m ∈ c.movableNodes
  | _, _ => False

/-- what new nodes must satisfy -/
def Call.AllocOK {β : Type} (lo : Nat) (P : NodeId → NodeImpl T → Prop) : Call T β → Prop
  | .newNode j => ∀ m, lo ≤ m → P m (NodeImpl.fresh j)
  | .cloneChain _ _ => ∀ n s, P n s → ∀ m, lo ≤ m → P m (NodeImpl.fresh s.joint)
  | _ => True

variable {lo : Nat} {P : NodeId → NodeImpl T → Prop}

theorem safe_call {β : Type} (c : Call T β)
    (w : ∀ n f, c.MayWrite lo n f → ∀ s, P n s → P n (f s)) (st : ∀ n, c.MaySet n → SetOK P n)
    (al : c.AllocOK lo P) :
    Safe lo P (fun _ => True) c.prog := by
  cases c with
  | newNode j => exact (safe_doAlloc al).true
  | setParent n p =>
    exact (safe_poke (w n _ (.inl ⟨rfl, rfl⟩))).bind fun _ _ => safe_poke (w p _ (.inr ⟨rfl, rfl⟩))
  | removeParent n p =>
    exact (safe_poke (w n _ (.inl ⟨rfl, rfl⟩))).bind fun _ _ => safe_poke (w p _ (.inr ⟨rfl, rfl⟩))
  | setMimicParent n p m =>
    exact (safe_poke (w n _ (.inl ⟨rfl, rfl⟩))).bind fun _ _ =>
      (safe_poke (w p _ (.inr (.inl ⟨rfl, rfl⟩)))).bind fun _ _ =>
      safe_poke (w n _ (.inr (.inr ⟨rfl, rfl⟩)))
  | setLink n l => exact safe_poke (w n _ ⟨rfl, rfl⟩)
  | setOrigin n t => exact safe_poke (w n _ ⟨rfl, rfl⟩)
  | setJointPosition n x => exact safe_Node_setJointPosition n x (st n rfl)
  | setJointPositionClamped n x => exact safe_poke (w n _ ⟨rfl, rfl⟩)
  | setJointPositionUnchecked n x => exact safe_poke (w n _ ⟨rfl, rfl⟩)
  | joint n => exact (safe_Node_joint n).true
  | jointPosition n => exact safe_Node_jointPosition n
  | parent n => exact safe_Node_parent n
  | mimicParent n => exact safe_Node_mimicParent n
  | children n => exact safe_Node_children n
  | link n => exact safe_Node_link n
  | isRoot n => exact safe_Node_isRoot n
  | isEnd n => exact safe_Node_isEnd n
  | origin n => exact safe_Node_origin n
  | worldTransform n => exact safe_Node_worldTransform n
  | worldVelocity n => exact safe_Node_worldVelocity n
  | iterAncestors fuel n => exact safe_ancestors _ _
  | iterDescendants fuel n => exact safe_descendants _ _
  | fromNodes ns => exact Chain.safe_fromNodes ns
  | fromRoot fuel n => exact Chain.safe_fromRoot _ _
  | fromEnd fuel n => exact Chain.safe_fromEnd _ _
  | fromEndToRoot fuel e r => exact Chain.safe_fromEndToRoot _ _ _
  | chainSetOrigin c t =>
    show Safe _ _ _ (c.setOrigin t)
    unfold Chain.setOrigin; split
    · trivial
    · rename_i e; exact safe_poke (w _ _ ⟨by simp [e], rfl⟩)
  | chainOrigin c =>
    show Safe _ _ _ c.origin
    unfold Chain.origin; split
    · trivial
    · exact safe_Node_origin _
  | iterJoints c => exact Chain.safe_iterJoints c
  | iterLinks c => exact Chain.safe_iterLinks c
  | find c name => exact Chain.safe_find c name
  | jointPositions c => exact Chain.safe_jointPositions' c
  | setJointPositions c xs => exact Chain.safe_setJointPositions c xs st
  | setJointPositionsClamped c xs =>
    exact Chain.safe_setJointPositionsClamped c xs fun n hn y hy => w n _ ⟨hn, y, hy, rfl⟩
  | setJointPositionsUnchecked c xs =>
    exact Chain.safe_setJointPositionsUnchecked c xs fun n hn y hy => w n _ ⟨hn, y, hy, rfl⟩
  | updateTransforms c =>
    exact Chain.safe_updateTransforms c fun n hn t => w n _ ⟨hn, t, rfl⟩
  | updateVelocities c =>
    exact Chain.safe_updateVelocities c (fun n hn t => w n _ ⟨hn, .inl ⟨t, rfl⟩⟩)
      fun n hn v => w n _ ⟨hn, .inr ⟨v, rfl⟩⟩
  | updateLinkTransforms c =>
    exact Chain.safe_updateLinkTransforms c (fun n hn t => w n _ ⟨hn, .inl ⟨t, rfl⟩⟩)
      fun n hn v => w n _ ⟨hn, .inr ⟨v, rfl⟩⟩
  | cloneChain fuel c =>
    exact Chain.safe_clone c fuel al (fun n hn l => w n _ ⟨hn, .inl ⟨l, rfl⟩⟩)
      (fun n hn p => w n _ ⟨hn, .inr (.inl ⟨p, rfl⟩)⟩)
      (fun n hn p hp => w n _ ⟨hn, .inr (.inr (.inl ⟨p, hp, rfl⟩))⟩)
      (fun n hn p => w n _ ⟨hn, .inr (.inr (.inr (.inl ⟨p, rfl⟩)))⟩)
      (fun n hn p hp => w n _ ⟨hn, .inr (.inr (.inr (.inr (.inl ⟨p, hp, rfl⟩))))⟩)
      (fun n hn p => w n _ ⟨hn, .inr (.inr (.inr (.inr (.inr ⟨p, rfl⟩))))⟩)
  | tryNew c => exact Chain.safe_tryNew c
  | endTransform c => exact Chain.safe_endTransform c
  | display fuel c => exact Chain.safe_display c fuel
  | jacobian c => exact safe_jacobian c fun n hn t => w n _ ⟨hn, t, rfl⟩
  | centerOfMass c => exact safe_centerOfMass c fun n hn t => w n _ ⟨hn, t, rfl⟩
  | solve s c target cs =>
    exact safe_solveWithConstraints s c target cs (fun n hn t => w n _ (.inl ⟨hn, t, rfl⟩))
      (fun n hn y => w n _ (.inr ⟨hn, y, rfl⟩)) st

/-- a client all of whose calls keep the invariant -/
theorem safe_client_of {φ : ∀ {β : Type}, Call T β → Prop}
    (hφ : ∀ {β : Type} (c : Call T β), φ c → Safe lo P (fun _ => True) c.prog) {α : Type}
    (cl : Client T α) (a : cl.Only φ) : Safe lo P (fun _ => True) cl.prog := by
  induction cl with
  | done x => trivial
  | call c k ih => exact (hφ c a.1).bind fun r _ => ih r (a.2 r)

end K
