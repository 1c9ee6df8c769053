import Verif.Spec.Api
import Mathlib.Logic.Equiv.Defs
/-!
# Specification: the same robots, made of other node objects

`ρ` exchanges node objects.  Renaming a memory moves the content of every node to another object and redirects all
handles; renaming a client gives it the other handles.
-/

namespace K
open Prog
variable {T : Type} {α β : Type}

/-- the content of a node with all handles redirected -/
def NodeImpl.rename (ρ : Equiv.Perm NodeId) (s : NodeImpl T) : NodeImpl T :=
  { s with
    parent := s.parent.map ρ
    children := s.children.map ρ
    mimicParent := s.mimicParent.map ρ
    mimicChildren := s.mimicChildren.map ρ }

/-- the memory in which the object `ρ n` plays the role of `n` -/
def Heap.rename (ρ : Equiv.Perm NodeId) (h : KHeap T) : KHeap T where
  get n := (h.get (ρ.symm n)).rename ρ
  next := h.next
  dead n := h.dead (ρ.symm n)
  held n := h.held (ρ.symm n)

def Chain.rename (ρ : Equiv.Perm NodeId) (c : Chain) : Chain :=
  ⟨c.nodes.map ρ, c.movableNodes.map ρ, c.dof⟩

/-- the same call for the other objects -/
def Call.rename {β : Type} (ρ : Equiv.Perm NodeId) : Call T β → Call T β
  | .newNode j => .newNode j
  | .setParent n p => .setParent (ρ n) (ρ p)
  | .removeParent n p => .removeParent (ρ n) (ρ p)
  | .setMimicParent n p m => .setMimicParent (ρ n) (ρ p) m
  | .setLink n l => .setLink (ρ n) l
  | .setOrigin n t => .setOrigin (ρ n) t
  | .setJointPosition n x => .setJointPosition (ρ n) x
  | .setJointPositionClamped n x => .setJointPositionClamped (ρ n) x
  | .setJointPositionUnchecked n x => .setJointPositionUnchecked (ρ n) x
  | .joint n => .joint (ρ n)
  | .jointPosition n => .jointPosition (ρ n)
  | .parent n => .parent (ρ n)
  | .mimicParent n => .mimicParent (ρ n)
  | .children n => .children (ρ n)
  | .link n => .link (ρ n)
  | .isRoot n => .isRoot (ρ n)
  | .isEnd n => .isEnd (ρ n)
  | .origin n => .origin (ρ n)
  | .worldTransform n => .worldTransform (ρ n)
  | .worldVelocity n => .worldVelocity (ρ n)
  | .iterAncestors fuel n => .iterAncestors fuel (ρ n)
  | .iterDescendants fuel n => .iterDescendants fuel (ρ n)
  | .fromNodes ns => .fromNodes (ns.map ρ)
  | .fromRoot fuel n => .fromRoot fuel (ρ n)
  | .fromEnd fuel n => .fromEnd fuel (ρ n)
  | .fromEndToRoot fuel e r => .fromEndToRoot fuel (ρ e) (ρ r)
  | .chainSetOrigin c t => .chainSetOrigin (c.rename ρ) t
  | .chainOrigin c => .chainOrigin (c.rename ρ)
  | .iterJoints c => .iterJoints (c.rename ρ)
  | .iterLinks c => .iterLinks (c.rename ρ)
  | .find c name => .find (c.rename ρ) name
  | .jointPositions c => .jointPositions (c.rename ρ)
  | .setJointPositions c xs => .setJointPositions (c.rename ρ) xs
  | .setJointPositionsClamped c xs => .setJointPositionsClamped (c.rename ρ) xs
  | .setJointPositionsUnchecked c xs => .setJointPositionsUnchecked (c.rename ρ) xs
  | .updateTransforms c => .updateTransforms (c.rename ρ)
  | .updateVelocities c => .updateVelocities (c.rename ρ)
  | .updateLinkTransforms c => .updateLinkTransforms (c.rename ρ)
  | .cloneChain fuel c => .cloneChain fuel (c.rename ρ)
  | .tryNew c => .tryNew (c.rename ρ)
  | .endTransform c => .endTransform (c.rename ρ)
  | .display fuel c => .display fuel (c.rename ρ)
  | .jacobian c => .jacobian (c.rename ρ)
  | .centerOfMass c => .centerOfMass (c.rename ρ)
  | .solve s c target cs => .solve s (c.rename ρ) target cs

/-- an answer of a call with all handles in it exchanged -/
def Call.answer (ρ : Equiv.Perm NodeId) : {β : Type} → Call T β → β → β
  | _, .newNode _, n => ρ n
  | _, .parent _, p => p.map ρ
  | _, .mimicParent _, p => p.map ρ
  | _, .children _, ns => ns.map ρ
  | _, .iterAncestors _ _, ns => ns.map ρ
  | _, .iterDescendants _ _, ns => ns.map ρ
  | _, .fromNodes _, c => c.rename ρ
  | _, .fromRoot _ _, c => c.rename ρ
  | _, .fromEnd _ _, c => c.rename ρ
  | _, .fromEndToRoot _ _ _, c => c.rename ρ
  | _, .find _ _, n => n.map ρ
  | _, .cloneChain _ _, c => c.rename ρ
  | _, .tryNew _, c => c.map (Chain.rename ρ)
  | _, _, r => r

/-- The client that makes the same calls for the other objects.  Handles that it is given are translated back before
they are looked at, so that its result speaks of the original objects. -/
def Client.rename (ρ : Equiv.Perm NodeId) : Client T α → Client T α
  | .done a => .done a
  | .call c k => .call (c.rename ρ) fun r => (k (c.answer ρ.symm r)).rename ρ

/-- the outcome, with the memory renamed -/
def Res.rename (ρ : Equiv.Perm NodeId) : Res (NodeImpl T) α → Res (NodeImpl T) α
  | .ok a h => .ok a (h.rename ρ)
  | .panic m h => .panic m (h.rename ρ)
  | .blocked n h => .blocked (ρ n) (h.rename ρ)
  | .diverged => .diverged

/-- The chain is a robot of its own: its nodes are alive, their children and mimic partners belong to it (the mimic
children listed in the order of the chain), and no other node mimics or is mimicked by one of them. -/
structure OwnRobot (h : KHeap T) (c : Chain) : Prop where
  alive : ∀ n ∈ c.nodes, h.dead n = false
  children : ∀ n ∈ c.nodes, ∀ k ∈ (h.get n).children, k ∈ c.nodes
  mimicParent : ∀ n ∈ c.nodes, ∀ m, (h.get n).mimicParent = some m → m ∈ c.nodes
  mimic : ∀ n ∈ c.nodes, (h.get n).mimicParent = none → (h.get n).mimic = none
  mimicChildren : ∀ n ∈ c.nodes,
    (h.get n).mimicChildren = c.nodes.filter fun m => decide ((h.get m).mimicParent = some n)
  outside : ∀ n, n ∉ c.nodes → (∀ m, (h.get n).mimicParent = some m → m ∉ c.nodes ∧ m < h.next) ∧
    ∀ m ∈ (h.get n).mimicChildren, m ∉ c.nodes ∧ m < h.next

end K
