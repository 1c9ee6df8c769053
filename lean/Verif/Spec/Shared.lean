import Verif.Spec.Region
/-!
# Robots with a common base

Several threads work on parts of one robot: each has nodes of its own (an arm), and there are nodes that all of them use
(the base), which stay as they are.
-/

namespace K

/-- the nodes a thread may look at: its own and the common ones -/
def InSight (R S : NodeId → Prop) (n : NodeId) : Prop := R n ∨ S n

/-- a chain whose movable joints are the thread's own and whose other nodes may be common ones -/
structure Chain.Of (R S : NodeId → Prop) (c : Chain) : Prop where
  nodes : ∀ n ∈ c.nodes, InSight R S n
  movable : ∀ n ∈ c.movableNodes, R n

/-- The call changes nodes in `R` only, looks at nodes in `R` and `S`, and creates no node. -/
def Call.Uses {T : Type} (R S : NodeId → Prop) {β : Type} : Call T β → Prop
  | .newNode _ | .cloneChain _ _ => False
  | .setParent n p | .removeParent n p | .setMimicParent n p _ => R n ∧ R p
  | .setLink n _ | .setOrigin n _ | .setJointPosition n _ | .setJointPositionClamped n _
  | .setJointPositionUnchecked n _ | .iterDescendants _ n | .fromRoot _ n => R n
  | .joint n | .jointPosition n | .parent n | .mimicParent n | .children n | .link n | .isRoot n | .isEnd n
  | .origin n | .worldTransform n | .worldVelocity n | .iterAncestors _ n | .fromEnd _ n
  | .fromEndToRoot _ n _ => InSight R S n
  | .fromNodes ns => ∀ n ∈ ns, InSight R S n
  | .chainOrigin c | .iterJoints c | .find c _ | .tryNew c | .endTransform c => c.In (InSight R S)
  | .jointPositions c | .setJointPositions c _ | .setJointPositionsClamped c _ | .setJointPositionsUnchecked c _
  | .updateTransforms c | .jacobian c | .centerOfMass c | .solve _ c _ _ => c.Of R S
  | .chainSetOrigin c _ | .iterLinks c | .updateVelocities c | .updateLinkTransforms c | .display _ c => c.In R

/-- What is known of the handles that the call gives out. -/
def Call.Shows {T : Type} (R S : NodeId → Prop) {β : Type} : Call T β → β → Prop
  | .parent _, o | .mimicParent _, o => ∀ n, o = some n → InSight R S n
  | .find c _, o => ∀ n, o = some n → n ∈ c.nodes
  | .children n, l => R n → ∀ m ∈ l, R m
  | .iterAncestors _ _, l => ∀ n ∈ l, InSight R S n
  | .iterDescendants _ _, l => ∀ n ∈ l, R n
  | .fromNodes ns, c => c.nodes = ns ∧ ∀ n ∈ c.movableNodes, n ∈ ns
  | .fromRoot _ _, c => c.In R
  | .fromEnd _ _, c | .fromEndToRoot _ _ _, c => c.In (InSight R S)
  | .tryNew c, o => ∀ c', o = some c' → c' = c
  | _, _ => True

/-- The client only ever changes nodes in `R` and only looks at nodes in `R` and `S`. -/
def Client.Works {T α : Type} (R S : NodeId → Prop) : Client T α → Prop
  | .done _ => True
  | .call c k => c.Uses R S ∧ ∀ r, c.Shows R S r → (k r).Works R S

/-- the links of a node of a thread: upwards into its nodes or the common ones, downwards to its own nodes only -/
structure NodeImpl.LinksUp {T : Type} (R S : NodeId → Prop) (s : NodeImpl T) : Prop where
  parent : ∀ p, s.parent = some p → InSight R S p
  children : ∀ c ∈ s.children, R c
  mimicParent : ∀ p, s.mimicParent = some p → InSight R S p
  mimicChildren : ∀ c ∈ s.mimicChildren, R c

/-- Thread `i` has the nodes `R i`; all threads have the nodes `S` in common.  No two threads share a node of their own.
The common nodes are alive, not locked at the beginning, their parents are common as well, and their world transforms have
been computed. -/
structure OnBase {T : Type} [Scalar T] (R : Nat → NodeId → Prop) (S : NodeId → Prop) (h : Heap (NodeImpl T)) : Prop where
  disjoint : ∀ i j n, i ≠ j → R i n → ¬ R j n
  own : ∀ i n, R i n → ¬ S n
  links : ∀ i n, R i n → (h.get n).LinksUp (R i) S
  alive : ∀ n, S n → h.dead n = false
  free : ∀ n, S n → h.held n = false
  parent : ∀ n p, S n → (h.get n).parent = some p → S p
  mimicParent : ∀ n p, S n → (h.get n).mimicParent = some p → S p
  root : ∀ n, S n → (h.get n).parent = none →
    (h.get n).joint.worldTransformCache = some (Iso.one.mul (h.get n).joint.localTransform)
  known : ∀ n p, S n → (h.get n).parent = some p → ∃ t, (h.get p).joint.worldTransformCache = some t ∧
    (h.get n).joint.worldTransformCache = some (t.mul (h.get n).joint.localTransform)

end K
