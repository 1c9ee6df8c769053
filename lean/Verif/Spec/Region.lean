import Verif.Spec.Api
/-!
# Regions

A region is a set of nodes.  The words needed to say that a client works on the nodes of one robot only.
-/

namespace K

/-- the two heaps have the same nodes in `R` -/
structure Agree {S : Type} (R : NodeId → Prop) (h g : Heap S) : Prop where
  get : ∀ n, R n → g.get n = h.get n
  held : ∀ n, R n → g.held n = h.held n
  dead : ∀ n, R n → g.dead n = h.dead n

/-- all links of a node lead into `R` -/
structure NodeImpl.LinksIn {T : Type} (R : NodeId → Prop) (s : NodeImpl T) : Prop where
  parent : ∀ p, s.parent = some p → R p
  children : ∀ c ∈ s.children, R c
  mimicParent : ∀ p, s.mimicParent = some p → R p
  mimicChildren : ∀ c ∈ s.mimicChildren, R c

/-- the nodes of the chain are in `R` -/
structure Chain.In (R : NodeId → Prop) (c : Chain) : Prop where
  nodes : ∀ n ∈ c.nodes, R n
  movable : ∀ n ∈ c.movableNodes, R n

/-- The call is made with handles to nodes in `R` only, and it creates no node.  (The last argument of
`fromEndToRoot` is only compared with.) -/
def Call.In {T : Type} (R : NodeId → Prop) {β : Type} : Call T β → Prop
  | .newNode _ | .cloneChain _ _ => False
  | .setParent n p | .removeParent n p | .setMimicParent n p _ => R n ∧ R p
  | .setLink n _ | .setOrigin n _ | .setJointPosition n _ | .setJointPositionClamped n _
  | .setJointPositionUnchecked n _ | .joint n | .jointPosition n | .parent n | .mimicParent n | .children n
  | .link n | .isRoot n | .isEnd n | .origin n | .worldTransform n | .worldVelocity n
  | .iterAncestors _ n | .iterDescendants _ n | .fromRoot _ n | .fromEnd _ n | .fromEndToRoot _ n _ => R n
  | .fromNodes ns => ∀ n ∈ ns, R n
  | .chainSetOrigin c _ | .chainOrigin c | .iterJoints c | .iterLinks c | .find c _ | .jointPositions c
  | .setJointPositions c _ | .setJointPositionsClamped c _ | .setJointPositionsUnchecked c _
  | .updateTransforms c | .updateVelocities c | .updateLinkTransforms c | .tryNew c | .endTransform c
  | .display _ c | .jacobian c | .centerOfMass c | .solve _ c _ _ => c.In R

/-- Every handle that the call gives out leads into `R`. -/
def Call.Got {T : Type} (R : NodeId → Prop) {β : Type} : Call T β → β → Prop
  | .parent _, o | .mimicParent _, o | .find _ _, o => ∀ n, o = some n → R n
  | .children _, l | .iterAncestors _ _, l | .iterDescendants _ _, l => ∀ n ∈ l, R n
  | .fromNodes _, c | .fromRoot _ _, c | .fromEnd _ _, c | .fromEndToRoot _ _ _, c => c.In R
  | .tryNew _, o => ∀ c, o = some c → c.In R
  | _, _ => True

/-- The client only ever uses handles to nodes in `R`: those it starts with and those it gets from its calls. -/
def Client.Confined {T α : Type} (R : NodeId → Prop) : Client T α → Prop
  | .done _ => True
  | .call c k => c.In R ∧ ∀ r, c.Got R r → (k r).Confined R

/-- Thread `i` has the nodes `R i`: no two threads share a node, and no link leads from the nodes of one thread
to a node that is not its own. -/
structure Separate {T : Type} (R : Nat → NodeId → Prop) (h : Heap (NodeImpl T)) : Prop where
  disjoint : ∀ i j n, i ≠ j → R i n → ¬ R j n
  closed : ∀ i n, R i n → (h.get n).LinksIn (R i)

end K
