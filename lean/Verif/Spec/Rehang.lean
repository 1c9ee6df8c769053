import Verif.Spec.Sign
/-!
# Specification: what is attached to what (C112)

Two states of a robot differ only in which nodes hang below which: the nodes `D` hang somewhere else, or nowhere.
-/

namespace K
open Prog
variable {T : Type} [Scalar T]

/-- the same node `n`, with other children, and with another parent if it is in `D` -/
def NodeImpl.Rehung (D : NodeId → Prop) (n : NodeId) (s s' : NodeImpl T) : Prop :=
  ∃ p c, s' = { s with parent := p, children := c } ∧ (¬ D n → p = s.parent)

/-- the same nodes, where those of `D` hang elsewhere -/
structure Rehung (D : NodeId → Prop) (h g : KHeap T) : Prop where
  node : ∀ n, (h.get n).Rehung D n (g.get n)
  next : g.next = h.next
  dead : g.dead = h.dead
  held : g.held = h.held

/-- none of the nodes of the chain is in `D` -/
def Chain.Without (c : Chain) (D : NodeId → Prop) : Prop := ∀ n ∈ c.nodes, ¬ D n

/-- calls that do not ask what hangs below what, nor need to know it for nodes of `D` -/
def Call.Without (D : NodeId → Prop) : {β : Type} → Call T β → Prop
  | _, .parent n => ¬ D n
  | _, .isRoot n => ¬ D n
  | _, .children _ => False
  | _, .isEnd _ => False
  | _, .iterAncestors _ _ => False
  | _, .iterDescendants _ _ => False
  | _, .fromRoot _ _ => False
  | _, .fromEnd _ _ => False
  | _, .fromEndToRoot _ _ _ => False
  | _, .cloneChain _ _ => False
  | _, .tryNew _ => False
  | _, .display _ _ => False
  | _, .updateTransforms c => c.Without D
  | _, .updateVelocities c => c.Without D
  | _, .updateLinkTransforms c => c.Without D
  | _, .jacobian c => c.Without D
  | _, .centerOfMass c => c.Without D
  | _, .solve _ c _ _ => c.Without D
  | _, _ => True

/-- a client that makes only such calls -/
inductive Client.Without (D : NodeId → Prop) {α : Type} : Client T α → Prop
  | done (a : α) : Client.Without D (.done a)
  | call {β : Type} {c : Call T β} (k : β → Client T α) (r : c.Without D) (next : ∀ a, Client.Without D (k a)) :
      Client.Without D (.call c k)

end K
