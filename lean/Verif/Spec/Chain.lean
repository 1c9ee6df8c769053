import Verif.Model.Chain
/-!
# Specification: chains
-/

namespace K
variable {T : Type} [Scalar T]

/-- the joint of `n` can move -/
def Movable (h : KHeap T) (n : NodeId) : Prop := (h.get n).joint.jointType ≠ .fixed

instance (h : KHeap T) (n : NodeId) : Decidable (Movable h n) :=
  decidable_of_iff ((h.get n).joint.isMovable = true) (by
    unfold Joint.isMovable Movable; cases (h.get n).joint.jointType <;> simp)

/-- position of node `n`, `none` for a Fixed joint -/
def posOf (h : KHeap T) (n : NodeId) : Option T := (h.get n).joint.jointPosition

/-- `c` is a chain over its nodes in state `h`: the joints it moves are the non-Fixed ones of its nodes,
in the same order, and `dof` counts them. -/
structure Chain.Wf (h : KHeap T) (c : Chain) : Prop where
  movable : c.movableNodes = c.nodes.filter fun n => decide (Movable h n)
  dof : c.dof = c.movableNodes.length

end K
