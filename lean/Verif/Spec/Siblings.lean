import Verif.Spec.Api
import Verif.Spec.Tree
/-!
# Robots that differ in the order of children only (C100)
-/

namespace K
open Prog
variable {T : Type} [Scalar T] {α β : Type}

/-- the same node, its children listed in any order -/
def NodeImpl.Sib (s s' : NodeImpl T) : Prop :=
  ∃ cs, s.children.Perm cs ∧ s' = { s with children := cs }

/-- the same nodes, all children listed in any order -/
structure SameTree (h h' : KHeap T) : Prop where
  node : ∀ n, (h.get n).Sib (h'.get n)
  next : h'.next = h.next
  dead : h'.dead = h.dead
  held : h'.held = h.held

/-- the same outcome, up to the order of children -/
inductive SibEnd : Res (NodeImpl T) α → Res (NodeImpl T) α → Prop
  | ok (a : α) {h h'} (s : SameTree h h') : SibEnd (.ok a h) (.ok a h')
  | panic (m : String) {h h'} (s : SameTree h h') : SibEnd (.panic m h) (.panic m h')
  | blocked (n : NodeId) {h h'} (s : SameTree h h') : SibEnd (.blocked n h) (.blocked n h')
  | diverged : SibEnd .diverged .diverged

/-- the calls that do not list children or descendants -/
def Call.OrderFree : Call T β → Prop
  | .children _ | .iterDescendants _ _ | .fromRoot _ _ | .cloneChain _ _ | .display _ _ => False
  | _ => True

/-- `child.set_parent(&parent)` for each pair `(child, parent)` -/
def attachAll (es : List (NodeId × NodeId)) : KProg T Unit := forEach es fun e => Node.setParent e.1 e.2

end K
