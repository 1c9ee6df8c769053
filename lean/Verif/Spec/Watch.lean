import Verif.Spec.Api
import Verif.Model.Poison
/-!
# Specification: threads that only ask (C107)
-/

namespace K
open Prog
variable {T : Type}

/-- the calls that only ask: they get no position, transform, link or node to store, and are not among those that
store what they compute (`update_*`, `jacobian`, `center_of_mass`, `solve`) -/
def Call.Asks {β : Type} : Call T β → Prop
  | .joint _ | .jointPosition _ | .parent _ | .mimicParent _ | .children _ | .link _ | .isRoot _ | .isEnd _
  | .origin _ | .worldTransform _ | .worldVelocity _ | .iterAncestors _ _ | .iterDescendants _ _ | .fromNodes _
  | .fromRoot _ _ | .fromEnd _ _ | .fromEndToRoot _ _ _ | .chainOrigin _ | .iterJoints _ | .iterLinks _ | .find _ _
  | .jointPositions _ | .tryNew _ | .endTransform _ | .display _ _ => True
  | _ => False

/-- those among them that hold no guard while they lock another node or may panic -/
def Call.AsksBriefly {β : Type} (c : Call T β) : Prop :=
  c.Asks ∧ match c with
    | .iterLinks _ | .jointPositions _ | .display _ _ => False
    | _ => True

/-- the same nodes with the same content, of which the same are freed -/
def Heap.SameNodes {S : Type} (g h : Heap S) : Prop := g.get = h.get ∧ g.next = h.next ∧ g.dead = h.dead

end K
