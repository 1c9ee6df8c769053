import Verif.Spec.Api
/-!
# Calls that ask for a parent
-/

namespace K

/-- The calls that ask a node for its parent or mimic parent, which they get only while it is not freed.  All other
calls use handles and the strong references to children and mimic children. -/
def Call.LooksUp {T : Type} {β : Type} : Call T β → Prop
  | .parent _ | .mimicParent _ | .iterAncestors _ _ | .fromEnd _ _ | .fromEndToRoot _ _ _ | .updateTransforms _
  | .updateVelocities _ | .updateLinkTransforms _ | .cloneChain _ _ | .jacobian _ | .centerOfMass _
  | .solve _ _ _ _ => True
  | _ => False

end K
