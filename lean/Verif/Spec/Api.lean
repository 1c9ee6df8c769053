import Verif.Model.Ik
import Verif.Model.Urdf
/-!
# Clients of the API

`Call T β` is one call of a public method of the crate on shared nodes, returning a `β`.  A `Client` is
an arbitrary program of such calls, each of which may depend on all results so far.  Chains are passed
as arbitrary records of node ids, so a client may hold any chain.
-/

namespace K
open Prog

/-- One public API call on nodes or chains. -/
inductive Call (T : Type) : Type → Type where
  | newNode (j : Joint T) : Call T NodeId
  | setParent (n p : NodeId) : Call T Unit
  | removeParent (n p : NodeId) : Call T Unit
  | setMimicParent (n p : NodeId) (m : Mimic T) : Call T Unit
  | setLink (n : NodeId) (l : Option (Link T)) : Call T Unit
  | setOrigin (n : NodeId) (t : Iso T) : Call T Unit
  | setJointPosition (n : NodeId) (x : T) : Call T (Except (KError T) Unit)
  | setJointPositionClamped (n : NodeId) (x : T) : Call T Unit
  | setJointPositionUnchecked (n : NodeId) (x : T) : Call T Unit
  | joint (n : NodeId) : Call T (Joint T)
  | jointPosition (n : NodeId) : Call T (Option T)
  | parent (n : NodeId) : Call T (Option NodeId)
  | mimicParent (n : NodeId) : Call T (Option NodeId)
  | children (n : NodeId) : Call T (List NodeId)
  | link (n : NodeId) : Call T (Option (Link T))
  | isRoot (n : NodeId) : Call T Bool
  | isEnd (n : NodeId) : Call T Bool
  | origin (n : NodeId) : Call T (Iso T)
  | worldTransform (n : NodeId) : Call T (Option (Iso T))
  | worldVelocity (n : NodeId) : Call T (Option (Velocity T))
  | iterAncestors (fuel : Nat) (n : NodeId) : Call T (List NodeId)
  | iterDescendants (fuel : Nat) (n : NodeId) : Call T (List NodeId)
  | fromNodes (ns : List NodeId) : Call T Chain
  | fromRoot (fuel : Nat) (n : NodeId) : Call T Chain
  | fromEnd (fuel : Nat) (n : NodeId) : Call T Chain
  | fromEndToRoot (fuel : Nat) (e r : NodeId) : Call T Chain
  | chainSetOrigin (c : Chain) (t : Iso T) : Call T Unit
  | chainOrigin (c : Chain) : Call T (Iso T)
  | iterJoints (c : Chain) : Call T (List (Joint T))
  | iterLinks (c : Chain) : Call T (List (Link T))
  | find (c : Chain) (name : String) : Call T (Option NodeId)
  | jointPositions (c : Chain) : Call T (List T)
  | setJointPositions (c : Chain) (xs : List T) : Call T (Except (KError T) Unit)
  | setJointPositionsClamped (c : Chain) (xs : List T) : Call T Unit
  | setJointPositionsUnchecked (c : Chain) (xs : List T) : Call T Unit
  | updateTransforms (c : Chain) : Call T (List (Iso T))
  | updateVelocities (c : Chain) : Call T (List (Velocity T))
  | updateLinkTransforms (c : Chain) : Call T Unit
  | cloneChain (fuel : Nat) (c : Chain) : Call T Chain
  | tryNew (c : Chain) : Call T (Option Chain)
  | endTransform (c : Chain) : Call T (Iso T)
  | display (fuel : Nat) (c : Chain) : Call T String
  | jacobian (c : Chain) : Call T (Mat T)
  | centerOfMass (c : Chain) : Call T (V3 T)
  | solve (s : IkSolver T) (c : Chain) (target : Iso T) (cs : Constraints) :
      Call T (Except (KError T) Unit)

variable {T : Type} [Scalar T]

/-- The program a call executes. -/
def Call.prog {β : Type} : Call T β → KProg T β
  | .newNode j => Node.new j
  | .setParent n p => Node.setParent n p
  | .removeParent n p => Node.removeParent n p
  | .setMimicParent n p m => Node.setMimicParent n p m
  | .setLink n l => Node.setLink n l
  | .setOrigin n t => Node.setOrigin n t
  | .setJointPosition n x => Node.setJointPosition n x
  | .setJointPositionClamped n x => Node.setJointPositionClamped n x
  | .setJointPositionUnchecked n x => Node.setJointPositionUnchecked n x
  | .joint n => Node.joint n
  | .jointPosition n => Node.jointPosition n
  | .parent n => Node.parent n
  | .mimicParent n => Node.mimicParent n
  | .children n => Node.children n
  | .link n => Node.link n
  | .isRoot n => Node.isRoot n
  | .isEnd n => Node.isEnd n
  | .origin n => Node.origin n
  | .worldTransform n => Node.worldTransform n
  | .worldVelocity n => Node.worldVelocity n
  | .iterAncestors fuel n => ancestors fuel (some n)
  | .iterDescendants fuel n => descendants fuel [n]
  | .fromNodes ns => Chain.fromNodes ns
  | .fromRoot fuel n => Chain.fromRoot fuel n
  | .fromEnd fuel n => Chain.fromEnd fuel n
  | .fromEndToRoot fuel e r => Chain.fromEndToRoot fuel e r
  | .chainSetOrigin c t => c.setOrigin t
  | .chainOrigin c => c.origin
  | .iterJoints c => c.iterJoints
  | .iterLinks c => c.iterLinks
  | .find c name => c.find name
  | .jointPositions c => c.jointPositions
  | .setJointPositions c xs => c.setJointPositions xs
  | .setJointPositionsClamped c xs => c.setJointPositionsClamped xs
  | .setJointPositionsUnchecked c xs => c.setJointPositionsUnchecked xs
  | .updateTransforms c => c.updateTransforms
  | .updateVelocities c => c.updateVelocities
  | .updateLinkTransforms c => c.updateLinkTransforms
  | .cloneChain fuel c => c.clone fuel
  | .tryNew c => c.tryNew
  | .endTransform c => c.endTransform
  | .display fuel c => c.display fuel
  | .jacobian c => K.jacobian c
  | .centerOfMass c => K.centerOfMass c
  | .solve s c target cs => solveWithConstraints s c target cs

/-- A client: any program of API calls that may look at the results. -/
inductive Client (T : Type) (α : Type) : Type 1 where
  | done (a : α)
  | call {β : Type} (c : Call T β) (k : β → Client T α)

/-- The program a client executes. -/
def Client.prog {α : Type} : Client T α → KProg T α
  | .done a => .ret a
  | .call c k => c.prog >>= fun r => (k r).prog

/-- Every call the client can ever make satisfies `φ`. -/
def Client.Only {α : Type} (φ : ∀ {β : Type}, Call T β → Prop) : Client T α → Prop
  | .done _ => True
  | .call c k => φ c ∧ ∀ r, (k r).Only φ

end K
