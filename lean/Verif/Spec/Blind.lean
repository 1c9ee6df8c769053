import Verif.Spec.Api
import Mathlib.Data.List.Forall2
import Mathlib.Data.Set.Basic
/-!
# Specification: cached world transforms and velocities are not seen

Two memories that differ in cached values only, and the clients that cannot tell them apart: they change what they
want, but look at cached values only after having them computed.
-/

namespace K
open Prog
variable {T : Type} {α β : Type}

/-- the two cached values of a joint -/
inductive CacheKind where
  | transform
  | velocity

/-- a set of cached values -/
abbrev Slots := Set (NodeId × CacheKind)

/-- two joints that are equal up to cached values -/
def JointEq (j j' : Joint T) : Prop :=
  ∃ wt wv, j' = { j with worldTransformCache := wt, worldVelocityCache := wv }

/-- the contents of node `n` in two memories: equal up to cached values that are not in `C` -/
structure CacheEq (C : Slots) (n : NodeId) (s s' : NodeImpl T) : Prop where
  node : ∃ wt wv, s' = { s with joint := { s.joint with worldTransformCache := wt, worldVelocityCache := wv } }
  transform : (n, .transform) ∈ C → s'.joint.worldTransformCache = s.joint.worldTransformCache
  velocity : (n, .velocity) ∈ C → s'.joint.worldVelocityCache = s.joint.worldVelocityCache

/-- two memories that are equal up to the cached values outside `C` -/
structure UpToCaches (C : Slots) (h g : KHeap T) : Prop where
  next : g.next = h.next
  dead : g.dead = h.dead
  held : g.held = h.held
  node : ∀ n, CacheEq C n (h.get n) (g.get n)

/-- The nodes exist, and the parent of each of them has been freed, or comes earlier in the list, or has known cached
values. -/
def CachesKnown (h : KHeap T) (C : Slots) (K : Set CacheKind) (ns : List NodeId) : Prop :=
  ∀ pre n post, ns = pre ++ n :: post → n < h.next ∧ ∀ w, (h.get n).parent = some w →
    w < h.next ∧ h.dead w = true ∨ w ∈ pre ∨ ∀ k ∈ K, (w, k) ∈ C

/-- the cached transforms of some nodes -/
def transformsOf (ns : List NodeId) : Slots := {x | x.1 ∈ ns ∧ x.2 = .transform}

/-- the cached values of some nodes -/
def cachesOf (ns : List NodeId) : Slots := {x | x.1 ∈ ns}

/-- what has been computed after the call -/
def Call.gain {β : Type} : Call T β → Slots
  | .updateTransforms c => transformsOf c.nodes
  | .updateLinkTransforms c => transformsOf c.nodes
  | .centerOfMass c => transformsOf c.nodes
  | .jacobian c => transformsOf c.nodes
  | .updateVelocities c => cachesOf c.nodes
  | _ => ∅

/-- In state `h`, with the cached values `C` known, the call looks at no other cached value: cached values are
looked at only if known, and are computed for chains that list parents first (`joint` and `iter_joints` hand them out,
see `SameAnswer`). -/
def Call.Careful {β : Type} (h : KHeap T) (C : Slots) : Call T β → Prop
  | .worldTransform n => (n, .transform) ∈ C
  | .worldVelocity n => (n, .velocity) ∈ C
  | .updateTransforms c => CachesKnown h C {.transform} c.nodes
  | .updateLinkTransforms c => CachesKnown h C {.transform} c.nodes
  | .centerOfMass c => CachesKnown h C {.transform} c.nodes
  | .updateVelocities c => CachesKnown h C Set.univ c.nodes
  | .jacobian c => CachesKnown h C {.transform} c.nodes ∧ ∀ n ∈ c.movableNodes, n ∈ c.nodes
  | .solve _ c _ _ => CachesKnown h C {.transform} c.nodes ∧ ∀ n ∈ c.movableNodes, n ∈ c.nodes
  | _ => True

/-- the call may change parents -/
def Call.MovesNodes {β : Type} : Call T β → Prop
  | .setParent _ _ | .removeParent _ _ | .cloneChain _ _ => True
  | _ => False

/-- the answers of a call for the two memories: equal, up to the cached values in joints that are handed out -/
def SameAnswer : {β : Type} → Call T β → β → β → Prop
  | _, .joint _, j, j' => JointEq j j'
  | _, .iterJoints _, js, js' => List.Forall₂ JointEq js js'
  | _, _, r, r' => r = r'

/-- the same outcome, and memories that are equal up to the cached values outside `C` -/
inductive SameRun (C : Slots) : Res (NodeImpl T) α → Res (NodeImpl T) α → Prop
  | ok {a h g} (u : UpToCaches C h g) : SameRun C (.ok a h) (.ok a g)
  | panic {m h g} (u : UpToCaches C h g) : SameRun C (.panic m h) (.panic m g)
  | blocked {n h g} (u : UpToCaches C h g) : SameRun C (.blocked n h) (.blocked n g)
  | diverged : SameRun C .diverged .diverged

variable [Scalar T]

/-- a single-threaded client all of whose calls are careful in the states in which they are made, and that does not
use the cached values in joints handed out -/
def Client.Careful : Client T α → KHeap T → Slots → Prop
  | .done _, _, _ => True
  | .call c k, h, C => c.Careful h C ∧ (∀ r r', SameAnswer c r r' → k r' = k r) ∧
      ∀ r h', run c.prog h = .ok r h' → (k r).Careful h' (C ∪ c.gain)

/-- a client that leaves the tree in `h` as it is, whose calls are all careful for this tree -/
def Client.Steady (h : KHeap T) : Client T α → Slots → Prop
  | .done _, _ => True
  | .call c k, C => c.Careful h C ∧ ¬ c.MovesNodes ∧ (∀ r r', SameAnswer c r r' → k r' = k r) ∧
      ∀ r, (k r).Steady h (C ∪ c.gain)

end K
