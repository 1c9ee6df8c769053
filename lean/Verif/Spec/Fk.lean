import Verif.Spec.Tree
/-!
# Specification: forward kinematics
-/

namespace K
variable {T : Type} [Scalar T]

/-- `X` is the pose of node `n` in the world: the product, root first, of the local transforms
(`local_transform()`, origin times joint motion) of the nodes on the path from the root to `n`. -/
inductive World (h : KHeap T) : NodeId → Iso T → Prop
  | root {n : NodeId} (e : liveParent h n = none) :
      World h n (Iso.one.mul (h.get n).joint.localTransform)
  | step {n p : NodeId} {X : Iso T} (e : liveParent h n = some p) (w : World h p X) :
      World h n (X.mul (h.get n).joint.localTransform)

/-- The same for a group `inside` of nodes that may be cut off from the root: below a parent that is
not in the group the product starts with the transform cached in that parent. -/
inductive WorldIn (h : KHeap T) (inside : NodeId → Prop) : NodeId → Iso T → Prop
  | root {n : NodeId} (e : liveParent h n = none) :
      WorldIn h inside n (Iso.one.mul (h.get n).joint.localTransform)
  | step {n p : NodeId} {X : Iso T} (e : liveParent h n = some p) (i : inside p)
      (w : WorldIn h inside p X) : WorldIn h inside n (X.mul (h.get n).joint.localTransform)
  | cut {n p : NodeId} {X : Iso T} (e : liveParent h n = some p) (i : ¬ inside p)
      (w : (h.get p).joint.worldTransformCache = some X) :
      WorldIn h inside n (X.mul (h.get n).joint.localTransform)

/-- every node of the list has no (live) parent or has it earlier in the list -/
def ParentsAhead (h : KHeap T) (ns : List NodeId) : Prop :=
  ∀ pre n post, ns = pre ++ n :: post → liveParent h n = none ∨ ∃ p ∈ pre, liveParent h n = some p

/-- every node of the list has no parent, or has it earlier in the list, or has a parent outside the
list with a cached transform -/
def ParentsReady (h : KHeap T) (ns : List NodeId) : Prop :=
  ∀ pre n post, ns = pre ++ n :: post → ∀ p, liveParent h n = some p →
    p ∈ pre ∨ p ∉ ns ∧ (h.get p).joint.worldTransformCache ≠ none

/-- a node content that differs at most in the cached world transform -/
def SameButWorld (s s' : NodeImpl T) : Prop :=
  s' = { s with joint := { s.joint with worldTransformCache := s'.joint.worldTransformCache } }

/-- between `h` and `h'` only cached world transforms of nodes in `ns` changed -/
structure OnlyWorld (ns : List NodeId) (h h' : KHeap T) : Prop where
  next : h'.next = h.next
  dead : h'.dead = h.dead
  held : h'.held = h.held
  same : ∀ n, SameButWorld (h.get n) (h'.get n)
  outside : ∀ n, n ∉ ns → h'.get n = h.get n

end K
