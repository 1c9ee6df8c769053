import Verif.Model.Urdf
import Verif.Spec.Chain
import Verif.Spec.Tree
/-!
# Specification: the chain of a robot description
-/

namespace K
namespace Urdf
variable {F T : Type} [Scalar F] [Scalar T]

/-- A valid tree: names are unique, no link is the child of two joints, parent links are declared,
joints lead away from the base (no cycle), and mimic tags name a joint. -/
structure ValidTree (robot : Robot F) : Prop where
  jointNames : (robot.joints.map (·.name)).Nodup
  linkNames : (robot.links.map (·.name)).Nodup
  oneParent : (robot.joints.map (·.childLink)).Nodup
  declared : ∀ j ∈ robot.joints, ∃ l ∈ robot.links, l.name = j.parentLink
  acyclic : ∃ depth : String → Nat, ∀ j ∈ robot.joints, depth j.parentLink < depth j.childLink
  masters : ∀ j ∈ robot.joints, ∀ m, j.mimic = some m → ∃ k ∈ robot.joints, k.name = m.joint

/-- the URDF joint types with a degree of freedom -/
def JointTag.moves (j : JointTag F) : Prop :=
  j.kind = .revolute ∨ j.kind = .continuous ∨ j.kind = .prismatic

instance (j : JointTag F) : Decidable j.moves := by unfold JointTag.moves; infer_instance

/-- the joints with parent link `l`, in the order of the file -/
def Robot.jointsAt (robot : Robot F) (l : String) : List (JointTag F) :=
  robot.joints.filter fun j => decide (j.parentLink = l)

/-- the joints whose parent link is the child link of no joint, in the order of the file -/
def Robot.baseJoints (robot : Robot F) : List (JointTag F) :=
  robot.joints.filter fun j => decide (∀ k ∈ robot.joints, k.childLink ≠ j.parentLink)

/-- `InOrder robot js all`: `all` lists the joints `js` one after the other, each followed by
everything that hangs on its child link, where of several joints on one link the last one of the file
comes first. -/
inductive InOrder (robot : Robot F) : List (JointTag F) → List (JointTag F) → Prop
  | nil : InOrder robot [] []
  | cons {j : JointTag F} {js below rest : List (JointTag F)}
      (hb : InOrder robot (robot.jointsAt j.childLink).reverse below) (hr : InOrder robot js rest) :
      InOrder robot (j :: js) (j :: (below ++ rest))

/-- In heap `h`, chain `c` is the tree of `robot`: `root` is the synthetic root and `node s` the node
of the joint called `s`. -/
structure TreeOf (cv : F → T) (robot : Robot F) (h : KHeap T) (c : Chain) (root : NodeId)
    (node : String → NodeId) : Prop where
  /-- the synthetic root and exactly one node per joint -/
  nodes : c.nodes.Perm (root :: robot.joints.map fun j => node j.name)
  once : c.nodes.Nodup
  first : c.nodes.head? = some root
  parentsFirst : ParentsFirst h (· = root) c.nodes
  /-- every node carries the joint of its tag -/
  joint : ∀ j ∈ robot.joints, jointFrom cv j = .ok (h.get (node j.name)).joint
  rootJoint : (h.get root).joint = Joint.new "root" .fixed
  rootParent : (h.get root).parent = none
  /-- the parent of a joint's node is the node of the joint its parent link is the child of -/
  parent : ∀ j ∈ robot.joints, ∀ k ∈ robot.joints, k.childLink = j.parentLink →
    liveParent h (node j.name) = some (node k.name)
  /-- or the synthetic root -/
  parentRoot : ∀ j ∈ robot.joints, (∀ k ∈ robot.joints, k.childLink ≠ j.parentLink) →
    liveParent h (node j.name) = some root
  /-- the children of a node, in the order of the file -/
  children : ∀ j ∈ robot.joints, (h.get (node j.name)).children =
    (robot.jointsAt j.childLink).map (node ·.name)
  rootChildren : (h.get root).children = robot.baseJoints.map (node ·.name)
  /-- the order of the nodes in the chain -/
  order : ∃ js, InOrder robot robot.baseJoints.reverse js ∧ c.nodes = root :: js.map (node ·.name)
  /-- links sit on the node of the joint they are the child of -/
  link : ∀ j ∈ robot.joints, ∀ l ∈ robot.links, l.name = j.childLink →
    (h.get (node j.name)).link = some (linkFrom cv l)
  noLink : ∀ j ∈ robot.joints, (∀ l ∈ robot.links, l.name ≠ j.childLink) →
    (h.get (node j.name)).link = none
  /-- the base link sits on the root -/
  baseLink : ∀ l ∈ robot.links, (∀ j ∈ robot.joints, j.childLink ≠ l.name) →
    (∀ l' ∈ robot.links, (∀ j ∈ robot.joints, j.childLink ≠ l'.name) → l' = l) →
    (h.get root).link = some (linkFrom cv l)
  /-- mimic tags -/
  mimic : ∀ j ∈ robot.joints, ∀ m, j.mimic = some m →
    liveMimic h (node j.name) = some (node m.joint) ∧
    (h.get (node j.name)).mimic = some (mimicFrom cv m)
  noMimic : ∀ j ∈ robot.joints, j.mimic = none → (h.get (node j.name)).mimicParent = none ∧
    (h.get (node j.name)).mimic = none
  rootMimic : (h.get root).mimicParent = none ∧ (h.get root).mimic = none
  /-- the followers of a joint are the joints with a mimic tag naming it, in the order of the file -/
  followers : ∀ j ∈ robot.joints, (h.get (node j.name)).mimicChildren =
    (robot.joints.filter fun k => k.mimic.map (·.joint) == some j.name).map (node ·.name)
  rootFollowers : (h.get root).mimicChildren = []
  wf : c.Wf h
  /-- degrees of freedom: the joints that are not fixed -/
  dof : c.dof = (robot.joints.filter fun j => decide j.moves).length

end Urdf
end K
