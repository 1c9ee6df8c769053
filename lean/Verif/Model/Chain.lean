import Verif.Model.Iter
/-!
# `src/chain.rs`
-/

namespace K
open Prog
variable {T : Type} [Scalar T]

/-- `src/chain.rs:85-89` `Chain`.  `SerialChain` (`src/chain.rs:511-513`) is a wrapper around it and
is the same type here. -/
structure Chain where
  nodes : List NodeId
  movableNodes : List NodeId
  dof : Nat

/-- `iter.position(|x| *x == p)` (`src/chain.rs:489,493`). -/
def position (p : NodeId) : List NodeId → Option Nat
  | [] => none
  | x :: xs => if x = p then some 0 else (position p xs).map (· + 1)

namespace Chain

/-- `src/chain.rs:174-185` `from_nodes`. -/
def fromNodes (nodes : List NodeId) : KProg T Chain := do
  let movable ← filterList nodes fun n => do return (← Node.joint n).isMovable
  return { nodes := nodes, movableNodes := movable, dof := movable.length }

/-- `src/chain.rs:128-131` `from_root`. -/
def fromRoot (fuel : Nat) (root : NodeId) : KProg T Chain := do
  let nodes ← descendants fuel [root]
  fromNodes nodes

/-- `src/chain.rs:153-157` `from_end` (and `SerialChain::from_end`, lines 566-570). -/
def fromEnd (fuel : Nat) (endJoint : NodeId) : KProg T Chain := do
  let nodes ← ancestors fuel (some endJoint)
  fromNodes nodes.reverse

/-- `src/chain.rs:209-219` `from_end_to_root` (and `SerialChain::from_end_to_root`, 586-590). -/
def fromEndToRoot (fuel : Nat) (endJoint rootJoint : NodeId) : KProg T Chain := do
  let nodes ← ancestorsUntil rootJoint fuel (some endJoint)
  fromNodes nodes.reverse

/-- `src/chain.rs:239-241` `set_origin`: `self.nodes[0]` panics on an empty chain. -/
def setOrigin (c : Chain) (pose : Iso T) : KProg T Unit :=
  match c.nodes with
  | [] => .panic "index out of bounds"
  | n :: _ => Node.setOrigin n pose

/-- `src/chain.rs:244-246` `origin`. -/
def origin (c : Chain) : KProg T (Iso T) :=
  match c.nodes with
  | [] => .panic "index out of bounds"
  | n :: _ => Node.origin n

/-- `src/chain.rs:274-276` `iter_joints`, each guard used and dropped before the next. -/
def iterJoints (c : Chain) : KProg T (List (Joint T)) := mapList c.movableNodes Node.joint

/-- `src/chain.rs:279-287` `iter_links`: per node, one lock to test `is_some`, then a second lock for
the `LinkRefGuard`; using the guard is `link.as_ref().unwrap()` (`src/node.rs:441-447`).  Each guard is
used and dropped before the next node. -/
def iterLinks (c : Chain) : KProg T (List (Link T)) := do
  let ls ← mapList c.nodes fun n => do
    if (← Node.link n).isSome then
      doLock n
      let s ← doRead n
      let l ← expect s.link "called `Option::unwrap()` on a `None` value"
      doUnlock n
      return some l
    else return none
  return ls.filterMap id

/-- `src/chain.rs:330-332` `find`. -/
def find (c : Chain) (jointName : String) : KProg T (Option NodeId) :=
  findFirst c.nodes fun n => do return (← Node.joint n).name == jointName

/-- `src/chain.rs:336-344` `joint_positions`.  The guard is held while `expect` runs. -/
def jointPositions (c : Chain) : KProg T (List T) :=
  mapList c.movableNodes fun n => do
    doLock n
    let s ← doRead n
    let p ← expect s.joint.jointPosition "Must be a bug: movable joint must have position"
    doUnlock n
    return p

/-- `src/chain.rs:349-360` `set_joint_positions`. -/
def setJointPositions (c : Chain) (positions : List T) : KProg T (Except (KError T) Unit) :=
  if positions.length ≠ c.dof then
    .ret (.error (.sizeMismatch positions.length c.dof))
  else
    tryEach (c.movableNodes.zip positions) fun jp => Node.setJointPosition jp.1 jp.2

/-- `src/chain.rs:365-369` `set_joint_positions_clamped`. -/
def setJointPositionsClamped (c : Chain) (positions : List T) : KProg T Unit :=
  forEach (c.movableNodes.zip positions) fun jp => Node.setJointPositionClamped jp.1 jp.2

/-- `src/chain.rs:373-377` `set_joint_positions_unchecked`. -/
def setJointPositionsUnchecked (c : Chain) (positions : List T) : KProg T Unit :=
  forEach (c.movableNodes.zip positions) fun jp => Node.setJointPositionUnchecked jp.1 jp.2

/-- Body of the closure `src/chain.rs:382-387`. -/
def updateTransform (n : NodeId) : KProg T (Iso T) := do
  let parentTransform ← expect (← Node.parentWorldTransform n) "cache must exist"
  let j ← Node.joint n
  let trans := parentTransform.mul j.localTransform
  poke n fun s => { s with joint := s.joint.setWorldTransform trans }
  return trans

/-- `src/chain.rs:380-389` `update_transforms`. -/
def updateTransforms (c : Chain) : KProg T (List (Iso T)) := mapList c.nodes updateTransform

/-- Body of the closure `src/chain.rs:395-435`.  The scrutinee `node.joint().joint_type` of the
`match` at line 402 keeps its `JointRefGuard` temporary (hence the lock of `node`) until the end of
the `let velocity = ...;` statement (line 432); the arms lock `node` again at lines 405, 414, 418
(`node.parent()`, `node.world_transform()`, `node.joint()`) and 424, 428. -/
def updateVelocity (n : NodeId) : KProg T (Velocity T) := do
  let parentTransform ← expect (← Node.parentWorldTransform n) "transform cache must exist"
  let parentVelocity ← expect (← Node.parentWorldVelocity n) "velocity cache must exist"
  doLock n
  let s ← doRead n
  let velocity ← (match s.joint.jointType with
    | .fixed => pure parentVelocity
    | .rotational axis => do
      let parent ← expect (← Node.parent n) "parent must exist"
      let parentVel := (← Node.joint parent).origin.trans
      let w ← expect (← Node.worldTransform n) "cache must exist"
      let v ← expect (← Node.joint n).jointVelocity "unwrap on None"
      pure (⟨parentVelocity.translation.add
              (parentVelocity.rotation.cross (parentTransform.rot.matRotate parentVel)),
             parentVelocity.rotation.add (w.rot.matRotate (axis.scale v))⟩ : Velocity T)
    | .linear axis => do
      let w ← expect (← Node.worldTransform n) "cache must exist"
      let v ← expect (← Node.joint n).jointVelocity "unwrap on None"
      pure (⟨parentVelocity.translation.add (w.rot.matRotate (axis.scale v)),
             parentVelocity.rotation⟩ : Velocity T) : KProg T (Velocity T))
  doUnlock n
  poke n fun s => { s with joint := s.joint.setWorldVelocity velocity }
  return velocity

/-- `src/chain.rs:392-437` `update_velocities`. -/
def updateVelocities (c : Chain) : KProg T (List (Velocity T)) := do
  let _ ← updateTransforms c
  mapList c.nodes updateVelocity

/-- `src/chain.rs:445-456`: what happens to the link of one node. -/
def placeLink (parentTransform : Iso T) (link : Link T) : Link T :=
  { link with
    inertial := link.inertial.setWorldTransform (parentTransform.mul link.inertial.origin)
    collisions := link.collisions.map fun c => c.setWorldTransform (parentTransform.mul c.origin)
    visuals := link.visuals.map fun v => v.setWorldTransform (parentTransform.mul v.origin) }

/-- Body of the closure `src/chain.rs:442-457`. -/
def updateLinkTransform (n : NodeId) : KProg T Unit := do
  let parentTransform ← expect (← Node.parentWorldTransform n) "cache must exist"
  poke n fun s => { s with link := s.link.map (placeLink parentTransform) }

/-- `src/chain.rs:440-458` `update_link_transforms`. -/
def updateLinkTransforms (c : Chain) : KProg T Unit := do
  let _ ← updateTransforms c
  forEach c.nodes updateLinkTransform

/-- Copy of one node, `src/chain.rs:479-483`.  The guard `n.joint()` lives until the end of line 480,
the guard `n.link()` until the end of line 481, i.e. while the new node is locked by `set_link`. -/
def cloneNode (n : NodeId) : KProg T NodeId := do
  doLock n
  let s ← doRead n
  let node ← Node.new s.joint
  doUnlock n
  doLock n
  let s ← doRead n
  Node.setLink node s.link
  doUnlock n
  return node

/-- One iteration of the loop `src/chain.rs:486-499`: original node `n`, its copy `n'`.
`self.nodes[i].lock()` at line 496 is held until `set_mimic_parent` returned. -/
def cloneConnect (nodes newNodes : List NodeId) (nn : NodeId × NodeId) : KProg T Unit := do
  match ← Node.parent nn.1 with
  | some p =>
    let i ← expect (position p nodes) "called `Option::unwrap()` on a `None` value"
    let p' ← expect newNodes[i]? "index out of bounds"
    Node.setParent nn.2 p'
  | none => pure ()
  match ← Node.mimicParent nn.1 with
  | some m =>
    let i ← expect (position m nodes) "called `Option::unwrap()` on a `None` value"
    let m' ← expect newNodes[i]? "index out of bounds"
    doLock nn.1
    let s ← doRead nn.1
    let mimic ← expect s.mimic "called `Option::unwrap()` on a `None` value"
    Node.setMimicParent nn.2 m' mimic
    doUnlock nn.1
  | none => pure ()

/-- `src/chain.rs:465-504` `clone`. -/
def clone (fuel : Nat) (c : Chain) : KProg T Chain :=
  match c.nodes with
  | [] => .ret ⟨[], [], 0⟩
  | n0 :: _ => do
    if !(← Node.isRoot n0) then .panic "assertion failed: self.nodes[0].is_root()"
    else
      let newNodes ← mapList c.nodes cloneNode
      forEach (c.nodes.zip newNodes) (cloneConnect c.nodes newNodes)
      let r ← expect newNodes.head? "index out of bounds"
      if !(← Node.isRoot r) then .panic "assertion failed: new_nodes[0].is_root()"
      else fromRoot fuel r

/-- `src/chain.rs:547-557` `SerialChain::try_new`.  `num - 1` on an empty chain: overflow panic (with
overflow checks on, as in debug builds). -/
def tryNew (c : Chain) : KProg T (Option Chain) :=
  match c.nodes.length with
  | 0 => .panic "attempt to subtract with overflow"
  | k + 1 => do
    let bad ← findFirst (c.nodes.take k) fun n => do return (← Node.children n).length != 1
    return match bad with
      | some _ => none
      | none => some c

/-- Body of the fold `src/chain.rs:598-600`. -/
def foldTransform : List NodeId → Iso T → KProg T (Iso T)
  | [], t => .ret t
  | n :: ns, t => do
    let j ← Node.joint n
    foldTransform ns (t.mul j.localTransform)

/-- `src/chain.rs:597-601` `SerialChain::end_transform`. -/
def endTransform (c : Chain) : KProg T (Iso T) := foldTransform c.nodes Iso.one

end Chain

/-! ## Display -/

/-- `Unit<Vector3>::eq` component-wise (`src/joint/joint_type.rs:37-47`). -/
def V3.beq (a b : V3 T) : Bool := Scalar.eq a.x b.x && Scalar.eq a.y b.y && Scalar.eq a.z b.z

/-- `src/joint/joint_type.rs:36-52` `axis_to_string`. -/
def axisToString (a : V3 T) : String :=
  if a.beq ⟨1, 0, 0⟩ then "+X"
  else if a.beq ⟨0, 1, 0⟩ then "+Y"
  else if a.beq ⟨0, 0, 1⟩ then "+Z"
  else if a.beq (V3.neg ⟨1, 0, 0⟩) then "-X"
  else if a.beq (V3.neg ⟨0, 1, 0⟩) then "-Y"
  else if a.beq (V3.neg ⟨0, 0, 1⟩) then "-Z"
  else ""

/-- `src/joint/joint_type.rs:54-62` `Display for JointType`. -/
def JointType.display : JointType T → String
  | .fixed => "[⚓]"
  | .rotational a => "[⚙" ++ axisToString a ++ "]"
  | .linear a => "[↕" ++ axisToString a ++ "]"

/-- `src/joint/joint.rs:263-267` `Display for Joint`. -/
def Joint.display (j : Joint T) : String := j.name ++ " " ++ j.jointType.display

/-- `src/node.rs:353-361` `Display for Node`: the text for a locked node. -/
def NodeImpl.display (s : NodeImpl T) : String :=
  s.joint.display ++ (match s.link with
    | some l => " => /" ++ l.name ++ "/"
    | none => "")

/-- One output line of `src/chain.rs:99`: `"    ".repeat(level)`, the node, a newline. -/
def displayLine (level : Nat) (s : NodeImpl T) : String :=
  String.join (List.replicate level "    ") ++ s.display ++ "\n"

namespace Chain

/-- `src/chain.rs:92-105` `fmt_with_indent_level`, as the list of written lines.  The
`ChildrenRefGuard` of `node.children().iter()` (line 101) is held during the loop over the children.
`fuel` bounds the recursion depth. -/
def fmtWithIndentLevel (c : Chain) : Nat → Nat → NodeId → KProg T (List String)
  | 0, _, _ => .diverge
  | fuel + 1, level, node => do
    let here ← (if c.nodes.any (fun x => x == node) then do
        let s ← peek node
        pure [displayLine level s]
      else pure [] : KProg T (List String))
    doLock node
    let s ← doRead node
    let below ← mapList s.children (fmtWithIndentLevel c fuel (level + 1))
    doUnlock node
    return here ++ below.flatten

/-- `src/chain.rs:108-112` `Display for Chain` (and for `SerialChain`, lines 615-622). -/
def display (fuel : Nat) (c : Chain) : KProg T String :=
  match c.nodes with
  | [] => .panic "called `Option::unwrap()` on a `None` value"
  | n :: _ => do
    let lines ← fmtWithIndentLevel c fuel 0 n
    return String.join lines

end Chain
end K
