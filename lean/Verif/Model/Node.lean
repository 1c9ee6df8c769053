import Verif.Model.Prog
import Verif.Model.Joint
import Verif.Model.Link
/-!
# `src/node.rs`
-/

namespace K

/-- `src/node.rs:33-44` `NodeImpl`.  `parent` and `mimic_parent` are `Weak` (an id that must be
upgraded before use), `children` and `mimic_children` are strong handles. -/
structure NodeImpl (T : Type) where
  parent : Option NodeId
  children : List NodeId
  joint : Joint T
  mimicParent : Option NodeId
  mimicChildren : List NodeId
  mimic : Option (Mimic T)
  link : Option (Link T)

/-- Programs over nodes of scalar type `T`. -/
abbrev KProg (T : Type) := Prog (NodeImpl T)
/-- Heaps of nodes of scalar type `T`. -/
abbrev KHeap (T : Type) := Heap (NodeImpl T)

variable {T : Type} [Scalar T]

open Prog

/-- The content `Node::new` puts in the mutex, `src/node.rs:61-69`. -/
def NodeImpl.fresh (joint : Joint T) : NodeImpl T :=
  { parent := none, children := [], joint := joint, mimicParent := none, mimicChildren := [],
    mimic := none, link := none }

namespace Node

/-- `src/node.rs:60-70` `Node::new`. -/
def new (joint : Joint T) : KProg T NodeId := doAlloc (NodeImpl.fresh joint)

/-- `src/node.rs:76-78` `node.joint()` used within one expression and dropped (all uses in
`/repo/src` except `chain.rs:402`, see `Chain.updateVelocities`). -/
def joint (n : NodeId) : KProg T (Joint T) := do return (← peek n).joint

/-- `src/node.rs:80-82` `joint_position`. -/
def jointPosition (n : NodeId) : KProg T (Option T) := do return (← peek n).joint.jointPosition

/-- `src/node.rs:84-89` `parent`: the weak reference is upgraded while the lock is held. -/
def parent (n : NodeId) : KProg T (Option NodeId) := do
  doLock n
  let s ← doRead n
  match s.parent with
  | some weak =>
    let alive ← doUpgrade weak
    doUnlock n
    return if alive then some weak else none
  | none =>
    doUnlock n
    return none

/-- `src/node.rs:91-93` `children()`, cloned at once and dropped (`src/iterator.rs:86`). -/
def children (n : NodeId) : KProg T (List NodeId) := do return (← peek n).children

/-- `src/node.rs:107-110` `set_parent`: two separate lock regions. -/
def setParent (n parent : NodeId) : KProg T Unit := do
  poke n fun s => { s with parent := some parent }
  poke parent fun s => { s with children := s.children ++ [n] }

/-- `src/node.rs:113-116` `remove_parent`. -/
def removeParent (n parent : NodeId) : KProg T Unit := do
  poke n fun s => { s with parent := none }
  poke parent fun s => { s with children := s.children.filter (fun x => x != n) }

/-- `src/node.rs:129-131` `is_root`: looks at the `Option<Weak>` only, without upgrading. -/
def isRoot (n : NodeId) : KProg T Bool := do return (← peek n).parent.isNone

/-- `src/node.rs:142-144` `is_end`. -/
def isEnd (n : NodeId) : KProg T Bool := do return (← peek n).children.isEmpty

/-- `src/node.rs:148-150` `set_origin`. -/
def setOrigin (n : NodeId) (trans : Iso T) : KProg T Unit :=
  poke n fun s => { s with joint := s.joint.setOrigin trans }

/-- `src/node.rs:154-156` `origin`. -/
def origin (n : NodeId) : KProg T (Iso T) := do return (← joint n).origin

/-- Body of the loop `src/node.rs:209-222` of `set_joint_position`: one mimic child `c` of `self = n`,
whose lock is held.  In the `None` branch (lines 216-220) `self.joint()` and `child.joint()` lock
mutexes that are already locked by this call. -/
def setMimicChild (n : NodeId) (position : T) (c : NodeId) : KProg T (Except (KError T) Unit) := do
  doLock c
  let s ← doRead c
  match s.mimic with
  | some m =>
    doWrite c fun s => { s with joint := (s.joint.setJointPosition (m.mimicPosition position)).1 }
    doUnlock c
    return (s.joint.setJointPosition (m.mimicPosition position)).2
  | none =>
    let from_ ← joint n
    let to ← joint c
    doUnlock c
    return .error (.mimicError from_.name to.name)

/-- `src/node.rs:203-224` `set_joint_position`.  The guard `node` is held during the whole body. -/
def setJointPosition (n : NodeId) (position : T) : KProg T (Except (KError T) Unit) := do
  doLock n
  let node ← doRead n
  if node.mimicParent.isSome then
    doUnlock n
    return .ok ()
  else
    doWrite n fun s => { s with joint := (s.joint.setJointPosition position).1 }
    match (node.joint.setJointPosition position).2 with
    | .error e =>
      doUnlock n
      return .error e
    | .ok () =>
      let r ← tryEach node.mimicChildren (setMimicChild n position)
      doUnlock n
      return r

/-- `src/node.rs:243-249` `set_joint_position_clamped`: mimic children are not touched. -/
def setJointPositionClamped (n : NodeId) (position : T) : KProg T Unit :=
  poke n fun s => { s with joint := s.joint.setJointPositionClamped position }

/-- `src/node.rs:252-258` `set_joint_position_unchecked`. -/
def setJointPositionUnchecked (n : NodeId) (position : T) : KProg T Unit :=
  poke n fun s => { s with joint := s.joint.setJointPositionUnchecked position }

/-- `src/node.rs:304-306` `world_transform`. -/
def worldTransform (n : NodeId) : KProg T (Option (Iso T)) := do return (← joint n).worldTransform

/-- `src/node.rs:308-310` `world_velocity`. -/
def worldVelocity (n : NodeId) : KProg T (Option (Velocity T)) := do
  return (← joint n).worldVelocity

/-- `src/node.rs:260-266` `parent_world_transform`. -/
def parentWorldTransform (n : NodeId) : KProg T (Option (Iso T)) := do
  match ← parent n with
  | some p => worldTransform p
  | none => return some Iso.one

/-- `src/node.rs:268-273` `parent_world_velocity`. -/
def parentWorldVelocity (n : NodeId) : KProg T (Option (Velocity T)) := do
  match ← parent n with
  | some p => worldVelocity p
  | none => return some Velocity.zero

/-- `src/node.rs:312-317` `mimic_parent`. -/
def mimicParent (n : NodeId) : KProg T (Option NodeId) := do
  doLock n
  let s ← doRead n
  match s.mimicParent with
  | some weak =>
    let alive ← doUpgrade weak
    doUnlock n
    return if alive then some weak else none
  | none =>
    doUnlock n
    return none

/-- `src/node.rs:319-323` `set_mimic_parent`: three separate lock regions. -/
def setMimicParent (n parent : NodeId) (mimic : Mimic T) : KProg T Unit := do
  poke n fun s => { s with mimicParent := some parent }
  poke parent fun s => { s with mimicChildren := s.mimicChildren ++ [n] }
  poke n fun s => { s with mimic := some mimic }

/-- `src/node.rs:325-327` `set_link`. -/
def setLink (n : NodeId) (link : Option (Link T)) : KProg T Unit :=
  poke n fun s => { s with link := link }

/-- `src/node.rs:329-331` `link()`, used within one expression. -/
def link (n : NodeId) : KProg T (Option (Link T)) := do return (← peek n).link

end Node

/-- `src/node.rs:501-506` `NodeBuilder`. -/
structure NodeBuilder (T : Type) where
  name : String
  jointType : JointType T
  limits : Option (Range T)
  origin : Iso T

/-- One call on a `NodeBuilder` (`src/node.rs:530-558`). -/
inductive NodeBuilderCall (T : Type) where
  | name (s : String)
  | jointType (t : JointType T)
  | limits (l : Option (Range T))
  | origin (o : Iso T)
  | translation (t : V3 T)
  | rotation (q : Quat T)

namespace NodeBuilder

/-- `src/node.rs:521-528` `NodeBuilder::new`. -/
def new : NodeBuilder T := ⟨"", .fixed, none, Iso.one⟩

/-- `src/node.rs:530-558`: the setters. -/
def call (b : NodeBuilder T) : NodeBuilderCall T → NodeBuilder T
  | .name s => { b with name := s }
  | .jointType t => { b with jointType := t }
  | .limits l => { b with limits := l }
  | .origin o => { b with origin := o }
  | .translation t => { b with origin := { b.origin with trans := t } }
  | .rotation q => { b with origin := { b.origin with rot := q } }

/-- `src/node.rs:560-565` `finalize`. -/
def finalize (b : NodeBuilder T) : Joint T :=
  { (Joint.new b.name b.jointType).setOrigin b.origin with limits := b.limits }

/-- `src/node.rs:567-569` `into_node`. -/
def intoNode (b : NodeBuilder T) : KProg T NodeId := Node.new b.finalize

end NodeBuilder

/-- `src/node.rs:593-601` macro `connect![n0 => n1 => ...]`. -/
def connect : List NodeId → KProg T Unit
  | x :: y :: rest => do
    Node.setParent y x
    connect (y :: rest)
  | _ => .ret ()

end K
