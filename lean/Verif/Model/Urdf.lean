import Verif.Model.Chain
/-!
# `src/urdf.rs`

The parsed robot (`urdf_rs::Robot`, crate urdf-rs 0.6, not in `/repo`) is given by the record types
below, restricted to the fields `src/urdf.rs` reads.  `F` is `f64`, `T` the scalar of the chain and
`cv : F → T` is `na::convert`.  XML parsing (`from_urdf_file`, `src/urdf.rs:336-341`) is not modelled.
Log output (`info!`, `debug!`) is not modelled.
-/

namespace K
open Prog

namespace Urdf

/-- `urdf_rs::JointType`. -/
inductive JointKind where
  | revolute | continuous | prismatic | fixed | floating | planar | spherical
  deriving DecidableEq

/-- `urdf_rs::Pose` (`src/urdf.rs:76-81,255-256`). -/
structure Pose (F : Type) where
  xyz : V3 F
  rpy : V3 F

/-- `urdf_rs::Mimic` (`src/urdf.rs:189-195,302-308`). -/
structure MimicTag (F : Type) where
  joint : String
  multiplier : Option F
  offset : Option F

/-- `urdf_rs::Joint` (`src/urdf.rs:232-258,271-283,301-309`). -/
structure JointTag (F : Type) where
  name : String
  kind : JointKind
  origin : Pose F
  parentLink : String
  childLink : String
  axis : V3 F
  lower : F
  upper : F
  mimic : Option (MimicTag F)

/-- `urdf_rs::Geometry` (`src/urdf.rs:138-168`). -/
inductive GeometryTag (F : Type) where
  | box (size : V3 F)
  | cylinder (radius length : F)
  | capsule (radius length : F)
  | sphere (radius : F)
  | mesh (filename : String) (scale : Option (V3 F))

/-- `urdf_rs::Material` (`src/urdf.rs:67-73`); colour as `[r,g,b,a]`. -/
structure MaterialTag (F : Type) where
  name : String
  color : Option (F × F × F × F)
  texture : Option String

/-- `urdf_rs::Inertial` (`src/urdf.rs:87-104`). -/
structure InertialTag (F : Type) where
  origin : Pose F
  mass : F
  ixx : F
  ixy : F
  ixz : F
  iyy : F
  iyz : F
  izz : F

/-- `urdf_rs::Visual` (`src/urdf.rs:111-118`). -/
structure VisualTag (F : Type) where
  name : Option String
  origin : Pose F
  geometry : GeometryTag F
  material : Option (MaterialTag F)

/-- `urdf_rs::Collision` (`src/urdf.rs:125-131`). -/
structure CollisionTag (F : Type) where
  name : Option String
  origin : Pose F
  geometry : GeometryTag F

/-- `urdf_rs::Link` (`src/urdf.rs:175-182`). -/
structure LinkTag (F : Type) where
  name : String
  inertial : InertialTag F
  visual : List (VisualTag F)
  collision : List (CollisionTag F)

/-- `urdf_rs::Robot` (`src/urdf.rs:265-301`). -/
structure Robot (F : Type) where
  joints : List (JointTag F)
  links : List (LinkTag F)

/-- `src/urdf.rs:30` `ROOT_JOINT_NAME`. -/
def rootJointName : String := "root"

variable {F T : Type} [Scalar F] [Scalar T]

/-- `na::convert` of a vector. -/
def cvV3 (cv : F → T) (v : V3 F) : V3 T := ⟨cv v.x, cv v.y, cv v.z⟩

/-- `src/urdf.rs:211-218` `quaternion_from`: computed in `f64`, then converted. -/
def quaternionFrom (cv : F → T) (rpy : V3 F) : Quat T :=
  let q := Quat.fromEuler rpy.x rpy.y rpy.z
  ⟨cv q.w, cv q.i, cv q.j, cv q.k⟩

/-- `src/urdf.rs:221-226` `translation_from`. -/
def translationFrom (cv : F → T) (xyz : V3 F) : V3 T := cvV3 cv xyz

/-- `src/urdf.rs:76-81` `isometry_from`. -/
def isometryFrom (cv : F → T) (p : Pose F) : Iso T :=
  ⟨translationFrom cv p.xyz, quaternionFrom cv p.rpy⟩

/-- `src/urdf.rs:199-208` `axis_from`: converted, then normalised in `T`. -/
def axisFrom (cv : F → T) (a : V3 F) : V3 T := (cvV3 cv a).normalize

/-- `src/urdf.rs:185-196` `From<&urdf_rs::Mimic> for Mimic`. -/
def mimicFrom (cv : F → T) (m : MimicTag F) : Mimic T :=
  ⟨cv (m.multiplier.getD (Scalar.lit 1 1)), cv (m.offset.getD 0)⟩

/-- `src/urdf.rs:233-240`: the limits. -/
def limitFrom (cv : F → T) (j : JointTag F) : Except String (Option (Range T)) :=
  if Scalar.eq (j.upper - j.lower) 0 then .ok none
  else
    match Range.new (cv j.lower) (cv j.upper) with
    | .ok r => .ok (some r)
    | .error e => .error e

/-- `src/urdf.rs:243-253`: the joint type. -/
def jointTypeFrom (cv : F → T) (j : JointTag F) : JointType T :=
  match j.kind with
  | .revolute => .rotational (axisFrom cv j.axis)
  | .continuous => .rotational (axisFrom cv j.axis)
  | .prismatic => .linear (axisFrom cv j.axis)
  | _ => .fixed

/-- `src/urdf.rs:228-259` `From<&urdf_rs::Joint> for Joint` (may panic in `Range::new`). -/
def jointFrom (cv : F → T) (j : JointTag F) : Except String (Joint T) := do
  let limit ← limitFrom cv j
  let b : NodeBuilder T :=
    ((((NodeBuilder.new.call (.name j.name)).call (.jointType (jointTypeFrom cv j))).call
      (.limits limit)).call (.rotation (quaternionFrom cv j.origin.rpy))).call
      (.translation (translationFrom cv j.origin.xyz))
  return b.finalize

/-- `src/urdf.rs:32-44` `From<&Color>`; `urdf_material.color.unwrap_or_default()` (line 70) is
`[0,0,0,0]`. -/
def colorFrom (cv : F → T) (c : Option (F × F × F × F)) : Color T :=
  match c with
  | some (r, g, b, a) => ⟨cv r, cv g, cv b, cv a⟩
  | none => ⟨cv 0, cv 0, cv 0, cv 0⟩

/-- `src/urdf.rs:63-74` `From<Material>`; a missing material (line 116) has an empty name. -/
def materialFrom (cv : F → T) (m : Option (MaterialTag F)) : Material T :=
  match m with
  | some m => ⟨m.name, colorFrom cv m.color, m.texture.getD ""⟩
  | none => ⟨"", colorFrom cv none, ""⟩

/-- `src/urdf.rs:134-169` `From<Geometry>`; `DEFAULT_MESH_SCALE` is line 386. -/
def geometryFrom (cv : F → T) : GeometryTag F → Geometry T
  | .box s => .box (cv s.x) (cv s.y) (cv s.z)
  | .cylinder r l => .cylinder (cv r) (cv l)
  | .capsule r l => .capsule (cv r) (cv l)
  | .sphere r => .sphere (cv r)
  | .mesh f s => .mesh f (cvV3 cv (s.getD ⟨Scalar.lit 1 1, Scalar.lit 1 1, Scalar.lit 1 1⟩))

/-- `src/urdf.rs:83-105` `From<Inertial>`. -/
def inertialFrom (cv : F → T) (i : InertialTag F) : Inertial T :=
  Inertial.new (isometryFrom cv i.origin) (cv i.mass)
    ⟨cv i.ixx, cv i.ixy, cv i.ixz, cv i.ixy, cv i.iyy, cv i.iyz, cv i.ixz, cv i.iyz, cv i.izz⟩

/-- `src/urdf.rs:107-119` `From<Visual>`. -/
def visualFrom (cv : F → T) (v : VisualTag F) : Visual T :=
  Visual.new (v.name.getD "") (isometryFrom cv v.origin) (geometryFrom cv v.geometry)
    (materialFrom cv v.material)

/-- `src/urdf.rs:121-132` `From<Collision>`. -/
def collisionFrom (cv : F → T) (c : CollisionTag F) : Collision T :=
  Collision.new (c.name.getD "") (isometryFrom cv c.origin) (geometryFrom cv c.geometry)

/-- `src/urdf.rs:171-183` `From<urdf_rs::Link> for Link`. -/
def linkFrom (cv : F → T) (l : LinkTag F) : Link T :=
  { name := l.name
    inertial := inertialFrom cv l.inertial
    visuals := l.visual.map (visualFrom cv)
    collisions := l.collision.map (collisionFrom cv) }

/-- `HashMap<String, V>` (`src/urdf.rs:267-269,360`). -/
abbrev SMap (V : Type) := String → Option V

/-- `HashMap::insert`: overwrites. -/
def SMap.insert {V : Type} (m : SMap V) (k : String) (v : V) : SMap V :=
  fun k' => if k' = k then some v else m k'

/-- The four containers of `src/urdf.rs:266-269`. -/
structure Tables where
  refNodes : List NodeId
  childLinkToNode : SMap NodeId
  jointNameToNode : SMap NodeId
  parentLinkToNodes : SMap (List NodeId)

/-- `src/urdf.rs:266-269`. -/
def Tables.empty : Tables := ⟨[], fun _ => none, fun _ => none, fun _ => none⟩

/-- `src/urdf.rs:273-283`: register the node of joint `j`. -/
def Tables.add (t : Tables) (j : JointTag F) (node : NodeId) : Tables :=
  { refNodes := t.refNodes ++ [node]
    childLinkToNode := t.childLinkToNode.insert j.childLink node
    jointNameToNode := t.jointNameToNode.insert j.name node
    parentLinkToNodes :=
      match t.parentLinkToNodes j.parentLink with
      | some ns => t.parentLinkToNodes.insert j.parentLink (ns ++ [node])
      | none => t.parentLinkToNodes.insert j.parentLink [node] }

/-- Loop `src/urdf.rs:271-284`. -/
def makeNodes (cv : F → T) : List (JointTag F) → Tables → KProg T Tables
  | [], t => .ret t
  | j :: js, t => do
    let joint ← ofExcept (jointFrom cv j)
    let node ← Node.new joint
    makeNodes cv js (t.add j node)

/-- Body of the loop `src/urdf.rs:285-299`. -/
def connectLink (cv : F → T) (t : Tables) (root : NodeId) (l : LinkTag F) : KProg T Unit := do
  match t.childLinkToNode l.name with
  | some parentNode =>
    match t.parentLinkToNodes l.name with
    | some childNodes => forEach childNodes fun childNode => Node.setParent childNode parentNode
    | none => pure ()
    Node.setLink parentNode (some (linkFrom cv l))
  | none => Node.setLink root (some (linkFrom cv l))

/-- Body of the loop `src/urdf.rs:301-310`. -/
def addMimic (cv : F → T) (t : Tables) (j : JointTag F) : KProg T Unit :=
  match j.mimic with
  | some mimic => do
    let child ← expect (t.jointNameToNode j.name) "no entry found for key"
    let parent ← expect (t.jointNameToNode mimic.joint) (mimic.joint ++ " not found, mimic not found")
    Node.setMimicParent child parent (mimicFrom cv mimic)
  | none => .ret ()

/-- Body of the loop `src/urdf.rs:312-318` (the filter is evaluated lazily, node by node). -/
def attachRoot (root rjn : NodeId) : KProg T Unit := do
  match ← Node.parent rjn with
  | none => Node.setParent rjn root
  | some _ => pure ()

/-- `src/urdf.rs:265-320` `From<&urdf_rs::Robot> for Chain`. -/
def chainFrom (fuel : Nat) (cv : F → T) (robot : Robot F) : KProg T Chain := do
  let root ← (NodeBuilder.new.call (.name rootJointName) : NodeBuilder T).intoNode
  let t ← makeNodes cv robot.joints Tables.empty
  forEach robot.links (connectLink cv t root)
  forEach robot.joints (addMimic cv t)
  forEach t.refNodes (attachRoot root)
  Chain.fromRoot fuel root

/-- `src/urdf.rs:359-370` `link_to_joint_map`. -/
def linkToJointMap (robot : Robot F) : SMap String :=
  let m := robot.joints.foldl (fun m j => SMap.insert m j.childLink j.name) (fun _ => none)
  robot.links.foldl
    (fun m l => if (m l.name).isNone then SMap.insert m l.name rootJointName else m) m

/-- `src/urdf.rs:372-383` `joint_to_link_map`: note that the second loop looks up a *link* name in a
map keyed by *joint* names. -/
def jointToLinkMap (robot : Robot F) : SMap String :=
  let m := robot.joints.foldl (fun m j => SMap.insert m j.name j.childLink) (fun _ => none)
  robot.links.foldl
    (fun m l => if (m l.name).isNone then SMap.insert m rootJointName l.name else m) m

end Urdf
end K
