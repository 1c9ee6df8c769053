import Verif.Model.Ik
import Verif.Model.Urdf
/-!
# The tests of `/repo` on the model

The model runs on `Float` here.  Every assertion of the tests and documentation examples of `/repo` that speaks
of modelled code is evaluated.  These are tests of the model, not proofs, and nothing depends on this file.

`cd /verif/lean && lake env lean --run Verif/Validation/RepoTests.lean`
-/

open K K.Prog K.Urdf

namespace RepoTests

instance : Scalar Float where
  zero := 0
  one := 1
  lt a b := a < b
  le a b := a ≤ b
  eq a b := a == b
  sin := Float.sin
  cos := Float.cos
  sqrt := Float.sqrt
  abs := Float.abs
  atan2 := Float.atan2
  lit n d := n.toFloat / d.toFloat

/-! ## linear algebra (nalgebra in the real program) -/

/-- solves by elimination with row pivots; `rows` are the rows with the right side appended -/
def elim (rows : Array (Array Float)) : Option (List Float) := Id.run do
  let n := rows.size
  let mut a := rows
  for c in [0:n] do
    let mut p := c
    for r in [c:n] do
      if Float.abs a[r]![c]! > Float.abs a[p]![c]! then p := r
    if a[p]![c]! == 0 then return none
    let t := a[p]!
    a := a.set! p a[c]!
    a := a.set! c t
    for r in [0:n] do
      if r != c then
        let k := a[r]![c]! / a[c]![c]!
        a := a.set! r ((a[r]!.zip a[c]!).map fun (x, y) => x - k * y)
  return some ((List.range n).map fun i => a[i]![n]! / a[i]![i]!)

def rowsOf (m : Mat Float) : List (List Float) :=
  (List.range (m.headD []).length).map fun r => m.map fun col => col.getD r 0

def luSolve (m : Mat Float) (b : List Float) : Option (List Float) :=
  elim ((rowsOf m).zip b |>.map fun (r, x) => (r ++ [x]).toArray).toArray

def dotF (a b : List Float) : Float := (a.zip b).foldl (fun s (x, y) => s + x * y) 0

/-- `Jᵀ (J Jᵀ)⁻¹`, as columns; zero when `J Jᵀ` is singular -/
def pinvF (m : Mat Float) : Mat Float :=
  let rs := rowsOf m
  let g := rs.map fun r => rs.map fun r' => dotF r r'
  (List.range rs.length).map fun k =>
    let e := (List.range rs.length).map fun i => if i = k then (1 : Float) else 0
    match elim (g.zip e |>.map fun (r, x) => (r ++ [x]).toArray).toArray with
    | some y => m.map fun col => dotF col y
    | none => m.map fun _ => 0

def laF : LinAlg Float where
  lu := luSolve
  svdSolve m b := (List.range m.length).map fun i => dotF ((pinvF m).map fun c => c.getD i 0) b
  pinv := pinvF

/-! ## running -/

def emptyHeap : KHeap Float :=
  { get := fun _ => NodeImpl.fresh (Joint.new "" .fixed), next := 0, dead := fun _ => false, held := fun _ => false }

abbrev Checks := List (String × Bool)

def near (a b eps : Float) : Bool := Float.abs (a - b) < eps
def eps64 : Float := 2.220446049250313e-16
def fuel : Nat := 100
def xAxis : V3 Float := ⟨1, 0, 0⟩
def yAxis : V3 Float := ⟨0, 1, 0⟩
def zAxis : V3 Float := ⟨0, 0, 1⟩

def mk (calls : List (NodeBuilderCall Float)) : KProg Float NodeId :=
  (calls.foldl NodeBuilder.call NodeBuilder.new).intoNode
def fixedNode (s : String) : KProg Float NodeId := Node.new (Joint.new s .fixed)
def names (ns : List NodeId) : KProg Float (List String) := mapList ns fun n => do return (← Node.joint n).name
def isOk {ε α : Type} : Except ε α → Bool
  | .ok _ => true
  | .error _ => false
def range (a b : Float) : Option (Range Float) := (Range.new a b).toOption
def posOfNode (n : NodeId) : KProg Float (Option Float) := Node.jointPosition n

/-! written by tools/urdf_to_lean.py from urdf/sample.urdf -/
def sampleRobot : Robot Float :=
  { joints := [
    { name := "l_shoulder_yaw", kind := .revolute, origin := ⟨⟨(0.0), (0.2), (0.2)⟩, ⟨(0.0), (0.0), (0.0)⟩⟩, parentLink := "root", childLink := "l_shoulder1", axis := ⟨(0.0), (0.0), (1.0)⟩, lower := (-3.0), upper := (3.0), mimic := none },
    { name := "l_shoulder_pitch", kind := .revolute, origin := ⟨⟨(0.0), (0.1), (0.0)⟩, ⟨(0.0), (0.0), (0.0)⟩⟩, parentLink := "l_shoulder1", childLink := "l_shoulder2", axis := ⟨(0.0), (1.0), (0.0)⟩, lower := (-3.0), upper := (3.0), mimic := none },
    { name := "l_shoulder_roll", kind := .revolute, origin := ⟨⟨(0.0), (0.1), (0.0)⟩, ⟨(0.0), (0.0), (0.0)⟩⟩, parentLink := "l_shoulder2", childLink := "l_shoulder3", axis := ⟨(1.0), (0.0), (0.0)⟩, lower := (-2.0), upper := (3.0), mimic := none },
    { name := "l_elbow_pitch", kind := .revolute, origin := ⟨⟨(0.0), (0.0), (-0.2)⟩, ⟨(0.0), (0.0), (0.0)⟩⟩, parentLink := "l_shoulder3", childLink := "l_elbow1", axis := ⟨(0.0), (1.0), (0.0)⟩, lower := (-2.0), upper := (3.0), mimic := none },
    { name := "l_wrist_yaw", kind := .revolute, origin := ⟨⟨(0.0), (0.0), (-0.2)⟩, ⟨(0.0), (0.0), (0.0)⟩⟩, parentLink := "l_elbow1", childLink := "l_wrist1", axis := ⟨(0.0), (0.0), (1.0)⟩, lower := (-2.0), upper := (3.0), mimic := none },
    { name := "l_wrist_pitch", kind := .revolute, origin := ⟨⟨(0.0), (0.0), (-0.2)⟩, ⟨(0.0), (0.0), (0.0)⟩⟩, parentLink := "l_wrist1", childLink := "l_wrist2", axis := ⟨(0.0), (1.0), (0.0)⟩, lower := (-2.0), upper := (3.0), mimic := none },
    { name := "r_shoulder_yaw", kind := .revolute, origin := ⟨⟨(0.0), (-0.2), (0.2)⟩, ⟨(0.0), (0.0), (0.0)⟩⟩, parentLink := "root", childLink := "r_shoulder1", axis := ⟨(0.0), (0.0), (1.0)⟩, lower := (-3.0), upper := (3.0), mimic := none },
    { name := "r_shoulder_pitch", kind := .revolute, origin := ⟨⟨(0.0), (-0.1), (0.0)⟩, ⟨(0.0), (0.0), (0.0)⟩⟩, parentLink := "r_shoulder1", childLink := "r_shoulder2", axis := ⟨(0.0), (1.0), (0.0)⟩, lower := (-3.0), upper := (3.0), mimic := none },
    { name := "r_shoulder_roll", kind := .revolute, origin := ⟨⟨(0.0), (-0.1), (0.0)⟩, ⟨(0.0), (0.0), (0.0)⟩⟩, parentLink := "r_shoulder2", childLink := "r_shoulder3", axis := ⟨(1.0), (0.0), (0.0)⟩, lower := (-2.0), upper := (3.0), mimic := none },
    { name := "r_elbow_pitch", kind := .revolute, origin := ⟨⟨(0.0), (0.0), (-0.2)⟩, ⟨(0.0), (0.0), (0.0)⟩⟩, parentLink := "r_shoulder3", childLink := "r_elbow1", axis := ⟨(0.0), (1.0), (0.0)⟩, lower := (-2.0), upper := (3.0), mimic := none },
    { name := "r_wrist_yaw", kind := .revolute, origin := ⟨⟨(0.0), (0.0), (-0.2)⟩, ⟨(0.0), (0.0), (0.0)⟩⟩, parentLink := "r_elbow1", childLink := "r_wrist1", axis := ⟨(0.0), (0.0), (1.0)⟩, lower := (-2.0), upper := (1.0), mimic := none },
    { name := "r_wrist_pitch", kind := .revolute, origin := ⟨⟨(0.0), (0.0), (-0.2)⟩, ⟨(0.0), (0.0), (0.0)⟩⟩, parentLink := "r_wrist1", childLink := "r_wrist2", axis := ⟨(0.0), (1.0), (0.0)⟩, lower := (-2.0), upper := (3.0), mimic := none }]
    links := [
    { name := "root_body", inertial := ⟨⟨⟨(0.0), (0.0), (0.5)⟩, ⟨(0.0), (0.0), (0.0)⟩⟩, (1.0), (100.0), (0.0), (0.0), (100.0), (0.0), (100.0)⟩, visual := [⟨none, ⟨⟨(0.0), (0.0), (0.0)⟩, ⟨(0.0), (0.0), (0.0)⟩⟩, .box ⟨(0.2), (0.2), (0.4)⟩, none⟩], collision := [⟨none, ⟨⟨(0.0), (0.0), (0.0)⟩, ⟨(0.0), (0.0), (0.0)⟩⟩, .cylinder (1.0) (0.5)⟩] },
    { name := "l_shoulder1", inertial := ⟨⟨⟨(0.0), (0.0), (0.0)⟩, ⟨(0.0), (0.0), (0.0)⟩⟩, 0, 0, 0, 0, 0, 0, 0⟩, visual := [⟨none, ⟨⟨(0.0), (0.0), (0.0)⟩, ⟨(0.0), (0.0), (0.0)⟩⟩, .box ⟨(0.1), (0.1), (0.1)⟩, none⟩], collision := [] },
    { name := "l_shoulder2", inertial := ⟨⟨⟨(0.0), (0.0), (0.0)⟩, ⟨(0.0), (0.0), (0.0)⟩⟩, 0, 0, 0, 0, 0, 0, 0⟩, visual := [⟨none, ⟨⟨(0.0), (0.0), (0.0)⟩, ⟨(0.0), (0.0), (0.0)⟩⟩, .box ⟨(0.1), (0.1), (0.1)⟩, none⟩], collision := [] },
    { name := "l_shoulder3", inertial := ⟨⟨⟨(0.0), (0.0), (0.0)⟩, ⟨(0.0), (0.0), (0.0)⟩⟩, 0, 0, 0, 0, 0, 0, 0⟩, visual := [⟨none, ⟨⟨(0.0), (0.0), (0.0)⟩, ⟨(0.0), (0.0), (0.0)⟩⟩, .box ⟨(0.1), (0.1), (0.2)⟩, none⟩], collision := [] },
    { name := "l_elbow1", inertial := ⟨⟨⟨(0.0), (0.0), (0.0)⟩, ⟨(0.0), (0.0), (0.0)⟩⟩, 0, 0, 0, 0, 0, 0, 0⟩, visual := [⟨none, ⟨⟨(0.0), (0.0), (0.0)⟩, ⟨(0.0), (0.0), (0.0)⟩⟩, .box ⟨(0.1), (0.1), (0.2)⟩, none⟩], collision := [] },
    { name := "l_wrist1", inertial := ⟨⟨⟨(0.0), (0.0), (0.0)⟩, ⟨(0.0), (0.0), (0.0)⟩⟩, 0, 0, 0, 0, 0, 0, 0⟩, visual := [⟨none, ⟨⟨(0.0), (0.0), (0.0)⟩, ⟨(0.0), (0.0), (0.0)⟩⟩, .box ⟨(0.1), (0.15), (0.1)⟩, none⟩], collision := [] },
    { name := "l_wrist2", inertial := ⟨⟨⟨(0.0), (0.0), (0.0)⟩, ⟨(0.0), (0.0), (0.0)⟩⟩, 0, 0, 0, 0, 0, 0, 0⟩, visual := [⟨none, ⟨⟨(0.0), (0.0), (0.0)⟩, ⟨(0.0), (0.0), (0.0)⟩⟩, .box ⟨(0.05), (0.08), (0.15)⟩, none⟩], collision := [] },
    { name := "r_shoulder1", inertial := ⟨⟨⟨(0.0), (0.0), (0.0)⟩, ⟨(0.0), (0.0), (0.0)⟩⟩, 0, 0, 0, 0, 0, 0, 0⟩, visual := [⟨none, ⟨⟨(0.0), (0.0), (0.0)⟩, ⟨(0.0), (0.0), (0.0)⟩⟩, .box ⟨(0.1), (0.1), (0.1)⟩, none⟩], collision := [] },
    { name := "r_shoulder2", inertial := ⟨⟨⟨(0.0), (0.0), (0.0)⟩, ⟨(0.0), (0.0), (0.0)⟩⟩, 0, 0, 0, 0, 0, 0, 0⟩, visual := [⟨none, ⟨⟨(0.0), (0.0), (0.0)⟩, ⟨(0.0), (0.0), (0.0)⟩⟩, .box ⟨(0.1), (0.1), (0.1)⟩, none⟩], collision := [] },
    { name := "r_shoulder3", inertial := ⟨⟨⟨(0.0), (0.0), (0.0)⟩, ⟨(0.0), (0.0), (0.0)⟩⟩, 0, 0, 0, 0, 0, 0, 0⟩, visual := [⟨none, ⟨⟨(0.0), (0.0), (0.0)⟩, ⟨(0.0), (0.0), (0.0)⟩⟩, .box ⟨(0.1), (0.1), (0.2)⟩, none⟩], collision := [] },
    { name := "r_elbow1", inertial := ⟨⟨⟨(0.0), (0.0), (0.0)⟩, ⟨(0.0), (0.0), (0.0)⟩⟩, 0, 0, 0, 0, 0, 0, 0⟩, visual := [⟨none, ⟨⟨(0.0), (0.0), (0.0)⟩, ⟨(0.0), (0.0), (0.0)⟩⟩, .box ⟨(0.1), (0.1), (0.2)⟩, none⟩], collision := [] },
    { name := "r_wrist1", inertial := ⟨⟨⟨(0.0), (0.0), (0.0)⟩, ⟨(0.0), (0.0), (0.0)⟩⟩, 0, 0, 0, 0, 0, 0, 0⟩, visual := [⟨none, ⟨⟨(0.0), (0.0), (0.0)⟩, ⟨(0.0), (0.0), (0.0)⟩⟩, .box ⟨(0.1), (0.15), (0.1)⟩, none⟩], collision := [] },
    { name := "r_wrist2", inertial := ⟨⟨⟨(0.0), (0.0), (0.0)⟩, ⟨(0.0), (0.0), (0.0)⟩⟩, 0, 0, 0, 0, 0, 0, 0⟩, visual := [⟨none, ⟨⟨(0.0), (0.0), (0.0)⟩, ⟨(0.0), (0.0), (0.0)⟩⟩, .box ⟨(0.05), (0.08), (0.15)⟩, none⟩], collision := [] }] }

/-! ## `src/chain.rs` -/

def docChain : KProg Float Checks := do
  let l0 ← mk [.name "joint_pitch0", .translation ⟨0, 0, 0.1⟩, .jointType (.rotational yAxis)]
  let l1 ← mk [.name "joint_pitch1", .translation ⟨0, 0, 0.5⟩, .jointType (.rotational yAxis)]
  let l2 ← mk [.name "hand", .translation ⟨0, 0, 0.5⟩, .jointType .fixed]
  connect [l0, l1, l2]
  let tree ← Chain.fromRoot fuel l0
  let p ← tree.jointPositions
  let t ← tree.updateTransforms
  let r ← tree.setJointPositions [1, 2]
  let p' ← tree.jointPositions
  let t' ← tree.updateTransforms
  return [("53 dof", tree.dof == 2), ("57 len", p.length == 2), ("58", p == [0, 0]), ("63", t.length == 3),
    ("64-66", t.map (·.trans.z) == [0.1, 0.6, 1.1]), ("72", isOk r), ("74", p' == [1, 2]), ("79", t'.length == 3)]

def docFromEndToRoot : KProg Float Checks := do
  let l0 ← fixedNode "fixed0"
  let l1 ← fixedNode "fixed1"
  let l2 ← fixedNode "fixed2"
  let l3 ← fixedNode "fixed3"
  Node.setParent l1 l0
  Node.setParent l2 l1
  Node.setParent l3 l2
  let c ← Chain.fromEndToRoot fuel l2 l1
  return [("204", (← c.find "fixed0").isNone), ("205", (← c.find "fixed1").isSome),
    ("206", (← c.find "fixed2").isSome), ("207", (← c.find "fixed3").isNone)]

def docOrigin : KProg Float Checks := do
  let l0 ← fixedNode "fixed0"
  let l1 ← fixedNode "fixed1"
  Node.setParent l1 l0
  let c ← Chain.fromEnd fuel l1
  let o ← c.origin
  c.setOrigin ⟨⟨1, o.trans.y, o.trans.z⟩, o.rot⟩
  let o' ← c.origin
  return [("234", Float.abs o.trans.x < 0.000001), ("237", near o'.trans.x 1 0.000001)]

def docIter : KProg Float Checks := do
  let l0 ← fixedNode "fixed0"
  let l1 ← fixedNode "fixed1"
  Node.setParent l1 l0
  let c ← Chain.fromRoot fuel l0
  return [("262-264", (← names c.nodes) == ["fixed0", "fixed1"])]

def docDof : KProg Float Checks := do
  let l0 ← mk [.jointType .fixed]
  let l1 ← mk [.jointType (.rotational yAxis)]
  Node.setParent l1 l0
  return [("304", (← Chain.fromRoot fuel l0).dof == 1)]

def docFind : KProg Float Checks := do
  let l0 ← mk [.name "fixed"]
  let l1 ← mk [.name "pitch1", .translation ⟨0, 0.1, 0⟩, .jointType (.rotational yAxis)]
  Node.setParent l1 l0
  let tree ← Chain.fromRoot fuel l0
  let j ← expect (← tree.find "pitch1") "find"
  let r ← Node.setJointPosition j 0.5
  return [("327", isOk r), ("328", (← posOfNode j) == some 0.5)]

def docTryNew : KProg Float Checks := do
  let n ← mk []
  let a ← (← Chain.fromRoot fuel n).tryNew
  let n0 ← mk []
  let n1 ← mk []
  let n2 ← mk []
  Node.setParent n1 n0
  Node.setParent n2 n0
  let b ← (← Chain.fromRoot fuel n0).tryNew
  return [("535", a.isSome), ("545", b.isNone)]

def docSerial : KProg Float Checks := do
  let n0 ← mk []
  let n1 ← mk []
  let n2 ← mk []
  let n3 ← mk []
  connect [n0, n1, n2, n3]
  return [("584", (← Chain.fromEndToRoot fuel n2 n1).nodes.length == 2)]

def testChain0 : KProg Float Checks := do
  let y : NodeBuilderCall Float := .jointType (.rotational yAxis)
  let j0 ← mk [.name "j0", .translation ⟨0, 0.1, 0⟩, y]
  let j1 ← mk [.translation ⟨0, 0.1, 0.1⟩, .name "j1", y]
  let j2 ← mk [.name "j2", .translation ⟨0, 0.1, 0.1⟩, y]
  let j3 ← mk [.name "j3", .translation ⟨0, 0.1, 0.2⟩, y]
  let j4 ← mk [.name "j4", .translation ⟨0, 0.1, 0.1⟩, y]
  let j5 ← mk [.name "j5", .translation ⟨0, 0.1, 0.1⟩, y]
  Node.setParent j1 j0
  Node.setParent j2 j1
  Node.setParent j3 j2
  Node.setParent j4 j0
  Node.setParent j5 j4
  let ns ← names (← descendants fuel [j0])
  let arm ← Chain.fromEnd fuel j3
  return [("names.len", ns.length == 6), ("arm", (← arm.jointPositions).length == 4)]

def testMimic : KProg Float Checks := do
  let y : NodeBuilderCall Float := .jointType (.rotational yAxis)
  let j0 ← mk [.name "j0", .translation ⟨0, 0.1, 0⟩, y]
  let j1 ← mk [.name "joint1", .translation ⟨0, 0.1, 0.1⟩, y]
  let j2 ← mk [.name "joint2", .translation ⟨0, 0.1, 0.1⟩, y]
  Node.setParent j1 j0
  Node.setParent j2 j1
  Node.setMimicParent j2 j1 ⟨2, 0.5⟩
  let arm ← Chain.fromRoot fuel j0
  let n := (← arm.jointPositions).length
  let r ← arm.setJointPositions [0.1, 0.2, 0.3]
  let p ← arm.jointPositions
  return [("len", n == 3), ("ok", isOk r), ("0", near (p.getD 0 9) 0.1 eps64), ("1", near (p.getD 1 9) 0.2 eps64),
    ("2", near (p.getD 2 9) 0.9 eps64)]

/-! ## `src/node.rs` -/

def docNode : KProg Float Checks := do
  let l0 ← mk []
  let l1 ← mk []
  Node.setParent l1 l0
  let lin : List (NodeBuilderCall Float) := [.jointType (.linear zAxis), .limits (range 0 2)]
  let a ← mk lin
  let r1 ← Node.setJointPosition a 1
  let r2 ← Node.setJointPosition a (-1)
  let f ← mk [.jointType .fixed]
  let r3 ← Node.setJointPosition f 0
  let j0 ← mk lin
  let j1 ← mk lin
  Node.setMimicParent j1 j0 ⟨1.5, 0.1⟩
  let p0 ← posOfNode j0
  let p1 ← posOfNode j1
  let r4 ← Node.setJointPosition j0 1
  let q0 ← posOfNode j0
  let q1 ← posOfNode j1
  let c ← mk [.jointType (.linear zAxis), .limits (range (-1) 1)]
  Node.setJointPositionClamped c 2
  let c1 ← posOfNode c
  Node.setJointPositionClamped c (-2)
  let c2 ← posOfNode c
  return [("126", ← Node.isRoot l0), ("127", !(← Node.isRoot l1)), ("139", !(← Node.isEnd l0)), ("140", ← Node.isEnd l1),
    ("170", isOk r1), ("171", !isOk r2), ("181", !isOk r3), ("197", p0 == some 0), ("198", p1 == some 0),
    ("199", isOk r4), ("200", q0 == some 1), ("201", q1 == some 1.6), ("239", c1 == some 1), ("241", c2 == some (-1))]

def docWorld : KProg Float Checks := do
  let l0 ← mk [.translation ⟨0, 0, 0.2⟩, .jointType (.rotational yAxis)]
  let l1 ← mk [.translation ⟨0, 0, 1⟩, .jointType (.linear zAxis)]
  Node.setParent l1 l0
  let tree ← Chain.fromRoot fuel l0
  let r ← tree.setJointPositions [3.141592 * 0.5, 0.1]
  let w0 ← Node.worldTransform l1
  let _ ← tree.updateTransforms
  let w ← expect (← Node.worldTransform l1) "world"
  return [("294", isOk r), ("295", w0.isNone), ("298", near w.trans.x 1.1 0.0001), ("299", near w.trans.z 0.2 0.0001)]

def docConnect : KProg Float Checks := do
  let l0 ← mk []
  let l1 ← mk []
  let l2 ← mk []
  connect [l0, l1, l2]
  return [("586", ← Node.isRoot l0), ("587", !(← Node.isRoot l1)), ("588", !(← Node.isEnd l1)), ("589", ← Node.isEnd l2)]

/-! ## `src/joint` -/

def docJoint : Checks :=
  let r : Range Float := ⟨-1, 1⟩
  let fixed : Joint Float := Joint.new "f" .fixed
  let rot : Joint Float := Joint.new "r" (.rotational xAxis)
  let lim : Joint Float := { rot with limits := some ⟨0, 0.5⟩ }
  let clampd : Joint Float := { rot with limits := some r }
  let lin : Joint Float := Joint.new "l" (.linear xAxis)
  [("range52", r.isValid 0), ("53", r.isValid 1), ("54", !r.isValid 1.5), ("65", r.clamp 0.5 == 0.5),
   ("66", r.clamp 2 == 1), ("67", r.clamp (-2) == -1), ("range36", isOk (Range.new (-1 : Float) 1)),
   ("range37", !isOk (Range.new (1 : Float) (-1))), ("joint60", fixed.jointPosition.isNone),
   ("64", rot.jointPosition == some 0), ("91", !isOk (fixed.setJointPosition 1).2),
   ("101", (rot.setJointPosition 0.2).1.jointPosition == some 0.2),
   ("144", (clampd.setJointPositionClamped 2).jointPosition == some 1),
   ("146", (clampd.setJointPositionClamped (-2)).jointPosition == some (-1)),
   ("98", lim.jointPosition == some 0), ("215", lin.localTransform.trans.x == 0),
   ("217", (lin.setJointPosition (-1)).1.localTransform.trans.x == -1),
   ("mimic55", (Mimic.mimicPosition ⟨1, 0.5⟩ 0.2 : Float) == 0.7),
   ("60", (Mimic.mimicPosition ⟨-2, -0.4⟩ 0.2 : Float) == -0.8)]

/-! ## `src/funcs.rs`, `src/ik.rs` -/

def testCom : KProg Float Checks := do
  let zeros : M3 Float := ⟨0, 0, 0, 0, 0, 0, 0, 0, 0⟩
  let j0 ← mk [.translation ⟨0, 1, 0⟩]
  let j1 ← mk [.translation ⟨0, 0, 1⟩, .jointType (.rotational yAxis)]
  Node.setLink j0 (some (Link.build [.name "l0", .inertial (Inertial.new Iso.one 1 zeros)]))
  let i1 := (Inertial.new Iso.one 4 zeros).setOrigin (⟨⟨0, 0, 1⟩, Quat.one⟩ : Iso Float)
  Node.setLink j1 (some (Link.build [.name "l1", .inertial i1]))
  Node.setParent j1 j0
  let tree ← Chain.fromRoot fuel j0
  let c ← centerOfMass tree
  let r ← Node.setJointPosition j1 0.5
  let d ← centerOfMass tree
  return [("x", near c.x 0 eps64), ("y", near c.y 1 eps64), ("z", near c.z 1.6 eps64), ("set", isOk r),
    ("x2", near d.x 0.383540 0.0001), ("y2", near d.y 1 eps64), ("z2", near d.z 1.502066 0.0001)]

def testNullspace : Checks :=
  match createReferencePositionsNullspaceFunction [0, 1] [0.5, (0.1 : Float)] with
  | .error _ => [("create", false)]
  | .ok f => match f [0.5, 0.5] with
    | .error _ => [("call", false)]
    | .ok v => [("len", v.length == 2), ("0", near (v.getD 0 9) 0.25 eps64), ("1", near (v.getD 1 9) (-0.05) eps64)]

/-! ## `tests/test_ik.rs` -/

def armNodes : KProg Float (List NodeId) := do
  let l0 ← mk [.name "shoulder_pitch", .jointType (.rotational yAxis)]
  let l1 ← mk [.name "shoulder_roll", .jointType (.rotational xAxis), .translation ⟨0, 0.1, 0⟩]
  let l2 ← mk [.name "shoulder_yaw", .jointType (.rotational zAxis), .translation ⟨0, 0, -0.3⟩]
  let l3 ← mk [.name "elbow_pitch", .jointType (.rotational yAxis), .translation ⟨0, 0, -0.15⟩]
  let l4 ← mk [.name "wrist_yaw", .jointType (.rotational zAxis), .translation ⟨0, 0, -0.15⟩]
  let l5 ← mk [.name "wrist_pitch", .jointType (.rotational yAxis), .translation ⟨0, 0, -0.15⟩]
  return [l0, l1, l2, l3, l4, l5]

def arm6 : KProg Float Chain := do
  let ns ← armNodes
  connect ns
  Chain.fromEnd fuel (ns.getLastD 0)

def arm7 : KProg Float Chain := do
  let ns ← armNodes
  let l6 ← mk [.name "wrist_roll", .jointType (.rotational xAxis), .translation ⟨0, 0, -0.10⟩]
  connect (ns ++ [l6])
  Chain.fromRoot fuel (ns.headD 0)

def allNear (a b : List Float) (e : Float) : Bool := a.length == b.length && (a.zip b).all fun (x, y) => near x y e

def ikFk7 : KProg Float Checks := do
  let arm ← arm7
  let angles := [0.8, 0.2, 0.0, -1.5, 0.0, -0.3, 0.0]
  let r ← arm.setJointPositions angles
  let pose ← expect (← arm.updateTransforms).getLast? "poses"
  let s := IkSolver.new laF 0.001 0.001 0.5 100
  let r' ← solve s arm pose
  return [("set", isOk r), ("solve", isOk r'), ("angles", allNear angles (← arm.jointPositions) 0.001)]

def ikFk6 : KProg Float Checks := do
  let arm ← arm6
  let angles := [0.8, 0.2, 0.0, -1.2, 0.0, 0.1]
  let r ← arm.setJointPositions angles
  let pose ← expect (← arm.updateTransforms).getLast? "poses"
  let s := IkSolver.new laF 0.001 0.001 0.8 100
  let r2 ← arm.setJointPositions [0.4, 0.1, 0.1, -1.0, 0.1, 0.1]
  let r' ← solve s arm pose
  return [("set", isOk r), ("set2", isOk r2), ("solve", isOk r'), ("angles", allNear angles (← arm.jointPositions) 0.002)]

def ikFk7Constraints : KProg Float Checks := do
  let arm ← arm7
  let angles := [0.8, 0.2, 0.0, -1.5, 0.0, -0.3, 0.0]
  let r ← arm.setJointPositions angles
  let pose ← expect (← arm.updateTransforms).getLast? "poses"
  let s := IkSolver.new laF 0.001 0.001 0.5 100
  let r' ← solveWithConstraints s arm pose { Constraints.default with rotationX := false, ignoredJointNames := ["wrist_roll"] }
  let e ← arm.jointPositions
  return [("set", isOk r), ("solve", isOk r'), ("angles", allNear angles e 0.001), ("last", near (angles.getD 6 9) (e.getD 6 5) 1e-7)]

/-- not in `/repo`: a redundant arm from another start -/
def ik7Far : KProg Float Checks := do
  let arm ← arm7
  let _ ← arm.setJointPositions [0.8, 0.2, 0.0, -1.5, 0.0, -0.3, 0.0]
  let pose ← expect (← arm.updateTransforms).getLast? "poses"
  let _ ← arm.setJointPositions [0.4, 0.1, 0.1, -1.0, 0.1, 0.1, 0.2]
  let r' ← solve (IkSolver.new laF 0.001 0.001 0.5 100) arm pose
  let e ← arm.endTransform
  return [("solve", isOk r'), ("pose", near (V3.norm (e.trans.sub pose.trans)) 0 0.001)]

/-! ## `tests/test_chain.rs`, `src/urdf.rs` -/

def load : KProg Float Chain := chainFrom fuel (fun x : Float => x) sampleRobot

def testTree : KProg Float Checks := do
  let tree ← load
  let all ← names tree.nodes
  let js := (← tree.iterJoints).map (·.name)
  return [("links", sampleRobot.links.length == 13), ("dof", tree.dof == 12), ("13", all.length == 13),
    ("root", all[0]? == some "root"), ("second", all[1]? == some "r_shoulder_yaw"), ("12", js.length == 12),
    ("first joint", js[0]? == some "r_shoulder_yaw")]

def testClone : KProg Float Checks := do
  let tree ← load
  let tree2 ← tree.clone fuel
  let pos := [0.0, 0.1, 0.2, 0.3, 0.4, 0.5, 0.6, 0.7, 0.8, 0.9, -0.1, -0.2]
  let pos0 := List.replicate 12 0.0
  let r ← tree.setJointPositions pos
  let a ← tree.jointPositions
  let b ← tree2.jointPositions
  let r2 ← tree2.setJointPositions pos
  let c ← tree2.jointPositions
  let w1 ← mapList tree.nodes Node.worldTransform
  let w2 ← mapList tree2.nodes Node.worldTransform
  return [("dof", tree.dof == 12), ("dof2", tree2.dof == 12), ("set", isOk r), ("pos", a == pos), ("pos0", b == pos0),
    ("set2", isOk r2), ("pos2", c == pos), ("world", w1.all (·.isNone) && w2.all (·.isNone))]

def docMap : Checks :=
  let m := linkToJointMap sampleRobot
  [("355", m "root_body" == some rootJointName), ("356", m "r_wrist2" == some "r_wrist_pitch"),
   ("357", (m "no_exist_link").isNone)]

def report (name : String) (cs : Checks) : IO Nat := do
  let bad := cs.filter fun c => !c.2
  if bad.isEmpty then IO.println s!"ok   {name} ({cs.length} assertions)"
  else IO.println s!"FAIL {name}: {bad.map (·.1)}"
  return bad.length

def go (name : String) (p : KProg Float Checks) : IO Nat :=
  match run p emptyHeap with
  | .ok cs _ => report name cs
  | .panic m _ => do IO.println s!"FAIL {name}: panic {m}"; return 1
  | .blocked n _ => do IO.println s!"FAIL {name}: blocked at node {n}"; return 1
  | .diverged => do IO.println s!"FAIL {name}: out of fuel"; return 1

def all : IO UInt32 := do
  let mut bad := 0
  for (n, p) in [("chain.rs doc Chain", docChain), ("chain.rs doc from_end_to_root", docFromEndToRoot),
      ("chain.rs doc origin", docOrigin), ("chain.rs doc iter", docIter), ("chain.rs doc dof", docDof),
      ("chain.rs doc find", docFind), ("chain.rs doc try_new", docTryNew), ("chain.rs doc SerialChain", docSerial),
      ("chain.rs test_chain0", testChain0), ("chain.rs test_mimic", testMimic), ("node.rs doc", docNode),
      ("node.rs doc world_transform", docWorld), ("node.rs doc connect!", docConnect),
      ("funcs.rs test_update_center_of_mass", testCom), ("test_ik.rs ik_fk7", ikFk7), ("test_ik.rs ik_fk6", ikFk6),
      ("test_ik.rs ik_fk7_with_constraints", ikFk7Constraints), ("(own) redundant arm from another start", ik7Far),
      ("test_chain.rs test_tree, urdf.rs tests", testTree), ("test_chain.rs test_clone", testClone)] do
    bad := bad + (← go n p)
  bad := bad + (← report "joint/*.rs doc" docJoint)
  bad := bad + (← report "ik.rs test_nullspace_func" testNullspace)
  bad := bad + (← report "urdf.rs doc link_to_joint_map" docMap)
  match run (do (← load).display fuel) emptyHeap with
  | .ok s _ => IO.println s
  | _ => IO.println "display failed"
  return if bad == 0 then 0 else 1

end RepoTests

def main : IO UInt32 := RepoTests.all
