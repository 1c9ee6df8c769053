import Verif.Model.Ik
/-!
# `Serialize`/`Deserialize` of `Constraints` (`src/ik.rs:62-87`, feature `serde-serialize`)

The code is generated by `#[derive(Serialize, Deserialize)]` from the field names, their types and the attributes
`serde(default = "default_true")` and `serde(default)`.  What is generated is modelled after serde 1.0: the
enumeration of fields, the loop of `visit_map`, `visit_seq`, the defaults of missing fields.  A document is a tree of
values (as `serde_json::Value`); which texts denote which trees is the business of the format.
-/

namespace K

/-- serde's data model, as far as it matters here -/
inductive Val where
  | null
  | bool (b : Bool)
  | num (i : Int)
  | str (s : String)
  | seq (vs : List Val)
  | map (kvs : List (String × Val))

/-- `serde::de::Error` -/
inductive SerdeError where
  | invalidType
  | duplicateField (name : String)
  | trailing

/-- the generated `enum __Field`: the six flags in the order of `src/ik.rs:69-79`, the list, and `__ignore` -/
inductive ConstraintField where
  | flag (i : Fin 6)
  | names
  | ignore

/-- the generated `visit_str` of the field visitor (`src/ik.rs:69-81`: names of the fields) -/
def ConstraintField.ofStr (s : String) : ConstraintField :=
  if s = "position_x" then .flag 0
  else if s = "position_y" then .flag 1
  else if s = "position_z" then .flag 2
  else if s = "rotation_x" then .flag 3
  else if s = "rotation_y" then .flag 4
  else if s = "rotation_z" then .flag 5
  else if s = "ignored_joint_names" then .names
  else .ignore

/-- `bool::deserialize` -/
def Val.asBool : Val → Except SerdeError Bool
  | .bool b => .ok b
  | _ => .error .invalidType

/-- `String::deserialize` -/
def Val.asString : Val → Except SerdeError String
  | .str s => .ok s
  | _ => .error .invalidType

/-- `Vec::<String>::deserialize` -/
def Val.asStrings : Val → Except SerdeError (List String)
  | .seq vs => vs.mapM Val.asString
  | _ => .error .invalidType

/-- the local variables `__field0 .. __field6` of `visit_map` -/
structure PartialConstraints where
  flags : Fin 6 → Option Bool
  names : Option (List String)

/-- `src/ik.rs:85-87` `default_true` -/
def defaultTrue : Bool := true

/-- the end of `visit_map`: missing fields (`src/ik.rs:68-80`) -/
def PartialConstraints.finish (p : PartialConstraints) : Constraints :=
  { positionX := (p.flags 0).getD defaultTrue
    positionY := (p.flags 1).getD defaultTrue
    positionZ := (p.flags 2).getD defaultTrue
    rotationX := (p.flags 3).getD defaultTrue
    rotationY := (p.flags 4).getD defaultTrue
    rotationZ := (p.flags 5).getD defaultTrue
    ignoredJointNames := p.names.getD [] }

/-- body of the loop of `visit_map`: one entry -/
def PartialConstraints.entry (p : PartialConstraints) (kv : String × Val) : Except SerdeError PartialConstraints :=
  match ConstraintField.ofStr kv.1 with
  | .flag i =>
    if (p.flags i).isSome then .error (.duplicateField kv.1)
    else do
      let b ← kv.2.asBool
      return { p with flags := fun j => if j = i then some b else p.flags j }
  | .names =>
    if p.names.isSome then .error (.duplicateField kv.1)
    else do
      let ns ← kv.2.asStrings
      return { p with names := some ns }
  | .ignore => return p

/-- the loop of `visit_map` -/
def PartialConstraints.entries : PartialConstraints → List (String × Val) → Except SerdeError PartialConstraints
  | p, [] => .ok p
  | p, kv :: kvs => do
    let p' ← p.entry kv
    entries p' kvs

/-- one element of `visit_seq`: the next value, or the default when there is none -/
def seqNext {α : Type} (as : Val → Except SerdeError α) (d : α) : List Val → Except SerdeError (α × List Val)
  | [] => .ok (d, [])
  | v :: vs => do
    let a ← as v
    return (a, vs)

/-- `Constraints::deserialize`.  Elements left over in a sequence are an error of the format (`serde_json`: invalid
length). -/
def Constraints.deserialize : Val → Except SerdeError Constraints
  | .map kvs => do
    let p ← PartialConstraints.entries ⟨fun _ => none, none⟩ kvs
    return p.finish
  | .seq vs => do
    let (px, vs) ← seqNext Val.asBool defaultTrue vs
    let (py, vs) ← seqNext Val.asBool defaultTrue vs
    let (pz, vs) ← seqNext Val.asBool defaultTrue vs
    let (rx, vs) ← seqNext Val.asBool defaultTrue vs
    let (ry, vs) ← seqNext Val.asBool defaultTrue vs
    let (rz, vs) ← seqNext Val.asBool defaultTrue vs
    let (ns, vs) ← seqNext Val.asStrings [] vs
    if vs.isEmpty then return ⟨px, py, pz, rx, ry, rz, ns⟩ else .error .trailing
  | _ => .error .invalidType

/-- `Constraints::serialize`: `serialize_struct` with the fields in order, in a format that writes structs as maps. -/
def Constraints.serialize (c : Constraints) : Val :=
  .map [("position_x", .bool c.positionX), ("position_y", .bool c.positionY), ("position_z", .bool c.positionZ),
    ("rotation_x", .bool c.rotationX), ("rotation_y", .bool c.rotationY), ("rotation_z", .bool c.rotationZ),
    ("ignored_joint_names", .seq (c.ignoredJointNames.map .str))]

/-- `Constraints::serialize` in a format that writes structs as sequences. -/
def Constraints.serializeSeq (c : Constraints) : Val :=
  .seq [.bool c.positionX, .bool c.positionY, .bool c.positionZ, .bool c.rotationX, .bool c.rotationY,
    .bool c.rotationZ, .seq (c.ignoredJointNames.map .str)]

end K
