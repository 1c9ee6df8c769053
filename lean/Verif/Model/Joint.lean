import Verif.Model.Geom
/-!
# `src/joint/*.rs` and `src/errors.rs`
-/

namespace K

/-- `src/joint/joint_type.rs:21-34` `JointType`.  `Unit<Vector3>` is a plain vector here; theorems
that need it to be of length one say so. -/
inductive JointType (T : Type) where
  | fixed
  | rotational (axis : V3 T)
  | linear (axis : V3 T)

/-- `src/joint/range.rs:20-23` `Range`. -/
structure Range (T : Type) where
  min : T
  max : T

/-- `src/joint/mimic.rs:30-33` `Mimic`. -/
structure Mimic (T : Type) where
  multiplier : T
  origin : T

/-- `src/joint/velocity.rs:19-22` `Velocity`. -/
structure Velocity (T : Type) where
  translation : V3 T
  rotation : V3 T

/-- `src/errors.rs:22-83` `Error`.  The `f64` payloads are kept as `T` (the code converts them with
`try_convert(..).unwrap_or_default()`, `src/joint/joint.rs:114-116`, `src/ik.rs:343-344`). -/
inductive KError (T : Type) where
  | outOfLimit (jointName : String) (position maxLimit minLimit : T)
  | setToFixed (jointName : String)
  | sizeMismatch (input required : Nat)
  | mimicError (from_ to : String)
  | notConverged (numTried : Nat) (positionDiff rotationDiff : V3 T)
  | inverseMatrix
  | precondition (dof necessaryDof : Nat)
  | invalidJointName (jointName : String)

variable {T : Type} [Scalar T]

namespace Range
/-- `src/joint/range.rs:39-42` `Range::new`: panics unless `min <= max`. -/
def new (min max : T) : Except String (Range T) :=
  if Scalar.le min max then .ok ⟨min, max⟩
  else .error "min must be less than or equal to max"
/-- `src/joint/range.rs:93-96` `Range::from` of `start..=stop`. -/
def ofInclusive (start stop : T) : Except String (Range T) := new start stop
/-- `src/joint/range.rs:56-58` `is_valid`. (`val >= min` is `min <= val`.) -/
def isValid (r : Range T) (val : T) : Bool := Scalar.le val r.max && Scalar.le r.min val
/-- `src/joint/range.rs:69-77` `clamp`. (`val > max` is `max < val`.) -/
def clamp (r : Range T) (val : T) : T :=
  if Scalar.lt val r.min then r.min
  else if Scalar.lt r.max val then r.max
  else val
end Range

/-- `src/joint/mimic.rs:62-64` `mimic_position`. -/
def Mimic.mimicPosition (m : Mimic T) (fromPosition : T) : T :=
  fromPosition * m.multiplier + m.origin

/-- `src/joint/velocity.rs:37-42` `Velocity::zero` (also `new`, `default`: lines 28-30, 49-51). -/
def Velocity.zero : Velocity T := ⟨V3.zero, V3.zero⟩

/-- `src/joint/joint.rs:28-45` `Joint`.  The two `RefCell` caches are plain fields (the `RefCell`s
are only borrowed for the duration of one `replace`/`*borrow()`). -/
structure Joint (T : Type) where
  name : String
  jointType : JointType T
  position : T
  velocity : T
  limits : Option (Range T)
  origin : Iso T
  worldTransformCache : Option (Iso T)
  worldVelocityCache : Option (Velocity T)

namespace Joint

/-- `src/joint/joint.rs:67-78` `Joint::new`. -/
def new (name : String) (jt : JointType T) : Joint T :=
  { name := name, jointType := jt, position := 0, velocity := 0, limits := none,
    origin := Iso.one, worldTransformCache := none, worldVelocityCache := none }

/-- `src/joint/joint.rs:258-260` `is_movable`. -/
def isMovable (j : Joint T) : Bool :=
  match j.jointType with
  | .fixed => false
  | _ => true

/-- `src/joint/joint.rs:160-165` `set_joint_position_unchecked`. -/
def setJointPositionUnchecked (j : Joint T) (position : T) : Joint T :=
  { j with position := position, worldTransformCache := none, worldVelocityCache := none }

/-- `src/joint/joint.rs:104-125` `set_joint_position`: the joint after the call and the result. -/
def setJointPosition (j : Joint T) (position : T) : Joint T × Except (KError T) Unit :=
  if !j.isMovable then (j, .error (.setToFixed j.name))
  else
    match j.limits with
    | some range =>
      if !range.isValid position then
        (j, .error (.outOfLimit j.name position range.max range.min))
      else
        ({ j with position := position, worldTransformCache := none, worldVelocityCache := none },
          .ok ())
    | none =>
      ({ j with position := position, worldTransformCache := none, worldVelocityCache := none },
        .ok ())

/-- `src/joint/joint.rs:149-159` `set_joint_position_clamped`. -/
def setJointPositionClamped (j : Joint T) (position : T) : Joint T :=
  if !j.isMovable then j
  else
    let positionClamped :=
      match j.limits with
      | some range => range.clamp position
      | none => position
    j.setJointPositionUnchecked positionClamped

/-- `src/joint/joint.rs:168-173` `joint_position`. -/
def jointPosition (j : Joint T) : Option T :=
  match j.jointType with
  | .fixed => none
  | _ => some j.position

/-- `src/joint/joint.rs:181-184` `set_origin`: clears the transform cache, not the velocity cache. -/
def setOrigin (j : Joint T) (origin : Iso T) : Joint T :=
  { j with origin := origin, worldTransformCache := none }

/-- `src/joint/joint.rs:186-195` `set_joint_velocity`. -/
def setJointVelocity (j : Joint T) (velocity : T) : Joint T × Except (KError T) Unit :=
  match j.jointType with
  | .fixed => (j, .error (.setToFixed j.name))
  | _ => ({ j with velocity := velocity, worldVelocityCache := none }, .ok ())

/-- `src/joint/joint.rs:199-204` `joint_velocity`. -/
def jointVelocity (j : Joint T) : Option T :=
  match j.jointType with
  | .fixed => none
  | _ => some j.velocity

/-- `src/joint/joint.rs:221-231`: the `match` inside `local_transform`. -/
def jointTransform (j : Joint T) : Iso T :=
  match j.jointType with
  | .fixed => Iso.one
  | .rotational axis => ⟨⟨0, 0, 0⟩, Quat.fromAxisAngle axis j.position⟩
  | .linear axis => ⟨axis.scale j.position, Quat.one⟩

/-- `src/joint/joint.rs:220-233` `local_transform`. -/
def localTransform (j : Joint T) : Iso T := j.origin.mul j.jointTransform

/-- `src/joint/joint.rs:236-238` `set_world_transform`. -/
def setWorldTransform (j : Joint T) (t : Iso T) : Joint T := { j with worldTransformCache := some t }
/-- `src/joint/joint.rs:241-243` `set_world_velocity`. -/
def setWorldVelocity (j : Joint T) (v : Velocity T) : Joint T := { j with worldVelocityCache := some v }
/-- `src/joint/joint.rs:248-250` `world_transform`. -/
def worldTransform (j : Joint T) : Option (Iso T) := j.worldTransformCache
/-- `src/joint/joint.rs:253-255` `world_velocity`. -/
def worldVelocity (j : Joint T) : Option (Velocity T) := j.worldVelocityCache

end Joint
end K
