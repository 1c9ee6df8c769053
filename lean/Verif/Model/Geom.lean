import Verif.Model.Scalar
/-!
# The part of nalgebra used by `/repo/src`

nalgebra 0.26 (`/repo/Cargo.toml`) is a dependency and not in `/repo`; the definitions below are the
documented formulas of the functions the code calls.  Use sites in `/repo` are cited.  The order of
floating point operations is not claimed to be nalgebra's.
-/

namespace K

/-- `na::Vector3<T>` (`src/joint/velocity.rs:20`, `src/joint/joint_type.rs:27`). -/
@[ext] structure V3 (T : Type) where
  x : T
  y : T
  z : T

namespace V3
variable {T : Type} [Scalar T]

/-- `Vector3::zeros()` (`src/joint/velocity.rs:39`, `src/funcs.rs:63`). -/
def zero : V3 T := ⟨0, 0, 0⟩
/-- `a + b`. -/
def add (a b : V3 T) : V3 T := ⟨a.x + b.x, a.y + b.y, a.z + b.z⟩
/-- `a - b` (`src/ik.rs:34`, `src/funcs.rs:28`). -/
def sub (a b : V3 T) : V3 T := ⟨a.x - b.x, a.y - b.y, a.z - b.z⟩
/-- `-a`. -/
def neg (a : V3 T) : V3 T := ⟨-a.x, -a.y, -a.z⟩
/-- `a * s` (`src/joint/joint.rs:228`, `src/funcs.rs:70`). -/
def scale (a : V3 T) (s : T) : V3 T := ⟨a.x * s, a.y * s, a.z * s⟩
/-- `a / s` (`src/funcs.rs:75`). -/
def unscale (a : V3 T) (s : T) : V3 T := ⟨a.x / s, a.y / s, a.z / s⟩
/-- `a.cross(&b)` (`src/funcs.rs:28`, `src/chain.rs:409`). -/
def cross (a b : V3 T) : V3 T :=
  ⟨a.y * b.z - a.z * b.y, a.z * b.x - a.x * b.z, a.x * b.y - a.y * b.x⟩
/-- `a.dot(&b)`. -/
def dot (a b : V3 T) : T := a.x * b.x + a.y * b.y + a.z * b.z
/-- `a.norm()` (`src/ik.rs:331-332`). -/
def norm (a : V3 T) : T := Scalar.sqrt (a.x * a.x + a.y * a.y + a.z * a.z)
/-- `Unit::new_normalize(v)` (`src/urdf.rs:203`): divides by the norm, no check for zero. -/
def normalize (a : V3 T) : V3 T := a.unscale a.norm

end V3

/-- `na::Quaternion<T>` under a `UnitQuaternion<T>` (scalar part `w`, imaginary part `i j k`). -/
@[ext] structure Quat (T : Type) where
  w : T
  i : T
  j : T
  k : T

namespace Quat
variable {T : Type} [Scalar T]

/-- `UnitQuaternion::identity()` (`src/joint/joint.rs:229`). -/
def one : Quat T := ⟨1, 0, 0, 0⟩
/-- Quaternion product. -/
def mul (a b : Quat T) : Quat T :=
  ⟨a.w * b.w - a.i * b.i - a.j * b.j - a.k * b.k,
   a.w * b.i + a.i * b.w + a.j * b.k - a.k * b.j,
   a.w * b.j - a.i * b.k + a.j * b.w + a.k * b.i,
   a.w * b.k + a.i * b.j - a.j * b.i + a.k * b.w⟩
/-- `UnitQuaternion::inverse()` = conjugate. -/
def conj (a : Quat T) : Quat T := ⟨a.w, -a.i, -a.j, -a.k⟩
/-- imaginary part. -/
def vec (a : Quat T) : V3 T := ⟨a.i, a.j, a.k⟩
/-- `q * v` for a unit quaternion: `v + w t + u × t` with `t = 2 (u × v)`
(`src/funcs.rs:22,27`, isometry product). -/
def rotate (q : Quat T) (v : V3 T) : V3 T :=
  let t := (q.vec.cross v).scale (1 + 1)
  ((t.scale q.w).add (q.vec.cross t)).add v
/-- `q.to_rotation_matrix() * v` (`src/chain.rs:410,417,427`). -/
def matRotate (q : Quat T) (v : V3 T) : V3 T :=
  let two : T := 1 + 1
  let ww := q.w * q.w
  let ii := q.i * q.i
  let jj := q.j * q.j
  let kk := q.k * q.k
  let ij := q.i * q.j * two
  let wk := q.w * q.k * two
  let wj := q.w * q.j * two
  let ik := q.i * q.k * two
  let jk := q.j * q.k * two
  let wi := q.w * q.i * two
  ⟨(ww + ii - jj - kk) * v.x + (ij - wk) * v.y + (wj + ik) * v.z,
   (wk + ij) * v.x + (ww - ii + jj - kk) * v.y + (jk - wi) * v.z,
   (ik - wj) * v.x + (wi + jk) * v.y + (ww - ii - jj + kk) * v.z⟩
/-- `UnitQuaternion::from_axis_angle(&axis, angle)` (`src/joint/joint.rs:225`). -/
def fromAxisAngle (axis : V3 T) (angle : T) : Quat T :=
  let h := angle / (1 + 1)
  let s := Scalar.sin h
  ⟨Scalar.cos h, axis.x * s, axis.y * s, axis.z * s⟩
/-- `UnitQuaternion::from_euler_angles(roll, pitch, yaw)` (`src/urdf.rs:215`). -/
def fromEuler (r p y : T) : Quat T :=
  let half : T := Scalar.lit 1 2
  let sr := Scalar.sin (r * half)
  let cr := Scalar.cos (r * half)
  let sp := Scalar.sin (p * half)
  let cp := Scalar.cos (p * half)
  let sy := Scalar.sin (y * half)
  let cy := Scalar.cos (y * half)
  ⟨cr * cp * cy + sr * sp * sy,
   sr * cp * cy - cr * sp * sy,
   cr * sp * cy + sr * cp * sy,
   cr * cp * sy - sr * sp * cy⟩
/-- `UnitQuaternion::angle()`: `2 * atan2(‖imag‖, |w|)`. -/
def angle (q : Quat T) : T := Scalar.atan2 q.vec.norm (Scalar.abs q.w) * Scalar.lit 2 1
/-- `UnitQuaternion::axis()`: the imaginary part, negated when `w < 0` (test `w >= 0`), normalised;
`None` when its norm is not `> 0` (`Unit::try_new(v, 0)`). -/
def axis (q : Quat T) : Option (V3 T) :=
  let v := if Scalar.le 0 q.w then q.vec else q.vec.neg
  if Scalar.lt 0 v.norm then some (v.unscale v.norm) else none
/-- `UnitQuaternion::scaled_axis()` (`src/ik.rs:35`). -/
def scaledAxis (q : Quat T) : V3 T :=
  match q.axis with
  | some a => a.scale q.angle
  | none => V3.zero
/-- `a.rotation_to(&b) = b / a` (`src/ik.rs:35`). -/
def rotationTo (a b : Quat T) : Quat T := b.mul a.conj

end Quat

/-- `na::Isometry3<T>`: rotation then translation. -/
@[ext] structure Iso (T : Type) where
  trans : V3 T
  rot : Quat T

namespace Iso
variable {T : Type} [Scalar T]

/-- `Isometry3::identity()` (`src/joint/joint.rs:74`, `src/node.rs:264`, `src/chain.rs:598`). -/
def one : Iso T := ⟨V3.zero, Quat.one⟩
/-- `a * b` (`src/joint/joint.rs:232`, `src/chain.rs:384`). -/
def mul (a b : Iso T) : Iso T := ⟨a.trans.add (a.rot.rotate b.trans), a.rot.mul b.rot⟩
/-- `a * t` for a `Translation3` (`src/funcs.rs:69`). -/
def mulTrans (a : Iso T) (t : V3 T) : Iso T := ⟨a.trans.add (a.rot.rotate t), a.rot⟩
/-- image of a point (specification helper: the rigid motion an `Isometry3` denotes). -/
def apply (a : Iso T) (p : V3 T) : V3 T := a.trans.add (a.rot.rotate p)

end Iso

/-- `na::Matrix3<T>`, row major (`src/link.rs:64`). -/
structure M3 (T : Type) where
  m11 : T
  m12 : T
  m13 : T
  m21 : T
  m22 : T
  m23 : T
  m31 : T
  m32 : T
  m33 : T

/-- `Matrix3::identity()` (`src/link.rs:77,205`). -/
def M3.one {T : Type} [Scalar T] : M3 T := ⟨1, 0, 0, 0, 1, 0, 0, 0, 1⟩

end K
