import Verif.Model.RealScalar
import Verif.Model.Node
/-!
# Specification: rigid motions over the reals
-/

namespace K

/-- a quaternion of length one -/
def Quat.IsUnit (q : Quat ℝ) : Prop := q.w * q.w + q.i * q.i + q.j * q.j + q.k * q.k = 1
/-- a vector of length one -/
def V3.IsUnit (v : V3 ℝ) : Prop := v.x * v.x + v.y * v.y + v.z * v.z = 1
/-- a pose whose rotation part is a unit quaternion (nalgebra's `UnitQuaternion` invariant) -/
def Iso.IsRigid (a : Iso ℝ) : Prop := a.rot.IsUnit
/-- the axis of the joint has length one (nalgebra's `Unit<Vector3>` invariant) and its origin is
rigid -/
def Joint.IsRigid (j : Joint ℝ) : Prop :=
  j.origin.IsRigid ∧ match j.jointType with
    | .fixed => True
    | .rotational a => a.IsUnit
    | .linear a => a.IsUnit

end K
