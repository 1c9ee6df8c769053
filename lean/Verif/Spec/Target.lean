import Verif.Model.Ik
import Mathlib.Data.Real.Basic
/-!
# What an inverse-kinematics target asks for (C104)

Stated with the coordinates of the targets and nothing of the solver.
-/

namespace K
variable {T : Type}

/-- the constraint asks for some part of the orientation -/
def Constraints.Turning (c : Constraints) : Prop :=
  c.rotationX = true ∨ c.rotationY = true ∨ c.rotationZ = true

/-- the two targets ask for the same under the constraint: the same value of each constrained position
coordinate, and the same orientation when some part of the orientation is constrained -/
structure SameRequest (c : Constraints) (t t' : Iso T) : Prop where
  x : c.positionX = true → t'.trans.x = t.trans.x
  y : c.positionY = true → t'.trans.y = t.trans.y
  z : c.positionZ = true → t'.trans.z = t.trans.z
  rot : c.Turning → t'.rot = t.rot

/-- the orientations `a` and `b` are exactly half a turn apart: as unit quaternions they are
orthogonal -/
def HalfTurn {T : Type} [Scalar T] (a b : Quat T) : Prop :=
  b.w * a.w + b.i * a.i + b.j * a.j + b.k * a.k = 0

/-- the same target, its orientation written with the other of the two unit quaternions -/
def Iso.otherSign {T : Type} [Scalar T] (t : Iso T) : Iso T :=
  ⟨t.trans, ⟨-t.rot.w, -t.rot.i, -t.rot.j, -t.rot.k⟩⟩

end K
