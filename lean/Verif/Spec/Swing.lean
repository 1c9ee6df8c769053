import Verif.Spec.Tree
import Verif.Spec.Geom
/-!
# Specification: what moving one joint does to space
-/

namespace K

noncomputable section

/-- the motion of space that turns by the angle `x` about the line through the point `o` with the direction `a` -/
def Iso.turnAbout (o a : V3 ℝ) (x : ℝ) : Iso ℝ :=
  ⟨o.sub ((Quat.fromAxisAngle a x).rotate o), Quat.fromAxisAngle a x⟩

/-- the motion of space that shifts by `x` in the direction `a` -/
def Iso.shiftAlong (a : V3 ℝ) (x : ℝ) : Iso ℝ := ⟨a.scale x, Quat.one⟩

/-- moving a joint at the pose `X` by `x`: a turn about its axis in the world, or a shift along it -/
def jointMotion (X : Iso ℝ) (t : JointType ℝ) (x : ℝ) : Iso ℝ :=
  match t with
  | .fixed => Iso.one
  | .rotational a => Iso.turnAbout X.trans (X.rot.rotate a) x
  | .linear a => Iso.shiftAlong (X.rot.rotate a) x

/-- `n` is `k`, or `k` is found going from `n` to the parent, its parent and so on -/
inductive Hangs {T : Type} [Scalar T] (h : KHeap T) (k : NodeId) : NodeId → Prop
  | refl : Hangs h k k
  | step {p n : NodeId} (b : Hangs h k p) (e : liveParent h n = some p) : Hangs h k n

end

end K
