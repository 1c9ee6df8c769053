import Verif.Model.Ik
import Verif.Spec.Limits
import Verif.Spec.Chain
/-!
# Specification: inverse kinematics
-/

namespace K
variable {T : Type} [Scalar T]

/-- a vector with the coordinates that are not selected set to zero -/
def masked (a b c : Bool) (v : V3 T) : V3 T :=
  ⟨if a then v.x else 0, if b then v.y else 0, if c then v.z else 0⟩

/-- the constrained part of the position difference between two poses -/
def posError (c : Constraints) (target pose : Iso T) : V3 T :=
  masked c.positionX c.positionY c.positionZ (target.trans.sub pose.trans)

/-- the constrained part of the rotation that turns `pose` into `target`, as axis times angle -/
def rotError (c : Constraints) (target pose : Iso T) : V3 T :=
  masked c.rotationX c.rotationY c.rotationZ (pose.rot.rotationTo target.rot).scaledAxis

/-- number of constrained coordinates -/
def numConstrained (c : Constraints) : Nat :=
  c.positionX.toNat + c.positionY.toNat + c.positionZ.toNat +
    c.rotationX.toNat + c.rotationY.toNat + c.rotationZ.toNat

/-- the value is not outside the limits (NaN is neither inside nor outside) -/
def NotOutside (l : Option (Range T)) (x : T) : Prop :=
  ∀ r, l = some r → Scalar.lt x r.min = false ∧ Scalar.lt r.max x = false

/-- the elements of a list whose index is not in `is` -/
def dropIdx {α : Type} (is : List Nat) (xs : List α) : List α :=
  (xs.zipIdx.filter fun p => !is.contains p.2).map Prod.fst

end K
