import Verif.Spec.Api
import Verif.Spec.Coords
import Verif.Spec.Fk
/-!
# Specification: what of a serial robot is seen

The user of a serial robot moves its joints, asks where they are and where the end is, asks for the Jacobian, and lets
the solver move the end to a target.
-/

namespace K
open Prog

noncomputable section

/-- one call on a serial robot -/
inductive ArmCall : Type → Type where
  | jointPositions : ArmCall (List ℝ)
  | setJointPositions (xs : List ℝ) : ArmCall (Except (KError ℝ) Unit)
  | setJointPositionsClamped (xs : List ℝ) : ArmCall Unit
  | setJointPositionsUnchecked (xs : List ℝ) : ArmCall Unit
  | endTransform : ArmCall (Iso ℝ)
  | jacobian : ArmCall (Mat ℝ)
  | solve (s : IkSolver ℝ) (target : Iso ℝ) (cs : Constraints) : ArmCall (Except (KError ℝ) Unit)

/-- the call on the robot `arm` -/
def ArmCall.on (arm : Chain) : {β : Type} → ArmCall β → Call ℝ β
  | _, .jointPositions => .jointPositions arm
  | _, .setJointPositions xs => .setJointPositions arm xs
  | _, .setJointPositionsClamped xs => .setJointPositionsClamped arm xs
  | _, .setJointPositionsUnchecked xs => .setJointPositionsUnchecked arm xs
  | _, .endTransform => .endTransform arm
  | _, .jacobian => .jacobian arm
  | _, .solve s target cs => .solve s arm target cs

/-- a program that uses a serial robot: each call may depend on all the answers so far -/
inductive ArmClient (α : Type) : Type 1 where
  | done (a : α)
  | call {β : Type} (c : ArmCall β) (k : β → ArmClient α)

/-- the program on the robot `arm` -/
def ArmClient.on {α : Type} (arm : Chain) : ArmClient α → Client ℝ α
  | .done a => .done a
  | .call c k => .call (c.on arm) fun r => (k r).on arm

/-- two runs end alike: with the same result or the same panic, and with the joints of the two robots at the same
positions -/
def SameEnd {α : Type} (arm brm : Chain) : Res (NodeImpl ℝ) α → Res (NodeImpl ℝ) α → Prop
  | .ok a h, .ok b g => a = b ∧ arm.movableNodes.map (fun n => (h.get n).joint.position) =
      brm.movableNodes.map fun n => (g.get n).joint.position
  | .panic m h, .panic m' g => m = m' ∧ arm.movableNodes.map (fun n => (h.get n).joint.position) =
      brm.movableNodes.map fun n => (g.get n).joint.position
  | _, _ => False

/-- the fixed transforms between the movable joints, with the types of these, and the last fixed transform -/
def segments (h : KHeap ℝ) : Iso ℝ → List NodeId → List (Iso ℝ × JointType ℝ) × Iso ℝ
  | acc, [] => ([], acc)
  | acc, n :: ns =>
    match (h.get n).joint.jointType with
    | .fixed => segments h (acc.mul (h.get n).joint.origin) ns
    | t => ((acc.mul (h.get n).joint.origin, t) :: (segments h Iso.one ns).1, (segments h Iso.one ns).2)

end

end K
