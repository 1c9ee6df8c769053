import Verif.Spec.Ik
import Verif.Spec.Api
import Verif.Spec.Coords
/-!
# Specification: a robot some of whose joints are held
-/

namespace K

noncomputable section

/-- the indices of the joints of `arm` with these names, among its movable joints -/
def indicesOf {T : Type} [Scalar T] (h : KHeap T) (arm : Chain) (names : List String) : List Nat :=
  (List.range arm.movableNodes.length).filter fun i =>
    (arm.movableNodes[i]?.map fun n => names.contains (h.get n).joint.name).getD false

/-- the joint, fixed where it is -/
def Joint.welded (j : Joint ℝ) : Joint ℝ :=
  { j with jointType := .fixed, origin := j.origin.mul j.jointTransform }

/-- the two functions give the same values for the joints that are not held, when the others are at `p` -/
def NullspaceAgrees (is : List Nat) (p : List ℝ) :
    Option (List ℝ → Except String (List ℝ)) → Option (List ℝ → Except String (List ℝ)) → Prop
  | none, none => True
  | some f, some f' => ∀ xs : List ℝ, xs.length = p.length → (∀ i ∈ is, xs[i]? = p[i]?) →
      (∃ v, f xs = .ok v ∧ v.length = p.length ∧ f' (dropIdx is xs) = .ok (dropIdx is v)) ∨
        ∃ m, f xs = .error m ∧ f' (dropIdx is xs) = .error m
  | _, _ => False

/-- two runs end alike: with the same result or the same panic, the joints that are not held at the same positions, and
the others at `p` -/
def SameButHeld {α : Type} (arm : Chain) (is : List Nat) (p : List ℝ) (brm : Chain) :
    Res (NodeImpl ℝ) α → Res (NodeImpl ℝ) α → Prop
  | .ok a h, .ok b g => a = b ∧
      dropIdx is (arm.movableNodes.map fun n => (h.get n).joint.position) =
        (brm.movableNodes.map fun n => (g.get n).joint.position) ∧
      ∀ i ∈ is, (arm.movableNodes.map fun n => (h.get n).joint.position)[i]? = p[i]?
  | .panic m h, .panic m' g => m = m' ∧
      dropIdx is (arm.movableNodes.map fun n => (h.get n).joint.position) =
        (brm.movableNodes.map fun n => (g.get n).joint.position) ∧
      ∀ i ∈ is, (arm.movableNodes.map fun n => (h.get n).joint.position)[i]? = p[i]?
  | _, _ => False

end

end K
