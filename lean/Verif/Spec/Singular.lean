import Verif.Lemmas.LinAlg
import Verif.Spec.Ik
import Mathlib.LinearAlgebra.Matrix.Determinant.Basic
/-!
# Singular poses

A pose is singular for a set of constraints if some motion of the joints that are not ignored leaves, to first
order, every constrained coordinate of the end at rest.
-/

namespace K

noncomputable section

/-- whether coordinate `i` of the end (x, y, z, then rotations about x, y, z) is constrained -/
def Constraints.fixes (c : Constraints) : Nat → Bool
  | 0 => c.positionX
  | 1 => c.positionY
  | 2 => c.positionZ
  | 3 => c.rotationX
  | 4 => c.rotationY
  | 5 => c.rotationZ
  | _ => false

/-- rates of the joints: none for the ignored joints, some for another joint, and no constrained coordinate of the
end moves -/
structure Idle (c : Constraints) (ign : List Nat) (jac : Mat ℝ) (v : List ℝ) : Prop where
  rates : v.length = jac.length
  ignored : ∀ j ∈ ign, v[j]? = some 0
  moves : ∃ x ∈ v, x ≠ 0
  rest : ∀ i, c.fixes i = true → rowSum jac i v = 0

/-- a pose with Jacobian `jac` is singular -/
def Singular (c : Constraints) (ign : List Nat) (jac : Mat ℝ) : Prop := ∃ v, Idle c ign jac v

/-- what is assumed of nalgebra's LU decomposition: it gives a solution of a square system exactly if the matrix is
regular -/
def LinAlg.Pivots (la : LinAlg ℝ) : Prop :=
  ∀ (r : Nat) (J : Mat ℝ), J.length = r → (∀ col ∈ J, col.length = r) → ∀ b, b.length = r →
    ((∃ x, la.lu J b = some x) ↔ (toMat r r J).det ≠ 0)

/-- joint `k` turns about the line through `p` in the direction `a` -/
def TurnsAbout (h : KHeap ℝ) (k : NodeId) (p a : V3 ℝ) : Prop :=
  ∃ axis X, (h.get k).joint.jointType = .rotational axis ∧ (h.get k).joint.worldTransform = some X ∧
    p = X.trans ∧ a = X.rot.rotate axis

/-- joint `k` slides in the direction `a` -/
def SlidesAlong (h : KHeap ℝ) (k : NodeId) (a : V3 ℝ) : Prop :=
  ∃ axis X, (h.get k).joint.jointType = .linear axis ∧ (h.get k).joint.worldTransform = some X ∧
    a = X.rot.rotate axis

end
end K
