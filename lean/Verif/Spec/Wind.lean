import Verif.Spec.Sign
import Verif.Model.RealScalar
/-!
# Specification: whole turns of joints (C110)

A joint that turns without limits is where it was after a whole turn.  Two robots are alike, except that their joints have
been turned round some times more, and that orientations are written with either sign.
-/

namespace K
open Prog

noncomputable section

/-- how many times each joint has been turned round -/
abbrev Winding := NodeId → Int

namespace Winding
variable (W : Winding)

/-- the coordinate after the turns -/
def coord (n : NodeId) (x : ℝ) : ℝ := x + W n * (2 * Real.pi)

/-- coordinates of joints -/
def list : List NodeId → List ℝ → List ℝ
  | n :: ns, x :: xs => W.coord n x :: list ns xs
  | _, xs => xs

/-- the coordinates of the joints of a chain -/
def coords (c : Chain) (xs : List ℝ) : List ℝ := W.list c.movableNodes xs

end Winding

/-- the joint turns, and has no limits -/
def Joint.Continuous (j : Joint ℝ) : Prop := (∃ a, j.jointType = .rotational a) ∧ j.limits = none

/-- the same joint, turned round `k` times more, with either sign of the orientations -/
def Joint.Wound (k : Int) (j j' : Joint ℝ) : Prop :=
  ∃ o w, j' = { j with position := j.position + k * (2 * Real.pi), origin := o, worldTransformCache := w } ∧
    j.origin.EitherSign o ∧ BothOrNone Iso.EitherSign j.worldTransformCache w ∧ (k ≠ 0 → j.Continuous)

/-- the same node; joints in mimic relations are not turned -/
def NodeImpl.Wound (W : Winding) (n : NodeId) (s s' : NodeImpl ℝ) : Prop :=
  ∃ j l, s' = { s with joint := j, link := l } ∧ s.joint.Wound (W n) j ∧ BothOrNone Link.EitherSign s.link l ∧
    ∀ c ∈ s.mimicChildren, W n = 0 ∧ W c = 0

/-- the same memory; new nodes are not turned -/
structure Wound (W : Winding) (h g : KHeap ℝ) : Prop where
  node : ∀ n, (h.get n).Wound W n (g.get n)
  next : g.next = h.next
  dead : g.dead = h.dead
  held : g.held = h.held
  new : ∀ n, h.next ≤ n → W n = 0

/-- related along a list of nodes -/
def AlongNodes {α : Type} (R : NodeId → α → α → Prop) : List NodeId → List α → List α → Prop
  | [], [], [] => True
  | n :: ns, a :: as, b :: bs => R n a b ∧ AlongNodes R ns as bs
  | _, _, _ => False

/-- the same solver; what a nullspace function asks for does not depend on the turns -/
def IkSolver.Wound (W : Winding) (c : Chain) (s s' : IkSolver ℝ) : Prop :=
  ∃ f, s' = { s with nullspaceFunction := f } ∧
    BothOrNone (fun g g' => ∀ xs, g' (W.coords c xs) = g xs) s.nullspaceFunction f

/-- calls without coordinates of joints -/
def Call.NoCoords : {β : Type} → Call ℝ β → Prop
  | _, .setMimicParent _ _ _ => False
  | _, .setJointPosition _ _ => False
  | _, .setJointPositionClamped _ _ => False
  | _, .setJointPositionUnchecked _ _ => False
  | _, .setJointPositions _ _ => False
  | _, .setJointPositionsClamped _ _ => False
  | _, .setJointPositionsUnchecked _ _ => False
  | _, .cloneChain _ _ => False
  | _, .solve _ _ _ _ => False
  | _, _ => True

/-- the same call after the turns.  Joints that are turned are neither cloned nor brought into a mimic relation, and
inverse kinematics has no constraint on the orientation. -/
inductive Call.Wound (W : Winding) : {β : Type} → Call ℝ β → Call ℝ β → Prop
  | newNode {j j' : Joint ℝ} (r : j.EitherSign j') : Call.Wound W (.newNode j) (.newNode j')
  | setLink (n : NodeId) {l l' : Option (Link ℝ)} (r : BothOrNone Link.EitherSign l l') :
      Call.Wound W (.setLink n l) (.setLink n l')
  | setOrigin (n : NodeId) {t t' : Iso ℝ} (r : t.EitherSign t') : Call.Wound W (.setOrigin n t) (.setOrigin n t')
  | chainSetOrigin (c : Chain) {t t' : Iso ℝ} (r : t.EitherSign t') :
      Call.Wound W (.chainSetOrigin c t) (.chainSetOrigin c t')
  | setMimicParent (n p : NodeId) (m : Mimic ℝ) (hn : W n = 0) (hp : W p = 0) :
      Call.Wound W (.setMimicParent n p m) (.setMimicParent n p m)
  | setJointPosition (n : NodeId) (x : ℝ) :
      Call.Wound W (.setJointPosition n x) (.setJointPosition n (W.coord n x))
  | setJointPositionClamped (n : NodeId) (x : ℝ) :
      Call.Wound W (.setJointPositionClamped n x) (.setJointPositionClamped n (W.coord n x))
  | setJointPositionUnchecked (n : NodeId) (x : ℝ) :
      Call.Wound W (.setJointPositionUnchecked n x) (.setJointPositionUnchecked n (W.coord n x))
  | setJointPositions (c : Chain) (xs : List ℝ) :
      Call.Wound W (.setJointPositions c xs) (.setJointPositions c (W.coords c xs))
  | setJointPositionsClamped (c : Chain) (xs : List ℝ) :
      Call.Wound W (.setJointPositionsClamped c xs) (.setJointPositionsClamped c (W.coords c xs))
  | setJointPositionsUnchecked (c : Chain) (xs : List ℝ) :
      Call.Wound W (.setJointPositionsUnchecked c xs) (.setJointPositionsUnchecked c (W.coords c xs))
  | cloneChain (fuel : Nat) (c : Chain) (still : ∀ n ∈ c.nodes, W n = 0) :
      Call.Wound W (.cloneChain fuel c) (.cloneChain fuel c)
  | solve {s s' : IkSolver ℝ} (c : Chain) (hs : s.Wound W c s') {t t' : Iso ℝ} (r : t.EitherSign t') (cs : Constraints)
      (no : ¬ cs.Turning) : Call.Wound W (.solve s c t cs) (.solve s' c t' cs)
  | other {β : Type} (c : Call ℝ β) (no : c.NoCoords) : Call.Wound W c c

/-- the same answer after the turns -/
def Call.WoundAnswer (W : Winding) : {β : Type} → Call ℝ β → β → β → Prop
  | _, .joint n, j, j' => j.Wound (W n) j'
  | _, .jointPosition n, x, x' => x' = x.map (W.coord n)
  | _, .jointPositions c, xs, xs' => xs' = W.coords c xs
  | _, .iterJoints c, js, js' => AlongNodes (fun n => Joint.Wound (W n)) c.movableNodes js js'
  | _, .link _, l, l' => BothOrNone Link.EitherSign l l'
  | _, .origin _, t, t' => t.EitherSign t'
  | _, .worldTransform _, t, t' => BothOrNone Iso.EitherSign t t'
  | _, .chainOrigin _, t, t' => t.EitherSign t'
  | _, .iterLinks _, ls, ls' => OneByOne Link.EitherSign ls ls'
  | _, .updateTransforms _, ts, ts' => OneByOne Iso.EitherSign ts ts'
  | _, .endTransform _, t, t' => t.EitherSign t'
  | _, _, r, r' => r' = r

/-- the second client makes the same calls after the turns, and goes on alike after the same answers -/
inductive Client.Wound (W : Winding) {α : Type} : Client ℝ α → Client ℝ α → Prop
  | done (a : α) : Client.Wound W (.done a) (.done a)
  | call {β : Type} {c c' : Call ℝ β} (k k' : β → Client ℝ α) (r : c.Wound W c')
      (next : ∀ a a', c.WoundAnswer W a a' → Client.Wound W (k a) (k' a')) :
      Client.Wound W (.call c k) (.call c' k')

end

end K
