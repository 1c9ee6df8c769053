import Verif.Spec.Api
import Verif.Spec.Units
/-!
# Specification: other zeros and directions of the joints

The coordinate of a joint is read off from another zero, and possibly in the other direction.  So that the robot stays
the same, the axis of a reversed joint is reversed, the limits are moved, and the origin of the joint makes up for the
moved zero.  Poses, velocities, links and names stay as they are.
-/

namespace K
open Prog

noncomputable section

/-- how a joint of a type moves when its coordinate is `x` -/
def JointType.motion : JointType ℝ → ℝ → Iso ℝ
  | .fixed, _ => Iso.one
  | .rotational a, x => ⟨⟨0, 0, 0⟩, Quat.fromAxisAngle a x⟩
  | .linear a, x => ⟨a.scale x, Quat.one⟩

/-- the type of a joint with the direction changed by a sign -/
def JointType.directed (k : ℝ) : JointType ℝ → JointType ℝ
  | .fixed => .fixed
  | .rotational a => .rotational (a.scale k)
  | .linear a => .linear (a.scale k)

/-- a choice of coordinates: `sign * x + shift` instead of `x` -/
structure Coords where
  /-- 1, or -1 if the joint is counted in the other direction -/
  sign : NodeId → ℝ
  /-- what the old zero is called now -/
  shift : NodeId → ℝ
  /-- those of the joint that a joint mimics -/
  sourceSign : NodeId → ℝ
  sourceShift : NodeId → ℝ
  /-- the name of the joint -/
  name : NodeId → String
  /-- the type of the joint -/
  kind : NodeId → JointType ℝ
  sign_sq : ∀ n, sign n = 1 ∨ sign n = -1
  source_sq : ∀ n, sourceSign n = 1 ∨ sourceSign n = -1
  /-- axes have length 1 -/
  unit : ∀ n a, kind n = .rotational a → shift n = 0 ∨ a.x * a.x + a.y * a.y + a.z * a.z = 1

namespace Coords
variable (U : Coords)

/-- the new coordinate -/
def coord (n : NodeId) (x : ℝ) : ℝ := U.sign n * x + U.shift n
/-- the old coordinate -/
def back (n : NodeId) (y : ℝ) : ℝ := U.sign n * (y - U.shift n)
/-- the origin makes up for the moved zero -/
def correction (n : NodeId) : Iso ℝ := (U.kind n).motion (-(U.sign n * U.shift n))
def range (n : NodeId) (r : Range ℝ) : Range ℝ :=
  if U.sign n = 1 then ⟨U.coord n r.min, U.coord n r.max⟩ else ⟨U.coord n r.max, U.coord n r.min⟩
def joint (n : NodeId) (j : Joint ℝ) : Joint ℝ where
  name := j.name
  jointType := j.jointType.directed (U.sign n)
  position := U.coord n j.position
  velocity := U.sign n * j.velocity
  limits := j.limits.map (U.range n)
  origin := j.origin.mul (U.correction n)
  worldTransformCache := j.worldTransformCache
  worldVelocityCache := j.worldVelocityCache
def mimic (n : NodeId) (m : Mimic ℝ) : Mimic ℝ :=
  ⟨U.sign n * m.multiplier * U.sourceSign n,
    U.coord n m.origin - U.sign n * m.multiplier * U.sourceSign n * U.sourceShift n⟩

/-- the content of the node `n` -/
def node (n : NodeId) (s : NodeImpl ℝ) : NodeImpl ℝ :=
  { s with joint := U.joint n s.joint, mimic := s.mimic.map (U.mimic n) }

/-- the memory -/
def heap (h : KHeap ℝ) : KHeap ℝ := { h with get := fun n => U.node n (h.get n) }

/-- the joints have the names and are of the types said, the limits of a reversed joint are in order, and a joint mimics
what it is said to mimic -/
structure Fits (n : NodeId) (s : NodeImpl ℝ) : Prop where
  name : s.joint.name = U.name n
  kind : s.joint.jointType = U.kind n
  limits : ∀ r, s.joint.limits = some r → U.sign n = 1 ∨ r.min ≤ r.max
  mimics : ∀ c ∈ s.mimicChildren, U.sourceSign c = U.sign n ∧ U.sourceShift c = U.shift n

/-- coordinates of joints, each with its own function -/
def list (f : NodeId → ℝ → ℝ) : List NodeId → List ℝ → List ℝ
  | n :: ns, x :: xs => f n x :: list f ns xs
  | _, xs => xs

/-- coordinates of the joints of a chain -/
def coords (c : Chain) (xs : List ℝ) : List ℝ := list U.coord c.movableNodes xs

/-- changes of the coordinates -/
def changes (c : Chain) (xs : List ℝ) : List ℝ := list (fun n x => U.sign n * x) c.movableNodes xs

/-- a column of a Jacobian: what is moved when the coordinate grows -/
def column (n : NodeId) (col : List ℝ) : List ℝ := col.map (· * U.sign n)

def matrix (c : Chain) (m : Mat ℝ) : Mat ℝ := List.zipWith U.column c.movableNodes m

/-- the origin of a chain is that of its first joint -/
def chainOrigin (c : Chain) (t : Iso ℝ) : Iso ℝ :=
  match c.nodes with
  | [] => t
  | n :: _ => t.mul (U.correction n)

def solver (c : Chain) (s : IkSolver ℝ) : IkSolver ℝ :=
  { s with
    nullspaceFunction := s.nullspaceFunction.map fun f xs =>
      (f (list U.back c.movableNodes xs)).map (U.changes c) }

/-- the same error -/
inductive SameError : KError ℝ → KError ℝ → Prop
  | outOfLimit (n : NodeId) (x : ℝ) (r : Range ℝ) : SameError (.outOfLimit (U.name n) x r.max r.min)
      (.outOfLimit (U.name n) (U.coord n x) (U.range n r).max (U.range n r).min)
  | other (e : KError ℝ) (h : ∀ name x max min, e ≠ .outOfLimit name x max min) : SameError e e

/-- the same outcome of a call that may fail -/
inductive SameResult : Except (KError ℝ) Unit → Except (KError ℝ) Unit → Prop
  | ok : SameResult (.ok ()) (.ok ())
  | error {e e' : KError ℝ} (h : U.SameError e e') : SameResult (.error e) (.error e')

end Coords

/-- Linear algebra that solves the same equations when unknowns are counted in the other direction. -/
structure LinAlg.SignFree (la : LinAlg ℝ) : Prop where
  lu : ∀ (c : List ℝ) (J : Mat ℝ) (b : List ℝ), (∀ k ∈ c, k = 1 ∨ k = -1) → c.length = J.length →
    J.length = b.length → (∀ col ∈ J, col.length = b.length) →
    la.lu (List.zipWith (fun k col => col.map (· * k)) c J) b = (la.lu J b).map (Units.list c)
  svd : ∀ (c : List ℝ) (J : Mat ℝ) (b : List ℝ), (∀ k ∈ c, k = 1 ∨ k = -1) → c.length = J.length →
    b.length < J.length → (∀ col ∈ J, col.length = b.length) →
    la.svdSolve (List.zipWith (fun k col => col.map (· * k)) c J) b = Units.list c (la.svdSolve J b) ∧
      (la.svdSolve J b).length = J.length
  pinv : ∀ (c : List ℝ) (J : Mat ℝ) (v : List ℝ), (∀ k ∈ c, k = 1 ∨ k = -1) → c.length = J.length →
    v.length < J.length → (∀ col ∈ J, col.length = v.length) →
    matVec J.length (la.pinv (List.zipWith (fun k col => col.map (· * k)) c J)) v =
        Units.list c (matVec J.length (la.pinv J) v) ∧
      (matVec J.length (la.pinv J) v).length = J.length

/-- Inverse kinematics with such linear algebra, where no joint is ignored twice, and none if there are as many equations
as joints (the step is not spread over the joints then, but given to the first ones). -/
structure Coords.SolveFits (s : IkSolver ℝ) (c : Chain) (cs : Constraints) : Prop where
  dof : c.dof = c.movableNodes.length
  la : s.la.SignFree
  nodup : cs.ignoredJointNames.Nodup
  spread : cs.ignoredJointNames = [] ∨
    countTrue (defineOperationalSpace cs) < c.dof - cs.ignoredJointNames.length

/-- the same call in the other coordinates -/
def Call.inCoords (U : Coords) : {β : Type} → Call ℝ β → Call ℝ β
  | _, .newNode j => .newNode j
  | _, .setParent n p => .setParent n p
  | _, .removeParent n p => .removeParent n p
  | _, .setMimicParent n p m => .setMimicParent n p (U.mimic n m)
  | _, .setLink n l => .setLink n l
  | _, .setOrigin n t => .setOrigin n (t.mul (U.correction n))
  | _, .setJointPosition n x => .setJointPosition n (U.coord n x)
  | _, .setJointPositionClamped n x => .setJointPositionClamped n (U.coord n x)
  | _, .setJointPositionUnchecked n x => .setJointPositionUnchecked n (U.coord n x)
  | _, .joint n => .joint n
  | _, .jointPosition n => .jointPosition n
  | _, .parent n => .parent n
  | _, .mimicParent n => .mimicParent n
  | _, .children n => .children n
  | _, .link n => .link n
  | _, .isRoot n => .isRoot n
  | _, .isEnd n => .isEnd n
  | _, .origin n => .origin n
  | _, .worldTransform n => .worldTransform n
  | _, .worldVelocity n => .worldVelocity n
  | _, .iterAncestors fuel n => .iterAncestors fuel n
  | _, .iterDescendants fuel n => .iterDescendants fuel n
  | _, .fromNodes ns => .fromNodes ns
  | _, .fromRoot fuel n => .fromRoot fuel n
  | _, .fromEnd fuel n => .fromEnd fuel n
  | _, .fromEndToRoot fuel e r => .fromEndToRoot fuel e r
  | _, .chainSetOrigin c t => .chainSetOrigin c (U.chainOrigin c t)
  | _, .chainOrigin c => .chainOrigin c
  | _, .iterJoints c => .iterJoints c
  | _, .iterLinks c => .iterLinks c
  | _, .find c name => .find c name
  | _, .jointPositions c => .jointPositions c
  | _, .setJointPositions c xs => .setJointPositions c (U.coords c xs)
  | _, .setJointPositionsClamped c xs => .setJointPositionsClamped c (U.coords c xs)
  | _, .setJointPositionsUnchecked c xs => .setJointPositionsUnchecked c (U.coords c xs)
  | _, .updateTransforms c => .updateTransforms c
  | _, .updateVelocities c => .updateVelocities c
  | _, .updateLinkTransforms c => .updateLinkTransforms c
  | _, .cloneChain fuel c => .cloneChain fuel c
  | _, .tryNew c => .tryNew c
  | _, .endTransform c => .endTransform c
  | _, .display fuel c => .display fuel c
  | _, .jacobian c => .jacobian c
  | _, .centerOfMass c => .centerOfMass c
  | _, .solve s c target cs => .solve (U.solver c s) c target cs

/-- `r'` is the answer `r` of the call in the other coordinates -/
def Call.Reads (U : Coords) : {β : Type} → Call ℝ β → β → β → Prop
  | _, .setJointPosition _ _, r, r' => U.SameResult r r'
  | _, .joint n, j, j' => j' = U.joint n j
  | _, .jointPosition n, x, x' => x' = x.map (U.coord n)
  | _, .origin n, t, t' => t' = t.mul (U.correction n)
  | _, .chainOrigin c, t, t' => t' = U.chainOrigin c t
  | _, .iterJoints c, js, js' => js' = List.zipWith U.joint c.movableNodes js ∧ js.length = c.movableNodes.length
  | _, .jointPositions c, xs, xs' => xs' = U.coords c xs ∧ xs.length = c.movableNodes.length
  | _, .setJointPositions _ _, r, r' => U.SameResult r r'
  | _, .jacobian c, m, m' => m' = U.matrix c m ∧ m.length = c.movableNodes.length
  | _, .solve _ _ _ _, r, r' => U.SameResult r r'
  | _, _, r, r' => r' = r

/-- Calls that the theorem speaks of: no nodes are created (their coordinates would not be known), a joint is made to
mimic the joint it is said to mimic, no directions are printed if some are reversed, and inverse kinematics
spreads its steps over the joints.  `update_velocities` looks at the origin of the parent only, so that the zeros of
sliding joints have to stay for it. -/
def Call.FitsCoords (U : Coords) : {β : Type} → Call ℝ β → Prop
  | _, .newNode _ => False
  | _, .cloneChain _ _ => False
  | _, .setMimicParent n p _ => U.sourceSign n = U.sign p ∧ U.sourceShift n = U.shift p
  | _, .updateVelocities _ => ∀ n a, U.kind n = .linear a → U.shift n = 0
  | _, .display _ _ => ∀ n, U.sign n = 1
  | _, .solve s c _ cs => Coords.SolveFits s c cs
  | _, _ => True

/-- The second client makes the calls of the first one in the other coordinates, and goes on alike whenever it gets the
same answers in the other coordinates. -/
inductive Client.SameInCoords {α : Type} (U : Coords) : Client ℝ α → Client ℝ α → Prop
  | done (a : α) : SameInCoords U (.done a) (.done a)
  | call {β : Type} (c : Call ℝ β) (k k' : β → Client ℝ α) (fits : c.FitsCoords U)
      (next : ∀ r r', c.Reads U r r' → SameInCoords U (k r) (k' r')) :
      SameInCoords U (.call c k) (.call (c.inCoords U) k')

/-- the outcome, with the memory in the other coordinates -/
def Res.inCoords {α : Type} (U : Coords) : Res (NodeImpl ℝ) α → Res (NodeImpl ℝ) α
  | .ok a h => .ok a (U.heap h)
  | .panic m h => .panic m (U.heap h)
  | .blocked n h => .blocked n (U.heap h)
  | .diverged => .diverged

end

end K
