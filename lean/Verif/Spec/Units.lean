import Verif.Spec.Api
import Verif.Model.RealScalar
/-!
# Specification: other units of length, mass and time

All numbers that a robot, a call or an answer consists of are converted to other units.  Angles, axes, orientations
and names stay as they are.  The coordinate of a linear joint is a length, that of a rotational joint an angle.
-/

namespace K
open Prog

noncomputable section

/-- a choice of units, as the factors by which numbers are multiplied -/
structure Units where
  len : ℝ
  mass : ℝ
  /-- of a frequency: the unit of time enters by its inverse -/
  rate : ℝ
  /-- of the coordinate of a joint -/
  coord : NodeId → ℝ
  /-- of the coordinate of the joint that a joint mimics -/
  source : NodeId → ℝ
  len_pos : 0 < len
  mass_pos : 0 < mass
  rate_pos : 0 < rate
  coord_pos : ∀ n, 0 < coord n
  source_pos : ∀ n, 0 < source n

namespace Units
variable (U : Units)

def iso (t : Iso ℝ) : Iso ℝ := ⟨t.trans.scale U.len, t.rot⟩
def velocity (v : Velocity ℝ) : Velocity ℝ :=
  ⟨v.translation.scale (U.len * U.rate), v.rotation.scale U.rate⟩
def range (n : NodeId) (r : Range ℝ) : Range ℝ := ⟨r.min * U.coord n, r.max * U.coord n⟩
def joint (n : NodeId) (j : Joint ℝ) : Joint ℝ where
  name := j.name
  jointType := j.jointType
  position := j.position * U.coord n
  velocity := j.velocity * (U.coord n * U.rate)
  limits := j.limits.map (U.range n)
  origin := U.iso j.origin
  worldTransformCache := j.worldTransformCache.map U.iso
  worldVelocityCache := j.worldVelocityCache.map U.velocity
def mimic (n : NodeId) (m : Mimic ℝ) : Mimic ℝ := ⟨m.multiplier * (U.coord n / U.source n), m.origin * U.coord n⟩

def geometry : Geometry ℝ → Geometry ℝ
  | .box d w h => .box (d * U.len) (w * U.len) (h * U.len)
  | .cylinder r l => .cylinder (r * U.len) (l * U.len)
  | .capsule r l => .capsule (r * U.len) (l * U.len)
  | .sphere r => .sphere (r * U.len)
  | .mesh f s => .mesh f (s.scale U.len)
def inertia (m : M3 ℝ) : M3 ℝ :=
  let k := U.mass * U.len * U.len
  ⟨m.m11 * k, m.m12 * k, m.m13 * k, m.m21 * k, m.m22 * k, m.m23 * k, m.m31 * k, m.m32 * k, m.m33 * k⟩
def inertial (i : Inertial ℝ) : Inertial ℝ :=
  ⟨U.iso i.origin, i.mass * U.mass, U.inertia i.inertia, i.worldTransformCache.map U.iso⟩
def visual (v : Visual ℝ) : Visual ℝ :=
  ⟨v.name, U.iso v.origin, U.geometry v.geometry, v.material, v.worldTransformCache.map U.iso⟩
def collision (c : Collision ℝ) : Collision ℝ :=
  ⟨c.name, U.iso c.origin, U.geometry c.geometry, c.worldTransformCache.map U.iso⟩
def link (l : Link ℝ) : Link ℝ :=
  ⟨l.name, U.inertial l.inertial, l.visuals.map U.visual, l.collisions.map U.collision⟩

/-- the content of the node `n` -/
def node (n : NodeId) (s : NodeImpl ℝ) : NodeImpl ℝ :=
  { s with joint := U.joint n s.joint, mimic := s.mimic.map (U.mimic n), link := s.link.map U.link }

/-- the memory -/
def heap (h : KHeap ℝ) : KHeap ℝ := { h with get := fun n => U.node n (h.get n) }

/-- the factors are those of the joints in the memory: of a length for a linear joint, 1 for a rotational one, and a
joint mimics what it is said to mimic -/
structure Fits (n : NodeId) (s : NodeImpl ℝ) : Prop where
  linear : ∀ a, s.joint.jointType = .linear a → U.coord n = U.len
  rotational : ∀ a, s.joint.jointType = .rotational a → U.coord n = 1
  mimics : ∀ c ∈ s.mimicChildren, U.source c = U.coord n

/-- a list of numbers, each with its factor -/
def list : List ℝ → List ℝ → List ℝ
  | k :: ks, x :: xs => x * k :: list ks xs
  | _, xs => xs

/-- coordinates of the joints of a chain -/
def coords (c : Chain) (xs : List ℝ) : List ℝ := list (c.movableNodes.map U.coord) xs

/-- factors of the rows of a Jacobian: a length and an angle -/
def rows : List ℝ := [U.len, U.len, U.len, 1, 1, 1]

/-- a column of a Jacobian: what is moved per unit of the coordinate -/
def column (n : NodeId) (col : List ℝ) : List ℝ := List.zipWith (fun k a => a * (k / U.coord n)) U.rows col

def matrix (c : Chain) (m : Mat ℝ) : Mat ℝ := List.zipWith U.column c.movableNodes m

def solver (c : Chain) (s : IkSolver ℝ) : IkSolver ℝ :=
  { s with
    allowableTargetDistance := s.allowableTargetDistance * U.len
    nullspaceFunction := s.nullspaceFunction.map fun f xs =>
      (f (list (c.movableNodes.map fun n => (U.coord n)⁻¹) xs)).map (U.coords c) }

/-- the same error -/
inductive SameError : KError ℝ → KError ℝ → Prop
  | outOfLimit (n : NodeId) (name : String) (x max min : ℝ) : SameError (.outOfLimit name x max min)
      (.outOfLimit name (x * U.coord n) (max * U.coord n) (min * U.coord n))
  | setToFixed (name : String) : SameError (.setToFixed name) (.setToFixed name)
  | sizeMismatch (i r : Nat) : SameError (.sizeMismatch i r) (.sizeMismatch i r)
  | mimicError (a b : String) : SameError (.mimicError a b) (.mimicError a b)
  | notConverged (k : Nat) (p w : V3 ℝ) : SameError (.notConverged k p w) (.notConverged k (p.scale U.len) w)
  | inverseMatrix : SameError .inverseMatrix .inverseMatrix
  | precondition (a b : Nat) : SameError (.precondition a b) (.precondition a b)
  | invalidJointName (name : String) : SameError (.invalidJointName name) (.invalidJointName name)

/-- the same outcome of a call that may fail -/
inductive SameResult : Except (KError ℝ) Unit → Except (KError ℝ) Unit → Prop
  | ok : SameResult (.ok ()) (.ok ())
  | error {e e' : KError ℝ} (h : U.SameError e e') : SameResult (.error e) (.error e')

end Units

/-- Linear algebra that solves the same equations in other units: a regular square system whatever the units of the
single equations and unknowns, a wide one if all equations have one unit and all unknowns have one unit. -/
structure LinAlg.UnitFree (la : LinAlg ℝ) : Prop where
  lu_length : ∀ (J : Mat ℝ) (b x : List ℝ), J.length = b.length → (∀ col ∈ J, col.length = b.length) →
    la.lu J b = some x → x.length = b.length
  lu : ∀ (r c : List ℝ) (J : Mat ℝ) (b : List ℝ), (∀ k ∈ r, 0 < k) → (∀ l ∈ c, 0 < l) → r.length = b.length →
    c.length = b.length → J.length = b.length → (∀ col ∈ J, col.length = b.length) →
    la.lu (List.zipWith (fun l col => List.zipWith (fun k a => a * (k / l)) r col) c J) (Units.list r b) =
      (la.lu J b).map (Units.list c)
  svd : ∀ (k l : ℝ) (J : Mat ℝ) (b : List ℝ), 0 < k → 0 < l → b.length < J.length →
    (∀ col ∈ J, col.length = b.length) →
    la.svdSolve (J.map (List.map (· * (k / l)))) (b.map (· * k)) = (la.svdSolve J b).map (· * l)
  pinv : ∀ (k l : ℝ) (J : Mat ℝ) (v : List ℝ), 0 < k → 0 < l → v.length < J.length →
    (∀ col ∈ J, col.length = v.length) →
    matVec J.length (la.pinv (J.map (List.map (· * (k / l))))) (v.map (· * k)) =
      (matVec J.length (la.pinv J) v).map (· * l)

/-- Inverse kinematics tasks that do not depend on the units: as many equations as joints and no joint ignored, or all
joints of one kind (if there are more joints than equations: and either only positions or only rotations). -/
structure Units.SolveFits (U : Units) (s : IkSolver ℝ) (c : Chain) (cs : Constraints) : Prop where
  dof : c.dof = c.movableNodes.length
  la : s.la.UnitFree
  kind : (c.dof = countTrue (defineOperationalSpace cs) ∧ cs.ignoredJointNames = []) ∨
    (∃ l, ∀ n ∈ c.movableNodes, U.coord n = l) ∧
      (c.dof - cs.ignoredJointNames.length = countTrue (defineOperationalSpace cs) ∨
        ∃ k, ∀ x ∈ selectFlags (defineOperationalSpace cs) U.rows, x = k)

/-- the same call with all numbers in the other units -/
def Call.inUnits (U : Units) : {β : Type} → Call ℝ β → Call ℝ β
  | _, .newNode j => .newNode j
  | _, .setParent n p => .setParent n p
  | _, .removeParent n p => .removeParent n p
  | _, .setMimicParent n p m => .setMimicParent n p (U.mimic n m)
  | _, .setLink n l => .setLink n (l.map U.link)
  | _, .setOrigin n t => .setOrigin n (U.iso t)
  | _, .setJointPosition n x => .setJointPosition n (x * U.coord n)
  | _, .setJointPositionClamped n x => .setJointPositionClamped n (x * U.coord n)
  | _, .setJointPositionUnchecked n x => .setJointPositionUnchecked n (x * U.coord n)
  | _, .joint n => .joint n
  | _, .jointPosition n => .jointPosition n
  | _, .parent n => .parent n
  | _, .mimicParent n => .mimicParent n
  | _, .children n => .children n
  | _, .link n => .link n
  | _, .isRoot n => .isRoot n
  | _, .isEnd n => .isEnd n
  | _, .origin n => .origin n
  | _, .worldTransform n => .worldTransform n
  | _, .worldVelocity n => .worldVelocity n
  | _, .iterAncestors fuel n => .iterAncestors fuel n
  | _, .iterDescendants fuel n => .iterDescendants fuel n
  | _, .fromNodes ns => .fromNodes ns
  | _, .fromRoot fuel n => .fromRoot fuel n
  | _, .fromEnd fuel n => .fromEnd fuel n
  | _, .fromEndToRoot fuel e r => .fromEndToRoot fuel e r
  | _, .chainSetOrigin c t => .chainSetOrigin c (U.iso t)
  | _, .chainOrigin c => .chainOrigin c
  | _, .iterJoints c => .iterJoints c
  | _, .iterLinks c => .iterLinks c
  | _, .find c name => .find c name
  | _, .jointPositions c => .jointPositions c
  | _, .setJointPositions c xs => .setJointPositions c (U.coords c xs)
  | _, .setJointPositionsClamped c xs => .setJointPositionsClamped c (U.coords c xs)
  | _, .setJointPositionsUnchecked c xs => .setJointPositionsUnchecked c (U.coords c xs)
  | _, .updateTransforms c => .updateTransforms c
  | _, .updateVelocities c => .updateVelocities c
  | _, .updateLinkTransforms c => .updateLinkTransforms c
  | _, .cloneChain fuel c => .cloneChain fuel c
  | _, .tryNew c => .tryNew c
  | _, .endTransform c => .endTransform c
  | _, .display fuel c => .display fuel c
  | _, .jacobian c => .jacobian c
  | _, .centerOfMass c => .centerOfMass c
  | _, .solve s c target cs => .solve (U.solver c s) c (U.iso target) cs

/-- `r'` is the answer `r` of the call in the other units -/
def Call.Answer (U : Units) : {β : Type} → Call ℝ β → β → β → Prop
  | _, .setJointPosition _ _, r, r' => U.SameResult r r'
  | _, .joint n, j, j' => j' = U.joint n j
  | _, .jointPosition n, x, x' => x' = x.map (· * U.coord n)
  | _, .link _, l, l' => l' = l.map U.link
  | _, .origin _, t, t' => t' = U.iso t
  | _, .worldTransform _, t, t' => t' = t.map U.iso
  | _, .worldVelocity _, v, v' => v' = v.map U.velocity
  | _, .chainOrigin _, t, t' => t' = U.iso t
  | _, .iterJoints c, js, js' => js' = List.zipWith U.joint c.movableNodes js ∧ js.length = c.movableNodes.length
  | _, .iterLinks _, ls, ls' => ls' = ls.map U.link
  | _, .jointPositions c, xs, xs' => xs' = U.coords c xs ∧ xs.length = c.movableNodes.length
  | _, .setJointPositions _ _, r, r' => U.SameResult r r'
  | _, .updateTransforms _, ts, ts' => ts' = ts.map U.iso
  | _, .updateVelocities _, vs, vs' => vs' = vs.map U.velocity
  | _, .endTransform _, t, t' => t' = U.iso t
  | _, .jacobian c, m, m' => m' = U.matrix c m ∧ m.length = c.movableNodes.length
  | _, .centerOfMass _, p, p' => p' = p.scale U.len
  | _, .solve _ _ _ _, r, r' => U.SameResult r r'
  | _, _, r, r' => r' = r

/-- Calls that the theorem speaks of: no nodes are created (their factors would not be known), a joint is made to mimic
a joint of the kind it is said to mimic, and inverse kinematics is asked for tasks that do not depend on the units. -/
def Call.FitsUnits (U : Units) : {β : Type} → Call ℝ β → Prop
  | _, .newNode _ => False
  | _, .cloneChain _ _ => False
  | _, .setMimicParent n p _ => U.source n = U.coord p
  | _, .solve s c _ cs => U.SolveFits s c cs
  | _, _ => True

/-- The second client makes the calls of the first one in the other units, and goes on alike whenever it gets the same
answers in the other units. -/
inductive Client.SameInUnits {α : Type} (U : Units) : Client ℝ α → Client ℝ α → Prop
  | done (a : α) : SameInUnits U (.done a) (.done a)
  | call {β : Type} (c : Call ℝ β) (k k' : β → Client ℝ α) (fits : c.FitsUnits U)
      (next : ∀ r r', c.Answer U r r' → SameInUnits U (k r) (k' r')) :
      SameInUnits U (.call c k) (.call (c.inUnits U) k')

/-- the outcome, with the memory in the other units -/
def Res.inUnits {α : Type} (U : Units) : Res (NodeImpl ℝ) α → Res (NodeImpl ℝ) α
  | .ok a h => .ok a (U.heap h)
  | .panic m h => .panic m (U.heap h)
  | .blocked n h => .blocked n (U.heap h)
  | .diverged => .diverged

end

end K
