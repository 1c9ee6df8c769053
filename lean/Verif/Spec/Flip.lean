import Verif.Spec.Api
/-!
# Specification: mirror images

Space is reflected in some of the three coordinate planes.  Positions and the axes of sliding joints are reflected as
they are; axes of turning joints, orientations and angular velocities are reflected as directions of rotation, that is
with the opposite sense if an odd number of planes is used.  Coordinates of joints, limits, names and masses stay as they
are.
-/

namespace K
open Prog

variable {T : Type} [Scalar T]

/-- Laws of signs.  They hold for exact arithmetic and for arithmetic that rounds without preference for a sign, with
the two zeros identified. -/
class SignLaws (T : Type) [Scalar T] : Prop where
  neg_neg : ∀ a : T, - -a = a
  neg_zero : -(0 : T) = 0
  neg_mul : ∀ a b : T, -a * b = -(a * b)
  mul_neg : ∀ a b : T, a * -b = -(a * b)
  neg_add_neg : ∀ a b : T, -a + -b = -(a + b)
  neg_sub_neg : ∀ a b : T, -a - -b = -(a - b)
  neg_div : ∀ a b : T, -a / b = -(a / b)

/-- the number, or the number with the opposite sign -/
def flipIf : Bool → T → T
  | true, a => -a
  | false, a => a

/-- the coordinates whose sign is changed -/
structure Flip where
  x : Bool
  y : Bool
  z : Bool

namespace Flip
variable (F : Flip)

/-- a position or a direction -/
def vec (v : V3 T) : V3 T := ⟨flipIf F.x v.x, flipIf F.y v.y, flipIf F.z v.z⟩
/-- a direction of rotation -/
def turn (v : V3 T) : V3 T := ⟨flipIf (F.y ^^ F.z) v.x, flipIf (F.x ^^ F.z) v.y, flipIf (F.x ^^ F.y) v.z⟩
def quat (q : Quat T) : Quat T :=
  ⟨q.w, flipIf (F.y ^^ F.z) q.i, flipIf (F.x ^^ F.z) q.j, flipIf (F.x ^^ F.y) q.k⟩
def iso (t : Iso T) : Iso T := ⟨F.vec t.trans, F.quat t.rot⟩
def velocity (v : Velocity T) : Velocity T := ⟨F.vec v.translation, F.turn v.rotation⟩
def jointType : JointType T → JointType T
  | .fixed => .fixed
  | .rotational a => .rotational (F.turn a)
  | .linear a => .linear (F.vec a)
def joint (j : Joint T) : Joint T where
  name := j.name
  jointType := F.jointType j.jointType
  position := j.position
  velocity := j.velocity
  limits := j.limits
  origin := F.iso j.origin
  worldTransformCache := j.worldTransformCache.map F.iso
  worldVelocityCache := j.worldVelocityCache.map F.velocity

def geometry : Geometry T → Geometry T
  | .mesh f s => .mesh f (F.vec s)
  | g => g
def inertia (m : M3 T) : M3 T :=
  ⟨m.m11, flipIf (F.x ^^ F.y) m.m12, flipIf (F.x ^^ F.z) m.m13,
   flipIf (F.x ^^ F.y) m.m21, m.m22, flipIf (F.y ^^ F.z) m.m23,
   flipIf (F.x ^^ F.z) m.m31, flipIf (F.y ^^ F.z) m.m32, m.m33⟩
def inertial (i : Inertial T) : Inertial T :=
  ⟨F.iso i.origin, i.mass, F.inertia i.inertia, i.worldTransformCache.map F.iso⟩
def visual (v : Visual T) : Visual T :=
  ⟨v.name, F.iso v.origin, F.geometry v.geometry, v.material, v.worldTransformCache.map F.iso⟩
def collision (c : Collision T) : Collision T :=
  ⟨c.name, F.iso c.origin, F.geometry c.geometry, c.worldTransformCache.map F.iso⟩
def link (l : Link T) : Link T :=
  ⟨l.name, F.inertial l.inertial, l.visuals.map F.visual, l.collisions.map F.collision⟩

/-- the content of a node -/
def node (s : NodeImpl T) : NodeImpl T := { s with joint := F.joint s.joint, link := s.link.map F.link }

/-- the memory -/
def heap (h : KHeap T) : KHeap T := { h with get := fun n => F.node (h.get n) }

/-- the signs that change in the six rows of a Jacobian -/
def rows : List Bool := [F.x, F.y, F.z, F.y ^^ F.z, F.x ^^ F.z, F.x ^^ F.y]

/-- a list of numbers, the signs of some of them changed -/
def list : List Bool → List T → List T
  | b :: bs, x :: xs => flipIf b x :: list bs xs
  | _, xs => xs

def matrix (m : Mat T) : Mat T := m.map (list F.rows)

/-- errors tell the coordinates of joints; only the distances left by inverse kinematics are positions and rotations -/
def error : KError T → KError T
  | .notConverged k p w => .notConverged k (F.vec p) (F.turn w)
  | e => e

def result : Except (KError T) Unit → Except (KError T) Unit
  | .ok () => .ok ()
  | .error e => .error (F.error e)

end Flip

/-- Linear algebra for which the solution does not depend on the signs with which the equations are written. -/
structure LinAlg.RowSignFree (la : LinAlg T) : Prop where
  lu : ∀ (r : List Bool) (J : Mat T) (b : List T), (∀ col ∈ J, col.length = b.length) → r.length = b.length →
    la.lu (J.map (Flip.list r)) (Flip.list r b) = la.lu J b
  svd : ∀ (r : List Bool) (J : Mat T) (b : List T), (∀ col ∈ J, col.length = b.length) → r.length = b.length →
    la.svdSolve (J.map (Flip.list r)) (Flip.list r b) = la.svdSolve J b
  pinv : ∀ (r : List Bool) (J : Mat T), (∀ col ∈ J, col.length = r.length) →
    la.pinv (J.map (Flip.list r)) = List.zipWith (fun b col => col.map (flipIf b)) r (la.pinv J)

/-- the call in the mirror -/
def Call.mirrored (F : Flip) : {β : Type} → Call T β → Call T β
  | _, .newNode j => .newNode (F.joint j)
  | _, .setLink n l => .setLink n (l.map F.link)
  | _, .setOrigin n t => .setOrigin n (F.iso t)
  | _, .chainSetOrigin c t => .chainSetOrigin c (F.iso t)
  | _, .solve s c target cs => .solve s c (F.iso target) cs
  | _, c => c

/-- `r'` is the answer `r` of the call in the mirror.  Of the text of a chain nothing is said: it shows the axes. -/
def Call.AnswerMirrored (F : Flip) : {β : Type} → Call T β → β → β → Prop
  | _, .joint _, j, j' => j' = F.joint j
  | _, .link _, l, l' => l' = l.map F.link
  | _, .origin _, t, t' => t' = F.iso t
  | _, .worldTransform _, t, t' => t' = t.map F.iso
  | _, .worldVelocity _, v, v' => v' = v.map F.velocity
  | _, .chainOrigin _, t, t' => t' = F.iso t
  | _, .iterJoints _, js, js' => js' = js.map F.joint
  | _, .iterLinks _, ls, ls' => ls' = ls.map F.link
  | _, .updateTransforms _, ts, ts' => ts' = ts.map F.iso
  | _, .updateVelocities _, vs, vs' => vs' = vs.map F.velocity
  | _, .endTransform _, t, t' => t' = F.iso t
  | _, .jacobian _, m, m' => m' = F.matrix m
  | _, .centerOfMass _, p, p' => p' = F.vec p
  | _, .solve _ _ _ _, r, r' => r' = F.result r
  | _, .display _ _, _, _ => True
  | _, _, r, r' => r' = r

/-- what is assumed of a call: inverse kinematics uses linear algebra that does not depend on signs -/
def Call.SignFree : {β : Type} → Call T β → Prop
  | _, .solve s _ _ _ => s.la.RowSignFree
  | _, _ => True

/-- The second client makes the calls of the first one in the mirror, and goes on alike whenever it gets the same
answers in the mirror. -/
inductive Client.Mirrored {α : Type} (F : Flip) : Client T α → Client T α → Prop
  | done (a : α) : Mirrored F (.done a) (.done a)
  | call {β : Type} (c : Call T β) (k k' : β → Client T α) (free : c.SignFree)
      (next : ∀ r r', c.AnswerMirrored F r r' → Mirrored F (k r) (k' r')) :
      Mirrored F (.call c k) (.call (c.mirrored F) k')

/-- the outcome, with the memory in the mirror -/
def Res.mirrored {α : Type} (F : Flip) : Res (NodeImpl T) α → Res (NodeImpl T) α
  | .ok a h => .ok a (F.heap h)
  | .panic m h => .panic m (F.heap h)
  | .blocked n h => .blocked n (F.heap h)
  | .diverged => .diverged

end K
