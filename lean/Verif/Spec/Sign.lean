import Verif.Spec.Api
import Verif.Spec.Flip
import Verif.Spec.Target
/-!
# Specification: the two quaternions of an orientation (C109)

A unit quaternion and its negative are the same orientation.  Two robots are described alike, except that orientations
are written with either of the two.
-/

namespace K
open Prog
variable {T : Type} [Scalar T]

/-- the same translation, and the same quaternion or its negative -/
def Iso.EitherSign (t t' : Iso T) : Prop := t' = t ∨ t' = t.otherSign

/-- both absent, or both there and related -/
def BothOrNone {α : Type} (R : α → α → Prop) : Option α → Option α → Prop
  | none, none => True
  | some a, some b => R a b
  | _, _ => False

def Inertial.EitherSign (i i' : Inertial T) : Prop :=
  ∃ o w, i' = { i with origin := o, worldTransformCache := w } ∧ i.origin.EitherSign o ∧
    BothOrNone Iso.EitherSign i.worldTransformCache w

def Visual.EitherSign (v v' : Visual T) : Prop :=
  ∃ o w, v' = { v with origin := o, worldTransformCache := w } ∧ v.origin.EitherSign o ∧
    BothOrNone Iso.EitherSign v.worldTransformCache w

def Collision.EitherSign (c c' : Collision T) : Prop :=
  ∃ o w, c' = { c with origin := o, worldTransformCache := w } ∧ c.origin.EitherSign o ∧
    BothOrNone Iso.EitherSign c.worldTransformCache w

/-- lists of the same length, related one by one -/
def OneByOne {α : Type} (R : α → α → Prop) : List α → List α → Prop
  | [], [] => True
  | a :: as, b :: bs => R a b ∧ OneByOne R as bs
  | _, _ => False

def Link.EitherSign (l l' : Link T) : Prop :=
  ∃ i vs cs, l' = { l with inertial := i, visuals := vs, collisions := cs } ∧ l.inertial.EitherSign i ∧
    OneByOne Visual.EitherSign l.visuals vs ∧ OneByOne Collision.EitherSign l.collisions cs

def Joint.EitherSign (j j' : Joint T) : Prop :=
  ∃ o w, j' = { j with origin := o, worldTransformCache := w } ∧ j.origin.EitherSign o ∧
    BothOrNone Iso.EitherSign j.worldTransformCache w

def NodeImpl.EitherSign (s s' : NodeImpl T) : Prop :=
  ∃ j l, s' = { s with joint := j, link := l } ∧ s.joint.EitherSign j ∧ BothOrNone Link.EitherSign s.link l

/-- the memory with either sign anywhere -/
structure EitherSign (h g : KHeap T) : Prop where
  node : ∀ n, (h.get n).EitherSign (g.get n)
  next : g.next = h.next
  dead : g.dead = h.dead
  held : g.held = h.held

/-- the call is to inverse kinematics -/
def Call.IsSolve : {β : Type} → Call T β → Prop
  | _, .solve _ _ _ _ => True
  | _, _ => False

/-- the same call, with either sign of the orientations in it; no inverse kinematics with a constraint on the
orientation -/
inductive Call.EitherSign : {β : Type} → Call T β → Call T β → Prop
  | newNode {j j' : Joint T} (r : j.EitherSign j') : Call.EitherSign (.newNode j) (.newNode j')
  | setLink (n : NodeId) {l l' : Option (Link T)} (r : BothOrNone Link.EitherSign l l') :
      Call.EitherSign (.setLink n l) (.setLink n l')
  | setOrigin (n : NodeId) {t t' : Iso T} (r : t.EitherSign t') : Call.EitherSign (.setOrigin n t) (.setOrigin n t')
  | chainSetOrigin (c : Chain) {t t' : Iso T} (r : t.EitherSign t') :
      Call.EitherSign (.chainSetOrigin c t) (.chainSetOrigin c t')
  | solve (s : IkSolver T) (c : Chain) {t t' : Iso T} (r : t.EitherSign t') (cs : Constraints) (no : ¬ cs.Turning) :
      Call.EitherSign (.solve s c t cs) (.solve s c t' cs)
  | other {β : Type} (c : Call T β) (no : ¬ c.IsSolve) : Call.EitherSign c c

/-- the same answer, with either sign of the orientations in it -/
def Call.SignAnswer : {β : Type} → Call T β → β → β → Prop
  | _, .joint _, j, j' => j.EitherSign j'
  | _, .link _, l, l' => BothOrNone Link.EitherSign l l'
  | _, .origin _, t, t' => t.EitherSign t'
  | _, .worldTransform _, t, t' => BothOrNone Iso.EitherSign t t'
  | _, .chainOrigin _, t, t' => t.EitherSign t'
  | _, .iterJoints _, js, js' => OneByOne Joint.EitherSign js js'
  | _, .iterLinks _, ls, ls' => OneByOne Link.EitherSign ls ls'
  | _, .updateTransforms _, ts, ts' => OneByOne Iso.EitherSign ts ts'
  | _, .endTransform _, t, t' => t.EitherSign t'
  | _, _, r, r' => r' = r

/-- the second client makes the same calls with either sign, and goes on alike after the same answers -/
inductive Client.EitherSign {α : Type} : Client T α → Client T α → Prop
  | done (a : α) : Client.EitherSign (.done a) (.done a)
  | call {β : Type} {c c' : Call T β} (k k' : β → Client T α) (r : c.EitherSign c')
      (next : ∀ a a', c.SignAnswer a a' → Client.EitherSign (k a) (k' a')) :
      Client.EitherSign (.call c k) (.call c' k')

end K
