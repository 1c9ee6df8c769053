import Verif.Spec.Api
import Mathlib.Logic.Function.Basic
/-!
# Specification: names are only labels (C105)

Two robots that differ in the names of joints, links, visuals, collisions, materials only, and the clients that use
the one as they use the other.
-/

namespace K
open Prog
variable {T : Type}

/-- other names; different joint names stay different -/
structure Labels where
  joint : String → String
  part : String → String
  inj : Function.Injective joint

namespace Labels
variable (L : Labels)

def toJoint (j : Joint T) : Joint T := { j with name := L.joint j.name }
def toVisual (v : Visual T) : Visual T :=
  { v with name := L.part v.name, material := { v.material with name := L.part v.material.name } }
def toCollision (c : Collision T) : Collision T := { c with name := L.part c.name }
def toLink (l : Link T) : Link T :=
  { l with name := L.part l.name, visuals := l.visuals.map L.toVisual, collisions := l.collisions.map L.toCollision }

/-- the node under the other names -/
def node (s : NodeImpl T) : NodeImpl T := { s with joint := L.toJoint s.joint, link := s.link.map L.toLink }

/-- the memory under the other names -/
def heap (h : KHeap T) : KHeap T := { h with get := fun n => L.node (h.get n) }

/-- the error, speaking of the other names -/
def error : KError T → KError T
  | .outOfLimit name x max min => .outOfLimit (L.joint name) x max min
  | .setToFixed name => .setToFixed (L.joint name)
  | .mimicError a b => .mimicError (L.joint a) (L.joint b)
  | .invalidJointName name => .invalidJointName (L.joint name)
  | .sizeMismatch a b => .sizeMismatch a b
  | .notConverged k p w => .notConverged k p w
  | .inverseMatrix => .inverseMatrix
  | .precondition a b => .precondition a b

def result : Except (KError T) Unit → Except (KError T) Unit
  | .ok () => .ok ()
  | .error e => .error (L.error e)

def constraints (c : Constraints) : Constraints := { c with ignoredJointNames := c.ignoredJointNames.map L.joint }

end Labels

/-- the same call under the other names -/
def Call.named (L : Labels) : {β : Type} → Call T β → Call T β
  | _, .newNode j => .newNode (L.toJoint j)
  | _, .setLink n l => .setLink n (l.map L.toLink)
  | _, .find c name => .find c (L.joint name)
  | _, .solve s c target cs => .solve s c target (L.constraints cs)
  | _, c => c

/-- `r'` is the answer `r` of the call under the other names; nothing is said of the text that `display` gives -/
def Call.NamedAnswer (L : Labels) : {β : Type} → Call T β → β → β → Prop
  | _, .setJointPosition _ _, r, r' => r' = L.result r
  | _, .joint _, j, j' => j' = L.toJoint j
  | _, .link _, l, l' => l' = l.map L.toLink
  | _, .iterJoints _, js, js' => js' = js.map L.toJoint
  | _, .iterLinks _, ls, ls' => ls' = ls.map L.toLink
  | _, .setJointPositions _ _, r, r' => r' = L.result r
  | _, .solve _ _ _ _, r, r' => r' = L.result r
  | _, .display _ _, _, _ => True
  | _, _, r, r' => r' = r

/-- the second client makes the calls of the first one under the other names, and goes on alike whenever it gets the
same answers under the other names -/
inductive Client.SameNamed {α : Type} (L : Labels) : Client T α → Client T α → Prop
  | done (a : α) : SameNamed L (.done a) (.done a)
  | call {β : Type} (c : Call T β) (k k' : β → Client T α)
      (next : ∀ r r', c.NamedAnswer L r r' → SameNamed L (k r) (k' r')) :
      SameNamed L (.call c k) (.call (c.named L) k')

/-- the outcome, with the memory under the other names -/
def Res.named {α : Type} (L : Labels) : Res (NodeImpl T) α → Res (NodeImpl T) α
  | .ok a h => .ok a (L.heap h)
  | .panic m h => .panic m (L.heap h)
  | .blocked n h => .blocked n (L.heap h)
  | .diverged => .diverged

end K
