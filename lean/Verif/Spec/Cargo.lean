import Verif.Spec.Sign
/-!
# Specification: what a robot carries (C111)

Two robots are the same but for the links at their nodes.  `V` says what the links have in common: their masses and
centers of mass, their names, both or nothing.
-/

namespace K
open Prog
variable {T : Type} [Scalar T]

/-- what is looked at -/
structure View where
  mass : Prop
  name : Prop

/-- the same mass at the same place -/
def Link.Weighs (l l' : Link T) : Prop :=
  l'.inertial.mass = l.inertial.mass ∧ l'.inertial.origin.trans = l.inertial.origin.trans

/-- links that have in common what is looked at -/
structure View.Alike (V : View) (l l' : Option (Link T)) : Prop where
  mass : V.mass → BothOrNone Link.Weighs l l'
  name : V.name → l'.map (·.name) = l.map (·.name)

/-- the same node with another link -/
def NodeImpl.Reloaded (V : View) (s s' : NodeImpl T) : Prop := ∃ l, s' = { s with link := l } ∧ V.Alike s.link l

/-- the same robot with other links -/
structure Reloaded (V : View) (h g : KHeap T) : Prop where
  node : ∀ n, (h.get n).Reloaded V (g.get n)
  next : g.next = h.next
  dead : g.dead = h.dead
  held : g.held = h.held

/-- calls that ask for no more than what is looked at -/
def Call.LooksAt (V : View) : {β : Type} → Call T β → Prop
  | _, .setLink _ _ => False
  | _, .link _ => False
  | _, .iterLinks _ => False
  | _, .centerOfMass _ => V.mass
  | _, .display _ _ => V.name
  | _, _ => True

/-- the same call, where other links may be put on -/
inductive Call.Reloaded (V : View) : {β : Type} → Call T β → Call T β → Prop
  | setLink (n : NodeId) {l l' : Option (Link T)} (r : V.Alike l l') : Call.Reloaded V (.setLink n l) (.setLink n l')
  | other {β : Type} (c : Call T β) (at' : c.LooksAt V) : Call.Reloaded V c c

/-- the second client makes the same calls, where other links may be put on -/
inductive Client.Reloaded (V : View) {α : Type} : Client T α → Client T α → Prop
  | done (a : α) : Client.Reloaded V (.done a) (.done a)
  | call {β : Type} {c c' : Call T β} (k k' : β → Client T α) (r : c.Reloaded V c')
      (next : ∀ a, Client.Reloaded V (k a) (k' a)) : Client.Reloaded V (.call c k) (.call c' k')

end K
