import Verif.Spec.Region
import Verif.Spec.Rename
/-!
# Specification: threads that create nodes

The words needed to say that a client works on nodes of its own only, some of which it creates itself.
-/

namespace K

/-- The call is made with handles to nodes in `R` only; it may create nodes. -/
def Call.InOwn {T : Type} (R : NodeId → Prop) {β : Type} : Call T β → Prop
  | .newNode _ => True
  | .cloneChain _ c => c.In R
  | c => c.In R

/-- Every handle that the call gives out, also those to new nodes, leads into `R`. -/
def Call.GotOwn {T : Type} (R : NodeId → Prop) {β : Type} : Call T β → β → Prop
  | .newNode _, n => R n
  | .cloneChain _ _, c => c.In R
  | c, r => c.Got R r

/-- If the handles that the client gets lead into `R`, it only uses handles to nodes in `R`. -/
def Client.Tends {T α : Type} (R : NodeId → Prop) : Client T α → Prop
  | .done _ => True
  | .call c k => c.InOwn R ∧ ∀ r, c.GotOwn R r → (k r).Tends R

/-- The client only ever uses handles to nodes in `R` and handles it gets from its calls. -/
def Client.Owns {T α : Type} (R : NodeId → Prop) (c : Client T α) : Prop :=
  ∀ R', (∀ n, R n → R' n) → c.Tends R'

/-- The client does nothing with a handle but use it in calls and compare it with others: if other objects had been
created for it, it would make the same calls for these.  (`k` is the number of objects that exist when it starts.) -/
def Client.Nameless {T α : Type} (k : Nat) (c : Client T α) : Prop :=
  ∀ ρ : Equiv.Perm NodeId, (∀ n, n < k → ρ n = n) → c.rename ρ = c

/-- What the memory `g` has at the nodes in `D` the memory `h` has at the objects that `ρ` puts in their place. -/
structure Like {T : Type} (ρ : Equiv.Perm NodeId) (D : NodeId → Prop) (g h : KHeap T) : Prop where
  get : ∀ n, D n → h.get (ρ n) = (g.get n).rename ρ
  held : ∀ n, D n → h.held (ρ n) = g.held n
  dead : ∀ n, D n → h.dead (ρ n) = g.dead n

end K
