import Verif.Spec.Api
/-!
# Clients that keep guards

`Node::joint`, `Node::children` and `Node::link` (`src/node.rs:76-78, 91-93, 329-331`) return a guard that keeps the
mutex of the node locked until it is dropped (`src/node.rs:376-397, 428-432`); `Chain::iter_joints`
(`src/chain.rs:274-276`) yields one such guard per movable joint.  The calls `joint`, `children`, `link` of
`Call` drop the guard at the end of the statement.  Here a client may keep any number of guards, look at
the nodes through them and make calls meanwhile.
-/

namespace K
open Prog

/-- what guards of a node give access to (`src/node.rs:428-432`) -/
structure Seen (T : Type) where
  joint : Joint T
  link : Option (Link T)
  children : List NodeId

/-- A client that keeps guards. -/
inductive GClient (T : Type) (α : Type) : Type 1 where
  | done (a : α)
  | call {β : Type} (c : Call T β) (k : β → GClient T α)
  /-- `let guard = n.joint()` (or `.children()`, `.link()`) -/
  | take (n : NodeId) (k : GClient T α)
  /-- use of a guard of `n` -/
  | look (n : NodeId) (k : Seen T → GClient T α)
  /-- the guard of `n` is dropped -/
  | drop (n : NodeId) (k : GClient T α)
  /-- the client's own code panics -/
  | crash (msg : String)

variable {T : Type} [Scalar T] {α γ : Type}

def NodeImpl.seen (s : NodeImpl T) : Seen T := ⟨s.joint, s.link, s.children⟩

/-- The program a client executes. -/
def GClient.prog : GClient T α → KProg T α
  | .done a => .ret a
  | .call c k => c.prog >>= fun r => (k r).prog
  | .take n k => .lock n k.prog
  | .look n k => .read n fun s => (k s.seen).prog
  | .drop n k => .unlock n k.prog
  | .crash msg => .panic msg

def GClient.bind : GClient T γ → (γ → GClient T α) → GClient T α
  | .done a, f => f a
  | .call c k, f => .call c fun r => (k r).bind f
  | .take n k, f => .take n (k.bind f)
  | .look n k, f => .look n fun v => (k v).bind f
  | .drop n k, f => .drop n (k.bind f)
  | .crash msg, _ => .crash msg

/-- What the borrow checker ensures: a client looks only through guards it has, either its own (`L`, most
recent first) or those of the surrounding scope (`G`), drops only its own, and has dropped them at the
end, unless it panics. -/
def GClient.Ok (G : List NodeId) : GClient T α → List NodeId → Prop
  | .done _, L => L = []
  | .call _ k, L => ∀ r, (k r).Ok G L
  | .take n k, L => k.Ok G (n :: L)
  | .look n k, L => (n ∈ L ∨ n ∈ G) ∧ ∀ v, (k v).Ok G L
  | .drop n k, L => n ∈ L ∧ k.Ok G (L.erase n)
  | .crash _, _ => True

/-- the threads that run the given clients -/
def gstart (h : KHeap T) (ts : List (GClient T α)) : Config (NodeImpl T) α := ⟨h, ts.map GClient.prog⟩

end K
