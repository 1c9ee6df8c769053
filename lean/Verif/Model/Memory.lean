import Verif.Model.Node
/-!
# Reference counts

`Node<T>` is an `Arc` (`src/node.rs:50`): it is freed when its last strong reference is dropped, and
dropping its content drops the strong references in it.  The strong references are the handles the
program holds (in variables, in `Chain`s, ...) and the entries of `children` and `mimic_children`
(`src/node.rs:38-41`); `parent` and `mimic_parent` are `Weak`.

`Prog` (Model/Prog.lean) takes the set of freed nodes as given.  Here it is computed: `Mem` adds the
strong counts and the list of handles held outside of nodes, `MemStep` the operations that change
them.  Not modelled: the stack depth of recursive drops, panics while dropping, reference counts at
intermediate points of an API call (an API call acts between two handle operations).
-/

namespace K
open Prog

/-- the strong references stored in node `n` (`src/node.rs:39,42`, dropped in this order) -/
def strongRefs {T : Type} (h : KHeap T) (n : NodeId) : List NodeId :=
  (h.get n).children ++ (h.get n).mimicChildren

/-- heap, strong counts, and the handles held outside of nodes -/
structure Mem (T : Type) where
  heap : KHeap T
  rc : NodeId → Nat
  handles : List NodeId

variable {T : Type} [Scalar T]

namespace Mem

/-- set the strong count of `n` -/
def setRc (m : Mem T) (n : NodeId) (k : Nat) : Mem T :=
  { m with rc := fun x => if x = n then k else m.rc x }

/-- free `n` -/
def free (m : Mem T) (n : NodeId) : Mem T :=
  { m with heap := { m.heap with dead := fun x => if x = n then true else m.heap.dead x } }

/-- `Arc::drop` for each reference in the list, in order: decrement the strong count, and when it
reaches zero drop the content, i.e. first everything the node refers to. -/
def release : Nat → List NodeId → Mem T → Option (Mem T)
  | _, [], m => some m
  | 0, _ :: _, _ => none
  | fuel + 1, n :: todo, m =>
    let k := m.rc n - 1
    let m1 := m.setRc n k
    if k = 0 then release fuel (strongRefs m.heap n ++ todo) (m1.free n)
    else release fuel todo m1

end Mem

/-- Operations on the memory of a program that uses the crate. -/
inductive MemStep : Mem T → Mem T → Prop
  /-- `Node::new` (`src/node.rs:60-70`): the caller gets the only reference -/
  | new (m : Mem T) (j : Joint T) :
      MemStep m ⟨m.heap.push (NodeImpl.fresh j),
        fun x => if x = m.heap.next then 1 else m.rc x, m.heap.next :: m.handles⟩
  /-- a further handle to a node that is alive: `Clone for Node` (`src/node.rs:338-345`), a
  successful `upgrade` in `parent()`/`mimic_parent()`, an entry of `children()`, a node stored in a
  `Chain` -/
  | acquire (m : Mem T) (n : NodeId) (bound : n < m.heap.next) (alive : m.heap.dead n = false) :
      MemStep m { m.setRc n (m.rc n + 1) with handles := n :: m.handles }
  /-- `set_parent` (`src/node.rs:107-110`): stores a clone of `n` in `p` -/
  | setParent (m : Mem T) (n p : NodeId) (hn : n ∈ m.handles) (hp : p ∈ m.handles) (h' : KHeap T)
      (r : run (Node.setParent n p) m.heap = .ok () h') :
      MemStep m { m.setRc n (m.rc n + 1) with heap := h' }
  /-- `remove_parent` (`src/node.rs:113-116`): drops the clones of `n` stored in `p` -/
  | removeParent (m : Mem T) (n p : NodeId) (hn : n ∈ m.handles) (hp : p ∈ m.handles) (h' : KHeap T)
      (r : run (Node.removeParent n p) m.heap = .ok () h') :
      MemStep m { m.setRc n (m.rc n - (m.heap.get p).children.count n) with heap := h' }
  /-- `set_mimic_parent` (`src/node.rs:319-323`): stores a clone of `n` in `p` -/
  | setMimicParent (m : Mem T) (n p : NodeId) (mi : Mimic T) (hn : n ∈ m.handles)
      (hp : p ∈ m.handles) (h' : KHeap T)
      (r : run (Node.setMimicParent n p mi) m.heap = .ok () h') :
      MemStep m { m.setRc n (m.rc n + 1) with heap := h' }
  /-- anything that neither allocates, frees, nor changes a stored reference (`C47_api`: every other call of
  the API is of this kind) -/
  | other (m : Mem T) (h' : KHeap T) (next : h'.next = m.heap.next) (dead : h'.dead = m.heap.dead)
      (refs : ∀ n, strongRefs h' n = strongRefs m.heap n)
      (weak : ∀ n, (h'.get n).parent = (m.heap.get n).parent ∧
        (h'.get n).mimicParent = (m.heap.get n).mimicParent) : MemStep m { m with heap := h' }
  /-- the order in which the handles are listed does not matter -/
  | reorder (m : Mem T) (l : List NodeId) (p : l.Perm m.handles) : MemStep m { m with handles := l }
  /-- a handle is dropped -/
  | drop (m : Mem T) (n : NodeId) (hn : n ∈ m.handles) (fuel : Nat) (m' : Mem T)
      (r : Mem.release fuel [n] { m with handles := m.handles.erase n } = some m') : MemStep m m'

/-- reachable memories: start with no node at all -/
inductive MemHistory : Mem T → Prop
  | start (m : Mem T) (none : m.heap.next = 0) (rc : ∀ n, m.rc n = 0) (handles : m.handles = []) :
      MemHistory m
  | step {m m' : Mem T} (p : MemHistory m) (s : MemStep m m') : MemHistory m'

end K
