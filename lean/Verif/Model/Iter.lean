import Verif.Model.Node
/-!
# `src/iterator.rs`

Both iterators are consumed completely by the code (`src/chain.rs:129,154`) or up to a node
(`src/chain.rs:211-216`).  `fuel` bounds the number of items; out of fuel is the outcome `diverge`.
-/

namespace K
open Prog
variable {T : Type} [Scalar T]

/-- `src/iterator.rs:45-52` `Ancestors::next`, collected: the node, then its parents. -/
def ancestors : Nat → Option NodeId → KProg T (List NodeId)
  | _, none => .ret []
  | 0, some _ => .diverge
  | fuel + 1, some n => do
    let p ← Node.parent n
    let rest ← ancestors fuel p
    return n :: rest

/-- `src/chain.rs:211-216`: the loop over `iter_ancestors()` that stops after `stop`.  Advancing the
iterator (`src/iterator.rs:50`) looks up the parent of `n` before the comparison. -/
def ancestorsUntil (stop : NodeId) : Nat → Option NodeId → KProg T (List NodeId)
  | _, none => .ret []
  | 0, some _ => .diverge
  | fuel + 1, some n => do
    let p ← Node.parent n
    if n = stop then return [n]
    else
      let rest ← ancestorsUntil stop fuel p
      return n :: rest

/-- `src/iterator.rs:79-88` `Descendants::next`, collected.  The `Vec` used as a stack is a list whose
*head* is the top (`pop` takes the head; `extend(children)` puts the last child on top). -/
def descendants : Nat → List NodeId → KProg T (List NodeId)
  | _, [] => .ret []
  | 0, _ :: _ => .diverge
  | fuel + 1, n :: stack => do
    let cs ← Node.children n
    let rest ← descendants fuel (cs.reverse ++ stack)
    return n :: rest

/-- `src/iterator.rs:45-52` `Ancestors::next`: the item and the new state of the iterator (its field
`parent`). -/
def Ancestors.next : Option NodeId → KProg T (Option NodeId × Option NodeId)
  | none => return (none, none)
  | some n => do
    let p ← Node.parent n
    return (some n, p)

/-- `src/iterator.rs:79-88` `Descendants::next`: the item and the new state of the iterator (its field
`stack`, head on top). -/
def Descendants.next : List NodeId → KProg T (Option NodeId × List NodeId)
  | [] => return (none, [])
  | n :: stack => do
    let cs ← Node.children n
    return (some n, cs.reverse ++ stack)

end K
