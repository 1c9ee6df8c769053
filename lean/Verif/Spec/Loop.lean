import Verif.Spec.Api
/-!
# Specification: loops of the user over the lazy iterators

`for n in node.iter_descendants() { body }` calls `next` before each run of the body; the body may use the whole API
and may `break`.  The results are the state of the body, the visited nodes and whether the loop ran to its end.
-/

namespace K
open Prog
variable {T : Type} [Scalar T] {σ : Type}

/-- `for n in iter { body }` over a `Descendants` with the given stack; the body returns `true` to break -/
def forDescendants (body : σ → NodeId → KProg T (σ × Bool)) :
    Nat → σ → List NodeId → KProg T (σ × List NodeId × Bool)
  | 0, _, _ => .diverge
  | fuel + 1, s, stack => do
    match ← Descendants.next stack with
    | (none, _) => return (s, [], true)
    | (some n, stack) =>
      let (s, stop) ← body s n
      if stop then return (s, [n], false)
      else
        let (s, ns, fin) ← forDescendants body fuel s stack
        return (s, n :: ns, fin)

/-- `for n in iter { body }` over an `Ancestors` -/
def forAncestors (body : σ → NodeId → KProg T (σ × Bool)) :
    Nat → σ → Option NodeId → KProg T (σ × List NodeId × Bool)
  | 0, _, _ => .diverge
  | fuel + 1, s, at? => do
    match ← Ancestors.next at? with
    | (none, _) => return (s, [], true)
    | (some n, at?) =>
      let (s, stop) ← body s n
      if stop then return (s, [n], false)
      else
        let (s, ns, fin) ← forAncestors body fuel s at?
        return (s, n :: ns, fin)

end K
