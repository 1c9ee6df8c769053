import Verif.Spec.Api
/-!
# Serial executions

What it means that threads do not interleave: one thread takes a turn, or makes one whole call, while
the others stand still.
-/

namespace K
variable {S α : Type}

/-- Steps of thread `i` alone. -/
inductive StepsOf (i : Nat) : Config S α → Config S α → Prop
  | refl (c : Config S α) : StepsOf i c c
  | tail {c : Config S α} {h : Heap S} {ts : List (Prog S α)} {p p' : Prog S α} {h' : Heap S}
      (a : StepsOf i c ⟨h, ts⟩) (hi : ts[i]? = some p) (hs : step1 p h = some (p', h')) :
      StepsOf i c ⟨h', ts.set i p'⟩

/-- Threads take turns; all locks are free between the turns. -/
inductive Turns : Config S α → Config S α → Prop
  | refl (c : Config S α) : Turns c c
  | tail {c d e : Config S α} (i : Nat) (a : Turns c d) (b : StepsOf i d e) (u : e.heap.Unlocked) :
      Turns c e

variable {T : Type} [Scalar T]

/-- One client makes its next call, which runs from start to end on its own. -/
inductive CallStep : KHeap T × List (Client T α) → KHeap T × List (Client T α) → Prop
  | mk {β : Type} {h h' : KHeap T} {cs : List (Client T α)} (i : Nat) (c : Call T β)
      (k : β → Client T α) (r : β) (hi : cs[i]? = some (.call c k)) (e : run c.prog h = .ok r h') :
      CallStep (h, cs) (h', cs.set i (k r))

/-- Clients make whole calls one after the other. -/
inductive CallSteps : KHeap T × List (Client T α) → KHeap T × List (Client T α) → Prop
  | refl (x : KHeap T × List (Client T α)) : CallSteps x x
  | tail {x y z : KHeap T × List (Client T α)} (a : CallSteps x y) (b : CallStep y z) : CallSteps x z

end K
