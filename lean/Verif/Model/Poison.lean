import Verif.Model.Prog
/-!
# Poisoned mutexes

`std::sync::Mutex`: when a thread panics while it holds a `MutexGuard`, unwinding drops the guard, which
releases the mutex and marks it as poisoned; from then on `lock()` returns an error and
`lock().unwrap()` (`src/node.rs:72-74`) panics.  `PStep` refines `Step` by this: it records which
thread holds which mutex and which mutexes are poisoned.
-/

namespace K
variable {S α : Type}

/-- Threads sharing a heap, with the holder of each mutex and the poison flags. -/
structure PConfig (S α : Type) where
  heap : Heap S
  threads : List (Prog S α)
  owner : NodeId → Option Nat
  poisoned : NodeId → Bool

/-- the holders after thread `i` has made the next step of the program -/
def own (i : Nat) : Prog S α → (NodeId → Option Nat) → NodeId → Option Nat
  | .lock n _, o => fun m => if m = n then some i else o m
  | .unlock n _, o => fun m => if m = n then none else o m
  | _, o => o

/-- One step of one of the threads. -/
inductive PStep : PConfig S α → PConfig S α → Prop where
  /-- an ordinary step; a lock only when the mutex is not poisoned -/
  | run (c : PConfig S α) (i : Nat) (p p' : Prog S α) (h' : Heap S)
      (hi : c.threads[i]? = some p) (hs : step1 p c.heap = some (p', h'))
      (ok : ∀ n k, p = .lock n k → c.poisoned n = false) :
      PStep c ⟨h', c.threads.set i p', own i p c.owner, c.poisoned⟩
  /-- `lock().unwrap()` on a poisoned mutex -/
  | poison (c : PConfig S α) (i : Nat) (n : NodeId) (k : Prog S α)
      (hi : c.threads[i]? = some (.lock n k)) (free : c.heap.held n = false)
      (bad : c.poisoned n = true) :
      PStep c ⟨c.heap, c.threads.set i (.panic "PoisonError"), c.owner, c.poisoned⟩
  /-- a panicking thread drops one of its guards -/
  | unwind (c : PConfig S α) (i : Nat) (m : String) (n : NodeId)
      (hi : c.threads[i]? = some (.panic m)) (mine : c.owner n = some i) :
      PStep c ⟨c.heap.setHeld n false, c.threads, fun x => if x = n then none else c.owner x,
        fun x => if x = n then true else c.poisoned x⟩

/-- Any number of steps. -/
inductive PSteps : PConfig S α → PConfig S α → Prop where
  | refl (c : PConfig S α) : PSteps c c
  | tail {c d e : PConfig S α} (h : PSteps c d) (s : PStep d e) : PSteps c e

/-- One step of one of the threads, or the last handle to some nodes is dropped (see `DStep`). -/
inductive PDStep : PConfig S α → PConfig S α → Prop where
  | thread {c d : PConfig S α} (s : PStep c d) : PDStep c d
  | free (c : PConfig S α) (F : NodeId → Bool) : PDStep c ⟨c.heap.free F, c.threads, c.owner, c.poisoned⟩

/-- Any number of steps, with nodes freed at any moments. -/
inductive PDSteps : PConfig S α → PConfig S α → Prop where
  | refl (c : PConfig S α) : PDSteps c c
  | tail {c d e : PConfig S α} (h : PDSteps c d) (s : PDStep d e) : PDSteps c e

/-- an execution in which no node is freed -/
theorem PSteps.drops {c d : PConfig S α} (st : PSteps c d) : PDSteps c d := by
  induction st with
  | refl => exact .refl _
  | tail _ s ih => exact .tail ih (.thread s)

/-- nothing held, nothing poisoned -/
def PConfig.init (c : Config S α) : PConfig S α := ⟨c.heap, c.threads, fun _ => none, fun _ => false⟩

/-- what `Config` keeps of it -/
def PConfig.plain (c : PConfig S α) : Config S α := ⟨c.heap, c.threads⟩

end K
