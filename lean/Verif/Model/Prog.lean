/-!
# Programs over mutex-protected nodes

`src/node.rs:50`: `pub struct Node<T>(pub(crate) Arc<Mutex<NodeImpl<T>>>)`.  A node handle is a
natural number (the address of the allocation; `src/node.rs:347-349` compares handles by address).

A method of the crate becomes a `Prog`: the sequence of lock / unlock / read / write steps it
performs, with Rust's drop points of the `MutexGuard`s made explicit.  Programs have two semantics,
`run` (one thread) and `Step` (many threads, any interleaving).
-/

namespace K

-- A node handle: the address of an `Arc<Mutex<NodeImpl>>` (`src/node.rs:50`).
notation "NodeId" => Nat

/-- Shared memory. `get n` is the `NodeImpl` stored in node `n`; `dead n` says the allocation was
freed (its strong count reached zero); `held n` says the mutex of `n` is locked; ids `≥ next` were
never allocated. -/
structure Heap (S : Type) where
  get : NodeId → S
  next : NodeId
  dead : NodeId → Bool
  held : NodeId → Bool

/-- Programs.  `S` is the content of a mutex, `α` the result type. -/
inductive Prog (S : Type) (α : Type) where
  /-- return a value -/
  | ret (a : α)
  /-- `mutex.lock().unwrap()` (`src/node.rs:72-74`): waits while the mutex is held.  Poisoning is not
  part of this semantics (a panic ends the thread); see `Model/Poison.lean`. -/
  | lock (n : NodeId) (k : Prog S α)
  /-- a `MutexGuard` is dropped -/
  | unlock (n : NodeId) (k : Prog S α)
  /-- read through a guard -/
  | read (n : NodeId) (k : S → Prog S α)
  /-- write through a guard -/
  | write (n : NodeId) (f : S → S) (k : Prog S α)
  /-- `Weak::upgrade` (`src/node.rs:86,314`): true when the allocation is alive -/
  | upgrade (n : NodeId) (k : Bool → Prog S α)
  /-- `Arc::new(Mutex::new(s))` (`src/node.rs:61`) -/
  | alloc (s : S) (k : NodeId → Prog S α)
  /-- a Rust panic -/
  | panic (msg : String)
  /-- a loop that did not end within the fuel given to the model -/
  | diverge

namespace Prog
variable {S α β : Type}

/-- Sequencing. -/
def bind : Prog S α → (α → Prog S β) → Prog S β
  | .ret a, f => f a
  | .lock n k, f => .lock n (k.bind f)
  | .unlock n k, f => .unlock n (k.bind f)
  | .read n k, f => .read n fun s => (k s).bind f
  | .write n g k, f => .write n g (k.bind f)
  | .upgrade n k, f => .upgrade n fun b => (k b).bind f
  | .alloc s k, f => .alloc s fun m => (k m).bind f
  | .panic m, _ => .panic m
  | .diverge, _ => .diverge

instance : Monad (Prog S) where
  pure := .ret
  bind := .bind

/-- single steps as programs -/
def doLock (n : NodeId) : Prog S Unit := .lock n (.ret ())
def doUnlock (n : NodeId) : Prog S Unit := .unlock n (.ret ())
def doRead (n : NodeId) : Prog S S := .read n .ret
def doWrite (n : NodeId) (f : S → S) : Prog S Unit := .write n f (.ret ())
def doUpgrade (n : NodeId) : Prog S Bool := .upgrade n .ret
def doAlloc (s : S) : Prog S NodeId := .alloc s .ret

/-- `node.lock()` used once and dropped at the end of the statement: lock, read, unlock. -/
def peek (n : NodeId) : Prog S S := do
  doLock n
  let s ← doRead n
  doUnlock n
  return s

/-- `node.lock().field = ..` : lock, write, unlock. -/
def poke (n : NodeId) (f : S → S) : Prog S Unit := do
  doLock n
  doWrite n f
  doUnlock n

/-- `for x in xs { body(x) }` -/
def forEach {γ : Type} : List γ → (γ → Prog S Unit) → Prog S Unit
  | [], _ => .ret ()
  | x :: xs, f => do f x; forEach xs f

/-- `xs.iter().map(f).collect::<Vec<_>>()` -/
def mapList {γ δ : Type} : List γ → (γ → Prog S δ) → Prog S (List δ)
  | [], _ => .ret []
  | x :: xs, f => do
    let y ← f x
    let ys ← mapList xs f
    return y :: ys

/-- `xs.iter().filter(p).cloned().collect::<Vec<_>>()` -/
def filterList {γ : Type} : List γ → (γ → Prog S Bool) → Prog S (List γ)
  | [], _ => .ret []
  | x :: xs, p => do
    let b ← p x
    let ys ← filterList xs p
    return if b then x :: ys else ys

/-- `for x in xs { body(x)? }` followed by `Ok(())`: stops at the first error. -/
def tryEach {γ ε : Type} : List γ → (γ → Prog S (Except ε Unit)) → Prog S (Except ε Unit)
  | [], _ => .ret (.ok ())
  | x :: xs, f => do
    match ← f x with
    | .error e => return .error e
    | .ok () => tryEach xs f

/-- `xs.iter().find(p)` -/
def findFirst {γ : Type} : List γ → (γ → Prog S Bool) → Prog S (Option γ)
  | [], _ => .ret none
  | x :: xs, p => do
    if ← p x then return some x else findFirst xs p

/-- lift a pure computation that may panic -/
def ofExcept {α : Type} : Except String α → Prog S α
  | .ok a => .ret a
  | .error m => .panic m

/-- `opt.expect(msg)` / `opt.unwrap()` -/
def expect {α : Type} (o : Option α) (msg : String) : Prog S α :=
  match o with
  | some a => .ret a
  | none => .panic msg

end Prog

namespace Heap
variable {S : Type}

/-- write to node `n` -/
def modify (h : Heap S) (n : NodeId) (f : S → S) : Heap S :=
  { h with get := fun m => if m = n then f (h.get m) else h.get m }

/-- change the state of the mutex of `n` -/
def setHeld (h : Heap S) (n : NodeId) (b : Bool) : Heap S :=
  { h with held := fun m => if m = n then b else h.held m }

/-- allocate the next id (a mutex that was never allocated is never held, so `held` stays as it is) -/
def push (h : Heap S) (s : S) : Heap S :=
  { get := fun m => if m = h.next then s else h.get m
    next := h.next + 1
    dead := fun m => if m = h.next then false else h.dead m
    held := h.held }

/-- no mutex is locked -/
def Unlocked (h : Heap S) : Prop := ∀ n, h.held n = false

end Heap

/-- Outcome of running a program in a single thread. -/
inductive Res (S α : Type) where
  /-- returned `a`, leaving heap `h` -/
  | ok (a : α) (h : Heap S)
  /-- panicked -/
  | panic (msg : String) (h : Heap S)
  /-- waits for the mutex of `n`, which this same thread (the only one) holds: blocks forever -/
  | blocked (n : NodeId) (h : Heap S)
  /-- out of fuel -/
  | diverged

/-- Single-threaded execution. -/
def run {S α : Type} : Prog S α → Heap S → Res S α
  | .ret a, h => .ok a h
  | .lock n k, h => if h.held n then .blocked n h else run k (h.setHeld n true)
  | .unlock n k, h => run k (h.setHeld n false)
  | .read n k, h => run (k (h.get n)) h
  | .write n f k, h => run k (h.modify n f)
  | .upgrade n k, h => run (k (!h.dead n)) h
  | .alloc s k, h => run (k h.next) (h.push s)
  | .panic m, h => .panic m h
  | .diverge, _ => .diverged

/-- One primitive step of one thread; `none` when it is finished, panicked, or waits for a lock. -/
def step1 {S α : Type} : Prog S α → Heap S → Option (Prog S α × Heap S)
  | .ret _, _ => none
  | .lock n k, h => if h.held n then none else some (k, h.setHeld n true)
  | .unlock n k, h => some (k, h.setHeld n false)
  | .read n k, h => some (k (h.get n), h)
  | .write n f k, h => some (k, h.modify n f)
  | .upgrade n k, h => some (k (!h.dead n), h)
  | .alloc s k, h => some (k h.next, h.push s)
  | .panic _, _ => none
  | .diverge, h => some (.diverge, h)

/-- Several threads sharing a heap. -/
structure Config (S α : Type) where
  heap : Heap S
  threads : List (Prog S α)

/-- One step of one of the threads. -/
inductive Step {S α : Type} : Config S α → Config S α → Prop where
  | mk (c : Config S α) (i : Nat) (p p' : Prog S α) (h' : Heap S)
      (hi : c.threads[i]? = some p) (hs : step1 p c.heap = some (p', h')) :
      Step c ⟨h', c.threads.set i p'⟩

/-- Any number of steps: every interleaving. -/
inductive Steps {S α : Type} : Config S α → Config S α → Prop where
  | refl (c : Config S α) : Steps c c
  | tail {c d e : Config S α} (h : Steps c d) (s : Step d e) : Steps c e

/-- the heap after the last handles to the nodes `F` have gone: from now on every `Weak` to them fails to upgrade -/
def Heap.free {S : Type} (h : Heap S) (F : NodeId → Bool) : Heap S := { h with dead := fun n => h.dead n || F n }

/-- One step of one of the threads, or the last handle to some nodes is dropped (by any of the threads or by one
outside the list; between two primitive steps of a call, too). Which nodes still have handles is not asked: any node
may be freed at any moment, also one that a thread has in its hands. -/
inductive DStep {S α : Type} : Config S α → Config S α → Prop where
  | thread {c d : Config S α} (s : Step c d) : DStep c d
  | free (c : Config S α) (F : NodeId → Bool) : DStep c ⟨c.heap.free F, c.threads⟩

/-- Any number of steps: every interleaving, with nodes freed at any moments. -/
inductive DSteps {S α : Type} : Config S α → Config S α → Prop where
  | refl (c : Config S α) : DSteps c c
  | tail {c d e : Config S α} (h : DSteps c d) (s : DStep d e) : DSteps c e

/-- an interleaving in which no node is freed -/
theorem Steps.drops {S α : Type} {c d : Config S α} (st : Steps c d) : DSteps c d := by
  induction st with
  | refl => exact .refl _
  | tail _ s ih => exact .tail ih (.thread s)

end K
