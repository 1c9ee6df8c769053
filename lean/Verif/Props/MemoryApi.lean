import Verif.Props.Memory
import Verif.Lemmas.Region
/-!
# Reference counts of programs that use the API (C47)

`MemStep` (Model/Memory.lean) describes what single operations do to the strong counts.  Here the programs
are those that call the API with handles they hold, clone handles and drop them in any order (`OwnStep`); every
memory such a program can reach is a reachable memory of `MemStep` (`C47_api`), so the other theorems of C47
hold for it.  Also: a call never looks at a freed node (`C47_freed_unseen`).
-/

set_option linter.unusedSectionVars false

namespace K
open Prog
variable {T : Type} [Scalar T]

/-! ## the programs -/

/-- the nodes a chain holds handles to -/
def Chain.handles (c : Chain) : List NodeId := c.nodes ++ c.movableNodes

/-- the handles a call gives out -/
def Call.gives {β : Type} : Call T β → β → List NodeId
  | .newNode _, n => [n]
  | .parent _, o | .mimicParent _, o | .find _ _, o => o.toList
  | .children _, l | .iterAncestors _ _, l | .iterDescendants _ _, l => l
  | .fromNodes _, c | .fromRoot _ _, c | .fromEnd _ _, c | .fromEndToRoot _ _ _, c | .cloneChain _ _, c => c.handles
  | .tryNew _, some c => c.handles
  | _, _ => []

/-- Steps of a program that uses the API.  An argument that is moved into a call counts as a clone of it which
the program drops later.  What a call adds to the strong counts: the handles it gives out, and the references it
stores in living nodes (minus those it removes from there). -/
inductive OwnStep : Mem T → Mem T → Prop
  /-- a call with handles that the program holds -/
  | call (m : Mem T) {β : Type} (c : Call T β) (args : c.In (· ∈ m.handles)) (r : β) (h' : KHeap T)
      (ok : run c.prog m.heap = .ok r h') (rc : NodeId → Nat)
      (counts : ∀ n, rc n + stored m.heap n = m.rc n + stored h' n + (c.gives r).count n) :
      OwnStep m ⟨h', rc, c.gives r ++ m.handles⟩
  | new (m : Mem T) (j : Joint T) (n : NodeId) (h' : KHeap T)
      (ok : run (Call.newNode j).prog m.heap = .ok n h') :
      OwnStep m ⟨h', fun x => if x = n then 1 else m.rc x, n :: m.handles⟩
  /-- `Chain::clone`: until it returns, the vector `new_nodes` holds a handle to each copy; the program may
  drop them later -/
  | clone (m : Mem T) (fuel : Nat) (c c' : Chain) (args : c.In (· ∈ m.handles)) (h' : KHeap T)
      (ok : run (Call.cloneChain fuel c).prog m.heap = .ok c' h') (rc : NodeId → Nat)
      (counts : ∀ n, rc n + stored m.heap n = m.rc n + stored h' n +
        ((Call.cloneChain (T := T) fuel c).gives c' ++ List.range' m.heap.next c.nodes.length).count n) :
      OwnStep m ⟨h', rc, (Call.cloneChain (T := T) fuel c).gives c' ++
        (List.range' m.heap.next c.nodes.length ++ m.handles)⟩
  /-- `Clone for Node` -/
  | copy (m : Mem T) (n : NodeId) (hn : n ∈ m.handles) :
      OwnStep m { m.setRc n (m.rc n + 1) with handles := n :: m.handles }
  | drop (m : Mem T) (n : NodeId) (hn : n ∈ m.handles) (fuel : Nat) (m' : Mem T)
      (r : Mem.release fuel [n] { m with handles := m.handles.erase n } = some m') : OwnStep m m'

/-! ## the living nodes -/

/-- the node exists and is not freed -/
def Live {S : Type} (h : Heap S) (n : NodeId) : Prop := n < h.next ∧ h.dead n = false

/-- weak references of existing nodes are to existing nodes, freed or not -/
theorem MemHistory.weak {m : Mem T} (hist : MemHistory m) : ∀ n < m.heap.next,
    (∀ p, (m.heap.get n).parent = some p → p < m.heap.next) ∧
    (∀ p, (m.heap.get n).mimicParent = some p → p < m.heap.next) := by
  induction hist with
  | start m none rc handles => intro n hn; omega
  | @step m m' p s ih =>
    have c := p.counted
    cases s with
    | new j =>
      intro n hn
      have hn' : n < m.heap.next + 1 := hn
      simp only [Heap.push]
      split
      · simp [NodeImpl.fresh]
      · have := ih n (by omega)
        exact ⟨fun p hp => Nat.lt_succ_of_lt (this.1 p hp), fun p hp => Nat.lt_succ_of_lt (this.2 p hp)⟩
    | acquire n bound alive => exact ih
    | setParent n p hn hp h' r =>
      simp only [Node.setParent, run_bind] at r
      obtain ⟨_, h1, e1, e2⟩ := Res.bind_eq_ok r
      cases poke_ok e1
      cases poke_ok e2
      have bp := (c.alive (c.handle hp)).2
      intro x hx
      have := ih x hx
      refine ⟨fun q hq => ?_, fun q hq => ?_⟩
      · simp only [Heap.get_modify] at hq
        split at hq <;> split at hq <;> first
          | (cases hq; exact bp)
          | exact this.1 q hq
      · simp only [Heap.get_modify] at hq
        split at hq <;> split at hq <;> exact this.2 q hq
    | removeParent n p hn hp h' r =>
      simp only [Node.removeParent, run_bind] at r
      obtain ⟨_, h1, e1, e2⟩ := Res.bind_eq_ok r
      cases poke_ok e1
      cases poke_ok e2
      intro x hx
      have := ih x hx
      refine ⟨fun q hq => ?_, fun q hq => ?_⟩
      · simp only [Heap.get_modify] at hq
        split at hq <;> split at hq <;> first
          | (cases hq; done)
          | exact this.1 q hq
      · simp only [Heap.get_modify] at hq
        split at hq <;> split at hq <;> exact this.2 q hq
    | setMimicParent n p mi hn hp h' r =>
      simp only [Node.setMimicParent, run_bind] at r
      obtain ⟨_, h1, e1, e2⟩ := Res.bind_eq_ok r
      obtain ⟨_, h2, e2, e3⟩ := Res.bind_eq_ok e2
      cases poke_ok e1
      cases poke_ok e2
      cases poke_ok e3
      have bp := (c.alive (c.handle hp)).2
      intro x hx
      have := ih x hx
      refine ⟨fun q hq => ?_, fun q hq => ?_⟩
      · simp only [Heap.get_modify] at hq
        split at hq <;> (try split at hq) <;> exact this.1 q hq
      · simp only [Heap.get_modify] at hq
        split at hq <;> (try split at hq) <;> first
          | (cases hq; exact bp)
          | exact this.2 q hq
    | other h' next dead refs weak =>
      intro x hx
      show (∀ p, (h'.get x).parent = some p → p < h'.next) ∧ ∀ p, (h'.get x).mimicParent = some p → p < h'.next
      rw [(weak x).1, (weak x).2, next]
      exact ih x (next ▸ hx)
    | reorder l p => exact ih
    | drop n hn fuel _ r =>
      have c' : Counted [n] { m with handles := m.handles.erase n } := by
        refine ⟨fun x => ?_, c.dead, c.bound⟩
        have h1 := c.count x
        show m.rc x = (m.handles.erase n).count x + [n].count x + stored m.heap x
        rw [List.count_erase, List.count_singleton]
        have := List.count_pos_iff.2 hn
        by_cases e : n = x
        · subst e; simp at h1 ⊢; omega
        · simp [e]; simp at h1; omega
      obtain ⟨-, -, b, d, -⟩ := c'.release r
      rw [b, d]; exact ih

/-- strong references of living nodes are to living nodes -/
theorem MemHistory.links {m : Mem T} (hist : MemHistory m) (n : NodeId) (l : Live m.heap n) :
    (m.heap.get n).Links (Live m.heap) (· < m.heap.next) := by
  have c := hist.counted
  have st : ∀ x ∈ strongRefs m.heap n, Live m.heap x := fun x hx => by
    have := stored_pos m.heap l.1 l.2 hx
    have := c.count x
    exact (c.alive (by omega)).symm
  exact ⟨(hist.weak n l.1).1, fun x hx => st x (by simp [strongRefs, hx]), (hist.weak n l.1).2,
    fun x hx => st x (by simp [strongRefs, hx])⟩

theorem MemHistory.live {m : Mem T} (hist : MemHistory m) {n : NodeId} (hn : n ∈ m.handles) : Live m.heap n :=
  (hist.counted.alive (hist.counted.handle hn)).symm

/-! ## programs that only look at living nodes -/

/-- the same outcome: the same value or panic message, and the nodes in `R` end the same -/
def Res.Agree {S α : Type} (R : NodeId → Prop) : Res S α → Res S α → Prop
  | .ok a h, .ok b g => a = b ∧ K.Agree R h g
  | .panic m h, .panic m' g => m = m' ∧ K.Agree R h g
  | .blocked n h, .blocked n' g => n = n' ∧ K.Agree R h g
  | .diverged, .diverged => True
  | _, _ => False

/-- what an outcome leaves as it was: the number of nodes, which are freed, and everything outside `R` -/
def Res.Within {S α : Type} (R : NodeId → Prop) (C : S → Prop) (Q : α → Prop) (h : Heap S) : Res S α → Prop
  | .ok a h' => Q a ∧ h'.next = h.next ∧ h'.dead = h.dead ∧ (∀ n, ¬ R n → h'.get n = h.get n) ∧ ∀ n, R n → C (h'.get n)
  | .panic _ h' | .blocked _ h' => h'.next = h.next ∧ h'.dead = h.dead ∧ ∀ n, ¬ R n → h'.get n = h.get n
  | .diverged => True

theorem Res.Within.base {S α : Type} {R : NodeId → Prop} {C : S → Prop} {Q : α → Prop} {h g : Heap S}
    {r : Res S α} (w : r.Within R C Q g) (next : g.next = h.next) (dead : g.dead = h.dead)
    (get : ∀ n, ¬ R n → g.get n = h.get n) : r.Within R C Q h := by
  cases r with
  | ok a h' => exact ⟨w.1, w.2.1.trans next, w.2.2.1.trans dead, fun n hn => (w.2.2.2.1 n hn).trans (get n hn), w.2.2.2.2⟩
  | panic m h' => exact ⟨w.1.trans next, w.2.1.trans dead, fun n hn => (w.2.2 n hn).trans (get n hn)⟩
  | blocked m h' => exact ⟨w.1.trans next, w.2.1.trans dead, fun n hn => (w.2.2 n hn).trans (get n hn)⟩
  | diverged => trivial

theorem Stays.run_live {S α : Type} {R W : NodeId → Prop} {C : S → Prop} {Q : α → Prop} {p : Prog S α}
    {h g : Heap S} (sp : Stays R W C Q p) (i : ∀ n, R n → C (h.get n))
    (w : ∀ n, W n → h.dead n = false → R n) (a : Agree R h g) (d : g.dead = h.dead) :
    (run p h).Agree R (run p g) ∧ (run p h).Within R C Q h := by
  induction p generalizing h g with
  | ret x => exact ⟨⟨rfl, a⟩, sp, rfl, rfl, fun _ _ => rfl, i⟩
  | lock n k ih =>
    simp only [run, a.held n sp.1]
    cases nh : h.held n
    · obtain ⟨x, y⟩ := ih (h := h.setHeld n true) (g := g.setHeld n true) sp.2 i w (a.setHeld n true) d
      exact ⟨x, y.base rfl rfl fun _ _ => rfl⟩
    · exact ⟨⟨rfl, a⟩, rfl, rfl, fun _ _ => rfl⟩
  | unlock n k ih =>
    obtain ⟨x, y⟩ := ih (h := h.setHeld n false) (g := g.setHeld n false) sp.2 i w (a.setHeld n false) d
    exact ⟨x, y.base rfl rfl fun _ _ => rfl⟩
  | read n k ih =>
    simp only [run, a.get n sp.1]
    exact ih _ (sp.2 _ (i n sp.1)) i w a d
  | write n f k ih =>
    have inv' : ∀ m, R m → C ((h.modify n f).get m) := by
      intro m hm
      simp only [Heap.get_modify]
      split
      · exact sp.2.1 _ (i m hm)
      · exact i m hm
    obtain ⟨x, y⟩ := ih (h := h.modify n f) (g := g.modify n f) sp.2.2 inv' w (a.modify n f) d
    refine ⟨x, y.base rfl rfl fun m hm => ?_⟩
    have ne : m ≠ n := fun e => hm (e ▸ sp.1)
    simp only [Heap.get_modify, if_neg ne]
  | upgrade n k ih =>
    simp only [run, d]
    refine ih _ ?_ i w a d
    cases e : h.dead n
    · exact sp.2.1 (w n sp.1 e)
    · exact sp.2.2
  | alloc s k ih => exact sp.elim
  | panic m => exact ⟨⟨rfl, a⟩, rfl, rfl, fun _ _ => rfl⟩
  | diverge => exact ⟨trivial, trivial⟩

theorem Chain.In.mono {R R' : NodeId → Prop} (i : ∀ n, R n → R' n) {c : Chain} (h : c.In R) : c.In R' :=
  ⟨fun n hn => i n (h.nodes n hn), fun n hn => i n (h.movable n hn)⟩

theorem Call.In.mono {R R' : NodeId → Prop} (i : ∀ n, R n → R' n) {β : Type} {c : Call T β} (h : c.In R) :
    c.In R' := by
  cases c <;> first
    | exact h.elim
    | exact i _ h
    | exact ⟨i _ h.1, i _ h.2⟩
    | exact fun n hn => i n (h n hn)
    | exact Chain.In.mono i h

/-- **C47** (freed nodes are not looked at): for every memory that a program can reach and every call with
handles that the program holds, the outcome does not depend on the content of freed nodes, and freed nodes
are left as they are. -/
theorem C47_freed_unseen (m : Mem T) (hist : MemHistory m) {β : Type} (c : Call T β)
    (args : c.In (· ∈ m.handles)) (g : KHeap T) (same : Agree (Live m.heap) m.heap g)
    (dead : g.dead = m.heap.dead) :
    (run c.prog m.heap).Agree (Live m.heap) (run c.prog g) ∧
    ∀ r h', run c.prog m.heap = .ok r h' → (∀ n, ¬ Live m.heap n → h'.get n = m.heap.get n) ∧
      c.Got (Live m.heap) r := by
  have sp := stays_call (W := (· < m.heap.next)) (fun n (h : Live m.heap n) => h.1) c
    (args.mono fun n hn => hist.live hn)
  obtain ⟨x, y⟩ := sp.run_live hist.links (fun n hn d => ⟨hn, d⟩) same dead
  refine ⟨x, fun r h' e => ?_⟩
  rw [e] at y
  exact ⟨y.2.2.2.1, y.1⟩


/-! ## calls that change no reference -/

/-- the same nodes with the same references -/
structure SameRefs (h h' : KHeap T) : Prop where
  next : h'.next = h.next
  dead : h'.dead = h.dead
  refs : ∀ n, strongRefs h' n = strongRefs h n
  weak : ∀ n, (h'.get n).parent = (h.get n).parent ∧ (h'.get n).mimicParent = (h.get n).mimicParent

theorem SameRefs.refl (h : KHeap T) : SameRefs h h := ⟨rfl, rfl, fun _ => rfl, fun _ => ⟨rfl, rfl⟩⟩
theorem SameRefs.trans {h g k : KHeap T} (a : SameRefs h g) (b : SameRefs g k) : SameRefs h k :=
  ⟨b.next.trans a.next, b.dead.trans a.dead, fun n => (b.refs n).trans (a.refs n),
    fun n => ⟨(b.weak n).1.trans (a.weak n).1, (b.weak n).2.trans (a.weak n).2⟩⟩

theorem MemHistory.same {m : Mem T} (hist : MemHistory m) {h' : KHeap T} (s : SameRefs m.heap h') :
    MemHistory ({ m with heap := h' } : Mem T) := hist.step (.other m h' s.next s.dead s.refs s.weak)

theorem same_doLock {n : NodeId} {h h' : KHeap T} (e : run (doLock n) h = .ok () h') : SameRefs h h' := by
  simp only [doLock, run] at e
  split at e
  · cases e
  · cases e; exact ⟨rfl, rfl, fun _ => rfl, fun _ => ⟨rfl, rfl⟩⟩
theorem same_doUnlock {n : NodeId} {h h' : KHeap T} (e : run (doUnlock n) h = .ok () h') : SameRefs h h' := by
  cases e; exact ⟨rfl, rfl, fun _ => rfl, fun _ => ⟨rfl, rfl⟩⟩

/-- the calls that change no reference between nodes -/
def Call.Plain {β : Type} : Call T β → Prop
  | .newNode _ | .cloneChain _ _ | .setParent _ _ | .removeParent _ _ | .setMimicParent _ _ _ => False
  | _ => True

/-- the references of node `n` are those it has in `h` -/
def RefsOf (h : KHeap T) (n : NodeId) (s : NodeImpl T) : Prop :=
  s.children ++ s.mimicChildren = strongRefs h n ∧ s.parent = (h.get n).parent ∧
    s.mimicParent = (h.get n).mimicParent

theorem safe_refs {β : Type} (c : Call T β) (nt : c.Plain) (h : KHeap T) :
    Safe h.next (RefsOf h) (fun _ => True) c.prog := by
  refine safe_call c ?_ (fun n _ => .all (fun _ _ _ hs => hs) n) ?_
  · intro m f hf s hs
    cases c <;> first
      | exact nt.elim
      | exact hf.elim
      | skip
    case setLink => rcases hf with ⟨-, rfl⟩; exact hs
    case setOrigin => rcases hf with ⟨-, rfl⟩; exact hs
    case setJointPositionClamped => rcases hf with ⟨-, rfl⟩; exact hs
    case setJointPositionUnchecked => rcases hf with ⟨-, rfl⟩; exact hs
    case chainSetOrigin => rcases hf with ⟨-, rfl⟩; exact hs
    case setJointPositionsClamped => rcases hf with ⟨-, y, -, rfl⟩; exact hs
    case setJointPositionsUnchecked => rcases hf with ⟨-, y, -, rfl⟩; exact hs
    case updateTransforms => rcases hf with ⟨-, t, rfl⟩; exact hs
    case updateVelocities => rcases hf with ⟨-, ⟨t, rfl⟩ | ⟨t, rfl⟩⟩ <;> exact hs
    case updateLinkTransforms => rcases hf with ⟨-, ⟨t, rfl⟩ | ⟨t, rfl⟩⟩ <;> exact hs
    case jacobian => rcases hf with ⟨-, t, rfl⟩; exact hs
    case centerOfMass => rcases hf with ⟨-, t, rfl⟩; exact hs
    case solve => rcases hf with ⟨-, t, rfl⟩ | ⟨-, t, rfl⟩ <;> exact hs
  · cases c <;> first
      | trivial
      | exact nt.elim

theorem Call.Plain.in_all {β : Type} {c : Call T β} (nt : c.Plain) : c.In (fun _ => True) := by
  cases c <;> first
    | exact nt.elim
    | trivial
    | exact ⟨trivial, trivial⟩
    | exact fun _ _ => trivial
    | exact ⟨fun _ _ => trivial, fun _ _ => trivial⟩

theorem same_call {β : Type} (c : Call T β) (nt : c.Plain) {h h' : KHeap T} {r : β}
    (ok : run c.prog h = .ok r h') : SameRefs h h' := by
  have sp := stays_call (T := T) (R := fun _ => True) (W := fun _ => True) (fun _ h => h) c nt.in_all
  obtain ⟨-, y⟩ := sp.run_live (h := h) (g := h) (fun n _ => ⟨fun _ _ => trivial, fun _ _ => trivial,
    fun _ _ => trivial, fun _ _ => trivial⟩) (fun _ _ _ => trivial) (.refl _ _) rfl
  rw [ok] at y
  obtain ⟨-, -, b⟩ := run_safe_ok (safe_refs c nt h) ⟨Nat.le_refl _, fun m => ⟨rfl, rfl, rfl⟩⟩ ok
  exact ⟨y.2.1, y.2.2.1, fun n => (b n).1, fun n => (b n).2⟩

/-! ## handles -/

theorem MemHistory.acquire {m : Mem T} (hist : MemHistory m) (l : List NodeId) (al : ∀ n ∈ l, Live m.heap n) :
    ∃ m' : Mem T, MemHistory m' ∧ m'.heap = m.heap ∧ m'.handles = l ++ m.handles := by
  induction l with
  | nil => exact ⟨m, hist, rfl, rfl⟩
  | cons n l ih =>
    obtain ⟨m', h1, e1, e2⟩ := ih fun x hx => al x (by simp [hx])
    have ln := al n (by simp)
    rw [← e1] at ln
    exact ⟨_, h1.step (.acquire m' n ln.1 ln.2), e1, by simp [e2]⟩

/-- the counts are determined by the heap and the handles -/
theorem MemHistory.eq {m : Mem T} (hist : MemHistory m) {h : KHeap T} {rc : NodeId → Nat} {l : List NodeId}
    (eh : m.heap = h) (el : m.handles.Perm l) (er : ∀ n, rc n = l.count n + stored h n) :
    MemHistory (⟨h, rc, l⟩ : Mem T) := by
  have c := hist.counted
  have : rc = m.rc := by
    funext n
    rw [er, c.count, eh, el.count_eq]; simp
  have x := hist.step (.reorder m l el.symm)
  obtain ⟨h0, rc0, l0⟩ := m
  cases eh
  rw [this]; exact x

theorem Call.gives_live {R : NodeId → Prop} {β : Type} (c : Call T β) (args : c.In (fun _ => True)) (r : β)
    (g : c.Got R r) : ∀ n ∈ c.gives r, R n := by
  have ch : ∀ c : Chain, c.In R → ∀ n ∈ c.handles, R n := fun c hc n hn =>
    (List.mem_append.1 hn).elim (hc.nodes n) (hc.movable n)
  cases c <;> first
    | exact args.elim
    | exact ch _ g
    | exact g
    | (intro n hn; cases hn; done)
    | skip
  case parent n => intro x hx; exact g x (by simpa [Call.gives] using hx)
  case mimicParent n => intro x hx; exact g x (by simpa [Call.gives] using hx)
  case find c s => intro x hx; exact g x (by simpa [Call.gives] using hx)
  case tryNew c =>
    cases r with
    | none => intro x hx; cases hx
    | some c' => exact ch c' (g c' rfl)

/-- a call with handles that the program holds leads to a reachable memory -/
theorem mem_call {m : Mem T} (hist : MemHistory m) {β : Type} (c : Call T β)
    (args : c.In (· ∈ m.handles)) {r : β} {h' : KHeap T} (ok : run c.prog m.heap = .ok r h') :
    ∃ m' : Mem T, MemHistory m' ∧ m'.heap = h' ∧ m'.handles = c.gives r ++ m.handles := by
  have got := (C47_freed_unseen m hist c args m.heap (.refl _ _) rfl).2 r h' ok
  have lv := c.gives_live (args.mono fun _ _ => trivial) r got.2
  by_cases pl : c.Plain
  · have s := same_call c pl ok
    refine (hist.same s).acquire (c.gives r) fun n hn => ?_
    show n < h'.next ∧ h'.dead n = false
    rw [s.next, s.dead]; exact lv n hn
  · cases c <;> first
      | exact absurd trivial pl
      | exact args.elim
      | skip
    case setParent n p => exact ⟨_, hist.step (.setParent m n p args.1 args.2 h' ok), rfl, rfl⟩
    case removeParent n p => exact ⟨_, hist.step (.removeParent m n p args.1 args.2 h' ok), rfl, rfl⟩
    case setMimicParent n p mi => exact ⟨_, hist.step (.setMimicParent m n p mi args.1 args.2 h' ok), rfl, rfl⟩

/-! ## `clone` -/

theorem mem_cloneNode {m : Mem T} (hist : MemHistory m) (n : NodeId) {r : NodeId} {h' : KHeap T}
    (e : run (Chain.cloneNode n) m.heap = .ok r h') :
    ∃ m' : Mem T, MemHistory m' ∧ m'.heap = h' ∧ m'.handles = r :: m.handles ∧ r = m.heap.next ∧
      h'.next = m.heap.next + 1 := by
  simp only [Chain.cloneNode, run_bind] at e
  obtain ⟨_, h1, e1, e⟩ := Res.bind_eq_ok e
  obtain ⟨s, h2, e2, e⟩ := Res.bind_eq_ok e
  cases e2
  obtain ⟨x, h3, e3, e⟩ := Res.bind_eq_ok e
  cases e3
  obtain ⟨_, h4, e4, e⟩ := Res.bind_eq_ok e
  obtain ⟨_, h5, e5, e⟩ := Res.bind_eq_ok e
  obtain ⟨s, h6, e6, e⟩ := Res.bind_eq_ok e
  cases e6
  obtain ⟨_, h7, e7, e⟩ := Res.bind_eq_ok e
  obtain ⟨_, h8, e8, e⟩ := Res.bind_eq_ok e
  cases e
  have s1 := same_doLock e1
  have sm := ((same_doUnlock e4).trans (same_doLock e5)).trans
    ((same_call (Call.setLink (T := T) h1.next (h5.get n).link) trivial e7).trans (same_doUnlock e8))
  refine ⟨_, ((hist.same s1).step (.new _ _)).same sm, rfl, ?_, s1.next, ?_⟩
  · rfl
  · rw [sm.next]; show h1.next + 1 = _; rw [s1.next]

theorem mem_mapClone {m : Mem T} (hist : MemHistory m) (ns : List NodeId) {rs : List NodeId} {h' : KHeap T}
    (e : run (mapList ns Chain.cloneNode) m.heap = .ok rs h') :
    ∃ m' : Mem T, MemHistory m' ∧ m'.heap = h' ∧ m'.handles.Perm (rs ++ m.handles) ∧
      rs = List.range' m.heap.next ns.length := by
  induction ns generalizing m rs h' with
  | nil => cases e; exact ⟨m, hist, rfl, .refl _, rfl⟩
  | cons n ns ih =>
    simp only [mapList, run_bind] at e
    obtain ⟨x, h1, e1, e⟩ := Res.bind_eq_ok e
    obtain ⟨xs, h2, e2, e⟩ := Res.bind_eq_ok e
    cases e
    obtain ⟨m1, hm1, rfl, hh1, hx, nx⟩ := mem_cloneNode hist n e1
    obtain ⟨m2, hm2, rfl, hh2, hxs⟩ := ih hm1 e2
    refine ⟨m2, hm2, rfl, ?_, ?_⟩
    · rw [hh1] at hh2
      exact hh2.trans (List.perm_middle)
    · rw [hx, hxs, nx]; rfl

theorem mem_cloneConnect {m : Mem T} (hist : MemHistory m) (nodes news : List NodeId) (nn : NodeId × NodeId)
    (hn : ∀ n ∈ news, n ∈ m.handles) (h2 : nn.2 ∈ m.handles) {h' : KHeap T}
    (e : run (Chain.cloneConnect nodes news nn) m.heap = .ok () h') :
    ∃ m' : Mem T, MemHistory m' ∧ m'.heap = h' ∧ m'.handles = m.handles := by
  simp only [Chain.cloneConnect, run_bind] at e
  obtain ⟨o, h1, e1, e⟩ := Res.bind_eq_ok e
  have hist1 := hist.same (same_call (T := T) (.parent nn.1) trivial e1)
  have step : ∃ (m1 : Mem T) (g : KHeap T), MemHistory m1 ∧ m1.heap = g ∧ m1.handles = m.handles ∧
      run (Node.mimicParent nn.1 >>= fun o => match o with
        | some m => do
          let i ← expect (position m nodes) "called `Option::unwrap()` on a `None` value"
          let m' ← expect news[i]? "index out of bounds"
          doLock nn.1
          let s ← doRead nn.1
          let mimic ← expect s.mimic "called `Option::unwrap()` on a `None` value"
          Node.setMimicParent nn.2 m' mimic
          doUnlock nn.1
        | none => pure ()) g = .ok () h' := by
    cases o with
    | none => exact ⟨_, h1, hist1, rfl, rfl, by rw [run_bind]; simp only [run_bind] at e; exact e⟩
    | some p =>
      simp only [run_bind] at e
      obtain ⟨i, g1, e3, f1⟩ := Res.bind_eq_ok e
      obtain ⟨p', g2, e4, f2⟩ := Res.bind_eq_ok f1
      obtain ⟨_, g, e2, f3⟩ := Res.bind_eq_ok f2
      obtain ⟨q3, rfl⟩ : position p nodes = some i ∧ g1 = h1 := by
        cases hx : position p nodes with
        | none => rw [hx] at e3; cases e3
        | some j => rw [hx] at e3; cases e3; exact ⟨rfl, rfl⟩
      obtain ⟨q4, rfl⟩ : news[i]? = some p' ∧ g2 = g1 := by
        cases hx : news[i]? with
        | none => rw [hx] at e4; cases e4
        | some j => rw [hx] at e4; cases e4; exact ⟨rfl, rfl⟩
      refine ⟨_, g, hist1.step (.setParent { m with heap := g2 } nn.2 p' h2 (hn p' (List.mem_of_getElem? q4)) g e2), rfl, rfl, ?_⟩
      rw [run_bind]; exact f3
  obtain ⟨m1, g, hm1, rfl, hh, e⟩ := step
  rw [run_bind] at e
  obtain ⟨o, g1, e1, e⟩ := Res.bind_eq_ok e
  have hist2 := hm1.same (same_call (T := T) (.mimicParent nn.1) trivial e1)
  cases o with
  | none => cases e; exact ⟨_, hist2, rfl, hh⟩
  | some p =>
    simp only [run_bind] at e
    obtain ⟨i, g2, e3, f1⟩ := Res.bind_eq_ok e
    obtain ⟨p', g3, e4, f2⟩ := Res.bind_eq_ok f1
    obtain ⟨q3, rfl⟩ : position p nodes = some i ∧ g2 = g1 := by
      cases hx : position p nodes with
      | none => rw [hx] at e3; cases e3
      | some j => rw [hx] at e3; cases e3; exact ⟨rfl, rfl⟩
    obtain ⟨q4, rfl⟩ : news[i]? = some p' ∧ g3 = g2 := by
      cases hx : news[i]? with
      | none => rw [hx] at e4; cases e4
      | some j => rw [hx] at e4; cases e4; exact ⟨rfl, rfl⟩
    obtain ⟨_, g4, e5, f3⟩ := Res.bind_eq_ok f2
    obtain ⟨s, g5, e6, f4⟩ := Res.bind_eq_ok f3
    cases e6
    obtain ⟨mi, g6, e7, f5⟩ := Res.bind_eq_ok f4
    obtain rfl : g6 = g4 := by
      cases hx : (g4.get nn.1).mimic with
      | none => rw [hx] at e7; cases e7
      | some j => rw [hx] at e7; cases e7; rfl
    obtain ⟨_, g7, e8, f6⟩ := Res.bind_eq_ok f5
    refine ⟨_, ((hist2.same (same_doLock e5)).step (.setMimicParent _ nn.2 p' mi (by rw [← hh] at h2; exact h2)
      (by have := hn p' (List.mem_of_getElem? q4); rw [← hh] at this; exact this) g7 e8)).same
      (same_doUnlock f6), rfl, hh⟩

theorem mem_forConnect {m : Mem T} (hist : MemHistory m) (nodes news : List NodeId) (l : List (NodeId × NodeId))
    (hn : ∀ n ∈ news, n ∈ m.handles) (hl : ∀ nn ∈ l, nn.2 ∈ m.handles) {h' : KHeap T}
    (e : run (forEach l (Chain.cloneConnect nodes news)) m.heap = .ok () h') :
    ∃ m' : Mem T, MemHistory m' ∧ m'.heap = h' ∧ m'.handles = m.handles := by
  induction l generalizing m h' with
  | nil => cases e; exact ⟨m, hist, rfl, rfl⟩
  | cons nn l ih =>
    simp only [forEach, run_bind] at e
    obtain ⟨_, h1, e1, e⟩ := Res.bind_eq_ok e
    obtain ⟨m1, hm1, rfl, hh⟩ := mem_cloneConnect hist nodes news nn hn (hl nn (by simp)) e1
    obtain ⟨m2, hm2, e2, hh2⟩ := ih hm1 (by rw [hh]; exact hn) (fun x hx => by rw [hh]; exact hl x (by simp [hx])) e
    exact ⟨m2, hm2, e2, hh2.trans hh⟩

theorem mem_clone {m : Mem T} (hist : MemHistory m) (fuel : Nat) (c : Chain) {c' : Chain} {h' : KHeap T}
    (ok : run (c.clone fuel) m.heap = .ok c' h') :
    ∃ m' : Mem T, MemHistory m' ∧ m'.heap = h' ∧
      m'.handles.Perm (c'.handles ++ (List.range' m.heap.next c.nodes.length ++ m.handles)) := by
  obtain ⟨ns, mv, dof⟩ := c
  cases ns with
  | nil => cases ok; exact ⟨m, hist, rfl, .refl _⟩
  | cons r rest =>
    simp only [Chain.clone, run_bind] at ok
    obtain ⟨b, h1, e1, ok⟩ := Res.bind_eq_ok ok
    have hist1 := hist.same (same_call (T := T) (.isRoot r) trivial e1)
    have nx1 := (same_call (T := T) (.isRoot r) trivial e1).next
    cases b with
    | false => cases ok
    | true =>
      simp only [Bool.not_true, Bool.false_eq_true, if_false, run_bind] at ok
      obtain ⟨news, h2, e2, ok⟩ := Res.bind_eq_ok ok
      obtain ⟨m2, hm2, rfl, hh2, hnews⟩ := mem_mapClone hist1 (r :: rest) e2
      obtain ⟨_, h3, e3, ok⟩ := Res.bind_eq_ok ok
      have inn : ∀ n ∈ news, n ∈ m2.handles := fun n hn => hh2.mem_iff.2 (by simp [hn])
      obtain ⟨m3, hm3, rfl, hh3⟩ := mem_forConnect hm2 (r :: rest) news _ inn
        (fun nn hx => inn _ (List.of_mem_zip hx).2) e3
      obtain ⟨r', h4, e4, ok⟩ := Res.bind_eq_ok ok
      obtain ⟨q4, rfl⟩ : news.head? = some r' ∧ h4 = m3.heap := by
        cases hx : news.head? with
        | none => rw [hx] at e4; cases e4
        | some j => rw [hx] at e4; cases e4; exact ⟨rfl, rfl⟩
      obtain ⟨b, h5, e5, ok⟩ := Res.bind_eq_ok ok
      have hist5 := hm3.same (same_call (T := T) (.isRoot r') trivial e5)
      cases b with
      | false => cases ok
      | true =>
        simp only [Bool.not_true, Bool.false_eq_true, if_false] at ok
        have hr : r' ∈ m3.handles := by rw [hh3]; exact inn r' (List.mem_of_mem_head? q4)
        obtain ⟨m6, hm6, e6, hh6⟩ := mem_call hist5 (.fromRoot fuel r') hr ok
        refine ⟨m6, hm6, e6, ?_⟩
        rw [hh6]
        refine List.Perm.append_left _ ?_
        show m3.handles.Perm _
        rw [hh3]
        refine hh2.trans ?_
        rw [hnews]
        show (List.range' h1.next _ ++ m.handles).Perm _
        rw [nx1]

/-- **C47** (the API): every step of a program that uses the API with the handles it holds leads from a
reachable memory to a reachable memory. -/
theorem C47_api (m m' : Mem T) (hist : MemHistory m) (s : OwnStep m m') : MemHistory m' := by
  have cn := hist.counted
  cases s with
  | call c args r h' ok rc counts =>
    obtain ⟨m1, hm1, e1, e2⟩ := mem_call hist c args ok
    refine hm1.eq e1 (.of_eq e2) fun n => ?_
    have h1 := cn.count n
    have h2 := counts n
    rw [List.count_append]
    simp at h1
    omega
  | new j n h' ok =>
    cases ok
    exact hist.step (.new m j)
  | clone fuel c c' args h' ok rc counts =>
    obtain ⟨m1, hm1, e1, e2⟩ := mem_clone hist fuel c ok
    refine hm1.eq e1 e2 fun n => ?_
    have h1 := cn.count n
    have h2 := counts n
    rw [List.count_append] at h2 ⊢
    rw [List.count_append]
    simp at h1
    show _ = List.count n c'.handles + _ + _
    change _ = _ + (List.count n c'.handles + _) at h2
    omega
  | copy n hn => exact hist.step (.acquire m n (hist.live hn).1 (hist.live hn).2)
  | drop n hn fuel _ r => exact hist.step (.drop m n hn fuel m' r)

/-- the memories a program that uses the API can reach -/
inductive OwnHistory : Mem T → Prop
  | start (m : Mem T) (none : m.heap.next = 0) (rc : ∀ n, m.rc n = 0) (handles : m.handles = []) : OwnHistory m
  | step {m m' : Mem T} (p : OwnHistory m) (s : OwnStep m m') : OwnHistory m'

/-- **C47** (the API): what a program that uses the API can reach is reachable; so while it holds a handle to
`r`, everything that is reached from `r` along `children` and `mimic_children` is alive; without a cycle of
strong references nothing else is, in particular nothing when the program holds no handle. -/
theorem C47_api_history (m : Mem T) (hist : OwnHistory m) :
    MemHistory m ∧ (∀ r ∈ m.handles, ∀ n, StrongReach m.heap r n → Live m.heap n) ∧
    (NoStrongCycle m.heap → ∀ n, Live m.heap n → ∃ r ∈ m.handles, StrongReach m.heap r n) ∧
    (NoStrongCycle m.heap → m.handles = [] → ∀ n, ¬ Live m.heap n) := by
  have mh : MemHistory m := by
    induction hist with
    | start m none rc handles => exact .start m none rc handles
    | step p s ih => exact C47_api _ _ ih s
  refine ⟨mh, fun r hr n x => ?_, fun nc n l => C47_only_reachable m mh nc n l.1 l.2, fun nc e n l => ?_⟩
  · have lr := mh.live hr
    induction x with
    | refl => exact lr
    | child b hc ih => exact (mh.links _ ih).children _ hc
    | mimicChild b hc ih => exact (mh.links _ ih).mimicChildren _ hc
  · obtain ⟨r, hr, -⟩ := C47_only_reachable m mh nc n l.1 l.2
    rw [e] at hr; cases hr

/-- **C47** (the counts): after a call that returned there is exactly one way the counts can be. -/
theorem C47_api_counts (m : Mem T) (hist : OwnHistory m) {β : Type} (c : Call T β)
    (args : c.In (· ∈ m.handles)) (r : β) (h' : KHeap T) (ok : run c.prog m.heap = .ok r h') :
    ∃ m' : Mem T, OwnStep m m' ∧ m'.heap = h' ∧ m'.handles = c.gives r ++ m.handles ∧
      (∀ n, m'.rc n = m'.handles.count n + stored h' n) ∧
      ∀ m'' : Mem T, MemHistory m'' → m''.heap = h' → m''.handles = c.gives r ++ m.handles → m'' = m' := by
  have cn := (C47_api_history m hist).1.counted
  refine ⟨⟨h', fun n => (c.gives r ++ m.handles).count n + stored h' n, c.gives r ++ m.handles⟩,
    .call m c args r h' ok _ fun n => ?_, rfl, rfl, fun n => rfl, fun m'' hm e1 e2 => ?_⟩
  · have := cn.count n
    rw [List.count_append]
    simp at this
    omega
  · have c2 := hm.counted
    obtain ⟨h2, rc2, l2⟩ := m''
    cases e1; cases e2
    congr 1
    funext n
    have := c2.count n
    simpa using this

/-! ### a concrete program -/

/-- A program creates two nodes, attaches the second to the first, asks the first for its children and drops
all its handles to the second: the second is alive.  When the handle to the first is dropped too, both
are freed. -/
example (j : Joint T) : ∃ m m' : Mem T, OwnHistory m ∧ m.handles = [0] ∧ Live m.heap 0 ∧ Live m.heap 1 ∧
    OwnStep m m' ∧ m'.handles = [] ∧ m'.heap.dead 0 = true ∧ m'.heap.dead 1 = true := by
  have s0 : OwnHistory (exNothing j) := .start _ rfl (fun _ => rfl) rfl
  have s1 := s0.step (.new _ j _ _ rfl)
  have s2 := s1.step (.new _ j _ _ rfl)
  have u2 : ((exNothing j).heap.push (NodeImpl.fresh j)).push (NodeImpl.fresh j) |>.Unlocked := fun n => rfl
  obtain ⟨m3, a3, h3, l3, r3, -⟩ := C47_api_counts _ s2 (.setParent 1 0)
    ⟨by simp [exNothing, Heap.push], by simp [exNothing, Heap.push]⟩ () _ (run_Node_setParent 1 0 _ u2)
  have s3 := s2.step a3
  have l3 : m3.handles = [1, 0] := l3
  have u3 : m3.heap.Unlocked := by rw [h3]; exact fun n => rfl
  have c0 : (m3.heap.get 0).children = [1] := by rw [h3]; rfl
  have c0' : (m3.heap.get 0).mimicChildren = [] := by rw [h3]; rfl
  have c1 : (m3.heap.get 1).children = [] := by rw [h3]; rfl
  have c1' : (m3.heap.get 1).mimicChildren = [] := by rw [h3]; rfl
  have nx : m3.heap.next = 2 := by rw [h3]; rfl
  have d0 : m3.heap.dead 0 = false := by rw [h3]; rfl
  have d1 : m3.heap.dead 1 = false := by rw [h3]; rfl
  obtain ⟨m4, a4, h4, l4, r4, -⟩ := C47_api_counts m3 s3 (.children 0)
    (show 0 ∈ m3.handles by rw [l3]; simp) _ _
    (run_Node_children 0 m3.heap (u3 0))
  have s4 := s3.step a4
  have l4 : m4.handles = [1, 1, 0] := by rw [l4, l3]; simp [Call.gives, c0]
  have st : ∀ n, stored m3.heap n = if n = 1 then 1 else 0 := by
    intro n
    simp only [stored, nx, Finset.sum_range_succ, Finset.range_zero, Finset.sum_empty, strongRefs, d0, d1, c0, c0', c1, c1',
      Bool.false_eq_true, if_false, List.append_nil, List.count_nil, List.count_singleton]
    by_cases e : n = 1
    · simp [e]
    · have : ¬ 1 = n := fun x => e x.symm
      simp [e, this]
  have rc0 : m4.rc 0 = 1 := by rw [r4, l4, st]; rfl
  have rc1 : m4.rc 1 = 3 := by rw [r4, l4, st]; rfl
  have s5 := s4.step (.drop m4 1 (by simp [l4]) 1
    { m4.setRc 1 2 with handles := m4.handles.erase 1 } (by simp [Mem.release, Mem.setRc, rc1]))
  have s6 := s5.step (.drop _ 1 (by simp [l4]) 1
    { m4.setRc 1 1 with handles := (m4.handles.erase 1).erase 1 } (by
      simp only [Mem.release, Mem.setRc, if_true]
      simp only [show (2 - 1 : Nat) = 1 by rfl, Nat.one_ne_zero, if_false]
      congr 2
      funext x; split <;> rfl))
  refine ⟨_, ((({ m4 with handles := [] } : Mem T).setRc 1 1).setRc 0 0).free 0 |>.setRc 1 0 |>.free 1, s6,
    by simp [l4], ⟨?_, ?_⟩, ⟨?_, ?_⟩, .drop _ 0 (by simp [l4]) 2 _ ?_, rfl, ?_, ?_⟩
  · show 0 < m4.heap.next; rw [h4, nx]; decide
  · show m4.heap.dead 0 = false; rw [h4]; exact d0
  · show 1 < m4.heap.next; rw [h4, nx]; decide
  · show m4.heap.dead 1 = false; rw [h4]; exact d1
  · simp [Mem.release, Mem.setRc, Mem.free, rc0, l4, strongRefs, h4, c0, c0', c1, c1']
  · simp [Mem.setRc, Mem.free]
  · simp [Mem.setRc, Mem.free]

end K
