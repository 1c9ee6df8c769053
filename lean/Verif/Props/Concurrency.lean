import Verif.Lemmas.Deadlock
import Verif.Lemmas.Sched
import Verif.Lemmas.SetPos
import Verif.Lemmas.Finite
import Verif.Lemmas.Fk
import Verif.Lemmas.Clone
/-!
# C41, C42, C49, C50: locks

`Steps ⟨h, threads⟩ d` ranges over every interleaving of the primitive steps of all threads.
-/

namespace K
open Prog
variable {T : Type} [Scalar T] {α : Type}

/-! ## specification -/

/-- no thread can move -/
def Stuck (d : Config (NodeImpl T) α) : Prop := ¬ ∃ e, Step d e

/-- every thread waits for a mutex that is locked -/
def Deadlocked (d : Config (NodeImpl T) α) : Prop :=
  d.threads ≠ [] ∧ ∀ p ∈ d.threads, ∃ n, p.WaitsFor n ∧ d.heap.held n = true

/-- every registered mimic child is an allocated node -/
def MimicAllocated (h : KHeap T) : Prop := ∀ m c, c ∈ (h.get m).mimicChildren → c < h.next

/-- everything but: registering mimic children, `update_velocities` (see C16), cloning and printing -/
def SharedCall {β : Type} : Call T β → Prop
  | .setMimicParent _ _ _ => False
  | .updateVelocities _ => False
  | .cloneChain _ _ => False
  | .display _ _ => False
  | _ => True

/-- everything but: changing the topology, `update_velocities` and cloning -/
def PrintingCall {β : Type} : Call T β → Prop
  | .setParent _ _ => False
  | .setMimicParent _ _ _ => False
  | .updateVelocities _ => False
  | .cloneChain _ _ => False
  | _ => True

/-- the calls of `SharedCall` that have no panic path; `joint_positions` on a chain whose movable nodes
have movable joints in `h` -/
def QuietCall (h : KHeap T) {β : Type} : Call T β → Prop
  | .setMimicParent _ _ _ => False
  | .updateVelocities _ => False
  | .cloneChain _ _ => False
  | .display _ _ => False
  | .chainSetOrigin _ _ => False
  | .chainOrigin _ => False
  | .updateTransforms _ => False
  | .updateLinkTransforms _ => False
  | .tryNew _ => False
  | .jacobian _ => False
  | .centerOfMass _ => False
  | .solve _ _ _ _ => False
  | .iterLinks _ => False
  | .jointPositions c => ∀ n ∈ c.movableNodes, n < h.next ∧ (h.get n).joint.isMovable = true
  | _ => True

/-- the threads that run the given clients -/
def start (h : KHeap T) (ts : List (Client T α)) : Config (NodeImpl T) α := ⟨h, ts.map Client.prog⟩

/-! ## C41 -/

private theorem threadInv {A : List NodeId → NodeId → Prop} {pk : List NodeId → Prop}
    {P : NodeId → NodeImpl T → Prop} (h : KHeap T) (u : h.Unlocked) (i : ∀ n, P n (h.get n))
    {φ : ∀ {β : Type}, Call T β → Prop}
    (hφ : ∀ {β : Type} (c : Call T β), φ c → Keep A pk h.next P (Pres P) [] (fun _ => True) c.prog)
    (ts : List (Client T α)) (only : ∀ t ∈ ts, t.Only φ) :
    ThreadInv A pk h.next P (fun L (_ : α) => L = [] ∧ True) (start h ts) (fun _ => []) := by
  refine ⟨⟨Nat.le_refl _, i⟩, ?_, fun _ => by simp, fun i j n hn => (by cases hn), fun n => ?_⟩
  · intro k p hp
    have := List.mem_of_getElem? hp
    simp only [start, List.mem_map] at this
    obtain ⟨t, ht, rfl⟩ := this
    exact keep_client hφ t (only t ht)
  · simp [start, u n]

private def order (M : NodeId → Prop) [DecidablePred M] (n : NodeId) : Nat := if M n then 1 else 0

private theorem lockInv (h : KHeap T) (wf : MimicWF h) (F : NodeId → Prop)
    (hF : ∀ n, F n → (h.get n).joint.isMovable = true) (n : NodeId) :
    LockInv (fun c => ∃ m, c ∈ (h.get m).mimicChildren) F (fun _ _ => True)
      (fun n c => (¬ ∃ m, n ∈ (h.get m).mimicChildren) ∧ ∃ m, c ∈ (h.get m).mimicChildren)
      n (h.get n) := by
  refine ⟨fun ⟨m, hm⟩ => wf m n hm, fun c hc => ⟨⟨n, hc⟩, fun e => ⟨?_, n, hc⟩⟩, fun _ _ => trivial, hF n⟩
  rintro ⟨m, hm⟩
  have := (wf m n hm).1; rw [e] at this; cases this

open Classical in
private theorem reach (pk : List NodeId → Prop) (F : NodeId → Prop) (h : KHeap T) (u : h.Unlocked)
    (wf : MimicWF h) (al : MimicAllocated h)
    (hF : ∀ n, F n → n < h.next ∧ (h.get n).joint.isMovable = true)
    (ts : List (Client T α))
    (only : ∀ t ∈ ts, t.Only (fun c => LockCall F (fun _ _ => True) False pk c))
    (d : Config (NodeImpl T) α) (st : DSteps (start h ts) d) (stuck : Stuck d) :
    (∀ p ∈ d.threads, (∃ a, p = .ret a) ∨ ∃ L msg, pk L ∧ p = .panic msg) ∨
      ∃ L msg, L ≠ [] ∧ pk L ∧ (Prog.panic msg : KProg T α) ∈ d.threads := by
  let M : NodeId → Prop := fun c => ∃ m, c ∈ (h.get m).mimicChildren
  have a1 : ∀ n c, ((¬ ∃ m, n ∈ (h.get m).mimicChildren) ∧ ∃ m, c ∈ (h.get m).mimicChildren) →
      ∀ m ∈ [n], order M m < order M c := by
    rintro n c ⟨hn, hc⟩ m hm
    rw [List.mem_singleton.1 hm]
    have e1 : order M n = 0 := by simp [order, M, hn]
    have e2 : order M c = 1 := by simp [order, M]; exact hc
    rw [e1, e2]; exact Nat.zero_lt_one
  obtain ⟨Ls, t⟩ := steps_lk st (threadInv (A := fun L n => ∀ m ∈ L, order M m < order M n) (pk := pk)
    h u (lockInv h wf F fun n hn => (hF n hn).2) (φ := fun c => LockCall F (fun _ _ => True) False pk c)
    (fun c hc => keep_call (fun n m hm => (by cases hm)) a1 (fun n ⟨m, hm⟩ => al m n hm)
      (fun n hn => (hF n hn).1) False (fun _ _ => False) (fun f => f.elim) (fun f => f.elim)
      (fun f => f.elim) c hc) ts only)
  exact stuck_done _ t stuck

/-- the calls of `SharedCall` that cannot panic while they hold a mutex; `joint_positions` on a chain
whose movable nodes have movable joints in `h` -/
def CleanCall (h : KHeap T) {β : Type} : Call T β → Prop
  | .setMimicParent _ _ _ => False
  | .updateVelocities _ => False
  | .cloneChain _ _ => False
  | .display _ _ => False
  | .jacobian _ => False
  | .solve _ _ _ _ => False
  | .iterLinks _ => False
  | .jointPositions c => ∀ n ∈ c.movableNodes, n < h.next ∧ (h.get n).joint.isMovable = true
  | _ => True

/-- Any number of threads, each any program of calls (except those excluded in `SharedCall`) on shared
nodes, over mimic relations built by `set_mimic_parent`: when no thread can move, then all have
returned, or one of them has panicked. -/
theorem C41_no_deadlock (h : KHeap T) (u : h.Unlocked) (wf : MimicWF h) (al : MimicAllocated h)
    (ts : List (Client T α)) (only : ∀ t ∈ ts, t.Only (fun c => SharedCall c))
    (d : Config (NodeImpl T) α) (st : DSteps (start h ts) d) (stuck : Stuck d) :
    (∀ p ∈ d.threads, ∃ a, p = .ret a) ∨ ∃ msg, (Prog.panic msg : KProg T α) ∈ d.threads := by
  have := reach (fun _ => True) (fun _ => False) h u wf al (fun n f => f.elim) ts (fun t ht => ?_) d st
    stuck
  · by_cases np : ∃ msg, (Prog.panic msg : KProg T α) ∈ d.threads
    · exact .inr np
    · rcases this with this | ⟨_, msg, _, _, hm⟩
      · refine .inl fun p hp => (this p hp).resolve_right ?_
        rintro ⟨_, msg, _, rfl⟩
        exact np ⟨msg, hp⟩
      · exact absurd ⟨msg, hm⟩ np
  · refine Client.Only.mono (fun c hc => ?_) t (only t ht)
    cases c <;> simp_all [SharedCall, LockCall]

/-- For the calls that never panic while holding a mutex, a panic of one thread does not block the
others: when no thread can move, each has returned or panicked. -/
theorem C41_panics_do_not_block (h : KHeap T) (u : h.Unlocked) (wf : MimicWF h)
    (al : MimicAllocated h) (ts : List (Client T α)) (only : ∀ t ∈ ts, t.Only (fun c => CleanCall h c))
    (d : Config (NodeImpl T) α) (st : DSteps (start h ts) d) (stuck : Stuck d) :
    ∀ p ∈ d.threads, (∃ a, p = .ret a) ∨ ∃ msg, p = .panic msg := by
  have := reach (fun L => L = []) (fun n => n < h.next ∧ (h.get n).joint.isMovable = true) h u wf al
    (fun n f => f) ts (fun t ht => ?_) d st stuck
  · rcases this with this | ⟨L, msg, ne, e, hm⟩
    · exact fun p hp => (this p hp).imp_right fun ⟨_, msg, _, e⟩ => ⟨msg, e⟩
    · exact absurd e ne
  · refine Client.Only.mono (fun c hc => ?_) t (only t ht)
    cases c <;> simp_all [CleanCall, LockCall]

/-- For calls without panic paths: when no thread can move, all have returned. -/
theorem C41_always_finishes (h : KHeap T) (u : h.Unlocked) (wf : MimicWF h) (al : MimicAllocated h)
    (ts : List (Client T α)) (only : ∀ t ∈ ts, t.Only (fun c => QuietCall h c))
    (d : Config (NodeImpl T) α) (st : DSteps (start h ts) d) (stuck : Stuck d) :
    ∀ p ∈ d.threads, ∃ a, p = .ret a := by
  have := reach (fun _ => False) (fun n => n < h.next ∧ (h.get n).joint.isMovable = true) h u wf al
    (fun n f => f) ts (fun t ht => ?_) d st stuck
  · rcases this with this | ⟨_, _, _, f, _⟩
    · exact fun p hp => (this p hp).resolve_right fun ⟨_, _, f, _⟩ => f
    · exact f.elim
  · refine Client.Only.mono (fun c hc => ?_) t (only t ht)
    cases c <;> simp_all [QuietCall, LockCall]

/-- The same with printing, over a fixed topology in which some order puts every node before its
children and every free mimic master before its mimic children. -/
theorem C41_no_deadlock_printing (h : KHeap T) (u : h.Unlocked) (wf : MimicWF h)
    (al : MimicAllocated h) (rank : NodeId → Nat)
    (rc : ∀ n, ∀ c ∈ (h.get n).children, rank n < rank c)
    (rm : ∀ n, (h.get n).mimicParent = none → ∀ c ∈ (h.get n).mimicChildren, rank n < rank c)
    (ts : List (Client T α)) (only : ∀ t ∈ ts, t.Only (fun c => PrintingCall c))
    (d : Config (NodeImpl T) α) (st : DSteps (start h ts) d) (stuck : Stuck d) :
    (∀ p ∈ d.threads, ∃ a, p = .ret a) ∨ ∃ msg, (Prog.panic msg : KProg T α) ∈ d.threads := by
  let A : List NodeId → NodeId → Prop := fun L n => ∀ m ∈ L, rank m < rank n
  obtain ⟨Ls, t⟩ := steps_lk st (threadInv (A := A) (pk := fun _ => True)
    (P := LockInv (fun c => ∃ m, c ∈ (h.get m).mimicChildren) (fun _ => False)
      (fun n c => rank n < rank c) (fun n c => rank n < rank c)) h u
    (fun n => ⟨fun ⟨m, hm⟩ => wf m n hm, fun c hc => ⟨⟨n, hc⟩, fun e => rm n e c hc⟩, rc n,
      fun f => f.elim⟩)
    (φ := fun c => PrintingCall c)
    (fun c hc => keep_call (fun n m hm => (by cases hm))
      (fun n c r m hm => by rw [List.mem_singleton.1 hm]; exact r)
      (fun n ⟨m, hm⟩ => al m n hm) (fun n hn => hn.elim) True A (fun _ _ _ h => h)
      (fun _ L n m hn r k hk => by
        rcases List.mem_cons.1 hk with rfl | hk
        · exact r
        · exact Nat.lt_trans (hn k hk) r)
      (fun _ n m hm => by cases hm) c (by cases c <;> simp_all [PrintingCall, LockCall])) ts only)
  by_cases np : ∃ msg, (Prog.panic msg : KProg T α) ∈ d.threads
  · exact .inr np
  · rcases stuck_done _ t stuck with this | ⟨_, msg, _, _, hm⟩
    · refine .inl fun p hp => (this p hp).resolve_right ?_
      rintro ⟨_, msg, _, rfl⟩
      exact np ⟨msg, hp⟩
    · exact absurd ⟨msg, hm⟩ np

/-- There are no infinite executions: some thread would have to loop over a cyclic graph. -/
theorem C41_finite (f : Nat → Config (NodeImpl T) α) (st : ∀ k, Step (f k) (f (k + 1))) :
    ∃ k, (Prog.diverge : KProg T α) ∈ (f k).threads := finite_executions f st

/-! ### printing a chain whose mimic child is above its master deadlocks -/

private def exJoint (s : String) : Joint T := Joint.new s (.rotational ⟨1, 0, 0⟩)

/-- node 1 is a child of node 0, and node 0 mimics node 1 -/
def exUp : KHeap T where
  get := fun n =>
    if n = 0 then { NodeImpl.fresh (exJoint "a") with
      children := [1], mimicParent := some 1, mimic := some ⟨1, 0⟩ }
    else if n = 1 then { NodeImpl.fresh (exJoint "b") with parent := some 0, mimicChildren := [0] }
    else NodeImpl.fresh (exJoint "c")
  next := 2
  dead := fun _ => false
  held := fun _ => false

/-- one thread prints the chain, the other one moves the master: both wait forever -/
theorem C41_printing_deadlock (x : T) : ∃ d : Config (NodeImpl T) Unit,
    Steps (start exUp [.call (.display 3 ⟨[0, 1], [0, 1], 2⟩) fun _ => .done (),
      .call (.setJointPosition 1 x) fun _ => .done ()]) d ∧ Deadlocked d := by
  refine ⟨_, runSched_steps (is := [0, 0, 0, 0, 0, 1, 1, 1]) rfl, ?_, ?_⟩
  · exact List.cons_ne_nil _ _
  · intro p hp
    rcases List.mem_cons.1 hp with rfl | hp
    · exact ⟨1, rfl, rfl⟩
    · rw [List.mem_singleton.1 hp]; exact ⟨0, rfl, rfl⟩

/-! ## C42 -/

/-- two unrelated movable joints -/
def exTwo : KHeap T where
  get := fun n => if n = 0 then NodeImpl.fresh (exJoint "a") else NodeImpl.fresh (exJoint "b")
  next := 2
  dead := fun _ => false
  held := fun _ => false

/-- `set_joint_position` on a node while another thread registers a mimic child with it: there is a
schedule after which both wait forever. -/
theorem C42_race_deadlock (x : T) (m : Mimic T) : ∃ d : Config (NodeImpl T) Unit,
    Steps (start exTwo [.call (.setJointPosition 0 x) fun _ => .done (),
      .call (.setMimicParent 1 0 m) fun _ => .done ()]) d ∧ Deadlocked d := by
  refine ⟨_, runSched_steps (is := [1, 1, 1, 1, 1, 1, 0, 0, 0, 0, 0]) rfl, ?_, ?_⟩
  · exact List.cons_ne_nil _ _
  · intro p hp
    rcases List.mem_cons.1 hp with rfl | hp
    · exact ⟨0, rfl, rfl⟩
    · rw [List.mem_singleton.1 hp]; exact ⟨1, rfl, rfl⟩

/-! ## C49 -/

/-- printing needs a graph without cycles -/
def NoCycle (h : KHeap T) : Prop := ∃ rank : NodeId → Nat, ∀ n, ∀ c ∈ (h.get n).children, rank n < rank c

/-- what a caller has to respect: `update_velocities` is excluded (see C16), printing needs a graph
without cycles, handles that are registered or cloned (with parents and mimic parents) belong to
allocated nodes -/
def Respectful (h : KHeap T) {β : Type} : Call T β → Prop
  | .updateVelocities _ => False
  | .display _ _ => NoCycle h
  | .setMimicParent n _ _ => n < h.next
  | .cloneChain _ c => ∀ n ∈ c.nodes, n < h.next ∧ (∀ p, (h.get n).parent = some p → p < h.next) ∧
      ∀ p, (h.get n).mimicParent = some p → p < h.next
  | _ => True

/-- the mimic bookkeeping of heaps built through the API -/
structure Built (h : KHeap T) : Prop where
  unlocked : h.Unlocked
  mimic : MimicWF h
  allocated : MimicAllocated h

private theorem seq_call (h : KHeap T) (b : Built h) (R : NodeId → NodeId → Prop)
    (hR : ∀ n, ∀ c ∈ (h.get n).children, R n c) (D : Prop) (ok : List NodeId → NodeId → Prop)
    (acq : D → ∀ L n, ok L n → n ∉ L)
    (down : D → ∀ L n m, ok L n → R n m → ok (n :: L) m) (ok0 : D → ∀ n, ok [] n)
    {β : Type} (c : Call T β) (l : LockCall (fun _ => False) R D (fun _ => True) c) :
    (run c.prog h).Disc (fun _ => True) h.next (LockInv (fun c => ∃ m, c ∈ (h.get m).mimicChildren)
      (fun _ => False) R (fun n c => n ≠ c)) (fun L _ => L = [] ∧ True) := by
  have inv : HeapInv h.next (LockInv (T := T) (fun c => ∃ m, c ∈ (h.get m).mimicChildren)
      (fun _ => False) R (fun n c => n ≠ c)) h := by
    refine ⟨Nat.le_refl _, fun n => ⟨fun ⟨m, hm⟩ => b.mimic m n hm, fun c hc => ⟨⟨n, hc⟩, ?_⟩,
      hR n, fun f => f.elim⟩⟩
    rintro e rfl
    have := (b.mimic n n hc).1; rw [e] at this; cases this
  refine run_lk (A := fun L n => n ∉ L) (fun L n h => h) ?_ inv (HeldIs.nil b.unlocked)
  exact keep_call (fun n => by simp) (fun n c r => by simpa using Ne.symm r)
    (fun n ⟨m, hm⟩ => b.allocated m n hm) (fun n f => f.elim) D ok acq down ok0 c l

/-- outcome of a call: it does not wait for itself, and when it returns no mutex is locked and `φ` holds -/
def Returns {β : Type} (φ : KHeap T → Prop) : Res (NodeImpl T) β → Prop
  | .ok _ h => h.Unlocked ∧ φ h
  | .blocked _ _ => False
  | .panic _ _ => True
  | .diverged => True

private theorem returns_of_disc (h : KHeap T) (b : Built h) (R : NodeId → NodeId → Prop) {β : Type}
    (r : Res (NodeImpl T) β)
    (d : r.Disc (fun _ => True) h.next (LockInv (fun c => ∃ m, c ∈ (h.get m).mimicChildren)
      (fun _ => False) R (fun n c => n ≠ c)) (fun L _ => L = [] ∧ True)) : Returns Built r := by
  cases r with
  | ok a h' =>
    obtain ⟨⟨L, ⟨rfl, _⟩, hl⟩, inv⟩ := d
    refine ⟨hl.unlocked, hl.unlocked, fun m c hc => ?_, fun m c hc => ?_⟩
    · exact (inv.2 c).child ((inv.2 m).master c hc).1
    · obtain ⟨m', hm'⟩ := ((inv.2 m).master c hc).1
      exact Nat.lt_of_lt_of_le (b.allocated m' c hm') inv.1
  | panic m h' => trivial
  | blocked n h' => exact d
  | diverged => trivial

/-- No call (made alone, respecting `Respectful`) waits for a mutex it holds itself, and every call
that returns has released all its locks and kept the mimic bookkeeping. -/
theorem C49_no_self_deadlock (h : KHeap T) (b : Built h) {β : Type} (c : Call T β)
    (r : Respectful h c) :
    Returns Built (run c.prog h) := by
  have plain : LockCall (fun _ => False) (fun _ _ => True) False (fun _ => True) c →
      Returns Built (run c.prog h) := fun l =>
    returns_of_disc h b _ _ (seq_call h b (fun _ _ => True) (fun _ _ _ => trivial) False
      (fun _ _ => False) (fun f => f.elim) (fun f => f.elim) (fun f => f.elim) c l)
  cases c
  case display f c =>
    obtain ⟨rank, hr⟩ := r
    refine returns_of_disc h b _ _ (seq_call h b (fun n c => rank n < rank c) hr True
      (fun L n => ∀ m ∈ L, rank m < rank n) ?_ ?_ ?_ (.display f c) ⟨trivial, trivial⟩)
    · exact fun _ L n hn i => Nat.lt_irrefl _ (hn n i)
    · intro _ L n m hn r k hk
      rcases List.mem_cons.1 hk with rfl | hk
      · exact r
      · exact Nat.lt_trans (hn k hk) r
    · exact fun _ n m hm => by cases hm
  case cloneChain f c =>
    have := run_lk (A := fun L n => n ∉ L) (pk := fun _ => True) (fun L n h => h)
      (Chain.keep_clone (T := T) (lo := h.next) (P := fun _ _ => True)
        (U := Pres fun _ _ => True) (by simp) trivial c f
        (fun n m hn hm => by
          simp only [List.mem_singleton]
          exact fun e => absurd (r n hn).1 (Nat.not_lt.2 (e ▸ hm)))
        (fun _ _ _ _ _ _ => trivial) (fun _ _ _ _ _ _ => trivial) fun _ _ _ _ _ _ _ _ => trivial)
      (h := h) ⟨Nat.le_refl _, fun _ => trivial⟩ (HeldIs.nil b.unlocked)
    simp only [Call.prog]
    cases e : run (c.clone f) h with
    | ok a h' =>
      rw [e] at this
      obtain ⟨⟨L, ⟨rfl, _⟩, hl⟩, inv⟩ := this
      obtain ⟨iv, cl⟩ := Cl.clone_ok b.unlocked c ⟨fun n hn => (r n hn).1, fun n hn => (r n hn).2.1,
        fun n hn => (r n hn).2.2⟩ f e
      have mc : ∀ m k, k ∈ (h'.get m).mimicChildren → k ∈ (h.get m).mimicChildren ∨
          ∃ j < c.nodes.length, k = h.next + j ∧ ∃ p, liveMimic h (Cl.nd c.nodes j) = some p := by
        intro m k hk
        by_cases hm : m < h.next ∨ h.next + c.nodes.length ≤ m
        · rw [iv.old m hm] at hk; exact .inl hk
        · have ei := iv.copy (m - h.next) (by omega)
          rw [show h.next + (m - h.next) = m by omega] at ei
          rw [ei] at hk
          simp only [Cl.cell, List.mem_map, List.mem_filter, List.mem_range] at hk
          obtain ⟨j, ⟨hj, ej⟩, rfl⟩ := hk
          simp only [Option.map_eq_some_iff, decide_eq_true_eq] at ej
          obtain ⟨p, ep, -⟩ := ej
          exact .inr ⟨j, hj, rfl, p, ep⟩
      refine ⟨hl.unlocked, hl.unlocked, fun m k hk => ?_, fun m k hk => ?_⟩
      · rcases mc m k hk with o | ⟨j, hj, rfl, p, ep⟩
        · rw [iv.old k (.inl (b.allocated m k o))]; exact b.mimic m k o
        · rw [iv.copy j hj]
          simp only [Cl.cell, hj, if_true, ep, Option.map_some, Option.isSome_some, and_self]
          exact ⟨trivial, ((cl _ (Cl.nd_mem hj)).mimic p ep).2⟩
      · rw [iv.next]
        rcases mc m k hk with o | ⟨j, hj, rfl, -⟩
        · exact Nat.lt_of_lt_of_le (b.allocated m k o) (Nat.le_add_right _ _)
        · exact Nat.add_lt_add_left hj _
    | panic m h' => trivial
    | blocked n h' => rw [e] at this; exact this
    | diverged => trivial
  case setMimicParent n p m =>
    simp only [Call.prog]
    rw [run_Node_setMimicParent n p m h b.unlocked]
    refine ⟨by intro k; exact b.unlocked k, by intro k; exact b.unlocked k, ?_, ?_⟩
    · intro k c hc
      simp only [Heap.get_modify] at hc ⊢
      have old : c ∈ (h.get k).mimicChildren ∨ c = n := by
        split at hc <;> split at hc <;> simp_all <;> grind
      by_cases e : c = n
      · subst e; simp only [if_true]; split <;> simp
      · have := b.mimic k c (old.resolve_right e)
        simp only [if_neg e]; split <;> exact this
    · intro k c hc
      have old : c ∈ (h.get k).mimicChildren ∨ c = n := by
        simp only [Heap.get_modify] at hc
        split at hc <;> split at hc <;> simp_all <;> grind
      rcases old with o | rfl
      · exact b.allocated k c o
      · exact r
  case updateVelocities => exact r.elim
  all_goals exact plain (by simp [LockCall])

/-- heaps reachable by calls that return -/
inductive ApiHistory : KHeap T → KHeap T → Prop
  | nil (h : KHeap T) : ApiHistory h h
  | snoc {h h1 h2 : KHeap T} (hist : ApiHistory h h1) {β : Type} (c : Call T β) (a : β)
      (r : Respectful h1 c)
      (ok : run c.prog h1 = .ok a h2) : ApiHistory h h2

/-- The hypotheses of C41 and C49 hold after any history that started without mimic joints. -/
theorem C49_history (h h' : KHeap T) (u : h.Unlocked) (nm : ∀ n, (h.get n).mimicChildren = [])
    (hist : ApiHistory h h') : Built h' := by
  induction hist with
  | nil => exact ⟨u, fun m c hc => by simp [nm] at hc, fun m c hc => by simp [nm] at hc⟩
  | snoc hist c a r ok ih =>
    have := C49_no_self_deadlock _ ih c r
    rw [ok] at this
    exact this.2

/-- a history with a mimic relation and a moved master -/
example : ∃ h' : KHeap T, ApiHistory exTwo h' ∧ (h'.get 0).mimicChildren = [1] := by
  refine ⟨_, .snoc (.snoc (.nil _) (.setMimicParent 1 0 ⟨1, 0⟩) () ?_ rfl)
    (.setJointPosition 0 0) _ trivial rfl, rfl⟩
  exact Nat.one_lt_two

/-! ## C50 -/

/-- node 1 is a child of node 0 -/
def exPair : KHeap T where
  get := fun n =>
    if n = 0 then { NodeImpl.fresh (exJoint "a") with children := [1] }
    else { NodeImpl.fresh (exJoint "b") with parent := some 0 }
  next := 2
  dead := fun _ => false
  held := fun _ => false

/-- `update_transforms` in one thread while another thread sets a joint position: there is a schedule in
which `update_transforms` panics (the transform of the parent it has just stored is gone). -/
theorem C50_race_panics (x : T) : ∃ d : Config (NodeImpl T) Unit,
    Steps (start exPair [.call (.updateTransforms ⟨[0, 1], [0, 1], 2⟩) fun _ => .done (),
      .call (.setJointPosition 0 x) fun _ => .done ()]) d ∧
    d.threads[0]? = some (.panic "cache must exist") := by
  let f : NodeId → KProg T (Iso T) := Chain.updateTransform
  let rest : Iso T → KProg T Unit := fun y => (mapList [1] f >>= fun ys => pure (y :: ys)) >>= fun _ =>
    .ret ()
  let p1 : KProg T Unit := Node.setJointPosition 0 x >>= fun _ => .ret ()
  have e0 : (Client.call (.updateTransforms ⟨[0, 1], [0, 1], 2⟩) fun _ => .done () :
      Client T Unit).prog = f 0 >>= rest := Prog.bind_assoc _ _ _
  have u : (exPair (T := T)).Unlocked := fun _ => rfl
  -- thread 0 updates node 0
  let t0 : Iso T := Iso.one.mul ((exPair (T := T)).get 0).joint.localTransform
  let h1 : KHeap T := exPair.setWorld 0 t0
  have r0 : run (f 0) exPair = .ok t0 h1 := run_updateTransform 0 exPair u
  have s0 := steps_run (f := rest) (i := 0) (ts := [f 0 >>= rest, p1]) r0 rfl
  -- thread 1 sets the position of node 0
  have u1 : h1.Unlocked := u.modify 0 _
  have nm : ∀ m, (h1.get m).mimicChildren = [] := by
    intro m
    simp only [h1, Heap.setWorld, Heap.get_modify, exPair]
    split <;> rfl
  have s1 := steps_run (f := fun _ => Prog.ret ()) (i := 1) (ts := [rest t0, p1])
    (run_setJointPosition 0 x h1 u1 (fun m c hc => by rw [nm] at hc; cases hc)) rfl
  let h2 := h1.setJoint 0 x
  have e2 : (setPos 0 x h1).2 = h2 := rfl
  rw [e2] at s1
  have u2 : h2.Unlocked := u1.modify 0 _
  -- thread 0 looks at the transform of node 0
  let rest2 : Option (Iso T) → KProg T Unit := fun o => ((((expect o "cache must exist" >>=
    fun pt => Node.joint 1 >>= fun j =>
      (poke 1 fun s => { s with joint := s.joint.setWorldTransform (pt.mul j.localTransform) }) >>=
      fun _ => pure (pt.mul j.localTransform)) >>= fun y => mapList [] f >>= fun ys => pure (y :: ys))
      >>= fun ys => pure (t0 :: ys)) >>= fun _ => .ret ())
  have er : rest t0 = Node.parentWorldTransform 1 >>= rest2 := by
    show (((Node.parentWorldTransform 1 >>= _) >>= _) >>= _) >>= _ = _
    simp only [Prog.bind_assoc, rest2]
  have r2 := run_Node_parentWorldTransform 1 h2 u2
  have s2 := steps_run (f := rest2) (i := 0) (ts := [rest t0, .ret ()]) r2 (by rw [er]; rfl)
  rw [show start exPair _ = ⟨exPair, [f 0 >>= rest, p1]⟩ from by rw [← e0]; rfl]
  exact ⟨_, (s0.trans s1).trans s2, rfl⟩

/-- calls that clear no cached transform and do not re-parent, with `update_transforms` and
`update_link_transforms` and `iter_links` on chains inside `N`; either no call sets links (`links`), or none walks over
links -/
def ReadyCall (N : NodeId → Prop) (links : Prop) {β : Type} : Call T β → Prop
  | .updateTransforms c => ∀ n ∈ c.nodes, N n
  | .updateLinkTransforms c => ∀ n ∈ c.nodes, N n
  | .newNode _ => True
  | .setMimicParent _ _ _ => True
  | .removeParent _ _ => True
  | .setLink _ _ => ¬ links
  | .joint _ => True
  | .jointPosition _ => True
  | .parent _ => True
  | .mimicParent _ => True
  | .children _ => True
  | .link _ => True
  | .isRoot _ => True
  | .isEnd _ => True
  | .origin _ => True
  | .worldTransform _ => True
  | .worldVelocity _ => True
  | .iterAncestors _ _ => True
  | .iterDescendants _ _ => True
  | .fromNodes _ => True
  | .fromRoot _ _ => True
  | .fromEnd _ _ => True
  | .fromEndToRoot _ _ _ => True
  | .iterJoints _ => True
  | .iterLinks c => links ∧ ∀ n ∈ c.nodes, N n
  | .find _ _ => True
  | .endTransform _ => True
  | _ => False

private def ReadyInv (N C : NodeId → Prop) (links : Prop) (ls : NodeId → Bool) (n : NodeId) (s : NodeImpl T) : Prop :=
  (N n → ∀ w, s.parent = some w → C w) ∧ (C n → s.joint.worldTransform.isSome) ∧
  (links → N n → s.link.isSome = ls n)

private theorem ready_pwt {N C : NodeId → Prop} {links : Prop} {lo : Nat} {ls : NodeId → Bool} {n : NodeId} (hn : N n) :
    Keep (fun L _ => L = []) (fun _ => False) lo (ReadyInv (T := T) N C links ls) (Pres (ReadyInv (T := T) N C links ls)) [] (fun o => o.isSome)
      (Node.parentWorldTransform n : KProg T _) := by
  have hp : Keep (fun L _ => L = []) (fun _ => False) lo (ReadyInv (T := T) N C links ls) (Pres (ReadyInv (T := T) N C links ls)) []
      (fun o => ∀ w, o = some w → C w) (Node.parent n : KProg T _) := by
    refine lk_lock rfl (lk_read fun s hs => ?_)
    cases e : s.parent with
    | none => exact lk_unlock (keep_pure fun w h => by cases h)
    | some w =>
      refine lk_upgrade fun b => lk_unlock (keep_pure fun w' h => ?_)
      cases b <;> simp at h
      exact h ▸ hs.1 hn w e
  refine hp.bind fun o ho => ?_
  cases o with
  | none => exact keep_pure rfl
  | some p =>
    refine Keep.bind (Q := fun j : Joint T => j.worldTransform.isSome) ?_ fun j hj => keep_pure hj
    exact (keep_peek rfl).bind fun s hs => keep_pure (hs.2.1 (ho p rfl))

private theorem ready_expect {N C : NodeId → Prop} {links : Prop} {lo : Nat} {ls : NodeId → Bool} {β : Type} {o : Option β} {m : String}
    (ho : o.isSome) : Keep (fun L _ => L = []) (fun _ => False) lo (ReadyInv (T := T) N C links ls) (Pres (ReadyInv (T := T) N C links ls)) [] (fun _ => True)
      (expect o m) := by
  cases o with
  | none => cases ho
  | some a => exact keep_pure'

private theorem ready_update {N C : NodeId → Prop} {links : Prop} {lo : Nat} {ls : NodeId → Bool} (c : Chain) (hc : ∀ n ∈ c.nodes, N n) :
    Keep (fun L _ => L = []) (fun _ => False) lo (ReadyInv (T := T) N C links ls) (Pres (ReadyInv (T := T) N C links ls)) [] (fun _ => True)
      (c.updateTransforms : KProg T _) := by
  refine (keep_mapList (Q := fun _ => True) fun n hn => ?_).true
  refine (ready_pwt (hc n hn)).bind fun o ho => (ready_expect ho).bind fun t _ => ?_
  refine (keep_Node_joint rfl).bind fun j _ => ?_
  exact (keep_poke rfl fun s hs => ⟨hs.1, fun _ => rfl, hs.2.2⟩).bind fun _ _ => keep_pure'

private theorem ready_links {N C : NodeId → Prop} {links : Prop} {lo : Nat} {ls : NodeId → Bool}
    (hl : links) (c : Chain) (hc : ∀ n ∈ c.nodes, N n) : Keep (fun L _ => L = []) (fun _ => False) lo
      (ReadyInv (T := T) N C links ls) (Pres (ReadyInv (T := T) N C links ls)) [] (fun _ => True) (c.iterLinks : KProg T _) := by
  refine Keep.bind (keep_mapList (Q := fun _ => True) fun n hn => ?_) fun _ _ => keep_pure'
  refine Keep.bind (Q := fun o : Option (Link T) => o.isSome = ls n)
    ((keep_peek rfl).bind fun s hs => keep_pure (hs.2.2 hl (hc n hn))) fun o ho => ?_
  split
  · rename_i ho'
    refine lk_lock rfl (lk_read fun s hs => ?_)
    have e : s.link.isSome := by rw [hs.2.2 hl (hc n hn), ← ho, ho']
    cases el : s.link with
    | none => rw [el] at e; cases e
    | some k => exact lk_unlock keep_pure'
  · exact keep_pure'

/-- If the parents of the chain's nodes have a cached transform when the threads start, and no thread
sets positions or origins or re-parents nodes (and none sets links while another one walks over links), then no thread ever panics. -/
theorem C50_no_race (N : NodeId → Prop) (links : Prop) (h : KHeap T) (u : h.Unlocked)
    (ready : ∀ n, N n → ∀ w, (h.get n).parent = some w →
      w < h.next ∧ (h.get w).joint.worldTransform.isSome)
    (nlo : ∀ n, N n → n < h.next)
    (ts : List (Client T α)) (only : ∀ t ∈ ts, t.Only (fun c => ReadyCall N links c))
    (d : Config (NodeImpl T) α) (st : DSteps (start h ts) d) (msg : String) :
    (Prog.panic msg : KProg T α) ∉ d.threads := by
  intro hm
  have key := @threadInv T _ α (fun L _ => L = []) (fun _ => False)
    (ReadyInv N (fun w => w < h.next ∧ (h.get w).joint.worldTransform.isSome) links
      fun n => (h.get n).link.isSome) h u
    (fun n => ⟨fun hn w e => ready n hn w e, fun hc => hc.2, fun _ _ => rfl⟩) (fun c => ReadyCall N links c) ?_ ts only
  · obtain ⟨Ls, t⟩ := steps_lk st key
    obtain ⟨i, hi⟩ := List.getElem?_of_mem hm
    exact t.disc i _ hi
  · intro β c hc
    have a0 : ∀ n : NodeId, ([] : List NodeId) = [] := fun _ => rfl
    cases c with
    | updateTransforms c => exact ready_update c hc
    | updateLinkTransforms c =>
      refine (ready_update c hc).bind fun _ _ => ?_
      refine keep_forEach fun n hn => ?_
      refine (ready_pwt (hc n hn)).bind fun o ho => (ready_expect ho).bind fun t _ => ?_
      exact keep_poke rfl fun s hs => ⟨hs.1, hs.2.1, fun l hn => by rw [← hs.2.2 l hn]; simp⟩
    | newNode j =>
      refine fun m hm => ⟨⟨fun hn => absurd (nlo m hn) (Nat.not_lt.2 hm), fun hc => absurd hc.1
        (Nat.not_lt.2 hm), fun _ hn => absurd (nlo m hn) (Nat.not_lt.2 hm)⟩, rfl, trivial⟩
    | setMimicParent n p m =>
      exact keep_Node_setMimicParent rfl rfl (fun _ h => h) (fun _ h => h) fun _ h => h
    | removeParent n p =>
      exact keep_Node_removeParent rfl rfl (fun _ h => ⟨fun _ w e => (by cases e), h.2⟩) fun _ h => h
    | setLink n k => exact keep_poke rfl fun _ h => ⟨h.1, h.2.1, fun l => (hc l).elim⟩
    | joint n => exact keep_Node_joint rfl
    | jointPosition n => exact keep_Node_jointPosition rfl
    | parent n => exact keep_Node_parent rfl
    | mimicParent n => exact keep_Node_mimicParent rfl
    | children n => exact keep_Node_children rfl
    | link n => exact keep_Node_link rfl
    | isRoot n => exact keep_Node_isRoot rfl
    | isEnd n => exact keep_Node_isEnd rfl
    | origin n => exact keep_Node_origin rfl
    | worldTransform n => exact keep_Node_worldTransform rfl
    | worldVelocity n => exact keep_Node_worldVelocity rfl
    | iterAncestors fuel n => exact keep_ancestors a0 _ _
    | iterDescendants fuel n => exact keep_descendants a0 _ _
    | fromNodes ns => exact Chain.keep_fromNodes a0 ns
    | fromRoot fuel n => exact Chain.keep_fromRoot a0 _ _
    | fromEnd fuel n => exact Chain.keep_fromEnd a0 _ _
    | fromEndToRoot fuel e r => exact Chain.keep_fromEndToRoot a0 _ _ _
    | iterJoints c => exact Chain.keep_iterJoints a0 c
    | iterLinks c => exact ready_links hc.1 c hc.2
    | find c name => exact Chain.keep_find a0 c name
    | endTransform c => exact Chain.keep_endTransform a0 c
    | _ => exact hc.elim

/-! ### the hypotheses are met -/

/-- joint 1 mimics joint 0 -/
def exMaster : KHeap T where
  get := fun n =>
    if n = 0 then { NodeImpl.fresh (exJoint "a") with mimicChildren := [1] }
    else { NodeImpl.fresh (exJoint "b") with mimicParent := some 0, mimic := some ⟨1, 0⟩ }
  next := 2
  dead := fun _ => false
  held := fun _ => false

theorem exMaster_built : Built (exMaster (T := T)) := by
  refine ⟨fun _ => rfl, fun m c hc => ?_, fun m c hc => ?_⟩ <;>
  · by_cases e : m = 0
    · subst e; simp [exMaster] at hc; subst hc; simp [exMaster]
    · simp [exMaster, e, NodeImpl.fresh] at hc

/-- two threads fighting over a master and its mimic child always come to an end -/
example (x y : T) (d : Config (NodeImpl T) Unit)
    (st : DSteps (start exMaster [.call (.setJointPosition 0 x) fun _ =>
        .call (.setJointPosition 1 y) fun _ => .done (),
      .call (.setJointPosition 0 y) fun _ => .call (.jointPositions ⟨[0, 1], [0, 1], 2⟩) fun _ =>
        .done ()]) d) (stuck : Stuck d) : ∀ p ∈ d.threads, ∃ a, p = .ret a := by
  refine C41_always_finishes exMaster (fun _ => rfl) exMaster_built.mimic exMaster_built.allocated _
    ?_ d st stuck
  intro t ht
  simp only [List.mem_cons, List.not_mem_nil, or_false] at ht
  rcases ht with rfl | rfl
  · exact ⟨trivial, fun _ => ⟨trivial, fun _ => trivial⟩⟩
  · refine ⟨trivial, fun _ => ⟨?_, fun _ => trivial⟩⟩
    intro n hn
    simp only [List.mem_cons, List.not_mem_nil, or_false] at hn
    rcases hn with rfl | rfl
    · exact ⟨Nat.zero_lt_two, rfl⟩
    · exact ⟨Nat.one_lt_two, rfl⟩

/-- the graph of `exMaster` can be printed concurrently -/
example : ∃ rank : NodeId → Nat, (∀ n, ∀ c ∈ ((exMaster (T := T)).get n).children, rank n < rank c) ∧
    ∀ n, ((exMaster (T := T)).get n).mimicParent = none →
      ∀ c ∈ ((exMaster (T := T)).get n).mimicChildren, rank n < rank c := by
  refine ⟨fun n => n, fun n c hc => ?_, fun n _ c hc => ?_⟩
  · by_cases e : n = 0 <;> simp [exMaster, e, NodeImpl.fresh] at hc
  · by_cases e : n = 0
    · subst e; simp [exMaster] at hc; subst hc; exact Nat.zero_lt_one
    · simp [exMaster, e, NodeImpl.fresh] at hc

/-- after one `update_transforms` alone, the hypotheses of `C50_no_race` hold -/
example : ∃ h : KHeap T, ∃ r, run (Chain.updateTransforms ⟨[0, 1], [0, 1], 2⟩) exPair = .ok r h ∧
    h.Unlocked ∧ ∀ n, n < 2 → ∀ w, (h.get n).parent = some w →
      w < h.next ∧ (h.get w).joint.worldTransform.isSome := by
  refine ⟨_, _, rfl, fun n => ?_, fun n hn w e => ?_⟩
  · simp [Heap.setHeld, Heap.modify, exPair]
  · rcases Nat.lt_succ_iff_lt_or_eq.1 hn with l | rfl
    · have : n = 0 := Nat.lt_one_iff.1 l
      subst this; cases e
    · have : w = 0 := by
        have : some w = some 0 := e.symm
        exact Option.some.inj this
      subst this; exact ⟨Nat.zero_lt_two, rfl⟩

end K
