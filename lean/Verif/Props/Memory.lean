import Verif.Model.Memory
import Verif.Spec.Tree
import Verif.Lemmas.Run
import Verif.Props.Topology
import Mathlib.Algebra.BigOperators.Group.Finset.Basic
/-!
# C47: which nodes are alive
-/

namespace K
open Prog
variable {T : Type} [Scalar T]

/-- Spec: `n` is reached from `r` along `children` and `mimic_children` -/
inductive StrongReach (h : KHeap T) (r : NodeId) : NodeId → Prop
  | refl : StrongReach h r r
  | child {p n : NodeId} (b : StrongReach h r p) (c : n ∈ (h.get p).children) : StrongReach h r n
  | mimicChild {p n : NodeId} (b : StrongReach h r p) (c : n ∈ (h.get p).mimicChildren) :
      StrongReach h r n

/-- Spec: no cycle of `children`/`mimic_children` references among the living nodes -/
def NoStrongCycle (h : KHeap T) : Prop :=
  ∃ rank : NodeId → Nat, ∀ p n, h.dead p = false →
    n ∈ (h.get p).children ∨ n ∈ (h.get p).mimicChildren → rank p < rank n

/-! ## the counting invariant -/

/-- number of references to `n` stored in living nodes -/
def stored (h : KHeap T) (n : NodeId) : Nat :=
  ∑ p ∈ Finset.range h.next, if h.dead p then 0 else (strongRefs h p).count n

/-- strong counts count the handles, the references still to be dropped (`W`) and the stored ones;
and exactly the nodes with count zero are freed -/
structure Counted (W : List NodeId) (m : Mem T) : Prop where
  count : ∀ n, m.rc n = m.handles.count n + W.count n + stored m.heap n
  dead : ∀ n, n < m.heap.next → (m.heap.dead n = true ↔ m.rc n = 0)
  bound : ∀ n, 0 < m.rc n → n < m.heap.next

theorem Counted.alive {W : List NodeId} {m : Mem T} (c : Counted W m) {n : NodeId}
    (h : 0 < m.rc n) : m.heap.dead n = false ∧ n < m.heap.next := by
  have b := c.bound n h
  refine ⟨?_, b⟩
  cases e : m.heap.dead n with
  | false => rfl
  | true => have := (c.dead n b).1 e; omega

theorem Counted.handle {W : List NodeId} {m : Mem T} (c : Counted W m) {n : NodeId}
    (h : n ∈ m.handles) : 0 < m.rc n := by
  have := List.count_pos_iff.2 h
  have := c.count n
  omega

theorem stored_pos (h : KHeap T) {p n : NodeId} (hp : p < h.next) (a : h.dead p = false)
    (hn : n ∈ strongRefs h p) : 0 < stored h n := by
  have hm : p ∈ Finset.range h.next := Finset.mem_range.2 hp
  unfold stored
  rw [← Finset.add_sum_erase _ (fun p => if h.dead p then 0 else (strongRefs h p).count n) hm]
  have := List.count_pos_iff.2 hn
  simp only [a, Bool.false_eq_true, if_false]
  omega

theorem exists_of_stored (h : KHeap T) {n : NodeId} (s : 0 < stored h n) :
    ∃ p, p < h.next ∧ h.dead p = false ∧ n ∈ strongRefs h p := by
  by_contra hn
  have : stored h n = 0 := by
    refine Finset.sum_eq_zero fun p hp => ?_
    split
    · rfl
    · rename_i a
      rw [List.count_eq_zero]
      intro hm
      exact hn ⟨p, Finset.mem_range.1 hp, by simpa using a, hm⟩
  omega

/-- two sums that differ in one entry -/
theorem sum_shift {N p : Nat} {f g : Nat → Nat} (hp : p < N) (d : Nat) (e : ∀ x, x ≠ p → f x = g x)
    (ep : f p = g p + d) : ∑ x ∈ Finset.range N, f x = ∑ x ∈ Finset.range N, g x + d := by
  have hm : p ∈ Finset.range N := Finset.mem_range.2 hp
  have es : ∑ x ∈ (Finset.range N).erase p, f x = ∑ x ∈ (Finset.range N).erase p, g x :=
    Finset.sum_congr rfl (fun x hx => e x (Finset.ne_of_mem_erase hx))
  have h1 : ∑ x ∈ Finset.range N, f x = f p + ∑ x ∈ (Finset.range N).erase p, f x :=
    (Finset.add_sum_erase _ f hm).symm
  have h2 : ∑ x ∈ Finset.range N, g x = g p + ∑ x ∈ (Finset.range N).erase p, g x :=
    (Finset.add_sum_erase _ g hm).symm
  omega

/-- storing or removing references in one living node -/
theorem stored_shift {h h' : KHeap T} {p : NodeId} (hp : p < h.next) (a : h.dead p = false)
    (next : h'.next = h.next) (dead : h'.dead = h.dead)
    (same : ∀ q, q ≠ p → strongRefs h' q = strongRefs h q) (x : NodeId) (d : Nat)
    (e : (strongRefs h' p).count x = (strongRefs h p).count x + d) :
    stored h' x = stored h x + d := by
  unfold stored
  rw [next, dead]
  refine sum_shift hp d (fun q hq => by rw [same q hq]) ?_
  simp [a, e]

theorem Counted.pending {n : NodeId} {W : List NodeId} {m : Mem T} (c : Counted (n :: W) m) :
    0 < m.rc n := by
  have := c.count n
  rw [List.count_cons_self] at this
  omega

theorem Counted.freed {n : NodeId} {W : List NodeId} {m : Mem T} (c : Counted (n :: W) m)
    (k0 : m.rc n - 1 = 0) :
    Counted (strongRefs m.heap n ++ W) ((m.setRc n (m.rc n - 1)).free n) := by
  obtain ⟨al, bd⟩ := c.alive c.pending
  have e1 : ∀ x, stored m.heap x = stored ((m.setRc n (m.rc n - 1)).free n).heap x +
      (strongRefs m.heap n).count x := by
    intro x
    unfold stored
    refine sum_shift bd _ (fun q hq => ?_) ?_
    · simp [Mem.free, Mem.setRc, hq, strongRefs]
    · simp [Mem.free, Mem.setRc, al]
  refine ⟨fun x => ?_, fun x hx => ?_, fun x hx => ?_⟩
  · have h1 := c.count x
    have h2 := e1 x
    rw [List.count_append]
    show (if x = n then m.rc n - 1 else m.rc x) = m.handles.count x + _ + _
    rw [List.count_cons] at h1
    by_cases e : x = n
    · subst e; simp at h1 ⊢; omega
    · have : ¬ n = x := fun z => e z.symm
      simp [this] at h1
      simp only [e, if_false]; omega
  · show (if x = n then true else m.heap.dead x) = true ↔
      (if x = n then m.rc n - 1 else m.rc x) = 0
    by_cases e : x = n
    · simp [e, k0]
    · simp only [e, if_false]; exact c.dead x hx
  · have hx' : 0 < (if x = n then m.rc n - 1 else m.rc x) := hx
    by_cases e : x = n
    · subst e; exact bd
    · simp only [e, if_false] at hx'; exact c.bound x hx'

theorem Counted.dropped {n : NodeId} {W : List NodeId} {m : Mem T} (c : Counted (n :: W) m)
    (k0 : ¬ m.rc n - 1 = 0) : Counted W (m.setRc n (m.rc n - 1)) := by
  obtain ⟨al, bd⟩ := c.alive c.pending
  refine ⟨fun x => ?_, fun x hx => ?_, fun x hx => ?_⟩
  · have h1 := c.count x
    show (if x = n then m.rc n - 1 else m.rc x) = m.handles.count x + W.count x + stored m.heap x
    rw [List.count_cons] at h1
    by_cases e : x = n
    · subst e; simp at h1 ⊢; omega
    · have : ¬ n = x := fun z => e z.symm
      simp [this] at h1
      simp only [e, if_false]; omega
  · show m.heap.dead x = true ↔ (if x = n then m.rc n - 1 else m.rc x) = 0
    by_cases e : x = n
    · subst e; simp [al]; omega
    · simp only [e, if_false]; exact c.dead x hx
  · have hx' : 0 < (if x = n then m.rc n - 1 else m.rc x) := hx
    by_cases e : x = n
    · subst e; exact bd
    · simp only [e, if_false] at hx'; exact c.bound x hx'

theorem Counted.release {fuel : Nat} {W : List NodeId} {m m' : Mem T} (c : Counted W m)
    (r : Mem.release fuel W m = some m') :
    Counted [] m' ∧ m'.handles = m.handles ∧ m'.heap.next = m.heap.next ∧
      m'.heap.get = m.heap.get ∧ m'.heap.held = m.heap.held := by
  induction fuel generalizing W m with
  | zero =>
    cases W with
    | nil => simp only [Mem.release, Option.some.injEq] at r; subst r; exact ⟨c, rfl, rfl, rfl, rfl⟩
    | cons => simp [Mem.release] at r
  | succ fuel ih =>
    cases W with
    | nil => simp only [Mem.release, Option.some.injEq] at r; subst r; exact ⟨c, rfl, rfl, rfl, rfl⟩
    | cons n W =>
      simp only [Mem.release] at r
      split at r
      · rename_i k0
        have z := ih (c.freed k0) r
        exact z
      · rename_i k0
        have z := ih (c.dropped k0) r
        exact z

/-- work left: references to drop, plus what living nodes may still add -/
def work (W : List NodeId) (m : Mem T) : Nat :=
  W.length + ∑ p ∈ Finset.range m.heap.next, if m.heap.dead p then 0 else (strongRefs m.heap p).length + 1

theorem release_total {W : List NodeId} {m : Mem T} (c : Counted W m) (fuel : Nat)
    (hf : work W m ≤ fuel) : ∃ m', Mem.release fuel W m = some m' := by
  induction fuel generalizing W m with
  | zero =>
    cases W with
    | nil => exact ⟨m, rfl⟩
    | cons => simp [work] at hf
  | succ fuel ih =>
    cases W with
    | nil => exact ⟨m, rfl⟩
    | cons n W =>
      obtain ⟨al, bd⟩ := c.alive c.pending
      simp only [Mem.release]
      split
      · rename_i k0
        refine ih (c.freed k0) ?_
        have : (∑ p ∈ Finset.range m.heap.next,
            if m.heap.dead p then 0 else (strongRefs m.heap p).length + 1) =
            (∑ p ∈ Finset.range m.heap.next,
              if ((m.setRc n (m.rc n - 1)).free n).heap.dead p then 0
              else (strongRefs m.heap p).length + 1) + ((strongRefs m.heap n).length + 1) := by
          refine sum_shift bd _ (fun q hq => ?_) ?_
          · simp [Mem.free, Mem.setRc, hq]
          · simp [Mem.free, al]
        have e : work (strongRefs m.heap n ++ W) ((m.setRc n (m.rc n - 1)).free n) =
          (strongRefs m.heap n ++ W).length + (∑ p ∈ Finset.range m.heap.next,
              if ((m.setRc n (m.rc n - 1)).free n).heap.dead p then 0
              else (strongRefs m.heap p).length + 1) := rfl
        rw [e, List.length_append]
        simp only [work, List.length_cons] at hf
        omega
      · rename_i k0
        refine ih (c.dropped k0) ?_
        have e : work W (m.setRc n (m.rc n - 1)) + 1 = work (n :: W) m := by
          simp only [work, List.length_cons]
          show _ + (∑ p ∈ Finset.range m.heap.next, if m.heap.dead p then 0
              else (strongRefs m.heap p).length + 1) + 1 = _
          omega
        omega

/-- one more reference to `n`, stored in `p` -/
theorem Counted.store {m : Mem T} (c : Counted [] m) {n p : NodeId} {h' : KHeap T}
    (hn : n ∈ m.handles) (hp : p ∈ m.handles) (next : h'.next = m.heap.next)
    (dead : h'.dead = m.heap.dead) (same : ∀ q, q ≠ p → strongRefs h' q = strongRefs m.heap q)
    (e : ∀ x, (strongRefs h' p).count x = (strongRefs m.heap p).count x + if x = n then 1 else 0) :
    Counted [] { m.setRc n (m.rc n + 1) with heap := h' } := by
  obtain ⟨ap, bp⟩ := c.alive (c.handle hp)
  obtain ⟨an, bn⟩ := c.alive (c.handle hn)
  have st := fun x => stored_shift bp ap next dead same x _ (e x)
  refine ⟨fun x => ?_, fun x hx => ?_, fun x hx => ?_⟩
  · have h1 := c.count x
    show (if x = n then m.rc n + 1 else m.rc x) = m.handles.count x + _ + stored h' x
    rw [st]
    by_cases e : x = n
    · subst e; simp at h1 ⊢; omega
    · simp [e]; simp at h1; omega
  · show h'.dead x = true ↔ (if x = n then m.rc n + 1 else m.rc x) = 0
    rw [dead]
    by_cases e : x = n
    · subst e; simp [an]
    · simp only [e, if_false]; exact c.dead x (next ▸ hx)
  · have hx' : 0 < (if x = n then m.rc n + 1 else m.rc x) := hx
    show x < h'.next
    rw [next]
    by_cases e : x = n
    · subst e; exact bn
    · simp only [e, if_false] at hx'; exact c.bound x hx'

/-- `k` references to `n` fewer in `p`, while a handle to `n` is held -/
theorem Counted.unstore {m : Mem T} (c : Counted [] m) {n p : NodeId} {h' : KHeap T} {k : Nat}
    (hn : n ∈ m.handles) (hp : p ∈ m.handles) (next : h'.next = m.heap.next)
    (dead : h'.dead = m.heap.dead) (same : ∀ q, q ≠ p → strongRefs h' q = strongRefs m.heap q)
    (e : ∀ x, (strongRefs m.heap p).count x = (strongRefs h' p).count x + if x = n then k else 0) :
    Counted [] { m.setRc n (m.rc n - k) with heap := h' } := by
  obtain ⟨ap, bp⟩ := c.alive (c.handle hp)
  obtain ⟨an, bn⟩ := c.alive (c.handle hn)
  have st := fun x => stored_shift (h := h') (h' := m.heap) (p := p) (by rw [next]; exact bp)
    (by rw [dead]; exact ap) next.symm dead.symm (fun q hq => (same q hq).symm) x _ (e x)
  have sn := st n
  simp only [if_true] at sn
  have hc := List.count_pos_iff.2 hn
  have h0 := c.count n
  simp only [List.count_nil] at h0
  refine ⟨fun x => ?_, fun x hx => ?_, fun x hx => ?_⟩
  · have h1 := c.count x
    have h2 := st x
    show (if x = n then m.rc n - k else m.rc x) = m.handles.count x + _ + stored h' x
    by_cases e : x = n
    · subst e; simp at h1 h2 ⊢; omega
    · simp [e] at h2 ⊢; simp at h1; omega
  · show h'.dead x = true ↔ (if x = n then m.rc n - k else m.rc x) = 0
    rw [dead]
    by_cases e : x = n
    · subst e; simp [an]; omega
    · simp only [e, if_false]; exact c.dead x (next ▸ hx)
  · have hx' : 0 < (if x = n then m.rc n - k else m.rc x) := hx
    show x < h'.next
    rw [next]
    by_cases e : x = n
    · subst e; exact bn
    · simp only [e, if_false] at hx'; exact c.bound x hx'

/-- the invariant holds in every reachable memory -/
theorem MemHistory.counted {m : Mem T} (hist : MemHistory m) : Counted [] m := by
  induction hist with
  | start m none rc handles =>
    refine ⟨fun n => ?_, fun n hn => ?_, fun n hn => ?_⟩
    · rw [rc, handles]; simp [stored, none]
    · omega
    · rw [rc] at hn; omega
  | @step m m' p s c =>
    cases s with
    | new j =>
      have z : m.rc m.heap.next = 0 := by
        by_contra hz
        exact Nat.lt_irrefl _ (c.bound _ (Nat.pos_of_ne_zero hz))
      have st : ∀ x, stored (m.heap.push (NodeImpl.fresh j)) x = stored m.heap x := by
        intro x
        unfold stored
        show ∑ p ∈ Finset.range (m.heap.next + 1), _ = _
        rw [Finset.sum_range_succ]
        have : (strongRefs (m.heap.push (NodeImpl.fresh j)) m.heap.next) = [] := by
          simp [strongRefs, Heap.push, NodeImpl.fresh]
        rw [this]
        simp only [List.count_nil, ite_self, Nat.add_zero]
        refine Finset.sum_congr rfl fun p hp => ?_
        have : p ≠ m.heap.next := by have := Finset.mem_range.1 hp; omega
        simp [Heap.push, strongRefs, this]
      refine ⟨fun x => ?_, fun x hx => ?_, fun x hx => ?_⟩
      · have h1 := c.count x
        show (if x = m.heap.next then 1 else m.rc x) = (m.heap.next :: m.handles).count x + _ + stored _ x
        rw [st, List.count_cons]
        by_cases e : x = m.heap.next
        · subst e; rw [z] at h1; simp at h1 ⊢; omega
        · have : ¬ m.heap.next = x := fun z => e z.symm
          simp [e, this]; simp at h1; omega
      · show (if x = m.heap.next then false else m.heap.dead x) = true ↔
          (if x = m.heap.next then 1 else m.rc x) = 0
        have hx' : x < m.heap.next + 1 := hx
        by_cases e : x = m.heap.next
        · simp [e]
        · simp only [e, if_false]; exact c.dead x (by omega)
      · have hx' : 0 < (if x = m.heap.next then 1 else m.rc x) := hx
        show x < m.heap.next + 1
        by_cases e : x = m.heap.next
        · omega
        · simp only [e, if_false] at hx'; have := c.bound x hx'; omega
    | acquire n bound alive =>
      have pos : m.rc n ≠ 0 := fun z => by have := (c.dead n bound).2 z; rw [alive] at this; cases this
      refine ⟨fun x => ?_, fun x hx => ?_, fun x hx => ?_⟩
      · have h1 := c.count x
        show (if x = n then m.rc n + 1 else m.rc x) = (n :: m.handles).count x + _ + stored m.heap x
        rw [List.count_cons]
        by_cases e : x = n
        · subst e; simp at h1 ⊢; omega
        · have : ¬ n = x := fun z => e z.symm
          simp [e, this]; simp at h1; omega
      · show m.heap.dead x = true ↔ (if x = n then m.rc n + 1 else m.rc x) = 0
        by_cases e : x = n
        · subst e; simp [alive]
        · simp only [e, if_false]; exact c.dead x hx
      · have hx' : 0 < (if x = n then m.rc n + 1 else m.rc x) := hx
        show x < m.heap.next
        by_cases e : x = n
        · subst e; exact bound
        · simp only [e, if_false] at hx'; exact c.bound x hx'
    | setParent n p hn hp h' r =>
      simp only [Node.setParent, run_bind] at r
      obtain ⟨_, h1, e1, e2⟩ := Res.bind_eq_ok r
      cases poke_ok e1
      cases poke_ok e2
      refine c.store hn hp rfl rfl (fun q hq => ?_) (fun x => ?_)
      · simp only [strongRefs, Heap.get_modify, hq, if_false]; split <;> rfl
      · simp only [strongRefs, Heap.get_modify, if_true]
        have e' : (if (n == x) = true then 1 else 0) = if x = n then 1 else 0 := by
          by_cases e : x = n
          · subst e; simp
          · have : ¬ n = x := fun z => e z.symm
            simp [e, this]
        split <;> simp only [List.count_append, List.count_singleton, e'] <;> omega
    | removeParent n p hn hp h' r =>
      simp only [Node.removeParent, run_bind] at r
      obtain ⟨_, h1, e1, e2⟩ := Res.bind_eq_ok r
      cases poke_ok e1
      cases poke_ok e2
      refine c.unstore hn hp rfl rfl (fun q hq => ?_) (fun x => ?_)
      · simp only [strongRefs, Heap.get_modify, hq, if_false]; split <;> rfl
      · have fe : ((m.heap.get p).children.filter fun y => y != n).count x +
            (if x = n then (m.heap.get p).children.count n else 0) = (m.heap.get p).children.count x := by
          by_cases e : x = n
          · subst e
            have : ((m.heap.get p).children.filter fun y => y != x).count x = 0 := by
              rw [List.count_eq_zero]; simp
            simp [this]
          · rw [List.count_filter (by simpa using e)]; simp [e]
        simp only [strongRefs, Heap.get_modify, if_true]
        split <;> simp only [List.count_append] <;> omega
    | setMimicParent n p mi hn hp h' r =>
      simp only [Node.setMimicParent, run_bind] at r
      obtain ⟨_, h1, e1, e2⟩ := Res.bind_eq_ok r
      obtain ⟨_, h2, e2, e3⟩ := Res.bind_eq_ok e2
      cases poke_ok e1
      cases poke_ok e2
      cases poke_ok e3
      refine c.store hn hp rfl rfl (fun q hq => ?_) (fun x => ?_)
      · simp only [strongRefs, Heap.get_modify, hq, if_false]; split <;> rfl
      · simp only [strongRefs, Heap.get_modify, if_true]
        have e' : (if (n == x) = true then 1 else 0) = if x = n then 1 else 0 := by
          by_cases e : x = n
          · subst e; simp
          · have : ¬ n = x := fun z => e z.symm
            simp [e, this]
        split <;> simp only [List.count_append, List.count_singleton, e'] <;> omega
    | reorder l p =>
      refine ⟨fun x => ?_, c.dead, c.bound⟩
      show m.rc x = l.count x + _ + stored m.heap x
      rw [p.count_eq]; exact c.count x
    | other h' next dead refs _ =>
      have st : ∀ x, stored h' x = stored m.heap x := by
        intro x; unfold stored; rw [next, dead]; simp only [refs]
      refine ⟨fun x => ?_, fun x hx => ?_, fun x hx => ?_⟩
      · show m.rc x = m.handles.count x + _ + stored h' x
        rw [st]; exact c.count x
      · show h'.dead x = true ↔ _
        rw [dead]; exact c.dead x (next ▸ hx)
      · show x < h'.next
        rw [next]; exact c.bound x hx
    | drop n hn fuel _ r =>
      have c' : Counted [n] { m with handles := m.handles.erase n } := by
        refine ⟨fun x => ?_, c.dead, c.bound⟩
        have h1 := c.count x
        show m.rc x = (m.handles.erase n).count x + [n].count x + stored m.heap x
        rw [List.count_erase, List.count_singleton]
        have := List.count_pos_iff.2 hn
        by_cases e : n = x
        · subst e; simp at h1 ⊢; omega
        · simp [e]; simp at h1; omega
      exact (c'.release r).1

/-! ## C47 -/

/-- **C47** (alive): in every reachable memory, whatever can be reached from a handle along `children`
and `mimic_children` is alive. -/
theorem C47_alive (m : Mem T) (hist : MemHistory m) (r n : NodeId) (hr : r ∈ m.handles)
    (x : StrongReach m.heap r n) : m.heap.dead n = false := by
  have c := hist.counted
  have key : 0 < m.rc n := by
    induction x with
    | refl => exact c.handle hr
    | @child p n b hc ih =>
      obtain ⟨a, l⟩ := c.alive ih
      have := stored_pos m.heap l a (n := n) (by simp [strongRefs, hc])
      have := c.count n
      omega
    | @mimicChild p n b hc ih =>
      obtain ⟨a, l⟩ := c.alive ih
      have := stored_pos m.heap l a (n := n) (by simp [strongRefs, hc])
      have := c.count n
      omega
  exact (c.alive key).1

/-- **C47** (descendants keep their parent): while a handle to `r` exists, `parent()` of every node
strictly below `r` is `Some`. -/
theorem C47_parent (m : Mem T) (hist : MemHistory m) (f : Forest m.heap) (u : m.heap.Unlocked)
    (r n : NodeId) (hr : r ∈ m.handles) (b : Below m.heap r n) (ne : n ≠ r) :
    ∃ p, run (Node.parent n) m.heap = .ok (some p) m.heap ∧ Below m.heap r p := by
  have sr : ∀ x, Below m.heap r x → StrongReach m.heap r x := by
    intro x bx
    induction bx with
    | refl => exact .refl
    | step _ c ih => exact ih.child c
  cases b with
  | refl => exact absurd rfl ne
  | @step p _ b c =>
    refine ⟨p, ?_, b⟩
    rw [run_Node_parent n _ (u n), (f.agree p n).1 c]
    simp [upgradeOpt, C47_alive m hist r p hr (sr p b)]

/-- **C47** (nothing else is alive): without a cycle of strong references, every living node is
reached from some handle. -/
theorem C47_only_reachable (m : Mem T) (hist : MemHistory m) (nc : NoStrongCycle m.heap) (n : NodeId)
    (hn : n < m.heap.next) (a : m.heap.dead n = false) :
    ∃ r ∈ m.handles, StrongReach m.heap r n := by
  have c := hist.counted
  obtain ⟨rank, hr⟩ := nc
  induction hk : rank n using Nat.strongRecOn generalizing n with
  | ind k ih =>
    have pos : 0 < m.rc n := by
      refine Nat.pos_of_ne_zero fun z => ?_
      have := (c.dead n hn).2 z
      rw [a] at this; cases this
    by_cases hh : n ∈ m.handles
    · exact ⟨n, hh, .refl⟩
    · have h1 := c.count n
      rw [List.count_eq_zero.2 hh, List.count_nil] at h1
      obtain ⟨p, l, ap, hp⟩ := exists_of_stored m.heap (n := n) (by omega)
      have hp' := List.mem_append.1 hp
      obtain ⟨r, hr1, hr2⟩ := ih (rank p) (by rw [← hk]; exact hr p n ap hp') p l ap rfl
      exact ⟨r, hr1, hp'.elim hr2.child hr2.mimicChild⟩

/-- **C47** (freed): when the last handle is gone and there is no cycle of strong references, all
nodes are freed. -/
theorem C47_all_freed (m : Mem T) (hist : MemHistory m) (nc : NoStrongCycle m.heap)
    (last : m.handles = []) (n : NodeId) (hn : n < m.heap.next) : m.heap.dead n = true := by
  cases a : m.heap.dead n with
  | true => rfl
  | false =>
    obtain ⟨r, hr, _⟩ := C47_only_reachable m hist nc n hn a
    rw [last] at hr; cases hr

/-- a tree without mimic joints has no cycle of strong references -/
theorem Forest.noStrongCycle {h : KHeap T} (f : Forest h) (nm : ∀ n, (h.get n).mimicChildren = []) :
    NoStrongCycle h := by
  obtain ⟨rank, hr⟩ := f.acyclic
  refine ⟨rank, fun p n _ hn => hr p n ?_⟩
  rw [nm] at hn
  simpa using (f.agree p n).1 (by simpa using hn)

/-- **C47** (trees): in a tree without mimic joints the living nodes are exactly the descendants of
the nodes a handle is held to. -/
theorem C47_tree_alive_iff (m : Mem T) (hist : MemHistory m) (f : Forest m.heap)
    (nm : ∀ n, (m.heap.get n).mimicChildren = []) (n : NodeId) (hn : n < m.heap.next) :
    m.heap.dead n = false ↔ ∃ r ∈ m.handles, Below m.heap r n := by
  constructor
  · intro a
    obtain ⟨r, hr, x⟩ := C47_only_reachable m hist (f.noStrongCycle nm) n hn a
    refine ⟨r, hr, ?_⟩
    clear a hn
    induction x with
    | refl => exact .refl
    | child _ c ih => exact ih.step c
    | mimicChild _ c _ => rw [nm] at c; cases c
  · rintro ⟨r, hr, b⟩
    refine C47_alive m hist r n hr ?_
    clear hn
    induction b with
    | refl => exact .refl
    | step _ c ih => exact ih.child c

theorem release_mono {fuel : Nat} {W : List NodeId} {m m' : Mem T}
    (r : Mem.release fuel W m = some m') (k : Nat) : Mem.release (fuel + k) W m = some m' := by
  induction fuel generalizing W m with
  | zero =>
    cases W with
    | nil => simp only [Mem.release] at r ⊢; exact r
    | cons => simp [Mem.release] at r
  | succ fuel ih =>
    cases W with
    | nil => simp only [Mem.release] at r ⊢; exact r
    | cons n W =>
      rw [show fuel + 1 + k = fuel + k + 1 by omega]
      simp only [Mem.release] at r ⊢
      split at r
      · rename_i e; rw [if_pos e]; exact ih r
      · rename_i e; rw [if_neg e]; exact ih r

/-- **C47** (dropping ends): dropping a handle always finishes, with one result, frees no content
but by marking nodes as freed, and removes just that handle. -/
theorem C47_drop (m : Mem T) (hist : MemHistory m) (n : NodeId) (hn : n ∈ m.handles) :
    ∃ (N : Nat) (m' : Mem T),
      (∀ fuel, N ≤ fuel → Mem.release fuel [n] { m with handles := m.handles.erase n } = some m') ∧
      MemHistory m' ∧ m'.handles = m.handles.erase n ∧ m'.heap.get = m.heap.get ∧
      m'.heap.next = m.heap.next := by
  have c := hist.counted
  have c' : Counted [n] { m with handles := m.handles.erase n } := by
    refine ⟨fun x => ?_, c.dead, c.bound⟩
    have h1 := c.count x
    show m.rc x = (m.handles.erase n).count x + [n].count x + stored m.heap x
    rw [List.count_erase, List.count_singleton]
    have := List.count_pos_iff.2 hn
    by_cases e : n = x
    · subst e; simp at h1 ⊢; omega
    · simp [e]; simp at h1; omega
  obtain ⟨m', r⟩ := release_total c' _ (Nat.le_refl _)
  obtain ⟨_, a, b, d, _⟩ := c'.release r
  refine ⟨work [n] { m with handles := m.handles.erase n }, m', fun fuel hf => ?_, hist.step (.drop m n hn _ m' r), a, d, b⟩
  have := release_mono r (fuel - work [n] { m with handles := m.handles.erase n })
  rwa [show work [n] { m with handles := m.handles.erase n } +
    (fuel - work [n] { m with handles := m.handles.erase n }) = fuel by omega] at this

/-! ### concrete programs -/

/-- nothing allocated -/
def exNothing (j : Joint T) : Mem T :=
  ⟨⟨fun _ => NodeImpl.fresh j, 0, fun _ => false, fun _ => false⟩, fun _ => 0, []⟩

theorem exNothing_history (j : Joint T) : MemHistory (exNothing j) := .start _ rfl (fun _ => rfl) rfl

/-- two nodes, 1 below 0, and a handle to each -/
theorem exFamily (j : Joint T) : ∃ m : Mem T, MemHistory m ∧ m.handles = [1, 0] ∧ m.heap.next = 2 ∧
    (m.heap.get 0).children = [1] ∧ (m.heap.get 0).mimicChildren = [] ∧
    (m.heap.get 1).children = [] ∧ (m.heap.get 1).mimicChildren = [] ∧
    (m.heap.get 1).parent = some 0 ∧ m.rc 0 = 1 ∧ m.rc 1 = 2 ∧ m.heap.Unlocked ∧
    m.heap.dead = fun _ => false := by
  have s0 := exNothing_history j
  have s1 := s0.step (.new _ j)
  have s2 := s1.step (.new _ j)
  refine ⟨_, s2.step (.setParent _ 1 0 (by simp [exNothing, Heap.push]) (by simp [exNothing, Heap.push]) _
    (run_Node_setParent 1 0 _ ?_)), ?_⟩
  · intro n; rfl
  · refine ⟨rfl, rfl, rfl, rfl, rfl, rfl, rfl, rfl, rfl, fun _ => rfl, ?_⟩
    funext n
    show (if n = 1 then false else if n = 0 then false else false) = false
    simp

/-- **C47** (a child outlives its parent): with the handle to the parent gone and one to the child
kept, the parent is freed, `parent()` of the child is `None`, and `is_root()` still says no. -/
theorem C47_orphan (j : Joint T) : ∃ m : Mem T, MemHistory m ∧ m.handles = [1] ∧
    m.heap.dead 0 = true ∧ m.heap.dead 1 = false ∧
    run (Node.parent 1) m.heap = .ok none m.heap ∧
    run (Node.isRoot 1) m.heap = .ok false m.heap := by
  obtain ⟨m, hist, hh, _, c0, mc0, c1, mc1, p1, rc0, rc1, u, al⟩ := exFamily j
  have r : Mem.release 2 [0] { m with handles := m.handles.erase 0 } =
      some ((({ m with handles := m.handles.erase 0 } : Mem T).setRc 0 0).free 0 |>.setRc 1 1) := by
    simp [Mem.release, Mem.setRc, Mem.free, rc0, rc1, strongRefs, c0, mc0]
  refine ⟨_, hist.step (.drop m 0 (by simp [hh]) 2 _ r), ?_, ?_, ?_, ?_, ?_⟩
  · simp [Mem.setRc, Mem.free, hh]
  · simp [Mem.setRc, Mem.free]
  · simp [Mem.setRc, Mem.free, al]
  · refine (run_Node_parent 1 _ ?_).trans ?_
    · exact u 1
    simp [Mem.setRc, Mem.free, p1, upgradeOpt]
  · refine (run_Node_isRoot 1 _ ?_).trans ?_
    · exact u 1
    simp [Mem.setRc, Mem.free, p1]

/-- **C47** (refuted without `NoStrongCycle`): a parent that mimics its child is never freed; after
all handles are dropped both nodes are still alive. -/
theorem C47_mimic_cycle_leaks (j : Joint T) (mi : Mimic T) : ∃ m : Mem T, MemHistory m ∧
    m.handles = [] ∧ m.heap.next = 2 ∧ m.heap.dead 0 = false ∧ m.heap.dead 1 = false := by
  obtain ⟨m, hist, hh, nx, c0, mc0, c1, mc1, p1, rc0, rc1, u, al⟩ := exFamily j
  have s1 := hist.step (.setMimicParent m 0 1 mi (by simp [hh]) (by simp [hh]) _
    (run_Node_setMimicParent 0 1 mi _ u))
  have s2 := s1.step (.drop _ 0 (by simp [Mem.setRc, hh]) 1 _ (by
    simp [Mem.release, Mem.setRc, rc0]; rfl))
  have s3 := s2.step (.drop _ 1 (by simp [Mem.setRc, hh]) 1 _ (by
    simp [Mem.release, Mem.setRc, rc1]; rfl))
  exact ⟨_, s3, by simp [Mem.setRc, hh], nx, by simp [Mem.setRc, al], by simp [Mem.setRc, al]⟩

end K
