import Verif.Spec.Watch
import Verif.Lemmas.Own
import Verif.Lemmas.Poison
import Verif.Lemmas.Halts
/-!
# Threads that only ask
-/

set_option linter.unusedSectionVars false

namespace K
open Prog
variable {S α β γ δ : Type}

/-! ## programs that change no node -/

/-- the program neither writes to a node nor makes one -/
def Looks : Prog S α → Prop
  | .ret _ => True
  | .lock _ k => Looks k
  | .unlock _ k => Looks k
  | .read _ k => ∀ s, Looks (k s)
  | .write _ _ _ => False
  | .upgrade _ k => ∀ b, Looks (k b)
  | .alloc _ _ => False
  | .panic _ => True
  | .diverge => True

namespace Looks

theorem bind {p : Prog S α} {f : α → Prog S β} (h : Looks p) (hf : ∀ a, Looks (f a)) : Looks (p >>= f) := by
  show Looks (p.bind f)
  induction p with
  | ret a => exact hf a
  | lock n k ih => exact ih h
  | unlock n k ih => exact ih h
  | read n k ih => exact fun s => ih s (h s)
  | write n f k ih => exact h.elim
  | upgrade n k ih => exact fun b => ih b (h b)
  | alloc s k ih => exact h.elim
  | panic m => trivial
  | diverge => trivial

theorem ret (a : α) : Looks (.ret a : Prog S α) := trivial
theorem pure (a : α) : Looks (Pure.pure a : Prog S α) := trivial
theorem panic (m : String) : Looks (.panic m : Prog S α) := trivial
theorem diverge : Looks (.diverge : Prog S α) := trivial
theorem doLock (n : NodeId) : Looks (doLock n : Prog S Unit) := trivial
theorem doUnlock (n : NodeId) : Looks (doUnlock n : Prog S Unit) := trivial
theorem doRead (n : NodeId) : Looks (doRead n : Prog S S) := fun _ => trivial
theorem doUpgrade (n : NodeId) : Looks (doUpgrade n : Prog S Bool) := fun _ => trivial
theorem peek (n : NodeId) : Looks (peek n : Prog S S) := fun _ => trivial
theorem expect (o : Option α) (m : String) : Looks (expect o m : Prog S α) := by cases o <;> trivial

theorem mapList (xs : List γ) {f : γ → Prog S δ} (hf : ∀ x, Looks (f x)) : Looks (mapList xs f) := by
  induction xs with
  | nil => trivial
  | cons x xs ih => exact (hf x).bind fun _ => ih.bind fun _ => trivial

theorem filterList (xs : List γ) {f : γ → Prog S Bool} (hf : ∀ x, Looks (f x)) : Looks (filterList xs f) := by
  induction xs with
  | nil => trivial
  | cons x xs ih => exact (hf x).bind fun _ => ih.bind fun _ => trivial

theorem findFirst (xs : List γ) {f : γ → Prog S Bool} (hf : ∀ x, Looks (f x)) : Looks (findFirst xs f) := by
  induction xs with
  | nil => trivial
  | cons x xs ih =>
    refine (hf x).bind fun b => ?_
    cases b
    · exact ih
    · trivial

end Looks

/-- one lock at a time, nothing written, and neither a panic nor an endless loop while it is held -/
def Glance : Prog S α → List NodeId → Prop
  | .ret _, L => L = []
  | .lock n k, L => L = [] ∧ Glance k [n]
  | .unlock n k, L => n ∈ L ∧ Glance k (L.erase n)
  | .read n k, L => n ∈ L ∧ ∀ s, Glance (k s) L
  | .write _ _ _, _ => False
  | .upgrade _ k, L => ∀ b, Glance (k b) L
  | .alloc _ _, _ => False
  | .panic _, L => L = []
  | .diverge, L => L = []

namespace Glance

theorem bind {p : Prog S α} {f : α → Prog S β} {L : List NodeId} (h : Glance p L) (hf : ∀ a, Glance (f a) []) :
    Glance (p >>= f) L := by
  show Glance (p.bind f) L
  induction p generalizing L with
  | ret a => cases h; exact hf a
  | lock n k ih => exact ⟨h.1, ih h.2⟩
  | unlock n k ih => exact ⟨h.1, ih h.2⟩
  | read n k ih => exact ⟨h.1, fun s => ih s (h.2 s)⟩
  | write n f k ih => exact h.elim
  | upgrade n k ih => exact fun b => ih b (h b)
  | alloc s k ih => exact h.elim
  | panic m => exact h
  | diverge => exact h

theorem looks {p : Prog S α} {L : List NodeId} (h : Glance p L) : Looks p := by
  induction p generalizing L with
  | ret a => trivial
  | lock n k ih => exact ih h.2
  | unlock n k ih => exact ih h.2
  | read n k ih => exact fun s => ih s (h.2 s)
  | write n f k ih => exact h.elim
  | upgrade n k ih => exact fun b => ih b (h b)
  | alloc s k ih => exact h.elim
  | panic m => trivial
  | diverge => trivial

theorem ret (a : α) : Glance (.ret a : Prog S α) [] := rfl
theorem pure (a : α) : Glance (Pure.pure a : Prog S α) [] := rfl
theorem panic (m : String) : Glance (.panic m : Prog S α) [] := rfl
theorem diverge : Glance (.diverge : Prog S α) [] := rfl
theorem peek (n : NodeId) : Glance (peek n : Prog S S) [] :=
  ⟨rfl, by simp, fun _ => ⟨by simp, by rw [List.erase_cons_head]; rfl⟩⟩
theorem expect (o : Option α) (m : String) : Glance (expect o m : Prog S α) [] := by cases o <;> rfl

theorem mapList (xs : List γ) {f : γ → Prog S δ} (hf : ∀ x, Glance (f x) []) : Glance (mapList xs f) [] := by
  induction xs with
  | nil => rfl
  | cons x xs ih => exact (hf x).bind fun _ => ih.bind fun _ => rfl

theorem filterList (xs : List γ) {f : γ → Prog S Bool} (hf : ∀ x, Glance (f x) []) : Glance (filterList xs f) [] := by
  induction xs with
  | nil => rfl
  | cons x xs ih => exact (hf x).bind fun _ => ih.bind fun _ => rfl

theorem findFirst (xs : List γ) {f : γ → Prog S Bool} (hf : ∀ x, Glance (f x) []) : Glance (findFirst xs f) [] := by
  induction xs with
  | nil => rfl
  | cons x xs ih =>
    refine (hf x).bind fun b => ?_
    cases b
    · exact ih
    · rfl

end Glance

/-! ## the calls -/

variable {T : Type} [Scalar T]

namespace Glance

theorem parent (n : NodeId) : Glance (Node.parent n : KProg T _) [] := by
  refine ⟨rfl, by simp, fun s => ?_⟩
  show Glance (match s.parent with | some weak => _ | none => _ : KProg T _) [n]
  cases s.parent with
  | none => exact ⟨by simp, by rw [List.erase_cons_head]; rfl⟩
  | some w => exact fun b => ⟨by simp, by rw [List.erase_cons_head]; rfl⟩

theorem mimicParent (n : NodeId) : Glance (Node.mimicParent n : KProg T _) [] := by
  refine ⟨rfl, by simp, fun s => ?_⟩
  show Glance (match s.mimicParent with | some weak => _ | none => _ : KProg T _) [n]
  cases s.mimicParent with
  | none => exact ⟨by simp, by rw [List.erase_cons_head]; rfl⟩
  | some w => exact fun b => ⟨by simp, by rw [List.erase_cons_head]; rfl⟩

theorem joint (n : NodeId) : Glance (Node.joint n : KProg T _) [] := (peek n).bind fun _ => rfl
theorem children (n : NodeId) : Glance (Node.children n : KProg T _) [] := (peek n).bind fun _ => rfl

theorem ancestors (fuel : Nat) (o : Option NodeId) : Glance (K.ancestors fuel o : KProg T _) [] := by
  induction fuel generalizing o with
  | zero => cases o <;> rfl
  | succ k ih => cases o with
    | none => rfl
    | some n => exact (parent n).bind fun p => (ih p).bind fun _ => rfl

theorem ancestorsUntil (stop : NodeId) (fuel : Nat) (o : Option NodeId) :
    Glance (K.ancestorsUntil stop fuel o : KProg T _) [] := by
  induction fuel generalizing o with
  | zero => cases o <;> rfl
  | succ k ih => cases o with
    | none => rfl
    | some n =>
      refine (parent n).bind fun p => ?_
      split
      · rfl
      · exact (ih p).bind fun _ => rfl

theorem descendants (fuel : Nat) (st : List NodeId) : Glance (K.descendants fuel st : KProg T _) [] := by
  induction fuel generalizing st with
  | zero => cases st <;> rfl
  | succ k ih => cases st with
    | nil => rfl
    | cons n st => exact (children n).bind fun p => (ih _).bind fun _ => rfl

theorem fromNodes (ns : List NodeId) : Glance (Chain.fromNodes ns : KProg T _) [] :=
  (filterList _ fun n => (joint n).bind fun _ => pure _).bind fun _ => rfl

theorem foldTransform (ns : List NodeId) (t : Iso T) : Glance (Chain.foldTransform ns t) [] := by
  induction ns generalizing t with
  | nil => rfl
  | cons n ns ih => exact (joint n).bind fun _ => ih _

end Glance

theorem glance_call {β : Type} (c : Call T β) (b : c.AsksBriefly) : Glance c.prog [] := by
  cases c <;> first | exact b.1.elim | exact b.2.elim | skip
  case joint n => exact Glance.joint n
  case jointPosition n => exact (Glance.peek n).bind fun _ => rfl
  case parent n => exact Glance.parent n
  case mimicParent n => exact Glance.mimicParent n
  case children n => exact Glance.children n
  case link n => exact (Glance.peek n).bind fun _ => rfl
  case isRoot n => exact (Glance.peek n).bind fun _ => rfl
  case isEnd n => exact (Glance.peek n).bind fun _ => rfl
  case origin n => exact (Glance.joint n).bind fun _ => rfl
  case worldTransform n => exact (Glance.joint n).bind fun _ => rfl
  case worldVelocity n => exact (Glance.joint n).bind fun _ => rfl
  case iterAncestors f n => exact Glance.ancestors _ _
  case iterDescendants f n => exact Glance.descendants _ _
  case fromNodes ns => exact Glance.fromNodes ns
  case fromRoot f n => exact (Glance.descendants _ _).bind fun _ => Glance.fromNodes _
  case fromEnd f n => exact (Glance.ancestors _ _).bind fun _ => Glance.fromNodes _
  case fromEndToRoot f e r => exact (Glance.ancestorsUntil _ _ _).bind fun _ => Glance.fromNodes _
  case chainOrigin c =>
    simp only [Call.prog, Chain.origin]
    split
    · rfl
    · exact (Glance.joint _).bind fun _ => rfl
  case iterJoints c => exact Glance.mapList _ fun n => Glance.joint n
  case find c name => exact Glance.findFirst _ fun n => (Glance.joint n).bind fun _ => Glance.pure _
  case tryNew c =>
    simp only [Call.prog, Chain.tryNew]
    split
    · rfl
    · exact (Glance.findFirst _ fun n => (Glance.children n).bind fun _ => Glance.pure _).bind fun _ => rfl
  case endTransform c => exact Glance.foldTransform _ _

theorem Looks.fmt (c : Chain) (fuel level : Nat) (n : NodeId) :
    Looks (c.fmtWithIndentLevel fuel level n : KProg T _) := by
  induction fuel generalizing level n with
  | zero => trivial
  | succ k ih =>
    simp only [Chain.fmtWithIndentLevel]
    refine bind ?_ fun _ => (doLock n).bind fun _ => (doRead n).bind fun s => (mapList _ (ih _)).bind fun _ =>
      (doUnlock n).bind fun _ => trivial
    split
    · exact (peek n).bind fun _ => trivial
    · trivial

theorem looks_call {β : Type} (c : Call T β) (b : c.Asks) : Looks c.prog := by
  by_cases e : c.AsksBriefly
  · exact (glance_call c e).looks
  cases c <;> first | exact b.elim | (refine absurd ?_ e; exact And.intro trivial trivial) | skip
  case iterLinks c =>
    refine (Looks.mapList _ fun n => ?_).bind fun _ => trivial
    refine (Glance.looks ((Glance.peek n).bind fun _ => Glance.pure _)).bind fun o => ?_
    split
    · exact (Looks.doLock n).bind fun _ => (Looks.doRead n).bind fun s => (Looks.expect _ _).bind fun _ =>
        (Looks.doUnlock n).bind fun _ => trivial
    · trivial
  case jointPositions c =>
    exact Looks.mapList _ fun n => (Looks.doLock n).bind fun _ => (Looks.doRead n).bind fun s =>
      (Looks.expect _ _).bind fun _ => (Looks.doUnlock n).bind fun _ => trivial
  case display f c =>
    simp only [Call.prog, Chain.display]
    split
    · trivial
    · exact (Looks.fmt _ _ _ _).bind fun _ => trivial

theorem looks_client {α : Type} (cl : Client T α) (b : cl.Only Call.Asks) : Looks cl.prog := by
  induction cl with
  | done a => trivial
  | call c k ih => exact (looks_call c b.1).bind fun r => ih r (b.2 r)

theorem glance_client {α : Type} (cl : Client T α) (b : cl.Only Call.AsksBriefly) : Glance cl.prog [] := by
  induction cl with
  | done a => rfl
  | call c k ih => exact (glance_call c b.1).bind fun r => ih r (b.2 r)

/-! ## threads -/

theorem Heap.SameNodes.refl (h : Heap S) : h.SameNodes h := ⟨rfl, rfl, rfl⟩
theorem Heap.SameNodes.trans {f g h : Heap S} (a : f.SameNodes g) (b : g.SameNodes h) : f.SameNodes h :=
  ⟨a.1.trans b.1, a.2.1.trans b.2.1, a.2.2.trans b.2.2⟩
theorem Heap.SameNodes.symm {g h : Heap S} (a : g.SameNodes h) : h.SameNodes g := ⟨a.1.symm, a.2.1.symm, a.2.2.symm⟩

/-- equal if the same mutexes are locked, too -/
theorem Heap.SameNodes.eq {g h : Heap S} (a : g.SameNodes h) (b : g.held = h.held) : g = h := by
  obtain ⟨a1, a2, a3⟩ := a
  cases g; cases h; simp_all

/-- a thread with the program `p` that is number `i` and holds exactly `L` -/
structure Holding (o : NodeId → Option Nat) (i : Nat) (p : KProg T α) (L : List NodeId) : Prop where
  own : Own (fun L' _ => L' = [] ∧ True) p L
  nodup : L.Nodup
  mine : ∀ n, n ∈ L ↔ o n = some i

/-- what one step of thread `i` does to the locks -/
theorem Holding.step {o : NodeId → Option Nat} {i : Nat} {p p' : KProg T α} {L : List NodeId} {h h' : KHeap T}
    (t : Holding o i p L) (held : ∀ n, h.held n = (o n).isSome) (hs : step1 p h = some (p', h')) :
    ∃ L', Holding (K.own i p o) i p' L' ∧ (∀ n j, j ≠ i → (K.own i p o n = some j ↔ o n = some j)) ∧
      (∀ n, h'.held n = (K.own i p o n).isSome) ∧ (Looks p → Looks p' ∧ h'.SameNodes h) ∧
      (Glance p L → Glance p' L') := by
  obtain ⟨ow, nd, mine⟩ := t
  cases p with
  | ret a => cases hs
  | panic m => cases hs
  | diverge => cases hs; exact ⟨L, ⟨ow, nd, mine⟩, fun _ _ _ => .rfl, held, fun l => ⟨l, .refl _⟩, fun g => g⟩
  | read n k =>
    cases hs
    exact ⟨L, ⟨ow.2 _ trivial, nd, mine⟩, fun _ _ _ => .rfl, held, fun l => ⟨l _, .refl _⟩, fun g => g.2 _⟩
  | write n f k =>
    cases hs
    exact ⟨L, ⟨ow.2.2, nd, mine⟩, fun _ _ _ => .rfl, held, fun l => l.elim, fun g => g.elim⟩
  | upgrade n k =>
    cases hs
    exact ⟨L, ⟨ow _, nd, mine⟩, fun _ _ _ => .rfl, held, fun l => ⟨l _, .refl _⟩, fun g => g _⟩
  | alloc s k =>
    cases hs
    exact ⟨L, ⟨(ow _ (Nat.zero_le _)).2, nd, mine⟩, fun _ _ _ => .rfl, held, fun l => l.elim, fun g => g.elim⟩
  | lock n k =>
    simp only [step1] at hs; split at hs
    · cases hs
    · rename_i nh
      cases hs
      have free : o n = none := by rw [held n] at nh; simpa using nh
      refine ⟨n :: L, ⟨ow.2, List.nodup_cons.2 ⟨?_, nd⟩, fun m => ?_⟩, fun m j ne => ?_, fun m => ?_,
        fun l => ⟨l, .refl _⟩, fun g => ?_⟩
      · rw [mine n, free]; simp
      · by_cases e : m = n <;> simp [K.own, e, mine m]
      · by_cases e : m = n
        · subst e; simp [K.own, free, Ne.symm ne]
        · simp [K.own, e]
      · by_cases e : m = n <;> simp [K.own, Heap.setHeld, e, held m]
      · rw [g.1]; exact g.2
  | unlock n k =>
    cases hs
    have m0 : o n = some i := (mine n).1 ow.1
    refine ⟨L.erase n, ⟨ow.2, nd.erase n, fun m => ?_⟩, fun m j ne => ?_, fun m => ?_, fun l => ⟨l, .refl _⟩,
      fun g => g.2⟩
    · rw [nd.mem_erase_iff]
      by_cases e : m = n <;> simp [K.own, e, mine m]
    · by_cases e : m = n
      · subst e; simp [K.own, m0, Ne.symm ne]
      · simp [K.own, e]
    · by_cases e : m = n <;> simp [K.own, Heap.setHeld, e, held m]

/-- the same step where the same nodes are, and the mutex is free as well -/
theorem step1_same {p p' : Prog S α} {g h h' : Heap S} (a : g.SameNodes h) (free : ∀ n, g.held n = true → h.held n = true)
    (hs : step1 p h = some (p', h')) : ∃ g', step1 p g = some (p', g') ∧ g'.SameNodes h' := by
  obtain ⟨a1, a2, a3⟩ := a
  cases p with
  | ret a => cases hs
  | panic m => cases hs
  | diverge => cases hs; exact ⟨g, rfl, a1, a2, a3⟩
  | read n k => cases hs; exact ⟨g, by simp [step1, a1], a1, a2, a3⟩
  | write n f k => cases hs; exact ⟨_, rfl, by simp [Heap.modify, a1], a2, a3⟩
  | upgrade n k => cases hs; exact ⟨g, by simp [step1, a3], a1, a2, a3⟩
  | alloc s k => cases hs; exact ⟨g.push s, by simp [step1, a2], by simp [Heap.push, a1, a2],
      by simp [Heap.push, a2], by simp [Heap.push, a2, a3]⟩
  | lock n k =>
    simp only [step1] at hs; split at hs
    · cases hs
    · rename_i nh
      cases hs
      have : g.held n = false := by
        cases e : g.held n with
        | false => rfl
        | true => exact absurd (free n e) nh
      exact ⟨g.setHeld n true, by simp [step1, this], a1, a2, a3⟩
  | unlock n k => cases hs; exact ⟨_, rfl, a1, a2, a3⟩

/-- `d` are `k` threads and others that only look, `e` the `k` threads alone -/
structure Watched (k : Nat) (G : Prop) (d e : PConfig (NodeImpl T) α) : Prop where
  threads : e.threads = d.threads.take k
  same : e.heap.SameNodes d.heap
  poisoned : e.poisoned = d.poisoned
  owner : ∀ n i, e.owner n = some i ↔ d.owner n = some i ∧ i < k
  held : ∀ n, d.heap.held n = (d.owner n).isSome
  held' : ∀ n, e.heap.held n = (e.owner n).isSome
  inside : ∀ n i, d.owner n = some i → i < d.threads.length
  thread : ∀ i p, d.threads[i]? = some p → ∃ L, Holding d.owner i p L ∧ (k ≤ i → Looks p ∧ (G → Glance p L))

namespace Watched
variable {k : Nat} {G : Prop} {d e : PConfig (NodeImpl T) α}

theorem free (w : Watched k G d e) (n : NodeId) (h : e.heap.held n = true) : d.heap.held n = true := by
  rw [w.held']  at h
  obtain ⟨i, hi⟩ := Option.isSome_iff_exists.1 h
  rw [w.held, ((w.owner n i).1 hi).1]; rfl

theorem get (w : Watched k G d e) {i : Nat} {p : KProg T α} (l : i < k) (hi : d.threads[i]? = some p) :
    e.threads[i]? = some p := by
  rw [w.threads, List.getElem?_take, if_pos l, hi]

/-- the locks of the others after a step of thread `i` -/
theorem others (w : Watched k G d e) {i : Nat} {p' : KProg T α} {L' : List NodeId} {o : NodeId → Option Nat}
    (h : Holding o i p' L') (x : k ≤ i → Looks p' ∧ (G → Glance p' L'))
    (ot : ∀ n j, j ≠ i → (o n = some j ↔ d.owner n = some j)) (j : Nat) (q : KProg T α)
    (hj : (d.threads.set i p')[j]? = some q) : ∃ L, Holding o j q L ∧ (k ≤ j → Looks q ∧ (G → Glance q L)) := by
  rw [List.getElem?_set] at hj
  by_cases ij : i = j
  · subst ij
    simp only [if_true] at hj
    split at hj
    · cases hj; exact ⟨L', h, x⟩
    · cases hj
  · rw [if_neg ij] at hj
    obtain ⟨L, t, y⟩ := w.thread j q hj
    exact ⟨L, ⟨t.own, t.nodup, fun n => (t.mine n).trans (ot n j (Ne.symm ij)).symm⟩, y⟩

theorem within (w : Watched k G d e) {i : Nat} {p p' : KProg T α} {o : NodeId → Option Nat}
    (hi : d.threads[i]? = some p) (ot : ∀ n j, j ≠ i → (o n = some j ↔ d.owner n = some j)) (n : NodeId) (j : Nat)
    (h : o n = some j) : j < (d.threads.set i p').length := by
  rw [List.length_set]
  by_cases ji : j = i
  · subst ji; exact (List.getElem?_eq_some_iff.1 hi).1
  · exact w.inside n j ((ot n j ji).1 h)

/-- a step of one of the `k` threads is made alone as well -/
theorem worker (w : Watched k G d e) {i : Nat} {p p' : KProg T α} {h' : KHeap T} (l : i < k)
    (hi : d.threads[i]? = some p) (hs : step1 p d.heap = some (p', h')) :
    ∃ g', step1 p e.heap = some (p', g') ∧
      Watched k G ⟨h', d.threads.set i p', K.own i p d.owner, d.poisoned⟩
        ⟨g', e.threads.set i p', K.own i p e.owner, e.poisoned⟩ := by
  obtain ⟨L, t, -⟩ := w.thread i p hi
  obtain ⟨g', hg, sm⟩ := step1_same w.same w.free hs
  obtain ⟨L', t', ot, hd, -, -⟩ := t.step w.held hs
  have t2 : Holding e.owner i p L := ⟨t.own, t.nodup, fun n => (t.mine n).trans (by rw [w.owner n i]; simp [l])⟩
  obtain ⟨L2, t2', ot2, hd2, -, -⟩ := t2.step w.held' hg
  refine ⟨g', hg, ⟨?_, sm, w.poisoned, fun n j => ?_, hd, hd2, w.within hi ot, w.others t' (fun c => absurd c (by omega)) ot⟩⟩
  · show e.threads.set i p' = (d.threads.set i p').take k
    rw [w.threads, List.take_set]
  · show K.own i p e.owner n = some j ↔ K.own i p d.owner n = some j ∧ j < k
    by_cases ji : j = i
    · subst ji
      cases p <;> simp only [K.own] <;> first | exact w.owner n j | skip
      · split
        · simp [l]
        · exact w.owner n j
      · split
        · simp
        · exact w.owner n j
    · rw [ot2 n j ji, ot n j ji]; exact w.owner n j

/-- a step of one of the others is none alone -/
theorem watcher (w : Watched k G d e) {i : Nat} {p p' : KProg T α} {h' : KHeap T} (l : k ≤ i)
    (hi : d.threads[i]? = some p) (hs : step1 p d.heap = some (p', h')) :
    Watched k G ⟨h', d.threads.set i p', K.own i p d.owner, d.poisoned⟩ e := by
  obtain ⟨L, t, x⟩ := w.thread i p hi
  obtain ⟨L', t', ot, hd, lk, gl⟩ := t.step w.held hs
  have x' := x l
  refine ⟨?_, w.same.trans (lk x'.1).2.symm, w.poisoned, fun n j => ?_, hd, w.held', w.within hi ot,
    w.others t' (fun _ => ⟨(lk x'.1).1, fun g => gl (x'.2 g)⟩) ot⟩
  · show e.threads = (d.threads.set i p').take k
    rw [w.threads, List.take_set, List.set_eq_of_length_le]
    rw [List.length_take]; omega
  · show e.owner n = some j ↔ K.own i p d.owner n = some j ∧ j < k
    rw [w.owner n j]
    by_cases ji : j = i
    · subst ji; constructor <;> rintro ⟨-, c⟩ <;> omega
    · rw [ot n j ji]

theorem freed (w : Watched k G d e) (F : NodeId → Bool) :
    Watched k G ⟨d.heap.free F, d.threads, d.owner, d.poisoned⟩ ⟨e.heap.free F, e.threads, e.owner, e.poisoned⟩ :=
  ⟨w.threads, ⟨w.same.1, w.same.2.1, by simp [Heap.free, w.same.2.2]⟩, w.poisoned, w.owner, w.held, w.held', w.inside, w.thread⟩

/-- any step, where the others never hold a lock when they panic -/
theorem pdstep (w : Watched k G d e) (hG : G) {d' : PConfig (NodeImpl T) α} (s : PDStep d d') :
    Watched k G d' e ∨ ∃ e', PDStep e e' ∧ Watched k G d' e' := by
  cases s with
  | free F => exact .inr ⟨_, .free _ F, w.freed F⟩
  | thread s =>
    cases s with
    | run i p p' h' hi hs ok =>
      by_cases l : i < k
      · obtain ⟨g', hg, w'⟩ := w.worker l hi hs
        exact .inr ⟨_, .thread (.run e i p p' g' (w.get l hi) hg (by rw [w.poisoned]; exact ok)), w'⟩
      · exact .inl (w.watcher (by omega) hi hs)
    | poison i n q hi fr bad =>
      obtain ⟨L, t, x⟩ := w.thread i _ hi
      by_cases l : i < k
      · have fe : e.heap.held n = false := by
          cases c : e.heap.held n with
          | false => rfl
          | true => rw [w.free n c] at fr; cases fr
        refine .inr ⟨_, .thread (.poison e i n q (w.get l hi) fe (by rw [w.poisoned]; exact bad)), ?_⟩
        refine ⟨?_, w.same, w.poisoned, w.owner, w.held, w.held', w.within hi fun _ _ _ => .rfl, ?_⟩
        · show e.threads.set i _ = (d.threads.set i _).take k
          rw [w.threads, List.take_set]
        · exact w.others ⟨trivial, t.nodup, t.mine⟩ (fun c => absurd c (by omega)) fun _ _ _ => .rfl
      · refine .inl ⟨?_, w.same, w.poisoned, w.owner, w.held, w.held', w.within hi fun _ _ _ => .rfl, ?_⟩
        · show e.threads = (d.threads.set i _).take k
          rw [w.threads, List.take_set, List.set_eq_of_length_le]
          rw [List.length_take]; omega
        · exact w.others ⟨trivial, t.nodup, t.mine⟩ (fun c => ⟨trivial, fun g => ((x c).2 g).1⟩) fun _ _ _ => .rfl
    | unwind i m n hi mine =>
      obtain ⟨L, t, x⟩ := w.thread i _ hi
      have mem : n ∈ L := (t.mine n).2 mine
      by_cases l : i < k
      · refine .inr ⟨_, .thread (.unwind e i m n (w.get l hi) ((w.owner n i).2 ⟨mine, l⟩)), ?_⟩
        refine ⟨w.threads, w.same, ?_, fun a j => ?_, fun a => ?_, fun a => ?_, fun a j h => ?_, fun j q hj => ?_⟩
        · simp only [w.poisoned]
        · by_cases c : a = n
          · simp [c]
          · simp only [if_neg c]; exact w.owner a j
        · by_cases c : a = n
          · simp [Heap.setHeld, c]
          · simp only [Heap.setHeld, if_neg c]; exact w.held a
        · by_cases c : a = n
          · simp [Heap.setHeld, c]
          · simp only [Heap.setHeld, if_neg c]; exact w.held' a
        · by_cases c : a = n
          · simp [c] at h
          · simp only [if_neg c] at h; exact w.inside a j h
        · obtain ⟨M, tM, xM⟩ := w.thread j q hj
          by_cases ij : j = i
          · subst ij
            rw [hi] at hj; cases hj
            refine ⟨L.erase n, ⟨trivial, t.nodup.erase n, fun a => ?_⟩, fun c => absurd c (by omega)⟩
            rw [t.nodup.mem_erase_iff]
            by_cases c : a = n <;> simp [c, t.mine a]
          · refine ⟨M, ⟨tM.own, tM.nodup, fun a => ?_⟩, xM⟩
            by_cases c : a = n
            · subst c; simp [tM.mine a, mine, Ne.symm ij]
            · simp [c, tM.mine a]
      · have : L = [] := (x (by omega)).2 hG
        rw [this] at mem; cases mem

theorem pdsteps {c c' : PConfig (NodeImpl T) α} (w : Watched k G c c') (hG : G) (st : PDSteps c d) :
    ∃ e, PDSteps c' e ∧ Watched k G d e := by
  induction st with
  | refl => exact ⟨c', .refl _, w⟩
  | tail _ s ih =>
    obtain ⟨e, se, we⟩ := ih
    rcases we.pdstep hG s with we | ⟨e', s', we⟩
    · exact ⟨e, se, we⟩
    · exact ⟨e', se.tail s', we⟩

/-- any step without unwinding -/
theorem dsteps {c c' d : Config (NodeImpl T) α} (w : Watched k G (.init c) (.init c')) (st : DSteps c d) :
    ∃ e o o', DSteps c' e ∧ Watched k G ⟨d.heap, d.threads, o, fun _ => false⟩ ⟨e.heap, e.threads, o', fun _ => false⟩ := by
  induction st with
  | refl => exact ⟨c', _, _, .refl _, w⟩
  | tail _ s ih =>
    obtain ⟨e, o, o', se, we⟩ := ih
    cases s with
    | free F => exact ⟨_, o, o', se.tail (.free e F), we.freed F⟩
    | thread s =>
      obtain ⟨i, p, p', h', hi, hs⟩ := s
      by_cases l : i < k
      · obtain ⟨g', hg, w'⟩ := we.worker l hi hs
        exact ⟨⟨g', e.threads.set i p'⟩, _, _, se.tail (.thread (Step.mk e i p p' g' (we.get l hi) hg)), w'⟩
      · exact ⟨e, _, o', se, we.watcher (by omega) hi hs⟩

/-- An other thread can go on until it holds no lock. -/
theorem let_go {d e : Config (NodeImpl T) α} {o o' : NodeId → Option Nat}
    (w : Watched k True ⟨d.heap, d.threads, o, fun _ => false⟩ ⟨e.heap, e.threads, o', fun _ => false⟩) {i : Nat}
    (l : k ≤ i) :
    ∃ d' o2, Steps d d' ∧ Watched k True ⟨d'.heap, d'.threads, o2, fun _ => false⟩ ⟨e.heap, e.threads, o', fun _ => false⟩ ∧
      (∀ n, o2 n ≠ some i) ∧ (∀ n j, j ≠ i → (o2 n = some j ↔ o n = some j)) ∧
      d'.threads.length = d.threads.length := by
  cases hi : d.threads[i]? with
  | none =>
    refine ⟨d, o, .refl _, w, fun n h => ?_, fun _ _ _ => .rfl, rfl⟩
    have h1 : i < d.threads.length := w.inside n i h
    rw [List.getElem?_eq_getElem h1] at hi; cases hi
  | some p =>
    induction p generalizing d o with
    | _ =>
      obtain ⟨L, t, x⟩ := w.thread i _ hi
      have gl := (x l).2 trivial
      by_cases emp : L = []
      · refine ⟨d, o, .refl _, w, fun n h => ?_, fun _ _ _ => .rfl, rfl⟩
        have := (t.mine n).2 h
        rw [emp] at this; cases this
      have lt : i < d.threads.length := (List.getElem?_eq_some_iff.1 hi).1
      first
        | exact absurd gl emp
        | exact absurd gl.1 emp
        | exact gl.elim
        | rename_i ih
          obtain ⟨L', t', ot, -⟩ := t.step w.held rfl
          obtain ⟨d', o2, st, w', no, ot', len⟩ := ih (d := ⟨_, d.threads.set i _⟩) (w.watcher l hi rfl) (List.getElem?_set_self lt)
          exact ⟨d', o2, Steps.trans ((Steps.refl d).tail (Step.mk d i _ _ _ hi rfl)) st, w', no,
            fun n j ne => (ot' n j ne).trans (ot n j ne), by rw [len]; simp⟩
        | rename_i ih
          obtain ⟨L', t', ot, -⟩ := t.step w.held rfl
          obtain ⟨d', o2, st, w', no, ot', len⟩ := ih _ (d := ⟨_, d.threads.set i _⟩) (w.watcher l hi rfl) (List.getElem?_set_self lt)
          exact ⟨d', o2, Steps.trans ((Steps.refl d).tail (Step.mk d i _ _ _ hi rfl)) st, w', no,
            fun n j ne => (ot' n j ne).trans (ot n j ne), by rw [len]; simp⟩

/-- All other threads can go on until they hold no locks, and then the state is the one of the `k` threads alone. -/
theorem catch_up {d e : Config (NodeImpl T) α} {o o' : NodeId → Option Nat}
    (w : Watched k True ⟨d.heap, d.threads, o, fun _ => false⟩ ⟨e.heap, e.threads, o', fun _ => false⟩) :
    ∃ rest, Steps d ⟨e.heap, e.threads ++ rest⟩ := by
  have go : ∀ m, ∃ d' o2, Steps d d' ∧
      Watched k True ⟨d'.heap, d'.threads, o2, fun _ => false⟩ ⟨e.heap, e.threads, o', fun _ => false⟩ ∧
      (∀ n j, k ≤ j → j < m → o2 n ≠ some j) ∧ d'.threads.length = d.threads.length := by
    intro m
    induction m with
    | zero => exact ⟨d, o, .refl _, w, fun n j _ h => absurd h (Nat.not_lt_zero j), rfl⟩
    | succ m ih =>
      obtain ⟨d1, o1, s1, w1, n1, l1⟩ := ih
      by_cases l : k ≤ m
      · obtain ⟨d2, o2, s2, w2, n2, ot, l2⟩ := w1.let_go l
        refine ⟨d2, o2, s1.trans s2, w2, fun n j kj jm h => ?_, l2.trans l1⟩
        by_cases e : j = m
        · subst e; exact n2 n h
        · exact n1 n j kj (by omega) ((ot n j e).1 h)
      · exact ⟨d1, o1, s1, w1, fun n j kj jm => absurd jm (by omega), l1⟩
  obtain ⟨d', o2, st, w', no, len⟩ := go d.threads.length
  refine ⟨d'.threads.drop k, ?_⟩
  have hh : e.heap = d'.heap := by
    refine w'.same.eq (funext fun n => ?_)
    have h1 := w'.held n
    have h2 := w'.held' n
    have h3 : o' n = o2 n := by
      cases c : o2 n with
      | none =>
        cases c' : o' n with
        | none => rfl
        | some j =>
          have := ((w'.owner n j).1 c').1
          simp only [c] at this; cases this
      | some j =>
        refine (w'.owner n j).2 ⟨c, ?_⟩
        apply Classical.byContradiction
        intro nk
        have := w'.inside n j c
        exact no n j (by omega) (by simpa [len] using this) c
    simp only at h1 h2
    rw [h1, h2, h3]
  have ht : e.threads = d'.threads.take k := w'.threads
  rw [ht, List.take_append_drop, hh]
  exact st

/-- the start -/
theorem start {α : Type} {h : KHeap T} (u : h.Unlocked) (ws os : List (Client T α))
    (ob : ∀ o ∈ os, Looks o.prog ∧ (G → Glance o.prog [])) :
    Watched ws.length G (.init ⟨h, (ws ++ os).map Client.prog⟩) (.init ⟨h, ws.map Client.prog⟩) := by
  refine ⟨?_, .refl h, rfl, fun n i => ?_, fun n => u n, fun n => u n, fun n i h => by simp [PConfig.init] at h, fun i p hi => ⟨[], ⟨?_, by simp, ?_⟩, fun l => ?_⟩⟩
  · show ws.map Client.prog = ((ws ++ os).map Client.prog).take ws.length
    simp
  · simp [PConfig.init]
  · have : ∃ c : Client T α, c.prog = p := by
      simp only [PConfig.init, List.getElem?_map, Option.map_eq_some_iff] at hi
      obtain ⟨c, -, rfl⟩ := hi
      exact ⟨c, rfl⟩
    obtain ⟨c, rfl⟩ := this
    clear hi
    induction c with
    | done a => exact ⟨rfl, trivial⟩
    | call c k ih => exact Keep.lk (own_call c) fun r _ => ih r
  · simp [PConfig.init]
  · simp only [PConfig.init, List.getElem?_map, Option.map_eq_some_iff] at hi
    obtain ⟨c, hc, rfl⟩ := hi
    rw [List.getElem?_append_right l] at hc
    exact ob c (List.mem_of_getElem? hc)

end Watched

end K
