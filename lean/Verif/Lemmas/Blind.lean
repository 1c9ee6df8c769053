import Verif.Lemmas.Halts
import Verif.Spec.Blind
/-!
# Programs that do not look at cached world transforms and velocities

Two memories that differ in cached values only, and programs that run in step on both.
-/

set_option linter.unusedSectionVars false

namespace K
open Prog
variable {T : Type} {α β γ δ ε : Type}

namespace CacheEq
variable {C : Slots} {n : NodeId} {s s' : NodeImpl T}

theorem joint (e : CacheEq C n s s') : JointEq s.joint s'.joint := by
  obtain ⟨wt, wv, rfl⟩ := e.node; exact ⟨wt, wv, rfl⟩
theorem parent (e : CacheEq C n s s') : s'.parent = s.parent := by obtain ⟨wt, wv, rfl⟩ := e.node; rfl
theorem children (e : CacheEq C n s s') : s'.children = s.children := by obtain ⟨wt, wv, rfl⟩ := e.node; rfl
theorem mimicParent (e : CacheEq C n s s') : s'.mimicParent = s.mimicParent := by
  obtain ⟨wt, wv, rfl⟩ := e.node; rfl
theorem mimicChildren (e : CacheEq C n s s') : s'.mimicChildren = s.mimicChildren := by
  obtain ⟨wt, wv, rfl⟩ := e.node; rfl
theorem mimic (e : CacheEq C n s s') : s'.mimic = s.mimic := by obtain ⟨wt, wv, rfl⟩ := e.node; rfl
theorem link (e : CacheEq C n s s') : s'.link = s.link := by obtain ⟨wt, wv, rfl⟩ := e.node; rfl

end CacheEq

/-- what is known during a program: possible parents, possible answers of `upgrade`, number of nodes at its start -/
structure Ctx where
  par : NodeId → Option NodeId → Prop
  up : NodeId → Bool → Prop
  bound : NodeId
  freshPar : ∀ m, bound ≤ m → par m none
  freshUp : ∀ m, bound ≤ m → up m true
  freed : ∀ n, up n false

/-- `p` and `q` run in step on two memories that are equal up to the cached values outside `C`; values that they
compute become members of `C`; in the end `G` is known to be equal and the results are related by `Q` -/
inductive Two (X : Ctx) (G : Slots) (Q : α → α → Prop) : Slots → KProg T α → KProg T α → Prop
  | ret {C a b} (q : Q a b) (g : G ⊆ C) : Two X G Q C (.ret a) (.ret b)
  | lock {C n k k'} (x : Two X G Q C k k') : Two X G Q C (.lock n k) (.lock n k')
  | unlock {C n k k'} (x : Two X G Q C k k') : Two X G Q C (.unlock n k) (.unlock n k')
  | read {C n k k'} (x : ∀ s s', X.par n s.parent → CacheEq C n s s' → Two X G Q C (k s) (k' s')) :
      Two X G Q C (.read n k) (.read n k')
  | write {C n f f' k k'} (C' : Slots) (sub : C ⊆ C') (only : ∀ x ∈ C', x ∈ C ∨ x.1 = n ∧ n < X.bound)
      (hf : ∀ D s s', C ⊆ D → X.par n s.parent → CacheEq D n s s' →
        X.par n (f s).parent ∧ CacheEq (D ∪ C') n (f s) (f' s'))
      (x : Two X G Q C' k k') : Two X G Q C (.write n f k) (.write n f' k')
  | upgrade {C n k k'} (x : ∀ b, X.up n b → Two X G Q C (k b) (k' b)) :
      Two X G Q C (.upgrade n k) (.upgrade n k')
  | alloc {C s s' k k'} (hp : s.parent = none) (e : CacheEq ∅ 0 s s')
      (x : ∀ m, X.bound ≤ m → Two X G Q C (k m) (k' m)) : Two X G Q C (.alloc s k) (.alloc s' k')
  | panic {C} (m : String) : Two X G Q C (.panic m) (.panic m)
  | diverge {C} : Two X G Q C .diverge .diverge

namespace Two
variable {X : Ctx} {G G' C : Slots} {Q : α → α → Prop} {R : β → β → Prop}

theorem bind {p q : KProg T α} (h : Two X G Q C p q) {f g : α → KProg T β}
    (hf : ∀ D a b, C ⊆ D → G ⊆ D → Q a b → Two X G' R D (f a) (g b)) :
    Two X G' R C (p >>= f) (q >>= g) := by
  show Two X G' R C (p.bind f) (q.bind g)
  induction h with
  | ret q g => exact hf _ _ _ (Set.Subset.refl _) g q
  | lock _ ih => exact .lock (ih hf)
  | unlock _ ih => exact .unlock (ih hf)
  | read _ ih => exact .read fun s s' pr e => ih s s' pr e hf
  | write C' sub only h _ ih => exact .write C' sub only h (ih fun D a b cd => hf D a b (sub.trans cd))
  | upgrade _ ih => exact .upgrade fun b hb => ih b hb hf
  | alloc hp e _ ih => exact .alloc hp e fun m hm => ih m hm hf
  | panic m => exact .panic m
  | diverge => exact .diverge

theorem imp {Q' : α → α → Prop} {p q : KProg T α} (h : Two X G Q C p q) (hg : G' ⊆ G) (hq : ∀ a b, Q a b → Q' a b) :
    Two X G' Q' C p q := by
  induction h with
  | ret q g => exact .ret (hq _ _ q) (hg.trans g)
  | lock _ ih => exact .lock ih
  | unlock _ ih => exact .unlock ih
  | read _ ih => exact .read ih
  | write C' sub only h _ ih => exact .write C' sub only h ih
  | upgrade _ ih => exact .upgrade ih
  | alloc hp e _ ih => exact .alloc hp e ih
  | panic m => exact .panic m
  | diverge => exact .diverge

end Two

/-- two memories that are equal up to the cached values outside `C` -/
structure Blind (X : Ctx) (C : Slots) (h g : KHeap T) : Prop where
  next : g.next = h.next
  dead : g.dead = h.dead
  held : g.held = h.held
  bound : X.bound ≤ h.next
  known : ∀ x ∈ C, x.1 < h.next
  par : ∀ n, X.par n (h.get n).parent
  up : ∀ n, X.up n (!h.dead n)
  node : ∀ n, CacheEq C n (h.get n) (g.get n)

namespace Blind
variable {X : Ctx} {C D : Slots} {h g : KHeap T}

theorem setHeld (b : Blind X C h g) (n : NodeId) (x : Bool) : Blind X C (h.setHeld n x) (g.setHeld n x) :=
  ⟨b.next, b.dead, by simp only [Heap.setHeld, b.held], b.bound, b.known, b.par, b.up, b.node⟩

theorem free (b : Blind X C h g) (F : NodeId → Bool) : Blind X C (h.free F) (g.free F) := by
  refine ⟨b.next, by simp only [Heap.free, b.dead], b.held, b.bound, b.known, b.par, fun n => ?_, b.node⟩
  have := b.up n
  simp only [Heap.free]
  revert this
  cases h.dead n <;> cases F n <;> simp [X.freed]

theorem modify (b : Blind X D h g) {n : NodeId} {f f' : NodeImpl T → NodeImpl T} {C' : Slots} (cd : C ⊆ D)
    (only : ∀ x ∈ C', x ∈ C ∨ x.1 = n ∧ n < X.bound)
    (hf : ∀ D s s', C ⊆ D → X.par n s.parent → CacheEq D n s s' →
        X.par n (f s).parent ∧ CacheEq (D ∪ C') n (f s) (f' s')) :
    Blind X (D ∪ C') (h.modify n f) (g.modify n f') := by
  refine ⟨b.next, b.dead, b.held, b.bound, ?_, fun m => ?_, b.up, fun m => ?_⟩
  · rintro x (hx | hx)
    · exact b.known x hx
    · rcases only x hx with y | ⟨y, lt⟩
      · exact b.known x (cd y)
      · rw [y]; exact Nat.lt_of_lt_of_le lt b.bound
  · by_cases e : m = n
    · subst e
      rw [Heap.get_modify_self]
      exact (hf D _ _ cd (b.par m) (b.node m)).1
    · rw [Heap.get_modify_of_ne _ _ e]; exact b.par m
  · by_cases e : m = n
    · subst e
      rw [Heap.get_modify_self, Heap.get_modify_self]
      exact (hf D _ _ cd (b.par m) (b.node m)).2
    · rw [Heap.get_modify_of_ne _ _ e, Heap.get_modify_of_ne _ _ e]
      have out : ∀ c, (m, c) ∈ D ∪ C' → (m, c) ∈ D := by
        rintro c (hc | hc)
        · exact hc
        · rcases only _ hc with y | ⟨y, -⟩
          · exact cd y
          · exact absurd y e
      exact ⟨(b.node m).node, fun x => (b.node m).transform (out _ x), fun x => (b.node m).velocity (out _ x)⟩

theorem push (b : Blind X D h g) {s s' : NodeImpl T} (hp : s.parent = none) (e : CacheEq ∅ 0 s s') :
    Blind X D (h.push s) (g.push s') := by
  refine ⟨by simp only [Heap.push, b.next], ?_, b.held, Nat.le_succ_of_le b.bound,
    fun x hx => Nat.lt_succ_of_lt (b.known x hx), fun m => ?_, fun m => ?_, fun m => ?_⟩
  · simp only [Heap.push, b.next, b.dead]
  · simp only [Heap.push]
    split
    · rename_i em; rw [hp]; exact X.freshPar _ (em ▸ b.bound)
    · exact b.par m
  · simp only [Heap.push]
    split
    · rename_i em; exact X.freshUp _ (em ▸ b.bound)
    · exact b.up m
  · simp only [Heap.push, b.next]
    split
    · rename_i em
      have no : ∀ c, (m, c) ∉ D := fun c hc => by
        have := b.known _ hc
        simp only at this
        omega
      exact ⟨e.node, fun x => absurd x (no _), fun x => absurd x (no _)⟩
    · exact b.node m

end Blind

/-- the two outcomes agree -/
inductive SameOutcome (X : Ctx) (G : Slots) (Q : α → α → Prop) (C : Slots) :
    Res (NodeImpl T) α → Res (NodeImpl T) α → Prop
  | ok {a b h g D} (q : Q a b) (gd : G ⊆ D) (cd : C ⊆ D) (x : Blind X D h g) : SameOutcome X G Q C (.ok a h) (.ok b g)
  | panic {m h g D} (cd : C ⊆ D) (x : Blind X D h g) : SameOutcome X G Q C (.panic m h) (.panic m g)
  | blocked {n h g D} (cd : C ⊆ D) (x : Blind X D h g) : SameOutcome X G Q C (.blocked n h) (.blocked n g)
  | diverged : SameOutcome X G Q C .diverged .diverged

theorem SameOutcome.mono {X : Ctx} {G C C' : Slots} {Q : α → α → Prop} {r r' : Res (NodeImpl T) α}
    (s : SameOutcome X G Q C' r r') (cc : C ⊆ C') : SameOutcome X G Q C r r' := by
  cases s with
  | ok q gd cd x => exact .ok q gd (cc.trans cd) x
  | panic cd x => exact .panic (cc.trans cd) x
  | blocked cd x => exact .blocked (cc.trans cd) x
  | diverged => exact .diverged

namespace Two
variable {X : Ctx} {G C D : Slots} {Q : α → α → Prop}

theorem run {p q : KProg T α} (t : Two X G Q C p q) {h g : KHeap T} (cd : C ⊆ D) (b : Blind X D h g) :
    SameOutcome X G Q D (run p h) (run q g) := by
  induction t generalizing h g D with
  | ret q gc => exact .ok q (gc.trans cd) (Set.Subset.refl _) b
  | @lock C n k k' _ ih =>
    simp only [K.run, b.held]
    split
    · exact .blocked (Set.Subset.refl _) b
    · exact ih cd (b.setHeld _ _)
  | unlock _ ih => exact ih cd (b.setHeld _ _)
  | @read C n k k' _ ih =>
    have e := b.node n
    exact ih _ _ (b.par n) ⟨e.node, fun x => e.transform (cd x), fun x => e.velocity (cd x)⟩ cd b
  | write C' sub only hf _ ih =>
    exact (ih Set.subset_union_right (b.modify cd only hf)).mono Set.subset_union_left
  | @upgrade C n k k' _ ih =>
    simp only [K.run, b.dead]
    exact ih _ (b.up n) cd b
  | alloc hp e _ ih =>
    simp only [K.run, b.next]
    exact ih _ b.bound cd (b.push hp e)
  | panic m => exact .panic (Set.Subset.refl _) b
  | diverge => exact .diverged

theorem step {p p' q : KProg T α} (t : Two X G Q C p q) {h h' g : KHeap T} (cd : C ⊆ D) (b : Blind X D h g)
    (s : step1 p h = some (p', h')) :
    ∃ q' g' C' D', step1 q g = some (q', g') ∧ Two X G Q C' p' q' ∧ C' ⊆ D' ∧ D ⊆ D' ∧ Blind X D' h' g' := by
  cases t with
  | ret q gc => cases s
  | @lock _ n k k' x =>
    simp only [step1, b.held] at s ⊢
    split at s
    · cases s
    · cases s
      rename_i e
      exact ⟨_, _, _, D, by rw [if_neg e], x, cd, Set.Subset.refl _, b.setHeld _ _⟩
  | unlock x => cases s; exact ⟨_, _, _, D, rfl, x, cd, Set.Subset.refl _, b.setHeld _ _⟩
  | @read _ n k k' x =>
    cases s
    have e := b.node n
    exact ⟨_, _, _, D, rfl, x _ _ (b.par n) ⟨e.node, fun x => e.transform (cd x), fun x => e.velocity (cd x)⟩, cd,
      Set.Subset.refl _, b⟩
  | write C' sub only hf x =>
    cases s
    exact ⟨_, _, _, _, rfl, x, Set.subset_union_right, Set.subset_union_left, b.modify cd only hf⟩
  | @upgrade _ n k k' x =>
    cases s
    exact ⟨_, _, _, D, by simp only [step1, b.dead], x _ (b.up n), cd, Set.Subset.refl _, b⟩
  | alloc hp e x =>
    cases s
    exact ⟨_, _, _, D, by simp only [step1, b.next], x _ b.bound, cd, Set.Subset.refl _, b.push hp e⟩
  | panic m => cases s
  | diverge => cases s; exact ⟨_, _, _, D, rfl, .diverge, cd, Set.Subset.refl _, b⟩

end Two

/-- two configurations whose threads run in step -/
structure BlindConfig (X : Ctx) (E : Slots) (c d : Config (NodeImpl T) α) : Prop where
  heaps : ∃ D, E ⊆ D ∧ Blind X D c.heap d.heap ∧
    List.Forall₂ (fun p q => ∃ C, C ⊆ D ∧ Two X ∅ (fun a b : α => a = b) C p q) c.threads d.threads

theorem BlindConfig.steps {X : Ctx} {E : Slots} {c d e : Config (NodeImpl T) α} (st : DSteps c e)
    (b : BlindConfig X E c d) : ∃ e', DSteps d e' ∧ BlindConfig X E e e' := by
  induction st with
  | refl => exact ⟨d, .refl _, b⟩
  | @tail c1 c2 _ s ih =>
    obtain ⟨d1, st1, ⟨D, hD, hb, ht⟩⟩ := ih
    cases s with
    | free F => exact ⟨_, st1.tail (.free d1 F), ⟨D, hD, hb.free F, ht⟩⟩
    | thread s =>
      obtain ⟨i, p, p', h', hi, hs⟩ := s
      have hl := ht.length_eq
      obtain ⟨li, ei⟩ := List.getElem?_eq_some_iff.1 hi
      have li' : i < d1.threads.length := by omega
      obtain ⟨C, cd, t⟩ := (List.forall₂_iff_get.1 ht).2 i li li'
      simp only [List.get_eq_getElem, ei] at t
      obtain ⟨q', g', C', D', e1, t', c', dd, b'⟩ := t.step cd hb hs
      refine ⟨_, st1.tail (.thread (.mk d1 i _ q' g' (List.getElem?_eq_getElem li') e1)), ⟨D', hD.trans dd, b', ?_⟩⟩
      refine List.forall₂_iff_get.2 ⟨by simp [hl], fun j a b => ?_⟩
      simp only [List.get_eq_getElem, List.getElem_set]
      split
      · exact ⟨C', c', t'⟩
      · obtain ⟨E, ed, te⟩ := (List.forall₂_iff_get.1 ht).2 j (by simpa using a) (by simpa using b)
        exact ⟨E, ed.trans dd, te⟩

end K
