import Verif.Spec.Flip
import Verif.Lemmas.Run
/-!
# Two programs that do the same in front of and behind a mirror
-/

set_option linter.unusedSectionVars false

namespace K
open Prog
variable {T : Type} [Scalar T] {α β γ δ ε : Type} {F : Flip}

namespace Flip

@[simp] theorem heap_get (h : KHeap T) (n : NodeId) : (F.heap h).get n = F.node (h.get n) := rfl
@[simp] theorem heap_held (h : KHeap T) : (F.heap h).held = h.held := rfl
@[simp] theorem heap_dead (h : KHeap T) : (F.heap h).dead = h.dead := rfl

theorem heap_setHeld (h : KHeap T) (n : NodeId) (b : Bool) : F.heap (h.setHeld n b) = (F.heap h).setHeld n b := rfl

theorem heap_modify (h : KHeap T) (n : NodeId) (f f' : NodeImpl T → NodeImpl T)
    (e : f' (F.node (h.get n)) = F.node (f (h.get n))) : F.heap (h.modify n f) = (F.heap h).modify n f' := by
  simp only [Flip.heap, Heap.modify]
  congr 1
  funext m
  by_cases x : m = n
  · subst x; simp [e]
  · simp [x]

theorem heap_push (h : KHeap T) (s : NodeImpl T) : F.heap (h.push s) = (F.heap h).push (F.node s) := by
  simp only [Flip.heap, Heap.push]
  congr 1
  funext m
  by_cases x : m = h.next
  · subst x; simp
  · simp [x]

theorem heap_free (h : KHeap T) (D : NodeId → Bool) : F.heap (h.free D) = (F.heap h).free D := rfl

end Flip

/-- `q` does behind the mirror what `p` does in front of it -/
inductive Flipped (F : Flip) (Q : α → β → Prop) : KProg T α → KProg T β → Prop
  | ret {a b} (q : Q a b) : Flipped F Q (.ret a) (.ret b)
  | lock {n k k'} (x : Flipped F Q k k') : Flipped F Q (.lock n k) (.lock n k')
  | unlock {n k k'} (x : Flipped F Q k k') : Flipped F Q (.unlock n k) (.unlock n k')
  | read {n k k'} (x : ∀ s, Flipped F Q (k s) (k' (F.node s))) : Flipped F Q (.read n k) (.read n k')
  | write {n f f' k k'} (hf : ∀ s, f' (F.node s) = F.node (f s))
      (x : Flipped F Q k k') : Flipped F Q (.write n f k) (.write n f' k')
  | upgrade {n k k'} (x : ∀ b, Flipped F Q (k b) (k' b)) : Flipped F Q (.upgrade n k) (.upgrade n k')
  | alloc {s s' k k'} (hs : s' = F.node s) (x : ∀ n, Flipped F Q (k n) (k' n)) : Flipped F Q (.alloc s k) (.alloc s' k')
  | panic (m : String) : Flipped F Q (.panic m) (.panic m)
  | diverge : Flipped F Q .diverge .diverge

/-- outcomes that are mirror images -/
def FlipOutcome (F : Flip) (Q : α → β → Prop) : Res (NodeImpl T) α → Res (NodeImpl T) β → Prop
  | .ok a h, .ok b g => Q a b ∧ g = F.heap h
  | .panic m h, .panic m' g => m' = m ∧ g = F.heap h
  | .blocked n h, .blocked n' g => n' = n ∧ g = F.heap h
  | .diverged, .diverged => True
  | _, _ => False

namespace Flipped
variable {Q : α → β → Prop} {R : γ → δ → Prop}

theorem outcome {p : KProg T α} {q : KProg T β} (s : Flipped F Q p q) (h : KHeap T) :
    FlipOutcome F Q (run p h) (run q (F.heap h)) := by
  induction s generalizing h with
  | ret q => exact ⟨q, rfl⟩
  | @lock n k k' _ ih =>
    show FlipOutcome F Q (if h.held n then _ else _) (if h.held n then _ else _)
    split
    · exact ⟨rfl, rfl⟩
    · exact ih (h.setHeld n true)
  | unlock _ ih => simp only [K.run, ← Flip.heap_setHeld]; exact ih _
  | read _ ih => simp only [K.run, Flip.heap_get]; exact ih _ _
  | write hf _ ih =>
    simp only [K.run, ← Flip.heap_modify _ _ _ _ (hf _)]
    exact ih _
  | upgrade _ ih => simp only [K.run, Flip.heap_dead]; exact ih _ _
  | alloc hs _ ih => subst hs; simp only [K.run, ← Flip.heap_push]; exact ih _ _
  | panic m => exact ⟨rfl, rfl⟩
  | diverge => trivial

theorem step {p p' : KProg T α} {q : KProg T β} (s : Flipped F Q p q) (h h' : KHeap T)
    (e : step1 p h = some (p', h')) : ∃ q', step1 q (F.heap h) = some (q', F.heap h') ∧ Flipped F Q p' q' := by
  cases s with
  | ret q => cases e
  | @lock n k k' x =>
    simp only [step1] at e
    split at e
    · cases e
    · cases e; rename_i y
      refine ⟨k', ?_, x⟩
      show (if h.held n then none else _) = _
      rw [if_neg y]; rfl
  | unlock x => cases e; exact ⟨_, rfl, x⟩
  | read x => cases e; exact ⟨_, rfl, x _⟩
  | write hf x =>
    cases e
    exact ⟨_, by simp only [step1, ← Flip.heap_modify _ _ _ _ (hf _)], x⟩
  | upgrade x => cases e; exact ⟨_, rfl, x _⟩
  | alloc hs x => cases e; subst hs; exact ⟨_, by rw [Flip.heap_push]; rfl, x _⟩
  | panic m => cases e
  | diverge => cases e; exact ⟨_, rfl, .diverge⟩

theorem bind {p : KProg T α} {q : KProg T β} (s : Flipped F Q p q) {f : α → KProg T γ} {g : β → KProg T δ}
    (hf : ∀ a b, Q a b → Flipped F R (f a) (g b)) : Flipped F R (p >>= f) (q >>= g) := by
  show Flipped F R (p.bind f) (q.bind g)
  induction s with
  | ret q => exact hf _ _ q
  | lock _ ih => exact .lock ih
  | unlock _ ih => exact .unlock ih
  | read _ ih => exact .read fun s => ih s
  | write h _ ih => exact .write h ih
  | upgrade _ ih => exact .upgrade fun b => ih b
  | alloc h _ ih => exact .alloc h fun b => ih b
  | panic m => exact .panic m
  | diverge => exact .diverge

theorem imp {Q' : α → β → Prop} {p : KProg T α} {q : KProg T β} (s : Flipped F Q p q) (h : ∀ a b, Q a b → Q' a b) :
    Flipped F Q' p q := by
  induction s with
  | ret q => exact .ret (h _ _ q)
  | lock _ ih => exact .lock ih
  | unlock _ ih => exact .unlock ih
  | read _ ih => exact .read fun s => ih s
  | write h _ ih => exact .write h ih
  | upgrade _ ih => exact .upgrade fun b => ih b
  | alloc h _ ih => exact .alloc h fun b => ih b
  | panic m => exact .panic m
  | diverge => exact .diverge

theorem pure {a : α} {b : β} (q : Q a b) : Flipped F Q (Pure.pure a : KProg T α) (Pure.pure b) := .ret q

/-- the value of the other program is a function of the value of this one -/
abbrev To (A : α → β) : α → β → Prop := fun a b => b = A a

theorem doLock (n : NodeId) : Flipped F Eq (doLock n : KProg T Unit) (doLock n) := .lock (.ret rfl)
theorem doUnlock (n : NodeId) : Flipped F Eq (doUnlock n : KProg T Unit) (doUnlock n) := .unlock (.ret rfl)
theorem doUpgrade (n : NodeId) : Flipped F Eq (doUpgrade n : KProg T Bool) (doUpgrade n) := .upgrade fun _ => .ret rfl
theorem doRead (n : NodeId) : Flipped F (To F.node) (doRead n : KProg T _) (doRead n) := .read fun _ => .ret rfl
theorem doWrite {n : NodeId} {f f' : NodeImpl T → NodeImpl T} (hf : ∀ s, f' (F.node s) = F.node (f s)) :
    Flipped F Eq (doWrite n f) (doWrite n f') := .write hf (.ret rfl)

theorem peek (n : NodeId) : Flipped F (To F.node) (peek n : KProg T _) (peek n) :=
  .lock (.read fun _ => .unlock (.ret rfl))
theorem poke {n : NodeId} {f f' : NodeImpl T → NodeImpl T} (hf : ∀ s, f' (F.node s) = F.node (f s)) :
    Flipped F Eq (poke n f) (poke n f') := .lock (.write hf (.unlock (.ret rfl)))

theorem expect {A : α → β} (o : Option α) (m : String) :
    Flipped F (To A) (expect o m : KProg T α) (expect (o.map A) m) := by
  cases o with
  | none => exact .panic m
  | some a => exact .ret rfl
theorem expectSame (o : Option α) (m : String) : Flipped F Eq (Prog.expect o m : KProg T α) (Prog.expect o m) := by
  cases o with
  | none => exact .panic m
  | some a => exact .ret rfl
theorem ofExcept {x : Except String α} {y : Except String β} {A : α → β} (e : y = x.map A) :
    Flipped F (To A) (ofExcept x : KProg T α) (ofExcept y) := by
  subst e
  cases x with
  | error m => exact .panic m
  | ok a => exact .ret rfl

theorem forEach {f g : γ → KProg T Unit} (h : ∀ x, Flipped F Eq (f x) (g x))
    (xs : List γ) : Flipped F Eq (forEach xs f) (forEach xs g) := by
  induction xs with
  | nil => exact .ret rfl
  | cons x xs ih => exact (h x).bind fun _ _ _ => ih

theorem mapListTo {A : α → β} {f : γ → KProg T α} {g : γ → KProg T β}
    (h : ∀ x, Flipped F (To A) (f x) (g x)) (xs : List γ) :
    Flipped F (To (List.map A)) (Prog.mapList xs f) (Prog.mapList xs g) := by
  induction xs with
  | nil => exact .ret rfl
  | cons x xs ih =>
    exact (h x).bind fun a b q => ih.bind fun as bs qs => .ret (by subst q qs; rfl)

/-- with a property of each value -/
theorem mapListAll {A : α → β} {P : α → Prop} {f : γ → KProg T α} {g : γ → KProg T β}
    (h : ∀ x, Flipped F (fun a b => b = A a ∧ P a) (f x) (g x)) (xs : List γ) :
    Flipped F (fun as bs => bs = as.map A ∧ ∀ a ∈ as, P a) (Prog.mapList xs f) (Prog.mapList xs g) := by
  induction xs with
  | nil => exact .ret ⟨rfl, by simp⟩
  | cons x xs ih =>
    refine (h x).bind fun a b ⟨q, p⟩ => ih.bind fun as bs ⟨qs, pa⟩ => .ret ⟨by subst q qs; rfl, ?_⟩
    intro y hy
    rcases List.mem_cons.1 hy with rfl | hy
    · exact p
    · exact pa _ hy

theorem mapListSame {f g : γ → KProg T α}
    (h : ∀ x, Flipped F Eq (f x) (g x)) (xs : List γ) : Flipped F Eq (Prog.mapList xs f) (Prog.mapList xs g) := by
  induction xs with
  | nil => exact .ret rfl
  | cons x xs ih =>
    exact (h x).bind fun a b q => ih.bind fun as bs qs => .ret (by subst q qs; rfl)

/-- of the values nothing is said -/
theorem mapListAny {f g : γ → KProg T α} (h : ∀ x, Flipped F (fun _ _ => True) (f x) (g x)) (xs : List γ) :
    Flipped F (fun _ _ => True) (Prog.mapList xs f) (Prog.mapList xs g) := by
  induction xs with
  | nil => exact .ret trivial
  | cons x xs ih => exact (h x).bind fun a b q => ih.bind fun as bs qs => .ret trivial

theorem filterList {f g : γ → KProg T Bool}
    (h : ∀ x, Flipped F Eq (f x) (g x)) (xs : List γ) : Flipped F Eq (filterList xs f) (filterList xs g) := by
  induction xs with
  | nil => exact .ret rfl
  | cons x xs ih => exact (h x).bind fun a b q => ih.bind fun as bs qs => by subst q qs; exact .ret rfl

theorem findFirst {f g : γ → KProg T Bool}
    (h : ∀ x, Flipped F Eq (f x) (g x)) (xs : List γ) : Flipped F Eq (findFirst xs f) (findFirst xs g) := by
  induction xs with
  | nil => exact .ret rfl
  | cons x xs ih =>
    refine (h x).bind fun a b q => ?_
    subst q
    cases a
    · exact ih
    · exact .ret rfl

/-- the same answer of a setter; its errors look alike in the mirror -/
def Told (F : Flip) (r r' : Except (KError T) Unit) : Prop := r' = r ∧ F.result r = r

theorem tryEach {f g : γ → KProg T (Except (KError T) Unit)} (xs : List γ) (h : ∀ x, Flipped F (Told F) (f x) (g x)) :
    Flipped F (Told F) (tryEach xs f) (tryEach xs g) := by
  induction xs with
  | nil => exact .ret ⟨rfl, rfl⟩
  | cons x xs ih =>
    refine (h x).bind fun a b q => ?_
    obtain ⟨rfl, q⟩ := q
    cases b with
    | error e => exact .ret ⟨rfl, q⟩
    | ok => exact ih

end Flipped

end K
