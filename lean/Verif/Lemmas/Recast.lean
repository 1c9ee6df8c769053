import Verif.Spec.Coords
import Verif.Lemmas.Run
import Verif.Lemmas.RealGeom
import Mathlib.Tactic.FieldSimp
import Mathlib.Tactic.Positivity
/-!
# Two programs that do the same in different coordinates
-/

set_option linter.unusedSectionVars false

namespace K
open Prog
variable {α β γ δ ε : Type} {U : Coords}

noncomputable section

namespace Coords

@[simp] theorem heap_get (h : KHeap ℝ) (n : NodeId) : (U.heap h).get n = U.node n (h.get n) := rfl
@[simp] theorem heap_held (h : KHeap ℝ) : (U.heap h).held = h.held := rfl
@[simp] theorem heap_dead (h : KHeap ℝ) : (U.heap h).dead = h.dead := rfl

theorem heap_setHeld (h : KHeap ℝ) (n : NodeId) (b : Bool) : U.heap (h.setHeld n b) = (U.heap h).setHeld n b := rfl

theorem heap_modify (h : KHeap ℝ) (n : NodeId) (f f' : NodeImpl ℝ → NodeImpl ℝ)
    (e : f' (U.node n (h.get n)) = U.node n (f (h.get n))) : U.heap (h.modify n f) = (U.heap h).modify n f' := by
  simp only [Coords.heap, Heap.modify]
  congr 1
  funext m
  by_cases x : m = n
  · subst x; simp [e]
  · simp [x]

theorem heap_free (h : KHeap ℝ) (F : NodeId → Bool) : U.heap (h.free F) = (U.heap h).free F := rfl

end Coords

/-- `q` does in the other coordinates what `p` does -/
inductive Recast (U : Coords) (Q : α → β → Prop) : KProg ℝ α → KProg ℝ β → Prop
  | ret {a b} (q : Q a b) : Recast U Q (.ret a) (.ret b)
  | lock {n k k'} (x : Recast U Q k k') : Recast U Q (.lock n k) (.lock n k')
  | unlock {n k k'} (x : Recast U Q k k') : Recast U Q (.unlock n k) (.unlock n k')
  | read {n k k'} (x : ∀ s, U.Fits n s → Recast U Q (k s) (k' (U.node n s))) : Recast U Q (.read n k) (.read n k')
  | write {n f f' k k'} (hf : ∀ s, U.Fits n s → U.Fits n (f s) ∧ f' (U.node n s) = U.node n (f s))
      (x : Recast U Q k k') : Recast U Q (.write n f k) (.write n f' k')
  | upgrade {n k k'} (x : ∀ b, Recast U Q (k b) (k' b)) : Recast U Q (.upgrade n k) (.upgrade n k')
  | panic (m : String) : Recast U Q (.panic m) (.panic m)
  | diverge : Recast U Q .diverge .diverge

/-- outcomes that are the same up to coordinates -/
def CoordOutcome (U : Coords) (Q : α → β → Prop) : Res (NodeImpl ℝ) α → Res (NodeImpl ℝ) β → Prop
  | .ok a h, .ok b g => Q a b ∧ g = U.heap h ∧ ∀ n, U.Fits n (h.get n)
  | .panic m h, .panic m' g => m' = m ∧ g = U.heap h
  | .blocked n h, .blocked n' g => n' = n ∧ g = U.heap h
  | .diverged, .diverged => True
  | _, _ => False

namespace Recast
variable {Q : α → β → Prop} {R : γ → δ → Prop}

theorem fits_modify {h : KHeap ℝ} (F : ∀ n, U.Fits n (h.get n)) {n : NodeId} {f : NodeImpl ℝ → NodeImpl ℝ}
    (hf : U.Fits n (f (h.get n))) (m : NodeId) : U.Fits m ((h.modify n f).get m) := by
  by_cases x : m = n
  · subst x; rwa [Heap.get_modify_self]
  · rw [Heap.get_modify_of_ne _ _ x]; exact F m

theorem outcome {p : KProg ℝ α} {q : KProg ℝ β} (s : Recast U Q p q) (h : KHeap ℝ) (F : ∀ n, U.Fits n (h.get n)) :
    CoordOutcome U Q (run p h) (run q (U.heap h)) := by
  induction s generalizing h with
  | ret q => exact ⟨q, rfl, F⟩
  | @lock n k k' _ ih =>
    show CoordOutcome U Q (if h.held n then _ else _) (if h.held n then _ else _)
    split
    · exact ⟨rfl, rfl⟩
    · exact ih (h.setHeld n true) F
  | unlock _ ih => simp only [K.run, ← Coords.heap_setHeld]; exact ih _ F
  | read _ ih => simp only [K.run, Coords.heap_get]; exact ih _ (F _) _ F
  | write hf _ ih =>
    obtain ⟨a, b⟩ := hf _ (F _)
    simp only [K.run, ← Coords.heap_modify _ _ _ _ b]
    exact ih _ (fits_modify F a)
  | upgrade _ ih => simp only [K.run, Coords.heap_dead]; exact ih _ _ F
  | panic m => exact ⟨rfl, rfl⟩
  | diverge => trivial

theorem step {p p' : KProg ℝ α} {q : KProg ℝ β} (s : Recast U Q p q) (h h' : KHeap ℝ)
    (F : ∀ n, U.Fits n (h.get n)) (e : step1 p h = some (p', h')) :
    ∃ q', step1 q (U.heap h) = some (q', U.heap h') ∧ Recast U Q p' q' ∧ ∀ n, U.Fits n (h'.get n) := by
  cases s with
  | ret q => cases e
  | @lock n k k' x =>
    simp only [step1] at e
    split at e
    · cases e
    · cases e; rename_i y
      refine ⟨k', ?_, x, F⟩
      show (if h.held n then none else _) = _
      rw [if_neg y]; rfl
  | unlock x => cases e; exact ⟨_, rfl, x, F⟩
  | read x => cases e; exact ⟨_, rfl, x _ (F _), F⟩
  | write hf x =>
    cases e
    obtain ⟨a, b⟩ := hf _ (F _)
    exact ⟨_, by simp only [step1, ← Coords.heap_modify _ _ _ _ b], x, fits_modify F a⟩
  | upgrade x => cases e; exact ⟨_, rfl, x _, F⟩
  | panic m => cases e
  | diverge => cases e; exact ⟨_, rfl, .diverge, F⟩

theorem bind {p : KProg ℝ α} {q : KProg ℝ β} (s : Recast U Q p q) {f : α → KProg ℝ γ} {g : β → KProg ℝ δ}
    (hf : ∀ a b, Q a b → Recast U R (f a) (g b)) : Recast U R (p >>= f) (q >>= g) := by
  show Recast U R (p.bind f) (q.bind g)
  induction s with
  | ret q => exact hf _ _ q
  | lock _ ih => exact .lock ih
  | unlock _ ih => exact .unlock ih
  | read _ ih => exact .read fun s F => ih s F
  | write h _ ih => exact .write h ih
  | upgrade _ ih => exact .upgrade fun b => ih b
  | panic m => exact .panic m
  | diverge => exact .diverge

theorem imp {Q' : α → β → Prop} {p : KProg ℝ α} {q : KProg ℝ β} (s : Recast U Q p q) (h : ∀ a b, Q a b → Q' a b) :
    Recast U Q' p q := by
  induction s with
  | ret q => exact .ret (h _ _ q)
  | lock _ ih => exact .lock ih
  | unlock _ ih => exact .unlock ih
  | read _ ih => exact .read fun s F => ih s F
  | write h _ ih => exact .write h ih
  | upgrade _ ih => exact .upgrade fun b => ih b
  | panic m => exact .panic m
  | diverge => exact .diverge

theorem pure {a : α} {b : β} (q : Q a b) : Recast U Q (Pure.pure a) (Pure.pure b) := .ret q

/-- the value of the other program is a function of the value of this one -/
abbrev To (A : α → β) : α → β → Prop := fun a b => b = A a

theorem doLock (n : NodeId) : Recast U Eq (doLock n : KProg ℝ Unit) (doLock n) := .lock (.ret rfl)
theorem doUnlock (n : NodeId) : Recast U Eq (doUnlock n : KProg ℝ Unit) (doUnlock n) := .unlock (.ret rfl)
theorem doUpgrade (n : NodeId) : Recast U Eq (doUpgrade n : KProg ℝ Bool) (doUpgrade n) := .upgrade fun _ => .ret rfl
theorem doRead (n : NodeId) : Recast U (fun s s' => U.Fits n s ∧ s' = U.node n s) (doRead n : KProg ℝ _) (doRead n) :=
  .read fun _ F => .ret ⟨F, rfl⟩
theorem doWrite {n : NodeId} {f f' : NodeImpl ℝ → NodeImpl ℝ}
    (hf : ∀ s, U.Fits n s → U.Fits n (f s) ∧ f' (U.node n s) = U.node n (f s)) :
    Recast U Eq (doWrite n f) (doWrite n f') := .write hf (.ret rfl)

theorem peek (n : NodeId) : Recast U (fun s s' => U.Fits n s ∧ s' = U.node n s) (peek n : KProg ℝ _) (peek n) :=
  .lock (.read fun _ F => .unlock (.ret ⟨F, rfl⟩))
theorem poke {n : NodeId} {f f' : NodeImpl ℝ → NodeImpl ℝ}
    (hf : ∀ s, U.Fits n s → U.Fits n (f s) ∧ f' (U.node n s) = U.node n (f s)) :
    Recast U Eq (poke n f) (poke n f') := .lock (.write hf (.unlock (.ret rfl)))

theorem expect {A : α → β} (o : Option α) (m : String) :
    Recast U (fun a b => o = some a ∧ b = A a) (expect o m : KProg ℝ α) (expect (o.map A) m) := by
  cases o with
  | none => exact .panic m
  | some a => exact .ret ⟨rfl, rfl⟩
theorem expectSame (o : Option α) (m : String) : Recast U Eq (Prog.expect o m : KProg ℝ α) (Prog.expect o m) := by
  cases o with
  | none => exact .panic m
  | some a => exact .ret rfl
theorem ofExcept {x : Except String α} {y : Except String β} {A : α → β} (e : y = x.map A) :
    Recast U (To A) (ofExcept x : KProg ℝ α) (ofExcept y) := by
  subst e
  cases x with
  | error m => exact .panic m
  | ok a => exact .ret rfl

theorem forEach {A : γ → δ} {f : γ → KProg ℝ Unit} {g : δ → KProg ℝ Unit} (h : ∀ x, Recast U Eq (f x) (g (A x)))
    (xs : List γ) : Recast U Eq (forEach xs f) (forEach (xs.map A) g) := by
  induction xs with
  | nil => exact .ret rfl
  | cons x xs ih => exact (h x).bind fun _ _ _ => ih

/-- each element has its own relation -/
theorem mapList {Z : γ → α → β → Prop} {f : γ → KProg ℝ α} {g : γ → KProg ℝ β}
    (h : ∀ x, Recast U (Z x) (f x) (g x)) (xs : List γ) :
    Recast U (fun as bs => List.Forall₂ (fun x (p : α × β) => Z x p.1 p.2) xs (as.zip bs) ∧
        as.length = xs.length ∧ bs.length = xs.length) (mapList xs f) (mapList xs g) := by
  induction xs with
  | nil => exact .ret ⟨.nil, rfl, rfl⟩
  | cons x xs ih =>
    refine (h x).bind fun a b q => ih.bind fun as bs ⟨qs, la, lb⟩ => .ret ⟨.cons q qs, by simp [la], by simp [lb]⟩

theorem mapListTo {A : α → β} {f : γ → KProg ℝ α} {g : γ → KProg ℝ β}
    (h : ∀ x, Recast U (To A) (f x) (g x)) (xs : List γ) :
    Recast U (To (List.map A)) (Prog.mapList xs f) (Prog.mapList xs g) := by
  induction xs with
  | nil => exact .ret rfl
  | cons x xs ih =>
    exact (h x).bind fun a b q => ih.bind fun as bs qs => .ret (by subst q qs; rfl)

theorem mapListSame {f g : γ → KProg ℝ α}
    (h : ∀ x, Recast U Eq (f x) (g x)) (xs : List γ) : Recast U Eq (Prog.mapList xs f) (Prog.mapList xs g) := by
  induction xs with
  | nil => exact .ret rfl
  | cons x xs ih =>
    exact (h x).bind fun a b q => ih.bind fun as bs qs => .ret (by subst q qs; rfl)

/-- each element has its own function -/
theorem mapListZip {A : γ → α → β} {f : γ → KProg ℝ α} {g : γ → KProg ℝ β} {P : α → Prop}
    (h : ∀ x, Recast U (fun a b => b = A x a ∧ P a) (f x) (g x)) (xs : List γ) :
    Recast U (fun as bs => bs = List.zipWith A xs as ∧ as.length = xs.length ∧ ∀ a ∈ as, P a)
      (Prog.mapList xs f) (Prog.mapList xs g) := by
  induction xs with
  | nil => exact .ret ⟨rfl, rfl, by simp⟩
  | cons x xs ih =>
    refine (h x).bind fun a b ⟨q, p⟩ => ih.bind fun as bs ⟨qs, la, pa⟩ => .ret ⟨by subst q qs; rfl, by simp [la], ?_⟩
    intro y hy
    rcases List.mem_cons.1 hy with rfl | hy
    · exact p
    · exact pa _ hy

theorem filterList {f g : γ → KProg ℝ Bool}
    (h : ∀ x, Recast U Eq (f x) (g x)) (xs : List γ) : Recast U Eq (filterList xs f) (filterList xs g) := by
  induction xs with
  | nil => exact .ret rfl
  | cons x xs ih => exact (h x).bind fun a b q => ih.bind fun as bs qs => by subst q qs; exact .ret rfl

theorem findFirst {f g : γ → KProg ℝ Bool}
    (h : ∀ x, Recast U Eq (f x) (g x)) (xs : List γ) : Recast U Eq (findFirst xs f) (findFirst xs g) := by
  induction xs with
  | nil => exact .ret rfl
  | cons x xs ih =>
    refine (h x).bind fun a b q => ?_
    subst q
    cases a
    · exact ih
    · exact .ret rfl

theorem tryEach {A : γ → δ} {f : γ → KProg ℝ (Except (KError ℝ) Unit)} {g : δ → KProg ℝ (Except (KError ℝ) Unit)}
    (xs : List γ) (h : ∀ x ∈ xs, Recast U U.SameResult (f x) (g (A x))) :
    Recast U U.SameResult (tryEach xs f) (tryEach (xs.map A) g) := by
  induction xs with
  | nil => exact .ret .ok
  | cons x xs ih =>
    refine (h x (by simp)).bind fun a b q => ?_
    cases q with
    | error e => exact .ret (.error e)
    | ok => exact ih fun y hy => h y (by simp [hy])

end Recast

end

end K
