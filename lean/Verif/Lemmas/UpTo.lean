import Verif.Model.Prog
import Mathlib.Data.List.Forall2
/-!
# Programs that agree up to a panic
-/
namespace K
variable {S α β : Type}

/-- `q` does what `p` does, except that where `p` panics with the message `m`, `q` may do anything -/
inductive UpTo (m : String) : Prog S α → Prog S α → Prop
  | cut (q : Prog S α) : UpTo m (.panic m) q
  | ret (a : α) : UpTo m (.ret a) (.ret a)
  | lock {n k k'} (x : UpTo m k k') : UpTo m (.lock n k) (.lock n k')
  | unlock {n k k'} (x : UpTo m k k') : UpTo m (.unlock n k) (.unlock n k')
  | read {n k k'} (x : ∀ s, UpTo m (k s) (k' s)) : UpTo m (.read n k) (.read n k')
  | write {n f k k'} (x : UpTo m k k') : UpTo m (.write n f k) (.write n f k')
  | upgrade {n k k'} (x : ∀ b, UpTo m (k b) (k' b)) : UpTo m (.upgrade n k) (.upgrade n k')
  | alloc {s k k'} (x : ∀ n, UpTo m (k n) (k' n)) : UpTo m (.alloc s k) (.alloc s k')
  | panic (m' : String) : UpTo m (.panic m') (.panic m')
  | diverge : UpTo m .diverge .diverge

namespace UpTo
variable {m : String}

theorem refl (p : Prog S α) : UpTo m p p := by
  induction p with
  | ret a => exact .ret a
  | panic m => exact .panic m
  | diverge => exact .diverge
  | lock n k ih => exact .lock ih
  | unlock n k ih => exact .unlock ih
  | read n k ih => exact .read ih
  | write n f k ih => exact .write ih
  | upgrade n k ih => exact .upgrade ih
  | alloc s k ih => exact .alloc ih

/-- every value the program can return satisfies `P` -/
def Leaves (P : α → Prop) : Prog S α → Prop
  | .ret a => P a
  | .lock _ k => Leaves P k
  | .unlock _ k => Leaves P k
  | .read _ k => ∀ s, Leaves P (k s)
  | .write _ _ k => Leaves P k
  | .upgrade _ k => ∀ b, Leaves P (k b)
  | .alloc _ k => ∀ n, Leaves P (k n)
  | .panic _ => True
  | .diverge => True

theorem leaves_true (p : Prog S α) : Leaves (fun _ => True) p := by
  induction p <;> simp_all [Leaves]

theorem leaves_bind {P : α → Prop} {Q : β → Prop} {p : Prog S α} {f : α → Prog S β} (hp : Leaves P p)
    (hf : ∀ a, P a → Leaves Q (f a)) : Leaves Q (p >>= f) := by
  show Leaves Q (p.bind f)
  induction p with
  | ret a => exact hf a hp
  | panic m => trivial
  | diverge => trivial
  | lock n k ih => exact ih hp
  | unlock n k ih => exact ih hp
  | read n k ih => exact fun s => ih s (hp s)
  | write n f k ih => exact ih hp
  | upgrade n k ih => exact fun b => ih b (hp b)
  | alloc s k ih => exact fun n => ih n (hp n)

theorem bind' {P : α → Prop} {p q : Prog S α} (h : UpTo m p q) (l : Leaves P p) {f g : α → Prog S β}
    (hf : ∀ a, P a → UpTo m (f a) (g a)) : UpTo m (p >>= f) (q >>= g) := by
  show UpTo m (p.bind f) (q.bind g)
  induction h with
  | cut q => exact .cut _
  | ret a => exact hf a l
  | panic m => exact .panic m
  | diverge => exact .diverge
  | lock _ ih => exact .lock (ih l)
  | unlock _ ih => exact .unlock (ih l)
  | read _ ih => exact .read fun s => ih s (l s)
  | write _ ih => exact .write (ih l)
  | upgrade _ ih => exact .upgrade fun b => ih b (l b)
  | alloc _ ih => exact .alloc fun n => ih n (l n)

theorem bind {p q : Prog S α} (h : UpTo m p q) {f g : α → Prog S β}
    (hf : ∀ a, UpTo m (f a) (g a)) : UpTo m (p >>= f) (q >>= g) :=
  bind' h (leaves_true p) fun a _ => hf a

theorem run {p q : Prog S α} (h : UpTo m p q) (x : Heap S) :
    (∃ x', K.run p x = .panic m x') ∨ K.run q x = K.run p x := by
  induction h generalizing x with
  | cut q => exact .inl ⟨x, rfl⟩
  | ret a => exact .inr rfl
  | panic m => exact .inr rfl
  | diverge => exact .inr rfl
  | lock _ ih =>
    simp only [K.run]
    split
    · exact .inr rfl
    · exact ih _
  | unlock _ ih => exact ih _
  | read _ ih => exact ih _ _
  | write _ ih => exact ih _
  | upgrade _ ih => exact ih _ _
  | alloc _ ih => exact ih _ _

/-- one step of `q` is a step of `p`, unless `p` has panicked -/
theorem step_right {p q q' : Prog S α} (h : UpTo m p q) {x x' : Heap S} (s : step1 q x = some (q', x')) :
    p = .panic m ∨ ∃ p', step1 p x = some (p', x') ∧ UpTo m p' q' := by
  cases h with
  | cut q => exact .inl rfl
  | ret a => cases s
  | panic m => cases s
  | diverge => cases s; exact .inr ⟨_, rfl, .diverge⟩
  | @lock n _ _ y =>
    simp only [step1] at s ⊢
    split at s
    · cases s
    · cases s
      rename_i e
      exact .inr ⟨_, by rw [if_neg e], y⟩
  | unlock y => cases s; exact .inr ⟨_, rfl, y⟩
  | read y => cases s; exact .inr ⟨_, rfl, y _⟩
  | write y => cases s; exact .inr ⟨_, rfl, y⟩
  | upgrade y => cases s; exact .inr ⟨_, rfl, y _⟩
  | alloc y => cases s; exact .inr ⟨_, rfl, y _⟩

/-- one step of `p` is a step of `q` -/
theorem step_left {p p' q : Prog S α} (h : UpTo m p q) {x x' : Heap S} (s : step1 p x = some (p', x')) :
    ∃ q', step1 q x = some (q', x') ∧ UpTo m p' q' := by
  cases h with
  | cut q => cases s
  | ret a => cases s
  | panic m => cases s
  | diverge => cases s; exact ⟨_, rfl, .diverge⟩
  | @lock n _ _ y =>
    simp only [step1] at s ⊢
    split at s
    · cases s
    · cases s
      rename_i e
      exact ⟨_, by rw [if_neg e], y⟩
  | unlock y => cases s; exact ⟨_, rfl, y⟩
  | read y => cases s; exact ⟨_, rfl, y _⟩
  | write y => cases s; exact ⟨_, rfl, y⟩
  | upgrade y => cases s; exact ⟨_, rfl, y _⟩
  | alloc y => cases s; exact ⟨_, rfl, y _⟩

theorem steps_right {c d e : Config S α} (st : Steps c e) (hh : d.heap = c.heap)
    (h : List.Forall₂ (UpTo m) d.threads c.threads) :
    ∃ d', Steps d d' ∧ ((∃ i : Nat, d'.threads[i]? = some (Prog.panic m)) ∨
      d'.heap = e.heap ∧ List.Forall₂ (UpTo m) d'.threads e.threads) := by
  induction st with
  | refl => exact ⟨d, .refl _, .inr ⟨hh, h⟩⟩
  | @tail c1 c2 _ s ih =>
    obtain ⟨d1, st1, x⟩ := ih
    rcases x with x | ⟨hh1, h1⟩
    · exact ⟨d1, st1, .inl x⟩
    · obtain ⟨i, q, q', h', hi, hs⟩ := s
      have hl := h1.length_eq
      obtain ⟨li, ei⟩ := List.getElem?_eq_some_iff.1 hi
      have li' : i < d1.threads.length := by omega
      have r := (List.forall₂_iff_get.1 h1).2 i li' li
      simp only [List.get_eq_getElem, ei] at r
      rcases r.step_right hs with z | ⟨p', z, up⟩
      · exact ⟨d1, st1, .inl ⟨i, by rw [List.getElem?_eq_getElem li', z]⟩⟩
      · refine ⟨⟨h', d1.threads.set i p'⟩, st1.tail (.mk d1 i _ p' h' (List.getElem?_eq_getElem li')
          (by rw [hh1]; exact z)), .inr ⟨rfl, ?_⟩⟩
        refine List.forall₂_iff_get.2 ⟨by simp [hl], fun j a b => ?_⟩
        simp only [List.get_eq_getElem, List.getElem_set]
        split
        · exact up
        · exact (List.forall₂_iff_get.1 h1).2 j (by simpa using a) (by simpa using b)

theorem steps_left {c d e : Config S α} (st : Steps c e) (hh : d.heap = c.heap)
    (h : List.Forall₂ (UpTo m) c.threads d.threads) :
    ∃ d', Steps d d' ∧ d'.heap = e.heap ∧ List.Forall₂ (UpTo m) e.threads d'.threads := by
  induction st with
  | refl => exact ⟨d, .refl _, hh, h⟩
  | @tail c1 c2 _ s ih =>
    obtain ⟨d1, st1, hh1, h1⟩ := ih
    obtain ⟨i, q, q', h', hi, hs⟩ := s
    have hl := h1.length_eq
    obtain ⟨li, ei⟩ := List.getElem?_eq_some_iff.1 hi
    have li' : i < d1.threads.length := by omega
    have r := (List.forall₂_iff_get.1 h1).2 i li li'
    simp only [List.get_eq_getElem, ei] at r
    obtain ⟨p', z, up⟩ := r.step_left hs
    refine ⟨⟨h', d1.threads.set i p'⟩, st1.tail (.mk d1 i _ p' h' (List.getElem?_eq_getElem li')
        (by rw [hh1]; exact z)), rfl, ?_⟩
    refine List.forall₂_iff_get.2 ⟨by simp [hl], fun j a b => ?_⟩
    simp only [List.get_eq_getElem, List.getElem_set]
    split
    · exact up
    · exact (List.forall₂_iff_get.1 h1).2 j (by simpa using a) (by simpa using b)

/-! The same with nodes freed at any moments. -/

theorem drops_append {c d e : Config S α} (s : DSteps c d) (t : DSteps d e) : DSteps c e := by
  induction t with
  | refl => exact s
  | tail _ x ih => exact .tail ih x

theorem drops_right {c d e : Config S α} (st : DSteps c e) (hh : d.heap = c.heap)
    (h : List.Forall₂ (UpTo m) d.threads c.threads) :
    ∃ d', DSteps d d' ∧ ((∃ i : Nat, d'.threads[i]? = some (Prog.panic m)) ∨
      d'.heap = e.heap ∧ List.Forall₂ (UpTo m) d'.threads e.threads) := by
  induction st with
  | refl => exact ⟨d, .refl _, .inr ⟨hh, h⟩⟩
  | @tail c1 c2 _ s ih =>
    obtain ⟨d1, st1, x⟩ := ih
    rcases x with x | ⟨hh1, h1⟩
    · exact ⟨d1, st1, .inl x⟩
    · cases s with
      | thread s =>
        obtain ⟨d2, st2, y⟩ := steps_right (.tail (.refl _) s) hh1 h1
        exact ⟨d2, (drops_append st1 st2.drops), y⟩
      | free F =>
        exact ⟨⟨d1.heap.free F, d1.threads⟩, st1.tail (.free d1 F), .inr ⟨by rw [hh1], h1⟩⟩

theorem drops_left {c d e : Config S α} (st : DSteps c e) (hh : d.heap = c.heap)
    (h : List.Forall₂ (UpTo m) c.threads d.threads) :
    ∃ d', DSteps d d' ∧ d'.heap = e.heap ∧ List.Forall₂ (UpTo m) e.threads d'.threads := by
  induction st with
  | refl => exact ⟨d, .refl _, hh, h⟩
  | @tail c1 c2 _ s ih =>
    obtain ⟨d1, st1, hh1, h1⟩ := ih
    cases s with
    | thread s =>
      obtain ⟨d2, st2, y⟩ := steps_left (.tail (.refl _) s) hh1 h1
      exact ⟨d2, (drops_append st1 st2.drops), y⟩
    | free F => exact ⟨⟨d1.heap.free F, d1.threads⟩, st1.tail (.free d1 F), by rw [hh1], h1⟩

end UpTo
end K
