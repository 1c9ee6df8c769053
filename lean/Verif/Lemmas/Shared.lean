import Verif.Model.Poison
import Verif.Spec.Shared
import Verif.Lemmas.Region
import Verif.Lemmas.Sched
/-!
# Programs that look at common nodes

`Shares R S B C Q p o`: `p` changes nodes in `R` only.  A node in `S` it locks by itself for a moment, to read it, to see
that a link is alive, or to write what is in it already (`B n`); meanwhile it locks nothing else and does not panic.  `o` is
the node of `S` that it holds.
-/

set_option linter.unusedSectionVars false

namespace K
open Prog
variable {X α β γ δ ε : Type}

/-- see the file comment -/
def Shares (R S : NodeId → Prop) (B : NodeId → X) (C : X → Prop) (Q : α → Prop) : Prog X α → Option NodeId → Prop
  | .ret a, o => o = none ∧ Q a
  | .lock n k, o => o = none ∧ (R n ∧ Shares R S B C Q k none ∨ S n ∧ Shares R S B C Q k (some n))
  | .unlock n k, none => R n ∧ Shares R S B C Q k none
  | .unlock n k, some m => n = m ∧ Shares R S B C Q k none
  | .read n k, none => R n ∧ ∀ s, C s → Shares R S B C Q (k s) none
  | .read n k, some m => n = m ∧ Shares R S B C Q (k (B m)) (some m)
  | .write n f k, none => R n ∧ (∀ s, C s → C (f s)) ∧ Shares R S B C Q k none
  | .write n f k, some m => n = m ∧ f (B m) = B m ∧ Shares R S B C Q k (some m)
  | .upgrade n k, o => (R n ∨ S n) ∧ Shares R S B C Q (k true) o ∧ (R n → Shares R S B C Q (k false) o)
  | .alloc _ _, _ => False
  | .panic _, o => o = none
  | .diverge, o => o = none

variable {R S : NodeId → Prop} {B : NodeId → X} {C : X → Prop}

theorem Shares.bind {Q : α → Prop} {Q' : β → Prop} {p : Prog X α} {f : α → Prog X β} {o : Option NodeId}
    (h : Shares R S B C Q p o) (hf : ∀ a, Q a → Shares R S B C Q' (f a) none) : Shares R S B C Q' (p >>= f) o := by
  show Shares R S B C Q' (p.bind f) o
  induction p generalizing o with
  | ret a => obtain ⟨rfl, h⟩ := h; exact hf a h
  | lock n k ih => exact ⟨h.1, h.2.imp (fun x => ⟨x.1, ih x.2⟩) fun x => ⟨x.1, ih x.2⟩⟩
  | unlock n k ih => cases o <;> exact ⟨h.1, ih h.2⟩
  | read n k ih =>
    cases o
    · exact ⟨h.1, fun s hs => ih s (h.2 s hs)⟩
    · exact ⟨h.1, ih _ h.2⟩
  | write n f k ih => cases o <;> exact ⟨h.1, h.2.1, ih h.2.2⟩
  | upgrade n k ih => exact ⟨h.1, ih true h.2.1, fun r => ih false (h.2.2 r)⟩
  | alloc s k ih => exact h.elim
  | panic m => exact h
  | diverge => exact h

theorem Shares.mono {Q Q' : α → Prop} {p : Prog X α} {o : Option NodeId} (h : Shares R S B C Q p o)
    (i : ∀ a, Q a → Q' a) : Shares R S B C Q' p o := by
  induction p generalizing o with
  | ret a => exact ⟨h.1, i a h.2⟩
  | lock n k ih => exact ⟨h.1, h.2.imp (fun x => ⟨x.1, ih x.2⟩) fun x => ⟨x.1, ih x.2⟩⟩
  | unlock n k ih => cases o <;> exact ⟨h.1, ih h.2⟩
  | read n k ih =>
    cases o
    · exact ⟨h.1, fun s hs => ih s (h.2 s hs)⟩
    · exact ⟨h.1, ih _ h.2⟩
  | write n f k ih => cases o <;> exact ⟨h.1, h.2.1, ih h.2.2⟩
  | upgrade n k ih => exact ⟨h.1, ih true h.2.1, fun r => ih false (h.2.2 r)⟩
  | alloc s k ih => exact h.elim
  | panic m => exact h
  | diverge => exact h

/-- `h` is what a thread that holds `o` would have alone, `g` is what there is -/
structure Alone (R S : NodeId → Prop) (B : NodeId → X) (o : Option NodeId) (h g : Heap X) : Prop where
  own : Agree R h g
  get : ∀ n, S n → h.get n = B n
  dead : ∀ n, S n → h.dead n = false
  held : ∀ n, S n → (h.held n = true ↔ o = some n)

/-- what a step does to the common nodes -/
structure Common (R S : NodeId → Prop) (B : NodeId → X) (o o' : Option NodeId) (g g' : Heap X) : Prop where
  out : ∀ n, ¬ R n → ¬ S n → g'.get n = g.get n ∧ g'.held n = g.held n
  get : ∀ n, S n → g'.get n = B n
  dead : g'.dead = g.dead
  next : g'.next = g.next
  kept : ∀ m, o = some m → o' = some m ∨ o' = none
  held : ∀ n, S n → o ≠ some n → o' ≠ some n → g'.held n = g.held n
  take : ∀ n, o' = some n → S n ∧ g'.held n = true ∧ (o = some n ∨ g.held n = false)
  drop : ∀ n, o = some n → o' ≠ some n → g'.held n = false

/-- A step of a program can be made in the same way alone. -/
theorem Shares.step {Q : α → Prop} {p p' : Prog X α} {o : Option NodeId} {h g g' : Heap X} (dj : ∀ n, R n → ¬ S n)
    (sp : Shares R S B C Q p o) (i : ∀ n, R n → C (g.get n)) (a : Alone R S B o h g)
    (gs : ∀ n, S n → g.get n = B n) (gd : ∀ n, S n → g.dead n = false) (go : ∀ n, o = some n → S n ∧ g.held n = true)
    (e : step1 p g = some (p', g')) :
    ∃ o' h', step1 p h = some (p', h') ∧ Shares R S B C Q p' o' ∧ (∀ n, R n → C (g'.get n)) ∧ Alone R S B o' h' g' ∧
      Common R S B o o' g g' := by
  have same : ∀ o : Option NodeId, (∀ n, o = some n → S n ∧ g.held n = true) → Common R S B o o g g := fun o go =>
    ⟨fun _ _ _ => ⟨rfl, rfl⟩, gs, rfl, rfl, fun m e => .inl e, fun _ _ _ _ => rfl, fun n e => ⟨(go n e).1, (go n e).2, .inl e⟩,
      fun n e ne => absurd e ne⟩
  cases p with
  | ret x => cases e
  | lock n k =>
    obtain ⟨rfl, hk⟩ := sp
    simp only [step1] at e
    split at e
    · cases e
    · rename_i nh
      cases e
      rcases hk with ⟨rn, sk⟩ | ⟨sn, sk⟩
      · refine ⟨none, h.setHeld n true, ?_, sk, i, ⟨a.own.setHeld n true, a.get, a.dead, fun m sm => ?_⟩, ?_⟩
        · rw [a.own.held n rn] at nh
          simp only [step1, nh]; rfl
        · have ne : m ≠ n := fun e => dj n rn (e ▸ sm)
          simp only [Heap.held_setHeld, if_neg ne]
          exact a.held m sm
        · refine ⟨fun m rm sm => ⟨rfl, ?_⟩, gs, rfl, rfl, (fun m e => by cases e), fun m sm _ _ => ?_, (fun m e => by cases e),
            (fun m e => by cases e)⟩
          · have ne : m ≠ n := fun e => rm (e ▸ rn)
            simp only [Heap.held_setHeld, if_neg ne]
          · have ne : m ≠ n := fun e => dj n rn (e ▸ sm)
            simp only [Heap.held_setHeld, if_neg ne]
      · have hn : h.held n = false := by
          cases x : h.held n
          · rfl
          · exact absurd ((a.held n sn).1 x) (by simp)
        refine ⟨some n, h.setHeld n true, ?_, sk, i, ⟨a.own.setHeld n true, a.get, a.dead, fun m sm => ?_⟩, ?_⟩
        · simp only [step1, hn]; rfl
        · simp only [Heap.held_setHeld]
          by_cases x : m = n
          · simp [x]
          · rw [if_neg x, a.held m sm]
            constructor
            · intro e; cases e
            · intro e; cases e; exact absurd rfl x
        · refine ⟨fun m rm sm => ⟨rfl, ?_⟩, gs, rfl, rfl, (fun m e => by cases e), fun m sm _ x => ?_, fun m e => ?_,
            (fun m e => by cases e)⟩
          · have ne : m ≠ n := fun e => sm (e ▸ sn)
            simp only [Heap.held_setHeld, if_neg ne]
          · have ne : m ≠ n := fun e => x (by rw [e])
            simp only [Heap.held_setHeld, if_neg ne]
          · cases e
            exact ⟨sn, by simp [Heap.held_setHeld], .inr (by simpa using nh)⟩
  | unlock n k =>
    cases e
    cases o with
    | none =>
      obtain ⟨rn, sk⟩ := sp
      refine ⟨none, h.setHeld n false, rfl, sk, i, ⟨a.own.setHeld n false, a.get, a.dead, fun m sm => ?_⟩, ?_⟩
      · have ne : m ≠ n := fun e => dj n rn (e ▸ sm)
        simp only [Heap.held_setHeld, if_neg ne]
        exact a.held m sm
      · refine ⟨fun m rm sm => ⟨rfl, ?_⟩, gs, rfl, rfl, (fun m e => by cases e), fun m sm _ _ => ?_, (fun m e => by cases e),
          (fun m e => by cases e)⟩
        · have ne : m ≠ n := fun e => rm (e ▸ rn)
          simp only [Heap.held_setHeld, if_neg ne]
        · have ne : m ≠ n := fun e => dj n rn (e ▸ sm)
          simp only [Heap.held_setHeld, if_neg ne]
    | some m =>
      obtain ⟨rfl, sk⟩ := sp
      have sn := (go n rfl).1
      refine ⟨none, h.setHeld n false, rfl, sk, i, ⟨a.own.setHeld n false, a.get, a.dead, fun m sm => ?_⟩, ?_⟩
      · simp only [Heap.held_setHeld]
        by_cases x : m = n
        · simp [x]
        · rw [if_neg x, a.held m sm]
          constructor
          · intro e; cases e; exact absurd rfl x
          · intro e; cases e
      · refine ⟨fun m rm sm => ⟨rfl, ?_⟩, gs, rfl, rfl, fun m _ => .inr rfl, fun m sm x _ => ?_, (fun m e => by cases e),
          fun m e _ => ?_⟩
        · have ne : m ≠ n := fun e => sm (e ▸ sn)
          simp only [Heap.held_setHeld, if_neg ne]
        · have ne : m ≠ n := fun e => x (by rw [e])
          simp only [Heap.held_setHeld, if_neg ne]
        · cases e; simp [Heap.held_setHeld]
  | read n k =>
    cases e
    cases o with
    | none =>
      exact ⟨none, h, by simp only [step1, a.own.get n sp.1], sp.2 _ (i n sp.1), i, a, same none go⟩
    | some m =>
      obtain ⟨rfl, sk⟩ := sp
      have sn := (go n rfl).1
      exact ⟨some n, h, by simp only [step1, gs n sn, a.get n sn], by rw [gs n sn]; exact sk, i, a, same _ go⟩
  | write n f k =>
    cases e
    cases o with
    | none =>
      obtain ⟨rn, hf, sk⟩ := sp
      refine ⟨none, h.modify n f, rfl, sk, fun m hm => ?_, ⟨a.own.modify n f, fun m sm => ?_, a.dead, a.held⟩, ?_⟩
      · simp only [Heap.get_modify]
        split
        · exact hf _ (i m hm)
        · exact i m hm
      · have ne : m ≠ n := fun e => dj n rn (e ▸ sm)
        simp only [Heap.get_modify, if_neg ne]
        exact a.get m sm
      · refine ⟨fun m rm sm => ⟨?_, rfl⟩, fun m sm => ?_, rfl, rfl, (fun m e => by cases e), fun m _ _ _ => rfl,
          (fun m e => by cases e), (fun m e => by cases e)⟩
        · have ne : m ≠ n := fun e => rm (e ▸ rn)
          simp only [Heap.get_modify, if_neg ne]
        · have ne : m ≠ n := fun e => dj n rn (e ▸ sm)
          simp only [Heap.get_modify, if_neg ne]
          exact gs m sm
    | some m =>
      obtain ⟨rfl, hf, sk⟩ := sp
      have sn := (go n rfl).1
      have noop : ∀ h : Heap X, h.get n = B n → h.modify n f = h := by
        intro h e
        have : (h.modify n f).get = h.get := by
          funext m
          simp only [Heap.get_modify]
          split
          · rename_i x; subst x; rw [e, hf]
          · rfl
        obtain ⟨hg, hn, hd, hh⟩ := h
        simp only [Heap.modify] at this ⊢
        rw [this]
      rw [noop g (gs n sn)]
      exact ⟨some n, h, by simp only [step1, noop h (a.get n sn)], sk, i, a, same _ go⟩
  | upgrade n k =>
    cases e
    rcases sp.1 with rn | sn
    · refine ⟨o, h, by simp only [step1, a.own.dead n rn], ?_, i, a, same _ go⟩
      cases g.dead n
      · exact sp.2.1
      · exact sp.2.2 rn
    · refine ⟨o, h, by simp only [step1, a.dead n sn, gd n sn], ?_, i, a, same _ go⟩
      rw [gd n sn]; exact sp.2.1
  | alloc s k => exact sp.elim
  | panic m => cases e
  | diverge => cases e; exact ⟨o, h, rfl, sp, i, a, same _ go⟩

/-- The outcome of a program depends only on its nodes and the common ones, and at the end it holds none of these. -/
theorem Shares.run_agree {Q : α → Prop} {p : Prog X α} {o : Option NodeId} {h g : Heap X} (dj : ∀ n, R n → ¬ S n)
    (sp : Shares R S B C Q p o) (i : ∀ n, R n → C (h.get n)) (hs : ∀ n, S n → h.get n = B n)
    (hd : ∀ n, S n → h.dead n = false) (ho : ∀ n, o = some n → S n) (hh : ∀ n, S n → (h.held n = true → o = some n))
    (a : Agree (InSight R S) h g) {r : α} {h' : Heap X} (e : run p h = .ok r h') :
    ∃ g', run p g = .ok r g' ∧ Agree (InSight R S) h' g' ∧ ∀ n, S n → h'.held n = false := by
  induction p generalizing o h g with
  | ret x =>
    cases e
    obtain ⟨rfl, -⟩ := sp
    refine ⟨g, rfl, a, fun n sn => ?_⟩
    cases x : h'.held n
    · rfl
    · cases hh n sn x
  | lock n k ih =>
    obtain ⟨rfl, hk⟩ := sp
    have seen : InSight R S n := hk.imp (·.1) (·.1)
    simp only [run] at e ⊢
    rw [a.held n seen]
    split at e
    · cases e
    · rename_i nh
      rw [if_neg nh]
      rcases hk with ⟨rn, sk⟩ | ⟨sn, sk⟩
      · refine ih (h := h.setHeld n true) sk i hs hd (fun n e => by cases e) (fun m sm x => ?_) (a.setHeld n true) e
        have ne : m ≠ n := fun e => dj n rn (e ▸ sm)
        simp only [Heap.held_setHeld, if_neg ne] at x
        exact hh m sm x
      · refine ih (h := h.setHeld n true) sk i hs hd (fun m e => by cases e; exact sn) (fun m sm x => ?_) (a.setHeld n true) e
        by_cases ne : m = n
        · rw [ne]
        · simp only [Heap.held_setHeld, if_neg ne] at x
          cases hh m sm x
  | unlock n k ih =>
    simp only [run] at e ⊢
    cases o with
    | none =>
      refine ih (h := h.setHeld n false) sp.2 i hs hd (fun n e => by cases e) (fun m sm x => ?_) (a.setHeld n false) e
      have ne : m ≠ n := fun e => dj n sp.1 (e ▸ sm)
      simp only [Heap.held_setHeld, if_neg ne] at x
      exact hh m sm x
    | some m =>
      obtain ⟨rfl, sk⟩ := sp
      refine ih (h := h.setHeld n false) sk i hs hd (fun n e => by cases e) (fun m sm x => ?_) (a.setHeld n false) e
      simp only [Heap.held_setHeld] at x
      split at x
      · cases x
      · rename_i ne; cases hh m sm x; exact absurd rfl ne
  | read n k ih =>
    simp only [run] at e ⊢
    cases o with
    | none =>
      rw [a.get n (.inl sp.1)]
      exact ih _ (sp.2 _ (i n sp.1)) i hs hd ho hh a e
    | some m =>
      obtain ⟨rfl, sk⟩ := sp
      rw [a.get n (.inr (ho n rfl))]
      rw [← hs n (ho n rfl)] at sk
      exact ih _ sk i hs hd ho hh a e
  | write n f k ih =>
    simp only [run] at e ⊢
    cases o with
    | none =>
      obtain ⟨rn, hf, sk⟩ := sp
      refine ih (h := h.modify n f) sk (fun m hm => ?_) (fun m sm => ?_) hd ho hh (a.modify n f) e
      · simp only [Heap.get_modify]
        split
        · exact hf _ (i m hm)
        · exact i m hm
      · have ne : m ≠ n := fun e => dj n rn (e ▸ sm)
        simp only [Heap.get_modify, if_neg ne]
        exact hs m sm
    | some m =>
      obtain ⟨rfl, hf, sk⟩ := sp
      refine ih (h := h.modify n f) sk (fun m hm => ?_) (fun m sm => ?_) hd ho hh (a.modify n f) e
      · have ne : m ≠ n := fun e => dj m hm (e ▸ ho n rfl)
        simp only [Heap.get_modify, if_neg ne]
        exact i m hm
      · simp only [Heap.get_modify]
        split
        · rename_i x; rw [x, hs n (ho n rfl), hf]
        · exact hs m sm
  | upgrade n k ih =>
    simp only [run] at e ⊢
    rw [a.dead n sp.1]
    refine ih _ ?_ i hs hd ho hh a e
    rcases sp.1 with rn | sn
    · cases h.dead n
      · exact sp.2.1
      · exact sp.2.2 rn
    · rw [hd n sn]; exact sp.2.1
  | alloc s k ih => exact sp.elim
  | panic m => cases e
  | diverge => cases e

/-! ## threads -/

/-- Each thread is where it would be alone; `os i` is the common node that thread `i` holds. -/
structure Share (R : Nat → NodeId → Prop) (S : NodeId → Prop) (B : NodeId → X) (C : Nat → X → Prop) (Q : Nat → α → Prop)
    (c d : Config X α) (os : Nat → Option NodeId) : Prop where
  threads : ∀ i p', d.threads[i]? = some p' → ∃ p h, c.threads[i]? = some p ∧ run p c.heap = run p' h ∧
    Alone (R i) S B (os i) h d.heap ∧ Shares (R i) S B (C i) (Q i) p' (os i)
  inv : ∀ i n, R i n → C i (d.heap.get n)
  get : ∀ n, S n → d.heap.get n = B n
  dead : d.heap.dead = c.heap.dead
  next : d.heap.next = c.heap.next
  out : ∀ n, (∀ i, ¬ R i n) → ¬ S n → d.heap.get n = c.heap.get n ∧ d.heap.held n = c.heap.held n
  holds : ∀ i n, os i = some n → S n ∧ d.heap.held n = true ∧ i < c.threads.length
  holder : ∀ n, S n → d.heap.held n = true → ∃ i, os i = some n
  one : ∀ i j n, os i = some n → os j = some n → i = j
  length : d.threads.length = c.threads.length

/-- what is assumed of the start -/
structure Begin (R : Nat → NodeId → Prop) (S : NodeId → Prop) (B : NodeId → X) (C : Nat → X → Prop) (Q : Nat → α → Prop)
    (c : Config X α) : Prop where
  disjoint : ∀ i j n, i ≠ j → R i n → ¬ R j n
  own : ∀ i n, R i n → ¬ S n
  threads : ∀ i p, c.threads[i]? = some p → Shares (R i) S B (C i) (Q i) p none
  inv : ∀ i n, R i n → C i (c.heap.get n)
  get : ∀ n, S n → c.heap.get n = B n
  dead : ∀ n, S n → c.heap.dead n = false
  free : ∀ n, S n → c.heap.held n = false

section
variable {R : Nat → NodeId → Prop} {C : Nat → X → Prop} {Q : Nat → α → Prop} {c d : Config X α}

theorem Begin.start (b : Begin R S B C Q c) : Share R S B C Q c c fun _ => none where
  threads i p e := ⟨p, c.heap, e, rfl, ⟨.refl _ _, b.get, b.dead, fun n sn => by simp [b.free n sn]⟩, b.threads i p e⟩
  inv := b.inv
  get := b.get
  dead := rfl
  next := rfl
  out _ _ _ := ⟨rfl, rfl⟩
  holds _ _ e := by cases e
  holder n sn e := by rw [b.free n sn] at e; cases e
  one _ _ _ e := by cases e
  length := rfl

theorem Share.step (b : Begin R S B C Q c) {os : Nat → Option NodeId} (s : Share R S B C Q c d os) {j : Nat}
    {q q' : Prog X α} {h' : Heap X} (hj : d.threads[j]? = some q) (hs : step1 q d.heap = some (q', h')) :
    ∃ os', Share R S B C Q c ⟨h', d.threads.set j q'⟩ os' ∧ (∀ i, i ≠ j → os' i = os i) ∧
      (∀ m, os j = some m → os' j = some m ∨ os' j = none) := by
  obtain ⟨p, hp, ej, er, al, sq⟩ := s.threads j q hj
  have lt : j < d.threads.length := (List.getElem?_eq_some_iff.1 hj).1
  have dd : ∀ n, S n → d.heap.dead n = false := fun n sn => by rw [s.dead]; exact b.dead n sn
  obtain ⟨o', g', e1, sq', inv', al', cm⟩ := sq.step (b.own j) (s.inv j) al s.get dd
    (fun n e => ⟨(s.holds j n e).1, (s.holds j n e).2.1⟩) hs
  -- what the step does not do to the other threads' nodes
  have fr : ∀ i, i ≠ j → Agree (R i) d.heap h' := fun i ij =>
    ⟨fun n hn => (cm.out n (b.disjoint i j n ij hn) (b.own i n hn)).1,
      fun n hn => (cm.out n (b.disjoint i j n ij hn) (b.own i n hn)).2, fun n _ => by rw [cm.dead]⟩
  refine ⟨fun i => if i = j then o' else os i, ⟨fun i p' e => ?_, fun i n hn => ?_, cm.get, cm.dead.trans s.dead,
    cm.next.trans s.next, fun n hn sn => ?_, fun i n e => ?_, fun n sn e => ?_, fun i k n ei ek => ?_, by simpa using s.length⟩,
    fun i ij => if_neg ij, fun m e => by simpa using cm.kept m e⟩
  · by_cases ij : i = j
    · subst ij
      obtain rfl : p' = q' := by simp [lt] at e; exact e.symm
      simp only [if_true]
      exact ⟨p, g', ej, er.trans (run_step1 e1), al', sq'⟩
    · simp only [if_neg ij]
      rw [List.getElem?_set_ne (Ne.symm ij)] at e
      obtain ⟨p, g, e1, e2, a, s1⟩ := s.threads i p' e
      exact ⟨p, g, e1, e2, ⟨a.own.trans (fr i ij), a.get, a.dead, a.held⟩, s1⟩
  · by_cases ij : i = j
    · subst ij; exact inv' n hn
    · rw [(fr i ij).get n hn]; exact s.inv i n hn
  · obtain ⟨x, y⟩ := cm.out n (hn j) sn
    obtain ⟨x', y'⟩ := s.out n hn sn
    exact ⟨x.trans x', y.trans y'⟩
  · by_cases ij : i = j
    · subst ij
      simp only [if_true] at e
      exact ⟨(cm.take n e).1, (cm.take n e).2.1, by rw [← s.length]; exact lt⟩
    · simp only [if_neg ij] at e
      obtain ⟨sn, hn, li⟩ := s.holds i n e
      refine ⟨sn, ?_, li⟩
      have n1 : os j ≠ some n := fun x => ij (s.one i j n e x)
      have n2 : o' ≠ some n := by
        intro x
        rcases (cm.take n x).2.2 with y | y
        · exact n1 y
        · rw [hn] at y; cases y
      show h'.held n = true
      rw [cm.held n sn n1 n2]; exact hn
  · by_cases x : o' = some n
    · exact ⟨j, by simpa using x⟩
    · by_cases y : os j = some n
      · have := cm.drop n y x
        rw [show h'.held n = true from e] at this; cases this
      · have : d.heap.held n = true := by rw [← cm.held n sn y x]; exact e
        obtain ⟨i, ei⟩ := s.holder n sn this
        have ij : i ≠ j := fun z => y (z ▸ ei)
        exact ⟨i, by simpa [ij] using ei⟩
  · have key : ∀ i, i ≠ j → os i = some n → o' ≠ some n := by
      intro i ij ei x
      rcases (cm.take n x).2.2 with y | y
      · exact ij (s.one i j n ei y)
      · rw [(s.holds i n ei).2.1] at y; cases y
    by_cases ij : i = j <;> by_cases kj : k = j
    · rw [ij, kj]
    · simp only [if_pos ij, if_neg kj] at ei ek
      exact absurd ei (key k kj ek)
    · simp only [if_neg ij, if_pos kj] at ei ek
      exact absurd ek (key i ij ei)
    · simp only [if_neg ij, if_neg kj] at ei ek
      exact s.one i k n ei ek

theorem steps_shared (b : Begin R S B C Q c) (st : Steps c d) : ∃ os, Share R S B C Q c d os := by
  induction st with
  | refl => exact ⟨_, b.start⟩
  | tail st s ih =>
    obtain ⟨os, ih⟩ := ih
    cases s with
    | mk j q q' h' hj hs =>
      obtain ⟨os', x, -⟩ := ih.step b hj hs
      exact ⟨os', x⟩

/-- a thread that holds a common node can make its next step -/
theorem Shares.moves {Q : α → Prop} {R : NodeId → Prop} {C : X → Prop} {p : Prog X α} {m : NodeId}
    (sp : Shares R S B C Q p (some m)) (h : Heap X) : ∃ p' h', step1 p h = some (p', h') := by
  cases p with
  | ret a => cases sp.1
  | lock n k => cases sp.1
  | unlock n k => exact ⟨_, _, rfl⟩
  | read n k => exact ⟨_, _, rfl⟩
  | write n f k => exact ⟨_, _, rfl⟩
  | upgrade n k => exact ⟨_, _, rfl⟩
  | alloc s k => exact sp.elim
  | panic m => cases sp
  | diverge => cases sp

/-- a thread can let go of the common node that it holds -/
theorem Share.release (b : Begin R S B C Q c) {os : Nat → Option NodeId} (s : Share R S B C Q c d os) (j : Nat) :
    ∃ e os', Steps d e ∧ Share R S B C Q c e os' ∧ os' j = none ∧ ∀ i, i ≠ j → os' i = os i := by
  cases ho : os j with
  | none => exact ⟨d, os, .refl _, s, ho, fun _ _ => rfl⟩
  | some m =>
    have lt : j < d.threads.length := by rw [s.length]; exact (s.holds j m ho).2.2
    have hq : d.threads[j]? = some d.threads[j] := List.getElem?_eq_getElem lt
    generalize d.threads[j] = q at hq
    induction q generalizing d os with
    | ret a => obtain ⟨p, h, -, -, -, sq⟩ := s.threads j _ hq; rw [ho] at sq; cases sq.1
    | lock n k ih => obtain ⟨p, h, -, -, -, sq⟩ := s.threads j _ hq; rw [ho] at sq; cases sq.1
    | alloc x k ih => obtain ⟨p, h, -, -, -, sq⟩ := s.threads j _ hq; exact sq.elim
    | panic x => obtain ⟨p, h, -, -, -, sq⟩ := s.threads j _ hq; rw [ho] at sq; cases sq
    | diverge => obtain ⟨p, h, -, -, -, sq⟩ := s.threads j _ hq; rw [ho] at sq; cases sq
    | unlock n k ih =>
      obtain ⟨os', s', ot, kp⟩ := s.step b hq rfl
      have one := (Steps.refl d).tail (Step.mk _ j _ _ _ hq rfl)
      rcases kp m ho with x | x
      · obtain ⟨e, os2, st, s2, z, w⟩ := ih s' x (by simpa using lt) (by simp [lt])
        exact ⟨e, os2, one.trans st, s2, z, fun i ij => (w i ij).trans (ot i ij)⟩
      · exact ⟨_, os', one, s', x, ot⟩
    | write n f k ih =>
      obtain ⟨os', s', ot, kp⟩ := s.step b hq rfl
      have one := (Steps.refl d).tail (Step.mk _ j _ _ _ hq rfl)
      rcases kp m ho with x | x
      · obtain ⟨e, os2, st, s2, z, w⟩ := ih s' x (by simpa using lt) (by simp [lt])
        exact ⟨e, os2, one.trans st, s2, z, fun i ij => (w i ij).trans (ot i ij)⟩
      · exact ⟨_, os', one, s', x, ot⟩
    | read n k ih =>
      obtain ⟨os', s', ot, kp⟩ := s.step b hq rfl
      have one := (Steps.refl d).tail (Step.mk _ j _ _ _ hq rfl)
      rcases kp m ho with x | x
      · obtain ⟨e, os2, st, s2, z, w⟩ := ih (d.heap.get n) s' x (by simpa using lt) (by simp [lt])
        exact ⟨e, os2, one.trans st, s2, z, fun i ij => (w i ij).trans (ot i ij)⟩
      · exact ⟨_, os', one, s', x, ot⟩
    | upgrade n k ih =>
      obtain ⟨os', s', ot, kp⟩ := s.step b hq rfl
      have one := (Steps.refl d).tail (Step.mk _ j _ _ _ hq rfl)
      rcases kp m ho with x | x
      · obtain ⟨e, os2, st, s2, z, w⟩ := ih (!d.heap.dead n) s' x (by simpa using lt) (by simp [lt])
        exact ⟨e, os2, one.trans st, s2, z, fun i ij => (w i ij).trans (ot i ij)⟩
      · exact ⟨_, os', one, s', x, ot⟩

/-- all of them can -/
theorem Share.releaseAll (b : Begin R S B C Q c) {os : Nat → Option NodeId} (s : Share R S B C Q c d os) :
    ∃ e os', Steps d e ∧ Share R S B C Q c e os' ∧ ∀ n, S n → e.heap.held n = false := by
  suffices ∀ k, ∃ e os', Steps d e ∧ Share R S B C Q c e os' ∧ ∀ i < k, os' i = none by
    obtain ⟨e, os', st, s', no⟩ := this c.threads.length
    refine ⟨e, os', st, s', fun n sn => ?_⟩
    cases x : e.heap.held n
    · rfl
    · obtain ⟨i, ei⟩ := s'.holder n sn x
      rw [no i (s'.holds i n ei).2.2] at ei
      cases ei
  intro k
  induction k with
  | zero => exact ⟨d, os, .refl _, s, fun i lt => absurd lt (Nat.not_lt_zero i)⟩
  | succ k ih =>
    obtain ⟨e, os', st, s', no⟩ := ih
    obtain ⟨e2, os2, st2, s2, z, w⟩ := s'.release b k
    refine ⟨e2, os2, st.trans st2, s2, fun i lt => ?_⟩
    by_cases ik : i = k
    · rw [ik]; exact z
    · rw [w i ik]; exact no i (by omega)

/-- a thread that returns alone has finished, or can go on, or waits for a common node whose holder can go on -/
theorem Share.waits {os : Nat → Option NodeId} (s : Share R S B C Q c d os) (own : ∀ i n, R i n → ¬ S n) (i : Nat)
    (q : Prog X α) {h h' : Heap X} {a : α} (e : run q h = .ok a h') (al : Alone (R i) S B (os i) h d.heap)
    (sq : Shares (R i) S B (C i) (Q i) q (os i)) :
    q = .ret a ∨ (∃ q' g, step1 q d.heap = some (q', g)) ∨
      ∃ n k j p p' g, S n ∧ q = .lock n k ∧ j ≠ i ∧ d.threads[j]? = some p ∧ step1 p d.heap = some (p', g) ∧
        p ≠ .diverge ∧ ∀ n k, p ≠ .lock n k := by
  cases q with
  | ret b => cases e; exact .inl rfl
  | unlock n k => exact .inr (.inl ⟨_, _, rfl⟩)
  | read n k => exact .inr (.inl ⟨_, _, rfl⟩)
  | write n f k => exact .inr (.inl ⟨_, _, rfl⟩)
  | upgrade n k => exact .inr (.inl ⟨_, _, rfl⟩)
  | alloc s k => exact sq.elim
  | panic m => cases e
  | diverge => cases e
  | lock n k =>
    cases hf : d.heap.held n with
    | false => exact .inr (.inl ⟨k, d.heap.setHeld n true, by simp only [step1, hf]; rfl⟩)
    | true =>
      obtain ⟨no, ⟨rn, -⟩ | ⟨sn, -⟩⟩ := sq
      · have : h.held n = true := (al.own.held n rn).symm.trans hf
        simp only [run, this] at e
        cases e
      · obtain ⟨j, ej⟩ := s.holder n sn hf
        have lt : j < d.threads.length := by rw [s.length]; exact (s.holds j n ej).2.2
        obtain ⟨p, g, -, -, -, sp⟩ := s.threads j _ (List.getElem?_eq_getElem lt)
        rw [ej] at sp
        obtain ⟨p', g', mv⟩ := sp.moves d.heap
        refine .inr (.inr ⟨n, k, j, _, p', g', sn, rfl, ?_, List.getElem?_eq_getElem lt, mv, fun e' => ?_, fun n' k' e' => ?_⟩)
        · rintro rfl; rw [no] at ej; cases ej
        · rw [e'] at sp; cases sp
        · rw [e'] at sp; cases sp.1

/-- when all threads have finished, no common node is locked -/
theorem Share.idle {os : Nat → Option NodeId} (s : Share R S B C Q c d os) (all : ∀ p ∈ d.threads, ∃ a, p = .ret a)
    (n : NodeId) (sn : S n) : d.heap.held n = false := by
  cases x : d.heap.held n
  · rfl
  · obtain ⟨j, ej⟩ := s.holder n sn x
    have lt : j < d.threads.length := by rw [s.length]; exact (s.holds j n ej).2.2
    obtain ⟨p, g, -, -, -, sp⟩ := s.threads j _ (List.getElem?_eq_getElem lt)
    obtain ⟨a, ea⟩ := all _ (List.getElem_mem lt)
    rw [ea, ej] at sp
    cases sp.1

/-- the state `d` with poisoned mutexes is like the state `e` without, except for the nodes of threads that have
panicked -/
structure Unwound (R : Nat → NodeId → Prop) (os : Nat → Option NodeId) (d : PConfig X α) (e : Config X α) : Prop where
  threads : d.threads = e.threads
  get : d.heap.get = e.heap.get
  dead : d.heap.dead = e.heap.dead
  next : d.heap.next = e.heap.next
  odd : ∀ n, d.heap.held n ≠ e.heap.held n ∨ d.poisoned n = true → ∃ j m, R j n ∧ e.threads[j]? = some (.panic m)
  owner : ∀ n i, d.owner n = some i → R i n ∨ os i = some n

/-- An execution with poisoned mutexes is one without. -/
theorem psteps_shared (b : Begin R S B C Q c) {d : PConfig X α} (st : PSteps (.init c) d) :
    ∃ e os, Steps c e ∧ Share R S B C Q c e os ∧ Unwound R os d e := by
  generalize e0 : PConfig.init c = c0 at st
  induction st with
  | refl =>
    subst e0
    exact ⟨c, _, .refl _, b.start, rfl, rfl, rfl, rfl, fun n x => x.elim (fun y => absurd rfl y) (fun y => by cases y),
      (fun _ _ x => by cases x)⟩
  | @tail d d' st s ih =>
    obtain ⟨e, os, se, sh, u⟩ := ih
    -- what a thread that has not panicked sees is the same
    have same : ∀ j n q, e.threads[j]? = some q → (∀ m, q ≠ .panic m) → R j n ∨ S n →
        d.heap.held n = e.heap.held n ∧ d.poisoned n = false := by
      intro j n q ej np hn
      refine Classical.byContradiction fun bad => ?_
      have : d.heap.held n ≠ e.heap.held n ∨ d.poisoned n = true := by
        by_cases x : d.heap.held n = e.heap.held n
        · refine .inr ?_
          cases y : d.poisoned n
          · exact absurd ⟨x, y⟩ bad
          · rfl
        · exact .inl x
      obtain ⟨k, m, rk, ek⟩ := u.odd n this
      rcases hn with hn | hn
      · by_cases jk : j = k
        · subst jk; rw [ej] at ek; cases ek; exact np m rfl
        · exact b.disjoint j k n jk hn rk
      · exact b.own k n rk hn
    cases s with
    | run j q q' h' hj hs ok =>
      have hj' : e.threads[j]? = some q := by rw [← u.threads]; exact hj
      have np : ∀ m, q ≠ .panic m := by rintro m rfl; cases hs
      obtain ⟨p, g, -, -, -, sq⟩ := sh.threads j q hj'
      -- the step without poison
      have key : ∃ g', step1 q e.heap = some (q', g') ∧ h'.get = g'.get ∧ h'.dead = g'.dead ∧ h'.next = g'.next ∧
          ∀ n, h'.held n ≠ g'.held n → d.heap.held n ≠ e.heap.held n := by
        cases q with
        | ret a => cases hs
        | panic m => cases hs
        | diverge => cases hs; exact ⟨_, rfl, u.get, u.dead, u.next, fun m ne => ne⟩
        | alloc s k => exact sq.elim
        | lock n k =>
          simp only [step1] at hs
          split at hs
          · cases hs
          · rename_i hf
            cases hs
            have sn : R j n ∨ S n := sq.2.imp And.left And.left
            refine ⟨e.heap.setHeld n true, ?_, u.get, u.dead, u.next, fun m ne => ?_⟩
            · simp only [step1, ← (same j n _ hj' np sn).1, hf]; rfl
            · simp only [Heap.setHeld] at ne
              split at ne
              · exact absurd rfl ne
              · exact ne
        | unlock n k =>
          cases hs
          refine ⟨_, rfl, u.get, u.dead, u.next, fun m ne => ?_⟩
          simp only [Heap.setHeld] at ne
          split at ne
          · exact absurd rfl ne
          · exact ne
        | read n k => cases hs; exact ⟨_, by simp only [step1, u.get], u.get, u.dead, u.next, fun m ne => ne⟩
        | write n f k =>
          cases hs
          exact ⟨_, rfl, by simp only [Heap.modify, u.get], u.dead, u.next, fun m ne => ne⟩
        | upgrade n k => cases hs; exact ⟨_, by simp only [step1, u.dead], u.get, u.dead, u.next, fun m ne => ne⟩
      obtain ⟨g', e1, k1, k2, k3, k4⟩ := key
      obtain ⟨os', sh', oth, me⟩ := sh.step b hj' e1
      have lt : j < e.threads.length := (List.getElem?_eq_some_iff.1 hj').1
      refine ⟨_, os', se.tail (.mk _ j q q' g' hj' e1), sh', by simp only [u.threads], k1, k2, k3, fun n x => ?_,
        fun n i x => ?_⟩
      · obtain ⟨k, m, rk, ek⟩ := u.odd n (x.imp_left (k4 n))
        refine ⟨k, m, rk, ?_⟩
        have jk : j ≠ k := by rintro rfl; rw [hj'] at ek; cases ek; exact np m rfl
        show (e.threads.set j q')[k]? = _
        rw [List.getElem?_set_ne jk]; exact ek
      · -- the holder of a common node after the step
        have hold : ∀ n, S n → g'.held n = true → (os j = some n ∨ e.heap.held n = false) → os' j = some n := by
          intro n sn hn x
          obtain ⟨k, ek⟩ := sh'.holder n sn hn
          by_cases kj : k = j
          · exact kj ▸ ek
          · rw [oth k kj] at ek
            rcases x with x | x
            · exact absurd (sh.one k j n ek x) kj
            · have := (sh.holds k n ek).2.1
              rw [x] at this; cases this
        have stay : d.owner n = some i → (i = j → os j = some n → g'.held n = true) → R i n ∨ os' i = some n := by
          intro x y
          refine (u.owner n i x).imp_right fun z => ?_
          by_cases ij : i = j
          · subst ij; exact hold n (sh.holds i n z).1 (y rfl z) (.inl z)
          · rw [oth i ij]; exact z
        have old : g' = e.heap ∨ (∃ n f, g' = e.heap.modify n f) → os j = some n → g'.held n = true := by
          intro x y
          have := (sh.holds j n y).2.1
          rcases x with rfl | ⟨m, f, rfl⟩ <;> exact this
        cases q with
        | ret a => cases hs
        | panic m => cases hs
        | diverge => cases e1; exact stay x fun _ => old (.inl rfl)
        | alloc s k => exact sq.elim
        | lock m k =>
          simp only [step1] at e1
          split at e1
          · cases e1
          · rename_i hf
            cases e1
            simp only [own] at x
            split at x
            · rename_i nm
              cases x; subst nm
              refine sq.2.imp And.left fun y => hold n y.1 (by simp [Heap.setHeld]) (.inr (by simpa using hf))
            · exact stay x fun _ y => by rw [sq.1] at y; cases y
        | unlock m k =>
          simp only [own] at x
          split at x
          · cases x
          · rename_i nm
            refine stay x fun _ y => ?_
            rw [y] at sq
            exact absurd sq.1.symm nm
        | read m k => cases e1; exact stay x fun _ => old (.inl rfl)
        | write m f k => cases e1; exact stay x fun _ => old (.inr ⟨_, _, rfl⟩)
        | upgrade m k => cases e1; exact stay x fun _ => old (.inl rfl)
    | poison j n k hj free bad =>
      have hj' : e.threads[j]? = some (.lock n k) := by rw [← u.threads]; exact hj
      obtain ⟨p, g, -, -, -, sq⟩ := sh.threads j _ hj'
      have := (same j n _ hj' (fun m e => by cases e) (sq.2.imp And.left And.left)).2
      rw [bad] at this; cases this
    | unwind j m n hj mine =>
      have hj' : e.threads[j]? = some (.panic m) := by rw [← u.threads]; exact hj
      obtain ⟨p, g, -, -, -, sq⟩ := sh.threads j _ hj'
      have rn : R j n := by
        refine (u.owner n j mine).resolve_right fun x => ?_
        rw [x] at sq; cases sq
      refine ⟨e, os, se, sh, u.threads, u.get, u.dead, u.next, fun n' x => ?_, fun n' i x => ?_⟩
      · by_cases nn : n' = n
        · subst nn; exact ⟨j, m, rn, hj'⟩
        · refine u.odd n' (x.imp (fun y => ?_) fun y => ?_)
          · simpa [Heap.setHeld, nn] using y
          · simpa [nn] using y
      · simp only at x
        split at x
        · cases x
        · exact u.owner n' i x

end

end K
