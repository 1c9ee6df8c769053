import Verif.Spec.Region
import Verif.Lemmas.Run
import Verif.Model.Poison
/-!
# Programs that stay in a region

`Stays R W C Q p`: `p` locks, unlocks, reads, writes and upgrades only nodes in `R`, provided that what it reads
satisfies `C`; it writes only what satisfies `C` again, creates no node and returns something in `Q`.
-/

set_option linter.unusedSectionVars false

namespace K
open Prog
variable {S α β γ δ ε : Type}

/-- see the file comment -/
def Stays (R W : NodeId → Prop) (C : S → Prop) (Q : α → Prop) : Prog S α → Prop
  | .ret a => Q a
  | .lock n k => R n ∧ Stays R W C Q k
  | .unlock n k => R n ∧ Stays R W C Q k
  | .read n k => R n ∧ ∀ s, C s → Stays R W C Q (k s)
  | .write n f k => R n ∧ (∀ s, C s → C (f s)) ∧ Stays R W C Q k
  | .upgrade n k => W n ∧ (R n → Stays R W C Q (k true)) ∧ Stays R W C Q (k false)
  | .alloc _ _ => False
  | .panic _ => True
  | .diverge => True

variable {R W : NodeId → Prop} {C : S → Prop}

theorem Stays.bind {Q : α → Prop} {Q' : β → Prop} {p : Prog S α} {f : α → Prog S β}
    (h : Stays R W C Q p) (hf : ∀ a, Q a → Stays R W C Q' (f a)) : Stays R W C Q' (p >>= f) := by
  show Stays R W C Q' (p.bind f)
  induction p with
  | ret a => exact hf a h
  | lock n k ih => exact ⟨h.1, ih h.2⟩
  | unlock n k ih => exact ⟨h.1, ih h.2⟩
  | read n k ih => exact ⟨h.1, fun s hs => ih s (h.2 s hs)⟩
  | write n f k ih => exact ⟨h.1, h.2.1, ih h.2.2⟩
  | upgrade n k ih => exact ⟨h.1, fun r => ih true (h.2.1 r), ih false h.2.2⟩
  | alloc s k ih => exact h.elim
  | panic m => trivial
  | diverge => trivial

theorem Stays.mono {Q Q' : α → Prop} {p : Prog S α} (h : Stays R W C Q p) (i : ∀ a, Q a → Q' a) :
    Stays R W C Q' p := by
  induction p with
  | ret a => exact i a h
  | lock n k ih => exact ⟨h.1, ih h.2⟩
  | unlock n k ih => exact ⟨h.1, ih h.2⟩
  | read n k ih => exact ⟨h.1, fun s hs => ih s (h.2 s hs)⟩
  | write n f k ih => exact ⟨h.1, h.2.1, ih h.2.2⟩
  | upgrade n k ih => exact ⟨h.1, fun r => ih true (h.2.1 r), ih false h.2.2⟩
  | alloc s k ih => exact h.elim
  | panic m => trivial
  | diverge => trivial

theorem Stays.any {Q : α → Prop} {p : Prog S α} (h : Stays R W C Q p) : Stays R W C (fun _ => True) p :=
  h.mono fun _ _ => trivial

/-! ## What another thread sees of a step, and what a step sees of other threads -/

theorem Agree.refl (R : NodeId → Prop) (h : Heap S) : Agree R h h :=
  ⟨fun _ _ => rfl, fun _ _ => rfl, fun _ _ => rfl⟩
theorem Agree.trans {h g k : Heap S} (a : Agree R h g) (b : Agree R g k) : Agree R h k :=
  ⟨fun n hn => (b.get n hn).trans (a.get n hn), fun n hn => (b.held n hn).trans (a.held n hn),
    fun n hn => (b.dead n hn).trans (a.dead n hn)⟩
theorem Agree.symm {h g : Heap S} (a : Agree R h g) : Agree R g h :=
  ⟨fun n hn => (a.get n hn).symm, fun n hn => (a.held n hn).symm, fun n hn => (a.dead n hn).symm⟩
theorem Agree.mono {R' : NodeId → Prop} {h g : Heap S} (a : Agree R h g) (i : ∀ n, R' n → R n) :
    Agree R' h g :=
  ⟨fun n hn => a.get n (i n hn), fun n hn => a.held n (i n hn), fun n hn => a.dead n (i n hn)⟩

theorem Agree.setHeld {h g : Heap S} (a : Agree R h g) (n : NodeId) (b : Bool) :
    Agree R (h.setHeld n b) (g.setHeld n b) :=
  ⟨a.get, fun m hm => by simp only [Heap.held_setHeld, a.held m hm], a.dead⟩
theorem Agree.modify {h g : Heap S} (a : Agree R h g) (n : NodeId) (f : S → S) :
    Agree R (h.modify n f) (g.modify n f) :=
  ⟨fun m hm => by simp only [Heap.get_modify, a.get m hm], a.held, a.dead⟩

theorem agree_setHeld {n : NodeId} (h : Heap S) (b : Bool) (hn : ¬ R n) : Agree R h (h.setHeld n b) :=
  ⟨fun _ _ => rfl, fun m hm => by
    have ne : m ≠ n := fun e => hn (e ▸ hm)
    simp only [Heap.held_setHeld, if_neg ne], fun _ _ => rfl⟩
theorem agree_modify {n : NodeId} (h : Heap S) (f : S → S) (hn : ¬ R n) : Agree R h (h.modify n f) :=
  ⟨fun m hm => by
    have ne : m ≠ n := fun e => hn (e ▸ hm)
    simp only [Heap.get_modify, if_neg ne], fun _ _ => rfl, fun _ _ => rfl⟩

/-- A step of a program that stays in `R` can be made in the same way in every heap with the same nodes in
`R`; it changes nothing outside `R`, and the program goes on staying in `R`. -/
theorem Stays.step {Q : α → Prop} {p p' : Prog S α} {h h' : Heap S} (sp : Stays R R C Q p)
    (i : ∀ n, R n → C (h.get n)) (e : step1 p h = some (p', h')) :
    Stays R R C Q p' ∧ (∀ n, R n → C (h'.get n)) ∧ Agree (fun n => ¬ R n) h h' ∧ h'.next = h.next ∧
      ∀ g, Agree R h g → ∃ g', step1 p g = some (p', g') ∧ Agree R h' g' := by
  cases p with
  | ret a => cases e
  | lock n k =>
    simp only [step1] at e
    split at e
    · cases e
    · rename_i nh
      cases e
      refine ⟨sp.2, i, agree_setHeld h true (fun x => x sp.1), rfl, fun g a => ⟨g.setHeld n true, ?_, a.setHeld n true⟩⟩
      simp only [step1, a.held n sp.1, nh]; rfl
  | unlock n k =>
    cases e
    exact ⟨sp.2, i, agree_setHeld h false (fun x => x sp.1), rfl, fun g a => ⟨g.setHeld n false, rfl, a.setHeld n false⟩⟩
  | read n k =>
    cases e
    exact ⟨sp.2 _ (i n sp.1), i, .refl _ _, rfl, fun g a => ⟨g, by simp only [step1, a.get n sp.1], a⟩⟩
  | write n f k =>
    cases e
    refine ⟨sp.2.2, fun m hm => ?_, agree_modify h f (fun x => x sp.1), rfl, fun g a => ⟨g.modify n f, rfl, a.modify n f⟩⟩
    simp only [Heap.get_modify]
    split
    · exact sp.2.1 _ (i m hm)
    · exact i m hm
  | upgrade n k =>
    cases e
    refine ⟨?_, i, .refl _ _, rfl, fun g a => ⟨g, by simp only [step1, a.dead n sp.1], a⟩⟩
    cases h.dead n
    · exact sp.2.1 sp.1
    · exact sp.2.2
  | alloc s k => exact sp.elim
  | panic m => cases e
  | diverge => cases e; exact ⟨trivial, i, .refl _ _, rfl, fun g a => ⟨g, rfl, a⟩⟩

theorem run_step1 {p p' : Prog S α} {h h' : Heap S} (e : step1 p h = some (p', h')) :
    run p h = run p' h' := by
  cases p with
  | ret a => cases e
  | lock n k =>
    simp only [step1] at e
    split at e
    · cases e
    · rename_i nh; cases e; simp only [run, nh]; rfl
  | unlock n k => cases e; rfl
  | read n k => cases e; rfl
  | write n f k => cases e; rfl
  | upgrade n k => cases e; rfl
  | alloc s k => cases e; rfl
  | panic m => cases e
  | diverge => cases e; rfl

/-- **Threads in separate regions.**  Whatever the threads have done together, each thread is where it would
be if it had run alone, and the nodes of its region are as if it had run alone. -/
theorem steps_regions {R : Nat → NodeId → Prop} {C : Nat → S → Prop} {Q : Nat → α → Prop} {c d : Config S α}
    (sep : ∀ i j n, i ≠ j → R i n → ¬ R j n)
    (sp : ∀ i p, c.threads[i]? = some p → Stays (R i) (R i) (C i) (Q i) p)
    (inv : ∀ i n, R i n → C i (c.heap.get n)) (st : Steps c d) :
    (∀ i p', d.threads[i]? = some p' → ∃ p h, c.threads[i]? = some p ∧ run p c.heap = run p' h ∧
        Agree (R i) h d.heap ∧ Stays (R i) (R i) (C i) (Q i) p') ∧
      (∀ i n, R i n → C i (d.heap.get n)) ∧
      Agree (fun n => ∀ i, ¬ R i n) c.heap d.heap ∧ d.heap.next = c.heap.next ∧
      d.threads.length = c.threads.length := by
  induction st with
  | refl => exact ⟨fun i p' e => ⟨p', _, e, rfl, .refl _ _, sp i p' e⟩, inv, .refl _ _, rfl, rfl⟩
  | tail st s ih =>
    obtain ⟨ih, inv1, out, nx, len⟩ := ih
    cases s with
    | mk j q q' h' hj hs =>
      obtain ⟨p, hp, ej, er, ag, sq⟩ := ih j q hj
      obtain ⟨sq', inv', fr, nx', mv⟩ := sq.step (inv1 j) hs
      refine ⟨fun i p' e => ?_, fun i n hn => ?_, ?_, nx'.trans nx, by simpa using len⟩
      · by_cases ij : i = j
        · subst ij
          obtain rfl : p' = q' := by
            have lt : i < _ := (List.getElem?_eq_some_iff.1 hj).1
            simp [lt] at e; exact e.symm
          obtain ⟨g', e1, a1⟩ := mv hp ag.symm
          exact ⟨p, g', ej, er.trans (run_step1 e1), a1.symm, sq'⟩
        · rw [List.getElem?_set_ne (Ne.symm ij)] at e
          obtain ⟨p, g, e1, e2, a, s1⟩ := ih i p' e
          exact ⟨p, g, e1, e2, a.trans (fr.mono fun n hn => sep i j n ij hn), s1⟩
      · by_cases ij : i = j
        · subst ij; exact inv' n hn
        · rw [fr.get n (sep i j n ij hn)]; exact inv1 i n hn
      · exact out.trans (fr.mono fun n hn => hn j)

/-- The same with poisoned mutexes: unless a thread itself panics, no mutex of its region is poisoned. -/
theorem psteps_regions {R : Nat → NodeId → Prop} {C : Nat → S → Prop} {Q : Nat → α → Prop} {c : Config S α}
    {d : PConfig S α} (sep : ∀ i j n, i ≠ j → R i n → ¬ R j n)
    (sp : ∀ i p, c.threads[i]? = some p → Stays (R i) (R i) (C i) (Q i) p)
    (inv : ∀ i n, R i n → C i (c.heap.get n)) (st : PSteps (.init c) d) :
    (∀ i p', d.threads[i]? = some p' → ∃ p h, c.threads[i]? = some p ∧ run p c.heap = run p' h ∧
        Stays (R i) (R i) (C i) (Q i) p' ∧
        ((Agree (R i) h d.heap ∧ ∀ n, R i n → d.poisoned n = false) ∨ ∃ m, p' = .panic m)) ∧
      (∀ i n, R i n → C i (d.heap.get n)) ∧ (∀ n i, d.owner n = some i → R i n) ∧
      (∀ n, (∀ i, ¬ R i n) → d.poisoned n = false) ∧
      Agree (fun n => ∀ i, ¬ R i n) c.heap d.heap ∧ d.heap.next = c.heap.next ∧
      d.threads.length = c.threads.length := by
  generalize e0 : PConfig.init c = c0 at st
  induction st with
  | refl =>
    subst e0
    exact ⟨fun i p' e => ⟨p', _, e, rfl, sp i p' e, .inl ⟨.refl _ _, fun _ _ => rfl⟩⟩, inv,
      (fun _ _ e => by cases e), fun _ _ => rfl, .refl _ _, rfl, rfl⟩
  | tail st s ih =>
    obtain ⟨ih, inv1, ow, po, out, nx, len⟩ := ih
    cases s with
    | run j q q' h' hj hs ok =>
      obtain ⟨p, hp, ej, er, sq, ag⟩ := ih j q hj
      have ag := ag.resolve_right (by rintro ⟨m, rfl⟩; cases hs)
      obtain ⟨sq', inv', fr, nx', mv⟩ := sq.step (inv1 j) hs
      refine ⟨fun i p' e => ?_, fun i n hn => ?_, fun n i e => ?_, po, ?_, nx'.trans nx, by simpa using len⟩
      · by_cases ij : i = j
        · subst ij
          obtain rfl : p' = q' := by
            have lt : i < _ := (List.getElem?_eq_some_iff.1 hj).1
            simp [lt] at e; exact e.symm
          obtain ⟨g', e1, a1⟩ := mv hp ag.1.symm
          exact ⟨p, g', ej, er.trans (run_step1 e1), sq', .inl ⟨a1.symm, ag.2⟩⟩
        · rw [List.getElem?_set_ne (Ne.symm ij)] at e
          obtain ⟨p, g, e1, e2, s1, a⟩ := ih i p' e
          exact ⟨p, g, e1, e2, s1, a.imp_left fun a =>
            ⟨a.1.trans (fr.mono fun n hn => sep i j n ij hn), a.2⟩⟩
      · by_cases ij : i = j
        · subst ij; exact inv' n hn
        · rw [fr.get n (sep i j n ij hn)]; exact inv1 i n hn
      · cases q with
        | lock m k =>
          simp only [own] at e
          split at e
          · rename_i nm; cases e; subst nm; exact sq.1
          · exact ow n i e
        | unlock m k =>
          simp only [own] at e
          split at e
          · cases e
          · exact ow n i e
        | ret a => exact ow n i e
        | read m k => exact ow n i e
        | write m f k => exact ow n i e
        | upgrade m k => exact ow n i e
        | alloc s k => exact ow n i e
        | panic m => exact ow n i e
        | diverge => exact ow n i e
      · exact out.trans (fr.mono fun n hn => hn j)
    | poison j n k hj free bad =>
      obtain ⟨p, hp, ej, er, sq, ag⟩ := ih j _ hj
      rcases ag with x | ⟨m, e⟩
      · rw [x.2 n sq.1] at bad; cases bad
      · cases e
    | unwind j m n hj mine =>
      have hn := ow n j mine
      have fr : ∀ h : Heap S, Agree (fun n => ¬ R j n) h (h.setHeld n false) := fun h =>
        agree_setHeld (R := fun n => ¬ R j n) h false (fun x => x hn)
      refine ⟨fun i p' e => ?_, inv1, fun n' i e => ?_, fun n' h => ?_, out.trans ((fr _).mono fun n hn => hn j), nx, len⟩
      · by_cases ij : i = j
        · subst ij
          obtain ⟨p, g, e1, e2, s1, a⟩ := ih i p' e
          rw [hj] at e; cases e
          exact ⟨p, g, e1, e2, s1, .inr ⟨m, rfl⟩⟩
        · obtain ⟨p, g, e1, e2, s1, a⟩ := ih i p' e
          refine ⟨p, g, e1, e2, s1, a.imp_left fun a =>
            ⟨a.1.trans ((fr _).mono fun n hn => sep i j n ij hn), fun n' hn' => ?_⟩⟩
          have ne : n' ≠ n := fun e => sep i j n ij (e ▸ hn') hn
          simp only [if_neg ne]; exact a.2 n' hn'
      · simp only at e
        split at e
        · cases e
        · exact ow n' i e
      · have ne : n' ≠ n := fun e => h j (e ▸ hn)
        simp only [if_neg ne]; exact po n' h

/-- the same for a program that runs alone: its outcome depends only on its region -/
theorem Stays.run_agree {Q : α → Prop} {p : Prog S α} {h g : Heap S} (sp : Stays R R C Q p)
    (i : ∀ n, R n → C (h.get n)) (a : Agree R h g) :
    (∀ r h', run p h = .ok r h' → ∃ g', run p g = .ok r g' ∧ Agree R h' g') ∧
      ∀ r h', run p h = .ok r h' → Q r ∧ (∀ n, R n → C (h'.get n)) ∧ Agree (fun n => ¬ R n) h h' ∧
        h'.next = h.next := by
  induction p generalizing h g with
  | ret x =>
    refine ⟨fun r h' e => ?_, fun r h' e => ?_⟩
    · cases e; exact ⟨g, rfl, a⟩
    · cases e; exact ⟨sp, i, .refl _ _, rfl⟩
  | lock n k ih =>
    simp only [run, a.held n sp.1]
    cases nh : h.held n
    · obtain ⟨x, y⟩ := ih (h := h.setHeld n true) (g := g.setHeld n true) sp.2 i (a.setHeld n true)
      refine ⟨x, fun r h' e => ?_⟩
      obtain ⟨q, inv, ag, nx⟩ := y r h' e
      exact ⟨q, inv, (agree_setHeld h true (fun x => x sp.1)).trans ag, nx⟩
    · simp
  | unlock n k ih =>
    obtain ⟨x, y⟩ := ih (h := h.setHeld n false) (g := g.setHeld n false) sp.2 i (a.setHeld n false)
    refine ⟨x, fun r h' e => ?_⟩
    obtain ⟨q, inv, ag, nx⟩ := y r h' e
    exact ⟨q, inv, (agree_setHeld h false (fun x => x sp.1)).trans ag, nx⟩
  | read n k ih =>
    simp only [run, a.get n sp.1]
    exact ih _ (sp.2 _ (i n sp.1)) i a
  | write n f k ih =>
    have inv' : ∀ m, R m → C ((h.modify n f).get m) := by
      intro m hm
      simp only [Heap.get_modify]
      split
      · exact sp.2.1 _ (i m hm)
      · exact i m hm
    obtain ⟨x, y⟩ := ih (h := h.modify n f) (g := g.modify n f) sp.2.2 inv' (a.modify n f)
    refine ⟨x, fun r h' e => ?_⟩
    obtain ⟨q, inv, ag, nx⟩ := y r h' e
    exact ⟨q, inv, (agree_modify h f (fun x => x sp.1)).trans ag, nx⟩
  | upgrade n k ih =>
    simp only [run, a.dead n sp.1]
    refine ih _ ?_ i a
    cases h.dead n
    · exact sp.2.1 sp.1
    · exact sp.2.2
  | alloc s k ih => exact sp.elim
  | panic m => exact ⟨(fun r h' e => by cases e), (fun r h' e => by cases e)⟩
  | diverge => exact ⟨(fun r h' e => by cases e), (fun r h' e => by cases e)⟩

/-! ## combinators -/

theorem stays_pure {Q : α → Prop} {a : α} (h : Q a) : Stays R W C Q (pure a : Prog S α) := h
theorem stays_doLock {n : NodeId} (h : R n) : Stays R W C (fun _ => True) (doLock n) := ⟨h, trivial⟩
theorem stays_doUnlock {n : NodeId} (h : R n) : Stays R W C (fun _ => True) (doUnlock n) := ⟨h, trivial⟩
theorem stays_doRead {n : NodeId} (h : R n) : Stays R W C C (doRead n) := ⟨h, fun _ hs => hs⟩
theorem stays_doWrite {n : NodeId} {f : S → S} (h : R n) (hf : ∀ s, C s → C (f s)) :
    Stays R W C (fun _ => True) (doWrite n f) := ⟨h, hf, trivial⟩
theorem stays_doUpgrade {n : NodeId} (h : W n) : Stays R W C (fun b => b = true → R n) (doUpgrade n) :=
  ⟨h, fun r _ => r, fun e => by cases e⟩
theorem stays_peek {n : NodeId} (h : R n) : Stays R W C C (peek n) :=
  (stays_doLock h).bind fun _ _ => (stays_doRead h).bind fun _ hs => (stays_doUnlock h).bind fun _ _ => hs
theorem stays_poke {n : NodeId} {f : S → S} (h : R n) (hf : ∀ s, C s → C (f s)) :
    Stays R W C (fun _ => True) (poke n f) :=
  (stays_doLock h).bind fun _ _ => (stays_doWrite h hf).bind fun _ _ => stays_doUnlock h
theorem stays_expect {Q : α → Prop} {o : Option α} {m : String} (h : ∀ a, o = some a → Q a) :
    Stays R W C Q (expect o m) := by
  cases o with
  | none => trivial
  | some a => exact h a rfl
theorem stays_expect' {o : Option α} {m : String} : Stays R W C (fun _ => True) (expect o m) :=
  stays_expect fun _ _ => trivial
theorem stays_ofExcept {o : Except String α} : Stays R W C (fun _ => True) (ofExcept o) := by
  cases o <;> trivial

theorem stays_forEach {xs : List γ} {f : γ → Prog S Unit}
    (h : ∀ x ∈ xs, Stays R W C (fun _ => True) (f x)) : Stays R W C (fun _ => True) (forEach xs f) := by
  induction xs with
  | nil => trivial
  | cons x xs ih =>
    exact (h x (by simp)).bind fun _ _ => ih fun y hy => h y (by simp [hy])
theorem stays_mapList {Q : δ → Prop} {xs : List γ} {f : γ → Prog S δ}
    (h : ∀ x ∈ xs, Stays R W C Q (f x)) : Stays R W C (fun l => ∀ y ∈ l, Q y) (mapList xs f) := by
  induction xs with
  | nil => exact fun y hy => by cases hy
  | cons x xs ih =>
    refine (h x (by simp)).bind fun y hy => ?_
    refine (ih fun z hz => h z (by simp [hz])).bind fun ys hys => ?_
    exact stays_pure (by simpa using ⟨hy, hys⟩)
theorem stays_filterList {xs : List γ} {f : γ → Prog S Bool}
    (h : ∀ x ∈ xs, Stays R W C (fun _ => True) (f x)) :
    Stays R W C (fun l => ∀ y ∈ l, y ∈ xs) (filterList xs f) := by
  induction xs with
  | nil => exact fun y hy => by cases hy
  | cons x xs ih =>
    refine (h x (by simp)).bind fun y hy => ?_
    refine (ih fun z hz => h z (by simp [hz])).bind fun ys hys => ?_
    refine stays_pure ?_
    intro z hz
    split at hz
    · rcases List.mem_cons.1 hz with h | h
      · simp [h]
      · simp [hys z h]
    · simp [hys z hz]
theorem stays_tryEach {xs : List γ} {f : γ → Prog S (Except ε Unit)}
    (h : ∀ x ∈ xs, Stays R W C (fun _ => True) (f x)) : Stays R W C (fun _ => True) (tryEach xs f) := by
  induction xs with
  | nil => trivial
  | cons x xs ih =>
    refine (h x (by simp)).bind fun r _ => ?_
    cases r with
    | error e => exact stays_pure trivial
    | ok u => exact ih fun y hy => h y (by simp [hy])
theorem stays_findFirst {xs : List γ} {f : γ → Prog S Bool}
    (h : ∀ x ∈ xs, Stays R W C (fun _ => True) (f x)) :
    Stays R W C (fun o => ∀ y, o = some y → y ∈ xs) (findFirst xs f) := by
  induction xs with
  | nil => exact fun y hy => by cases hy
  | cons x xs ih =>
    refine (h x (by simp)).bind fun b _ => ?_
    cases b with
    | true => exact stays_pure (by simp)
    | false =>
      exact (ih fun y hy => h y (by simp [hy])).mono fun o ho y hy => by simp [ho y hy]

/-! ## the methods -/
variable {T : Type} [Scalar T]

/-- strong links lead into `R`, weak links into `W` -/
structure NodeImpl.Links {T : Type} (R W : NodeId → Prop) (s : NodeImpl T) : Prop where
  parent : ∀ p, s.parent = some p → W p
  children : ∀ c ∈ s.children, R c
  mimicParent : ∀ p, s.mimicParent = some p → W p
  mimicChildren : ∀ c ∈ s.mimicChildren, R c

local notation "St" R ", " W => Stays R W (NodeImpl.Links R W)

theorem NodeImpl.Links.joint {s : NodeImpl T} (l : s.Links R W) (j : Joint T) :
    ({ s with joint := j } : NodeImpl T).Links R W := ⟨l.1, l.2, l.3, l.4⟩
theorem NodeImpl.Links.setLink {s : NodeImpl T} (l : s.Links R W) (x : Option (Link T)) :
    ({ s with link := x } : NodeImpl T).Links R W := ⟨l.1, l.2, l.3, l.4⟩

theorem stays_Node_joint {n : NodeId} (h : R n) : (St R, W) (fun _ => True) (Node.joint n : KProg T _) :=
  (stays_peek h).bind fun _ _ => stays_pure trivial
theorem stays_Node_jointPosition {n : NodeId} (h : R n) :
    (St R, W) (fun _ => True) (Node.jointPosition n : KProg T _) :=
  (stays_peek h).bind fun _ _ => stays_pure trivial
theorem stays_Node_children {n : NodeId} (h : R n) :
    (St R, W) (fun l => ∀ c ∈ l, R c) (Node.children n : KProg T _) :=
  (stays_peek h).bind fun _ hs => stays_pure hs.children
theorem stays_Node_isRoot {n : NodeId} (h : R n) : (St R, W) (fun _ => True) (Node.isRoot n : KProg T _) :=
  (stays_peek h).bind fun _ _ => stays_pure trivial
theorem stays_Node_isEnd {n : NodeId} (h : R n) : (St R, W) (fun _ => True) (Node.isEnd n : KProg T _) :=
  (stays_peek h).bind fun _ _ => stays_pure trivial
theorem stays_Node_link {n : NodeId} (h : R n) : (St R, W) (fun _ => True) (Node.link n : KProg T _) :=
  (stays_peek h).bind fun _ _ => stays_pure trivial
theorem stays_Node_origin {n : NodeId} (h : R n) : (St R, W) (fun _ => True) (Node.origin n : KProg T _) :=
  (stays_Node_joint h).bind fun _ _ => stays_pure trivial
theorem stays_Node_worldTransform {n : NodeId} (h : R n) :
    (St R, W) (fun _ => True) (Node.worldTransform n : KProg T _) :=
  (stays_Node_joint h).bind fun _ _ => stays_pure trivial
theorem stays_Node_worldVelocity {n : NodeId} (h : R n) :
    (St R, W) (fun _ => True) (Node.worldVelocity n : KProg T _) :=
  (stays_Node_joint h).bind fun _ _ => stays_pure trivial
theorem stays_Node_parent {n : NodeId} (h : R n) :
    (St R, W) (fun o => ∀ p, o = some p → R p) (Node.parent n : KProg T _) := by
  refine (stays_doLock h).bind fun _ _ => (stays_doRead h).bind fun s hs => ?_
  cases e : s.parent with
  | none => exact (stays_doUnlock h).bind fun _ _ => stays_pure (by simp)
  | some w =>
    have hw := hs.parent w e
    refine (stays_doUpgrade hw).bind fun b hb => (stays_doUnlock h).bind fun _ _ => stays_pure ?_
    intro p hp
    split at hp
    · cases hp; rename_i x; exact hb x
    · cases hp
theorem stays_Node_mimicParent {n : NodeId} (h : R n) :
    (St R, W) (fun o => ∀ p, o = some p → R p) (Node.mimicParent n : KProg T _) := by
  refine (stays_doLock h).bind fun _ _ => (stays_doRead h).bind fun s hs => ?_
  cases e : s.mimicParent with
  | none => exact (stays_doUnlock h).bind fun _ _ => stays_pure (by simp)
  | some w =>
    have hw := hs.mimicParent w e
    refine (stays_doUpgrade hw).bind fun b hb => (stays_doUnlock h).bind fun _ _ => stays_pure ?_
    intro p hp
    split at hp
    · cases hp; rename_i x; exact hb x
    · cases hp
theorem stays_Node_parentWorldTransform {n : NodeId} (h : R n) :
    (St R, W) (fun _ => True) (Node.parentWorldTransform n : KProg T _) := by
  refine (stays_Node_parent h).bind fun o ho => ?_
  cases o with
  | none => trivial
  | some p => exact stays_Node_worldTransform (ho p rfl)
theorem stays_Node_parentWorldVelocity {n : NodeId} (h : R n) :
    (St R, W) (fun _ => True) (Node.parentWorldVelocity n : KProg T _) := by
  refine (stays_Node_parent h).bind fun o ho => ?_
  cases o with
  | none => trivial
  | some p => exact stays_Node_worldVelocity (ho p rfl)

theorem stays_Node_setParent (rw : ∀ n, R n → W n) {n p : NodeId} (h : R n) (hp : R p) :
    (St R, W) (fun _ => True) (Node.setParent n p : KProg T _) :=
  (stays_poke h fun s hs => ⟨fun q e => by cases e; exact rw _ hp, hs.2, hs.3, hs.4⟩).bind fun _ _ =>
    stays_poke hp fun s hs => ⟨hs.1, fun c hc => by
      rcases List.mem_append.1 hc with x | x
      · exact hs.2 c x
      · rw [List.mem_singleton.1 x]; exact h, hs.3, hs.4⟩
theorem stays_Node_removeParent {n p : NodeId} (h : R n) (hp : R p) :
    (St R, W) (fun _ => True) (Node.removeParent n p : KProg T _) :=
  (stays_poke h fun s hs => ⟨fun q e => (by cases e), hs.2, hs.3, hs.4⟩).bind fun _ _ =>
    stays_poke hp fun s hs => ⟨hs.1, fun c hc => hs.2 c (List.mem_filter.1 hc).1, hs.3, hs.4⟩
theorem stays_Node_setMimicParent (rw : ∀ n, R n → W n) {n p : NodeId} (m : Mimic T) (h : R n) (hp : R p) :
    (St R, W) (fun _ => True) (Node.setMimicParent n p m : KProg T _) :=
  (stays_poke h fun s hs => ⟨hs.1, hs.2, fun q e => by cases e; exact rw _ hp, hs.4⟩).bind fun _ _ =>
    (stays_poke hp fun s hs => ⟨hs.1, hs.2, hs.3, fun c hc => by
      rcases List.mem_append.1 hc with x | x
      · exact hs.4 c x
      · rw [List.mem_singleton.1 x]; exact h⟩).bind fun _ _ =>
    stays_poke h fun s hs => ⟨hs.1, hs.2, hs.3, hs.4⟩

theorem stays_Node_setJointPosition {n : NodeId} (x : T) (h : R n) :
    (St R, W) (fun _ => True) (Node.setJointPosition n x) := by
  refine (stays_doLock h).bind fun _ _ => (stays_doRead h).bind fun s hs => ?_
  split
  · exact (stays_doUnlock h).bind fun _ _ => trivial
  · refine (stays_doWrite h fun s hs => hs.joint _).bind fun _ _ => ?_
    split
    · exact (stays_doUnlock h).bind fun _ _ => trivial
    · refine (stays_tryEach fun c hc => ?_).bind fun _ _ => (stays_doUnlock h).bind fun _ _ => trivial
      have hc := hs.mimicChildren c hc
      refine (stays_doLock hc).bind fun _ _ => (stays_doRead hc).bind fun sc _ => ?_
      split
      · exact (stays_doWrite hc fun s' hs' => hs'.joint _).bind fun _ _ =>
          (stays_doUnlock hc).bind fun _ _ => trivial
      · exact (stays_Node_joint h).bind fun _ _ => (stays_Node_joint hc).bind fun _ _ =>
          (stays_doUnlock hc).bind fun _ _ => trivial

theorem stays_ancestors (fuel : Nat) (o : Option NodeId) (ho : ∀ n, o = some n → R n) :
    (St R, W) (fun l => ∀ n ∈ l, R n) (ancestors fuel o : KProg T _) := by
  induction fuel generalizing o with
  | zero =>
    cases o with
    | none => exact fun n hn => by cases hn
    | some n => trivial
  | succ k ih =>
    cases o with
    | none => exact fun n hn => by cases hn
    | some n =>
      refine (stays_Node_parent (ho n rfl)).bind fun p hp => (ih p hp).bind fun l hl => ?_
      exact stays_pure (by simpa using ⟨ho n rfl, hl⟩)
theorem stays_ancestorsUntil (stop : NodeId) (fuel : Nat) (o : Option NodeId) (ho : ∀ n, o = some n → R n) :
    (St R, W) (fun l => ∀ n ∈ l, R n) (ancestorsUntil stop fuel o : KProg T _) := by
  induction fuel generalizing o with
  | zero =>
    cases o with
    | none => exact fun n hn => by cases hn
    | some n => trivial
  | succ k ih =>
    cases o with
    | none => exact fun n hn => by cases hn
    | some n =>
      refine (stays_Node_parent (ho n rfl)).bind fun p hp => ?_
      split
      · exact stays_pure (by simpa using ho n rfl)
      · exact (ih p hp).bind fun l hl => stays_pure (by simpa using ⟨ho n rfl, hl⟩)
theorem stays_descendants (fuel : Nat) (st : List NodeId) (hst : ∀ n ∈ st, R n) :
    (St R, W) (fun l => ∀ n ∈ l, R n) (descendants fuel st : KProg T _) := by
  induction fuel generalizing st with
  | zero =>
    cases st with
    | nil => exact fun n hn => by cases hn
    | cons n st => trivial
  | succ k ih =>
    cases st with
    | nil => exact fun n hn => by cases hn
    | cons n st =>
      refine (stays_Node_children (hst n (by simp))).bind fun cs hcs => (ih _ ?_).bind fun l hl => ?_
      · intro m hm
        rcases List.mem_append.1 hm with x | x
        · exact hcs m (List.mem_reverse.1 x)
        · exact hst m (by simp [x])
      · exact stays_pure (by simpa using ⟨hst n (by simp), hl⟩)

namespace Chain
theorem stays_fromNodes {ns : List NodeId} (h : ∀ n ∈ ns, R n) :
    (St R, W) (Chain.In R) (fromNodes ns : KProg T _) := by
  refine (stays_filterList fun n hn => ?_).bind fun l hl => stays_pure ⟨h, fun n hn => h n (hl n hn)⟩
  exact (stays_Node_joint (h n hn)).bind fun _ _ => trivial
theorem stays_fromRoot (fuel : Nat) {n : NodeId} (h : R n) :
    (St R, W) (Chain.In R) (fromRoot fuel n : KProg T _) :=
  (stays_descendants _ _ (by simpa using h)).bind fun _ hl => stays_fromNodes hl
theorem stays_fromEnd (fuel : Nat) {n : NodeId} (h : R n) :
    (St R, W) (Chain.In R) (fromEnd fuel n : KProg T _) :=
  (stays_ancestors _ _ (by simpa using h)).bind fun _ hl => stays_fromNodes (by simpa using hl)
theorem stays_fromEndToRoot (fuel : Nat) {n : NodeId} (r : NodeId) (h : R n) :
    (St R, W) (Chain.In R) (fromEndToRoot fuel n r : KProg T _) :=
  (stays_ancestorsUntil _ _ _ (by simpa using h)).bind fun _ hl => stays_fromNodes (by simpa using hl)

variable {c : Chain}

theorem stays_setOrigin (h : c.In R) (t : Iso T) : (St R, W) (fun _ => True) (c.setOrigin t) := by
  unfold setOrigin; split
  · trivial
  · rename_i e; exact stays_poke (h.nodes _ (by simp [e])) fun s hs => hs.joint _
theorem stays_origin (h : c.In R) : (St R, W) (fun _ => True) (c.origin : KProg T _) := by
  unfold origin; split
  · trivial
  · rename_i e; exact stays_Node_origin (h.nodes _ (by simp [e]))
theorem stays_iterJoints (h : c.In R) : (St R, W) (fun _ => True) (c.iterJoints : KProg T _) :=
  (stays_mapList fun n hn => stays_Node_joint (h.movable n hn)).any
theorem stays_iterLinks (h : c.In R) : (St R, W) (fun _ => True) (c.iterLinks : KProg T _) := by
  refine (stays_mapList (Q := fun _ => True) fun n hn => ?_).bind fun _ _ => trivial
  have hn := h.nodes n hn
  refine (stays_Node_link hn).bind fun o _ => ?_
  split
  · exact (stays_doLock hn).bind fun _ _ => (stays_doRead hn).bind fun _ _ =>
      stays_expect'.bind fun _ _ => (stays_doUnlock hn).bind fun _ _ => trivial
  · trivial
theorem stays_find (h : c.In R) (s : String) :
    (St R, W) (fun o => ∀ n, o = some n → R n) (c.find s : KProg T _) :=
  Stays.mono (stays_findFirst fun n hn => Stays.bind (stays_Node_joint (h.nodes n hn)) fun _ _ => stays_pure trivial)
    fun o ho n e => h.nodes n (ho n e)
theorem stays_jointPositions (h : c.In R) : (St R, W) (fun _ => True) (c.jointPositions : KProg T _) := by
  refine (stays_mapList (Q := fun _ => True) fun n hn => ?_).any
  have hn := h.movable n hn
  exact (stays_doLock hn).bind fun _ _ => (stays_doRead hn).bind fun _ _ =>
    stays_expect'.bind fun _ _ => (stays_doUnlock hn).bind fun _ _ => trivial
theorem stays_setJointPositions (h : c.In R) (xs : List T) :
    (St R, W) (fun _ => True) (c.setJointPositions xs) := by
  unfold setJointPositions; split
  · trivial
  · exact stays_tryEach fun jp hjp => stays_Node_setJointPosition _ (h.movable _ (List.of_mem_zip hjp).1)
theorem stays_setJointPositionsClamped (h : c.In R) (xs : List T) :
    (St R, W) (fun _ => True) (c.setJointPositionsClamped xs) :=
  stays_forEach fun jp hjp => stays_poke (h.movable _ (List.of_mem_zip hjp).1) fun s hs => hs.joint _
theorem stays_setJointPositionsUnchecked (h : c.In R) (xs : List T) :
    (St R, W) (fun _ => True) (c.setJointPositionsUnchecked xs) :=
  stays_forEach fun jp hjp => stays_poke (h.movable _ (List.of_mem_zip hjp).1) fun s hs => hs.joint _
theorem stays_updateTransforms (h : c.In R) : (St R, W) (fun _ => True) (c.updateTransforms : KProg T _) := by
  refine (stays_mapList (Q := fun _ => True) fun n hn => ?_).any
  have hn := h.nodes n hn
  refine (stays_Node_parentWorldTransform hn).bind fun _ _ => ?_
  refine stays_expect'.bind fun t _ => (stays_Node_joint hn).bind fun j _ => ?_
  exact (stays_poke hn fun s hs => hs.joint _).bind fun _ _ => trivial
theorem stays_updateVelocities (h : c.In R) : (St R, W) (fun _ => True) (c.updateVelocities : KProg T _) := by
  refine (stays_updateTransforms h).bind fun _ _ => ?_
  refine (stays_mapList (Q := fun _ => True) fun n hn => ?_).any
  have hn := h.nodes n hn
  refine (stays_Node_parentWorldTransform hn).bind fun _ _ => stays_expect'.bind fun t _ => ?_
  refine (stays_Node_parentWorldVelocity hn).bind fun _ _ => stays_expect'.bind fun t _ => ?_
  refine (stays_doLock hn).bind fun _ _ => (stays_doRead hn).bind fun s _ => ?_
  have fin : ∀ v, (St R, W) (fun _ => True) (do
      doUnlock n
      poke n fun s => { s with joint := s.joint.setWorldVelocity v }
      return v : KProg T (Velocity T)) := fun v =>
    (stays_doUnlock hn).bind fun _ _ => (stays_poke hn fun s hs => hs.joint _).bind fun _ _ => trivial
  refine Stays.bind (Q := fun _ => True) ?_ fun v _ => fin v
  split
  · trivial
  · refine (stays_Node_parent hn).bind fun o ho => ?_
    refine (stays_expect (Q := R) fun p e => ho p e).bind fun p hp => ?_
    refine (stays_Node_joint hp).bind fun j _ => ?_
    refine (stays_Node_worldTransform hn).bind fun j _ => stays_expect'.bind fun t _ => ?_
    exact (stays_Node_joint hn).bind fun j _ => stays_expect'.bind fun t _ => trivial
  · refine (stays_Node_worldTransform hn).bind fun j _ => stays_expect'.bind fun t _ => ?_
    exact (stays_Node_joint hn).bind fun j _ => stays_expect'.bind fun t _ => trivial
theorem stays_updateLinkTransforms (h : c.In R) :
    (St R, W) (fun _ => True) (c.updateLinkTransforms : KProg T _) := by
  refine (stays_updateTransforms h).bind fun _ _ => stays_forEach fun n hn => ?_
  have hn := h.nodes n hn
  refine (stays_Node_parentWorldTransform hn).bind fun _ _ => stays_expect'.bind fun t _ => ?_
  exact stays_poke hn fun s hs => hs.setLink _
theorem stays_foldTransform (ns : List NodeId) (h : ∀ n ∈ ns, R n) (t : Iso T) :
    (St R, W) (fun _ => True) (foldTransform ns t) := by
  induction ns generalizing t with
  | nil => trivial
  | cons n ns ih =>
    exact (stays_Node_joint (h n (by simp))).bind fun _ _ => ih (fun m hm => h m (by simp [hm])) _
theorem stays_endTransform (h : c.In R) : (St R, W) (fun _ => True) (c.endTransform : KProg T _) :=
  stays_foldTransform _ h.nodes _
theorem stays_tryNew (h : c.In R) :
    (St R, W) (fun o => ∀ c, o = some c → Chain.In R c) (c.tryNew : KProg T _) := by
  unfold tryNew; split
  · trivial
  · refine Stays.bind (stays_findFirst fun n hn => ?_) fun o _ => stays_pure ?_
    · exact (stays_Node_children (h.nodes n (List.mem_of_mem_take hn))).bind fun _ _ => stays_pure trivial
    · intro c' e
      split at e
      · cases e
      · cases e; exact h
theorem stays_fmtWithIndentLevel (c : Chain) (fuel level : Nat) {n : NodeId} (h : R n) :
    (St R, W) (fun _ => True) (c.fmtWithIndentLevel fuel level n : KProg T _) := by
  induction fuel generalizing level n with
  | zero => trivial
  | succ k ih =>
    unfold fmtWithIndentLevel
    refine Stays.bind (Q := fun _ => True) ?_ fun _ _ => ?_
    · split
      · exact (stays_peek h).bind fun _ _ => trivial
      · trivial
    · refine (stays_doLock h).bind fun _ _ => (stays_doRead h).bind fun s hs => ?_
      exact (stays_mapList (Q := fun _ => True) fun m hm => ih _ (hs.children m hm)).bind fun _ _ =>
        (stays_doUnlock h).bind fun _ _ => trivial
theorem stays_display (h : c.In R) (fuel : Nat) : (St R, W) (fun _ => True) (c.display fuel : KProg T _) := by
  unfold display; split
  · trivial
  · rename_i e
    exact (stays_fmtWithIndentLevel _ _ _ (h.nodes _ (by simp [e]))).bind fun _ _ => trivial
end Chain

variable {c : Chain}

theorem stays_jacobian (h : c.In R) : (St R, W) (fun _ => True) (jacobian c : KProg T _) := by
  refine (Chain.stays_endTransform h).bind fun _ _ => (Chain.stays_updateTransforms h).bind fun _ _ => ?_
  refine (stays_mapList (Q := fun _ => True) fun n hn => ?_).any
  have hn := h.movable n hn
  refine (stays_doLock hn).bind fun _ _ => (stays_doRead hn).bind fun s _ => ?_
  exact stays_expect'.bind fun t _ => stays_ofExcept.bind fun _ _ => (stays_doUnlock hn).bind fun _ _ => trivial
theorem stays_comLoop (ns : List NodeId) (h : ∀ n ∈ ns, R n) (a : ComAcc T) :
    (St R, W) (fun _ => True) (comLoop ns a) := by
  induction ns generalizing a with
  | nil => trivial
  | cons n ns ih =>
    have hn := h n (by simp)
    have ih := ih fun m hm => h m (by simp [hm])
    refine (stays_Node_worldTransform hn).bind fun t _ => ?_
    cases t with
    | none => exact ih _
    | some t => exact (stays_Node_link hn).bind fun _ _ => ih _
theorem stays_centerOfMass (h : c.In R) : (St R, W) (fun _ => True) (centerOfMass c : KProg T _) :=
  (Chain.stays_updateTransforms h).bind fun _ _ => (stays_comLoop _ h.nodes _).bind fun _ _ => trivial

theorem stays_solveOneLoop (s : IkSolver T) (h : c.In R) (t : Iso T) (ops : List Bool) (ig : List Nat) :
    (St R, W) (fun _ => True) (solveOneLoop s c t ops ig) := by
  refine (Chain.stays_jointPositions h).bind fun _ _ => (Chain.stays_endTransform h).bind fun _ _ => ?_
  refine (stays_jacobian h).bind fun _ _ => stays_ofExcept.bind fun r _ => ?_
  cases r with
  | error e => trivial
  | ok ps =>
    exact (Chain.stays_setJointPositionsClamped h ps).bind fun _ _ =>
      (Chain.stays_endTransform h).bind fun _ _ => trivial
theorem stays_tryLoop (s : IkSolver T) (h : c.In R) (t : Iso T) (ops : List Bool)
    (ig : List Nat) (orig : List T) (k : Nat) (l : Option (V3 T × V3 T)) :
    (St R, W) (fun _ => True) (tryLoop s c t ops ig orig k l) := by
  induction k generalizing l with
  | zero =>
    unfold tryLoop
    refine (Chain.stays_setJointPositions h orig).bind fun r _ => ?_
    cases r with
    | error e => trivial
    | ok u => exact stays_expect'.bind fun _ _ => trivial
  | succ k ih =>
    unfold tryLoop
    refine (stays_solveOneLoop s h t ops ig).bind fun r _ => ?_
    cases r with
    | error e => trivial
    | ok d =>
      dsimp only
      split
      · exact (Chain.stays_jointPositions h).bind fun ps _ =>
          (Chain.stays_setJointPositionsClamped h ps).bind fun _ _ => trivial
      · exact ih _
theorem stays_jointIndex (name : String) (ns : List NodeId) (h : ∀ n ∈ ns, R n) :
    (St R, W) (fun _ => True) (jointIndex name ns : KProg T _) := by
  induction ns with
  | nil => trivial
  | cons n ns ih =>
    unfold jointIndex
    refine (stays_Node_joint (h n (by simp))).bind fun j _ => ?_
    split
    · trivial
    · exact (ih fun m hm => h m (by simp [hm])).bind fun _ _ => trivial
theorem stays_ignoredIndices (h : c.In R) (names : List String) :
    (St R, W) (fun _ => True) (ignoredIndices c names : KProg T _) := by
  induction names with
  | nil => trivial
  | cons n ns ih =>
    refine (stays_jointIndex _ _ h.movable).bind fun o _ => ?_
    cases o with
    | none => trivial
    | some i =>
      refine ih.bind fun r _ => ?_
      cases r <;> trivial
theorem stays_solveWithConstraints (s : IkSolver T) (h : c.In R) (t : Iso T) (cs : Constraints) :
    (St R, W) (fun _ => True) (solveWithConstraints s c t cs) := by
  unfold solveWithConstraints
  refine (Chain.stays_jointPositions h).bind fun orig _ => ?_
  refine Stays.bind (Q := fun _ => True) ?_ fun r _ => ?_
  · unfold solveInternal
    refine (Chain.stays_jointPositions h).bind fun _ _ => ?_
    split
    · trivial
    · dsimp only
      split
      · trivial
      · refine (stays_ignoredIndices h _).bind fun r _ => ?_
        cases r with
        | error e => trivial
        | ok ig => exact stays_tryLoop _ h _ _ _ _ _ _
  · cases r with
    | ok u => trivial
    | error e =>
      refine (Chain.stays_setJointPositions h orig).bind fun r _ => ?_
      cases r <;> trivial

theorem stays_call (rw : ∀ n, R n → W n) {β : Type} (c : Call T β) (h : c.In R) :
    (St R, W) (c.Got R) c.prog := by
  cases c with
  | newNode j => exact h.elim
  | cloneChain fuel c => exact h.elim
  | setParent n p => exact stays_Node_setParent rw h.1 h.2
  | removeParent n p => exact stays_Node_removeParent h.1 h.2
  | setMimicParent n p m => exact stays_Node_setMimicParent rw m h.1 h.2
  | setLink n l => exact stays_poke h fun s hs => hs.setLink _
  | setOrigin n t => exact stays_poke h fun s hs => hs.joint _
  | setJointPosition n x => exact stays_Node_setJointPosition x h
  | setJointPositionClamped n x => exact stays_poke h fun s hs => hs.joint _
  | setJointPositionUnchecked n x => exact stays_poke h fun s hs => hs.joint _
  | joint n => exact stays_Node_joint h
  | jointPosition n => exact stays_Node_jointPosition h
  | parent n => exact stays_Node_parent h
  | mimicParent n => exact stays_Node_mimicParent h
  | children n => exact stays_Node_children h
  | link n => exact stays_Node_link h
  | isRoot n => exact stays_Node_isRoot h
  | isEnd n => exact stays_Node_isEnd h
  | origin n => exact stays_Node_origin h
  | worldTransform n => exact stays_Node_worldTransform h
  | worldVelocity n => exact stays_Node_worldVelocity h
  | iterAncestors fuel n => exact stays_ancestors fuel _ (fun m e => by cases e; exact h)
  | iterDescendants fuel n => exact stays_descendants fuel _ (fun m e => by simp at e; exact e ▸ h)
  | fromNodes ns => exact Chain.stays_fromNodes h
  | fromRoot fuel n => exact Chain.stays_fromRoot fuel h
  | fromEnd fuel n => exact Chain.stays_fromEnd fuel h
  | fromEndToRoot fuel n r => exact Chain.stays_fromEndToRoot fuel r h
  | chainSetOrigin c t => exact Chain.stays_setOrigin h t
  | chainOrigin c => exact Chain.stays_origin h
  | iterJoints c => exact Chain.stays_iterJoints h
  | iterLinks c => exact Chain.stays_iterLinks h
  | find c name => exact Chain.stays_find h name
  | jointPositions c => exact Chain.stays_jointPositions h
  | setJointPositions c xs => exact Chain.stays_setJointPositions h xs
  | setJointPositionsClamped c xs => exact Chain.stays_setJointPositionsClamped h xs
  | setJointPositionsUnchecked c xs => exact Chain.stays_setJointPositionsUnchecked h xs
  | updateTransforms c => exact Chain.stays_updateTransforms h
  | updateVelocities c => exact Chain.stays_updateVelocities h
  | updateLinkTransforms c => exact Chain.stays_updateLinkTransforms h
  | tryNew c => exact Chain.stays_tryNew h
  | endTransform c => exact Chain.stays_endTransform h
  | display fuel c => exact Chain.stays_display h fuel
  | jacobian c => exact stays_jacobian h
  | centerOfMass c => exact stays_centerOfMass h
  | solve s c t cs => exact stays_solveWithConstraints s h t cs

theorem Stays.congr {C' : S → Prop} (e : ∀ s, C s ↔ C' s) {Q : α → Prop} {p : Prog S α} (h : Stays R W C Q p) :
    Stays R W C' Q p := by
  have : C = C' := funext fun s => propext (e s)
  exact this ▸ h

theorem NodeImpl.links_iff (R : NodeId → Prop) (s : NodeImpl T) : s.Links R R ↔ s.LinksIn R :=
  ⟨fun l => ⟨l.1, l.2, l.3, l.4⟩, fun l => ⟨l.1, l.2, l.3, l.4⟩⟩

theorem stays_client {α : Type} (c : Client T α) (h : c.Confined R) :
    Stays R R (NodeImpl.LinksIn R) (fun _ => True) c.prog := by
  induction c with
  | done a => trivial
  | call c k ih =>
    exact ((stays_call (fun _ h => h) c h.1).congr (NodeImpl.links_iff R)).bind fun r hr => ih r (h.2 r hr)

end K
