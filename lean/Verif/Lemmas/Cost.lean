import Verif.Spec.Cost
import Verif.Lemmas.Run
/-!
# Counting lock acquisitions

`Cost C U P p L k`: started while holding the mutexes `L` and after `k` acquisitions, in memories whose
nodes satisfy `C`, program `p` stays within `U` after every acquisition and returns only values, locks and
numbers in `P`.  Nothing is required after locking a mutex the program already holds.
-/

set_option linter.unusedSectionVars false

namespace K
open Prog

variable {S α β γ δ ε : Type}

/-- see the file comment -/
def Cost (C : S → Prop) (U : Nat → Prop) (P : α → List NodeId → Nat → Prop) :
    Prog S α → List NodeId → Nat → Prop
  | .ret a, L, k => P a L k
  | .lock n p, L, k => n ∉ L → U (k + 1) ∧ Cost C U P p (n :: L) (k + 1)
  | .unlock n p, L, k => n ∈ L ∧ Cost C U P p (L.erase n) k
  | .read _ p, L, k => ∀ s, C s → Cost C U P (p s) L k
  | .write _ _ p, L, k => Cost C U P p L k
  | .upgrade _ p, L, k => ∀ b, Cost C U P (p b) L k
  | .alloc _ p, L, k => ∀ m, Cost C U P (p m) L k
  | .panic _, _, _ => True
  | .diverge, _, _ => True

variable {C : S → Prop} {U : Nat → Prop} {L : List NodeId} {k : Nat}

theorem Cost.mono {P Q : α → List NodeId → Nat → Prop} {p : Prog S α}
    (h : Cost C U P p L k) (i : ∀ a L k, P a L k → Q a L k) : Cost C U Q p L k := by
  induction p generalizing L k with
  | ret a => exact i _ _ _ h
  | lock n p ih => exact fun hn => ⟨(h hn).1, ih (h hn).2⟩
  | unlock n p ih => exact ⟨h.1, ih h.2⟩
  | read n p ih => exact fun s hs => ih s (h s hs)
  | write n f p ih => exact ih h
  | upgrade n p ih => exact fun b => ih b (h b)
  | alloc s p ih => exact fun m => ih m (h m)
  | panic m => trivial
  | diverge => trivial

theorem cost_bind {P : β → List NodeId → Nat → Prop} {p : Prog S α} {f : α → Prog S β} :
    Cost C U P (p >>= f) L k ↔ Cost C U (fun a L k => Cost C U P (f a) L k) p L k := by
  show Cost C U P (p.bind f) L k ↔ _
  induction p generalizing L k with
  | ret a => exact Iff.rfl
  | lock n p ih => exact forall_congr' fun _ => and_congr Iff.rfl ih
  | unlock n p ih => exact and_congr Iff.rfl ih
  | read n p ih => exact forall_congr' fun s => forall_congr' fun _ => ih s
  | write n f p ih => exact ih
  | upgrade n p ih => exact forall_congr' fun b => ih b
  | alloc s p ih => exact forall_congr' fun m => ih m
  | panic m => exact Iff.rfl
  | diverge => exact Iff.rfl

theorem Cost.bind {P : α → List NodeId → Nat → Prop} {Q : β → List NodeId → Nat → Prop} {p : Prog S α}
    {f : α → Prog S β} (h : Cost C U P p L k) (hf : ∀ a L k, P a L k → Cost C U Q (f a) L k) :
    Cost C U Q (p >>= f) L k := cost_bind.2 (h.mono hf)

variable {P : α → List NodeId → Nat → Prop}

theorem cost_pure {a : α} : Cost C U P (pure a : Prog S α) L k ↔ P a L k := Iff.rfl
theorem cost_ret {a : α} : Cost C U P (.ret a : Prog S α) L k ↔ P a L k := Iff.rfl
theorem cost_panic {m : String} : Cost C U P (.panic m : Prog S α) L k ↔ True := Iff.rfl
theorem cost_doLock {P : Unit → List NodeId → Nat → Prop} {n : NodeId} :
    Cost C U P (doLock n : Prog S Unit) L k ↔ (n ∉ L → U (k + 1) ∧ P () (n :: L) (k + 1)) := Iff.rfl
theorem cost_doUnlock {P : Unit → List NodeId → Nat → Prop} {n : NodeId} :
    Cost C U P (doUnlock n : Prog S Unit) L k ↔ n ∈ L ∧ P () (L.erase n) k := Iff.rfl
theorem cost_doRead {P : S → List NodeId → Nat → Prop} {n : NodeId} :
    Cost C U P (doRead n : Prog S S) L k ↔ ∀ s, C s → P s L k := Iff.rfl
theorem cost_doWrite {P : Unit → List NodeId → Nat → Prop} {n : NodeId} {f : S → S} :
    Cost C U P (doWrite n f : Prog S Unit) L k ↔ P () L k := Iff.rfl
theorem cost_doUpgrade {P : Bool → List NodeId → Nat → Prop} {n : NodeId} :
    Cost C U P (doUpgrade n : Prog S Bool) L k ↔ ∀ b, P b L k := Iff.rfl
theorem cost_doAlloc {P : NodeId → List NodeId → Nat → Prop} {s : S} :
    Cost C U P (doAlloc s : Prog S NodeId) L k ↔ ∀ m, P m L k := Iff.rfl
theorem cost_peek {P : S → List NodeId → Nat → Prop} {n : NodeId} :
    Cost C U P (peek n : Prog S S) L k ↔ (n ∉ L → U (k + 1) ∧ ∀ s, C s → P s L (k + 1)) := by
  simp only [peek, cost_bind, cost_doLock, cost_doRead, cost_doUnlock, cost_pure, List.mem_cons, true_or,
    true_and, List.erase_cons_head]
theorem cost_poke {P : Unit → List NodeId → Nat → Prop} {n : NodeId} {f : S → S} :
    Cost C U P (poke n f : Prog S Unit) L k ↔ (n ∉ L → U (k + 1) ∧ P () L (k + 1)) := by
  simp only [poke, cost_bind, cost_doLock, cost_doWrite, cost_doUnlock, List.mem_cons, true_or,
    true_and, List.erase_cons_head]
theorem cost_expect {o : Option α} {m : String} :
    Cost C U P (expect o m : Prog S α) L k ↔ ∀ a, o = some a → P a L k := by
  cases o <;> simp [expect, Cost]
theorem cost_ofExcept {o : Except String α} :
    Cost C U P (Prog.ofExcept o : Prog S α) L k ↔ ∀ a, o = .ok a → P a L k := by
  cases o <;> simp [Prog.ofExcept, Cost]

/-- `p` gives back the locks it took, acquires at most `hi` mutexes, and at least `lo` if it returns -/
def Takes (C : S → Prop) (lo hi : Nat) (p : Prog S α) : Prop :=
  ∀ (L : List NodeId) (k : Nat) (U : Nat → Prop) (P : α → List NodeId → Nat → Prop),
    (∀ j, j ≤ k + hi → U j) → (∀ a j, k + lo ≤ j → j ≤ k + hi → P a L j) → Cost C U P p L k

theorem Takes.mono {lo hi lo' hi' : Nat} {p : Prog S α} (h : Takes C lo hi p) (l : lo' ≤ lo) (u : hi ≤ hi') :
    Takes C lo' hi' p := fun L k _ _ hu hp =>
  h L k _ _ (fun j hj => hu j (by omega)) fun a j h1 h2 => hp a j (by omega) (by omega)

theorem Takes.bind {lo hi lo' hi' : Nat} {p : Prog S α} {f : α → Prog S β} (h : Takes C lo hi p)
    (hf : ∀ a, Takes C lo' hi' (f a)) : Takes C (lo + lo') (hi + hi') (p >>= f) := fun L k U P hu hp =>
  cost_bind.2 (h L k _ _ (fun j hj => hu j (by omega)) fun a j h1 h2 =>
    hf a L j _ _ (fun i hi => hu i (by omega)) fun b i h3 h4 => hp b i (by omega) (by omega))

theorem takes_ret (a : α) : Takes C 0 0 (.ret a : Prog S α) := fun _ k _ _ _ hp =>
  hp a k (Nat.le_refl _) (Nat.le_refl _)
theorem takes_pure (a : α) : Takes C 0 0 (pure a : Prog S α) := takes_ret a

theorem Takes.map {lo hi : Nat} {p : Prog S α} {f : α → β} (h : Takes C lo hi p) :
    Takes C lo hi (p >>= fun a => pure (f a)) := h.bind fun _ => takes_pure _

theorem takes_peek (n : NodeId) : Takes C 1 1 (peek n) := fun L k U P hu hp =>
  cost_peek.2 fun _ => ⟨hu _ (Nat.le_refl _), fun s _ => hp s _ (Nat.le_refl _) (Nat.le_refl _)⟩
theorem takes_poke (n : NodeId) (f : S → S) : Takes C 1 1 (poke n f) := fun L k U P hu hp =>
  cost_poke.2 fun _ => ⟨hu _ (Nat.le_refl _), hp _ _ (Nat.le_refl _) (Nat.le_refl _)⟩
theorem takes_expect (o : Option α) (m : String) : Takes C 0 0 (expect o m : Prog S α) :=
  fun _ _ _ _ _ hp => cost_expect.2 fun _ _ => hp _ _ (Nat.le_refl _) (Nat.le_refl _)
theorem takes_ofExcept (o : Except String α) : Takes C 0 0 (Prog.ofExcept o : Prog S α) :=
  fun _ _ _ _ _ hp => cost_ofExcept.2 fun _ _ => hp _ _ (Nat.le_refl _) (Nat.le_refl _)

theorem takes_forEach {lo hi : Nat} (xs : List γ) {f : γ → Prog S Unit} (hf : ∀ x, Takes C lo hi (f x)) :
    Takes C (lo * xs.length) (hi * xs.length) (forEach xs f) := by
  induction xs with
  | nil => exact takes_ret ()
  | cons x xs ih =>
    refine ((hf x).bind fun _ => ih).mono ?_ ?_ <;> rw [List.length_cons, Nat.mul_succ] <;> omega

theorem takes_mapList {lo hi : Nat} (xs : List γ) {f : γ → Prog S δ} (hf : ∀ x, Takes C lo hi (f x)) :
    Takes C (lo * xs.length) (hi * xs.length) (mapList xs f) := by
  induction xs with
  | nil => exact takes_ret []
  | cons x xs ih =>
    refine ((hf x).bind fun _ => ih.bind fun _ => takes_pure _).mono ?_ ?_ <;>
      rw [List.length_cons, Nat.mul_succ] <;> omega

theorem takes_filterList {lo hi : Nat} (xs : List γ) {f : γ → Prog S Bool} (hf : ∀ x, Takes C lo hi (f x)) :
    Takes C (lo * xs.length) (hi * xs.length) (filterList xs f) := by
  induction xs with
  | nil => exact takes_ret []
  | cons x xs ih =>
    refine ((hf x).bind fun _ => ih.bind fun _ => takes_pure _).mono ?_ ?_ <;>
      rw [List.length_cons, Nat.mul_succ] <;> omega

/-- a loop that stops at the first error: at least `lo` for each element if there is none -/
theorem cost_tryEach {lo hi : Nat} (xs : List γ) {f : γ → Prog S (Except ε Unit)}
    (hf : ∀ x, Takes C lo hi (f x)) {P : Except ε Unit → List NodeId → Nat → Prop}
    (hu : ∀ j, j ≤ k + hi * xs.length → U j)
    (hp : ∀ a j, k ≤ j → j ≤ k + hi * xs.length → (a = .ok () → k + lo * xs.length ≤ j) → P a L j) :
    Cost C U P (tryEach xs f) L k := by
  induction xs generalizing k with
  | nil => exact hp _ _ (Nat.le_refl _) (by simp) (by simp)
  | cons x xs ih =>
    simp only [List.length_cons, Nat.mul_succ] at hu hp
    refine cost_bind.2 (hf x L k _ _ (fun j hj => hu j (by omega)) fun a j h1 h2 => ?_)
    match a with
    | .error e => exact hp _ _ (by omega) (by omega) (fun x => by cases x)
    | .ok () =>
      exact ih (fun i hi => hu i (by omega)) fun a i h3 h4 h5 =>
        hp a i (by omega) (by omega) fun e => by have := h5 e; omega

/-- a search that looks once at each element up to the one it finds -/
theorem cost_findFirst (xs : List γ) {f : γ → Prog S Bool} (hf : ∀ x, Takes C 1 1 (f x))
    {P : Option γ → List NodeId → Nat → Prop} (hu : ∀ j, j ≤ k + xs.length → U j)
    (h0 : P none L (k + xs.length)) (h1 : ∀ i x, xs[i]? = some x → P (some x) L (k + (i + 1))) :
    Cost C U P (findFirst xs f) L k := by
  induction xs generalizing k with
  | nil => exact h0
  | cons x xs ih =>
    simp only [List.length_cons] at hu h0
    refine cost_bind.2 (hf x L k _ _ (fun j hj => hu j (by omega)) fun a j e1 e2 => ?_)
    obtain rfl : j = k + 1 := by omega
    cases a with
    | true => exact h1 0 x rfl
    | false =>
      refine ih (fun j hj => hu j (by omega)) ?_ fun i y hy => ?_
      · rw [show k + 1 + xs.length = k + (xs.length + 1) by omega]; exact h0
      · rw [show k + 1 + (i + 1) = k + (i + 1 + 1) by omega]; exact h1 (i + 1) y hy

/-! ## Executions -/

/-- the threads are in order: each within its budget, holding what the memory says -/
structure Paid (C : S → Prop) (U : Nat → Nat → Prop) (P : Nat → α → Nat → Prop) (d : Config S α)
    (k : Nat → Nat) (Ls : Nat → List NodeId) : Prop where
  cost : ∀ i p, d.threads[i]? = some p → Cost C (U i) (fun a L k => L = [] ∧ P i a k) p (Ls i) (k i)
  held : ∀ i n, n ∈ Ls i → d.heap.held n = true
  apart : ∀ i j n, n ∈ Ls i → n ∈ Ls j → i = j
  nodup : ∀ i, (Ls i).Nodup
  most : ∀ i, i < d.threads.length → U i (k i)

theorem tally_paid {C : S → Prop} {U : Nat → Nat → Prop} {P : Nat → α → Nat → Prop} {c : Config S α}
    (start : ∃ Ls, Paid C U P c (fun _ => 0) Ls) (inv : ∀ k d, Tally c k d → ∀ n, C (d.heap.get n))
    {k : Nat → Nat} {d : Config S α} (x : Tally c k d) : ∃ Ls, Paid C U P d k Ls := by
  induction x with
  | refl => exact start
  | free x F ih =>
    obtain ⟨Ls, w⟩ := ih
    exact ⟨Ls, w.cost, w.held, w.apart, w.nodup, w.most⟩
  | @lock d k x i n p hi free ih =>
    obtain ⟨Ls, w⟩ := ih
    have lt : i < d.threads.length := (List.getElem?_eq_some_iff.1 hi).1
    have nin : ∀ j, n ∉ Ls j := fun j hj => by rw [w.held j n hj] at free; cases free
    have ci := w.cost i _ hi (nin i)
    refine ⟨fun j => if j = i then n :: Ls i else Ls j, ?_, ?_, ?_, ?_, ?_⟩
    · intro j q hq
      by_cases e : j = i
      · subst e
        simp only [List.getElem?_set_self lt, Option.some.injEq] at hq
        subst hq
        simpa using ci.2
      · simp only [List.getElem?_set_ne (Ne.symm e)] at hq
        simpa [e] using w.cost j q hq
    · intro j m hm
      simp only [Heap.setHeld]
      split
      · rfl
      · rename_i ne
        by_cases e : j = i
        · simp only [e, if_true, List.mem_cons] at hm
          exact w.held i m (hm.resolve_left ne)
        · simp only [e, if_false] at hm
          exact w.held j m hm
    · intro j l m hj hl
      by_cases e : j = i <;> by_cases e' : l = i
      · rw [e, e']
      · simp only [e, if_true, List.mem_cons] at hj
        simp only [e', if_false] at hl
        rcases hj with rfl | hj
        · exact absurd hl (nin l)
        · exact e ▸ w.apart i l m hj hl
      · simp only [e, if_false] at hj
        simp only [e', if_true, List.mem_cons] at hl
        rcases hl with rfl | hl
        · exact absurd hj (nin j)
        · exact e' ▸ w.apart j i m hj hl
      · simp only [e, e', if_false] at hj hl
        exact w.apart j l m hj hl
    · intro j
      by_cases e : j = i
      · simp only [e, if_true]; exact List.nodup_cons.2 ⟨nin i, w.nodup i⟩
      · simp only [e, if_false]; exact w.nodup j
    · intro j hj
      by_cases e : j = i
      · subst e; simpa using ci.1
      · simp only [e, if_false]; exact w.most j (by simpa using hj)
  | @other d k x i p p' h' hi nl hs ih =>
    obtain ⟨Ls, w⟩ := ih
    have lt : i < d.threads.length := (List.getElem?_eq_some_iff.1 hi).1
    have ci := w.cost i _ hi
    have stay : ∀ (hh : h'.held = d.heap.held)
        (cq : Cost C (U i) (fun a L k => L = [] ∧ P i a k) p' (Ls i) (k i)),
        ∃ Ls, Paid C U P ⟨h', d.threads.set i p'⟩ k Ls := by
      intro hh cq
      have hd : ∀ j m, m ∈ Ls j → h'.held m = true := fun j m hm => hh ▸ w.held j m hm
      refine ⟨Ls, ?_, hd, w.apart, w.nodup, fun j hj => w.most j (by simpa using hj)⟩
      intro j q hq
      by_cases e : j = i
      · subst e
        simp only [List.getElem?_set_self lt, Option.some.injEq] at hq
        subst hq
        exact cq
      · simp only [List.getElem?_set_ne (Ne.symm e)] at hq
        exact w.cost j q hq
    cases p with
    | ret a => cases hs
    | lock n q => exact absurd rfl (nl n q)
    | panic m => cases hs
    | read n q => cases hs; exact stay rfl (ci _ (inv _ _ x n))
    | write n f q => cases hs; exact stay rfl ci
    | upgrade n q => cases hs; exact stay rfl (ci _)
    | alloc s q => cases hs; exact stay rfl (ci _)
    | diverge => cases hs; exact stay rfl ci
    | unlock n q =>
      cases hs
      refine ⟨fun j => if j = i then (Ls i).erase n else Ls j, ?_, ?_, ?_, ?_, ?_⟩
      · intro j q' hq
        by_cases e : j = i
        · subst e
          simp only [List.getElem?_set_self lt, Option.some.injEq] at hq
          subst hq
          simpa using ci.2
        · simp only [List.getElem?_set_ne (Ne.symm e)] at hq
          simpa [e] using w.cost j q' hq
      · intro j m hm
        have ne : m ≠ n := by
          rintro rfl
          by_cases e : j = i
          · simp only [e, if_true] at hm
            exact ((w.nodup i).mem_erase_iff.1 hm).1 rfl
          · simp only [e, if_false] at hm
            exact e (w.apart j i m hm ci.1)
        simp only [Heap.setHeld, if_neg ne]
        by_cases e : j = i
        · simp only [e, if_true] at hm
          exact w.held i m (List.mem_of_mem_erase hm)
        · simp only [e, if_false] at hm
          exact w.held j m hm
      · intro j l m hj hl
        refine w.apart j l m ?_ ?_
        · by_cases e : j = i
          · subst e; simp only [if_true] at hj; exact List.mem_of_mem_erase hj
          · simpa only [e, if_false] using hj
        · by_cases e : l = i
          · subst e; simp only [if_true] at hl; exact List.mem_of_mem_erase hl
          · simpa only [e, if_false] using hl
      · intro j
        by_cases e : j = i
        · simp only [e, if_true]; exact (w.nodup i).erase _
        · simp only [e, if_false]; exact w.nodup j
      · exact fun j hj => w.most j (by simpa using hj)

end K
