import Verif.Lemmas.Locks
import Verif.Lemmas.Safe
/-!
# What the lock discipline gives: no self-blocking, no deadlock
-/

set_option linter.unusedSectionVars false

namespace K
open Prog

variable {S α β : Type} {A : List NodeId → NodeId → Prop} {pk : List NodeId → Prop} {lo : Nat} {P : NodeId → S → Prop}
  {Q : List NodeId → α → Prop}

/-- the locked mutexes are exactly those in `L` -/
def HeldIs (h : Heap S) (L : List NodeId) : Prop := L.Nodup ∧ ∀ n, h.held n = true ↔ n ∈ L

theorem HeldIs.nil {h : Heap S} (u : h.Unlocked) : HeldIs h [] := ⟨by simp, fun n => by simp [u n]⟩
theorem HeldIs.unlocked {h : Heap S} (u : HeldIs h []) : h.Unlocked := fun n => by
  have := u.2 n; simpa using this

theorem HeldIs.lock {h : Heap S} {L : List NodeId} (u : HeldIs h L) {n : NodeId} (i : n ∉ L) :
    HeldIs (h.setHeld n true) (n :: L) := by
  refine ⟨List.nodup_cons.2 ⟨i, u.1⟩, fun m => ?_⟩
  simp only [Heap.setHeld, List.mem_cons]
  by_cases e : m = n
  · simp [e]
  · simp [e, u.2 m]
theorem HeldIs.unlock {h : Heap S} {L : List NodeId} (u : HeldIs h L) {n : NodeId} :
    HeldIs (h.setHeld n false) (L.erase n) := by
  refine ⟨u.1.erase n, fun m => ?_⟩
  simp only [Heap.setHeld, u.1.mem_erase_iff]
  by_cases e : m = n
  · simp [e]
  · simp [e, u.2 m]

/-- outcome of a disciplined program run alone -/
def Res.Disc (pk : List NodeId → Prop) (lo : Nat) (P : NodeId → S → Prop) (Q : List NodeId → α → Prop) : Res S α → Prop
  | .ok a h => (∃ L, Q L a ∧ HeldIs h L) ∧ HeapInv lo P h
  | .panic _ h => ∃ L, pk L ∧ HeldIs h L
  | .blocked _ _ => False
  | .diverged => True

/-- Run alone, a program that never locks what it holds never blocks. -/
theorem run_lk (irr : ∀ L n, A L n → n ∉ L) {p : Prog S α} {L : List NodeId}
    (k : Lk A pk lo P (Pres P) Q p L) {h : Heap S} (i : HeapInv lo P h) (u : HeldIs h L) :
    (run p h).Disc pk lo P Q := by
  induction p generalizing h L with
  | ret a => exact ⟨⟨L, k, u⟩, i⟩
  | lock n p ih =>
    have : h.held n = false := by
      have := irr L n k.1; rw [← u.2 n] at this; simpa using this
    simp only [run, this, Bool.false_eq_true, if_false]
    exact ih k.2 i (u.lock (irr L n k.1))
  | unlock n p ih => exact ih k.2 i u.unlock
  | read n p ih => exact ih _ (k.2 _ (i.2 n)) i u
  | write n f p ih => exact ih k.2.2 (i.modify k.2.1) u
  | upgrade n p ih => exact ih _ (k _) i u
  | alloc s p ih => exact ih _ (k _ i.1).2 (i.push (k _ i.1).1) u
  | panic m => exact ⟨L, k, u⟩
  | diverge => trivial

/-! ## threads -/

/-- thread `i` holds `Ls i` -/
structure ThreadInv (A : List NodeId → NodeId → Prop) (pk : List NodeId → Prop) (lo : Nat) (P : NodeId → S → Prop)
    (Q : List NodeId → α → Prop) (d : Config S α) (Ls : Nat → List NodeId) : Prop where
  inv : HeapInv lo P d.heap
  disc : ∀ i p, d.threads[i]? = some p → Lk A pk lo P (Pres P) Q p (Ls i)
  nodup : ∀ i, (Ls i).Nodup
  excl : ∀ i j n, n ∈ Ls i → n ∈ Ls j → i = j
  held : ∀ n, d.heap.held n = true ↔ ∃ i, i < d.threads.length ∧ n ∈ Ls i

/-- a step of thread `i` changes only the locks of thread `i` -/
theorem step_lk_at {d : Config S α} {i : Nat} {p p' : Prog S α} {h' : Heap S}
    (hi : d.threads[i]? = some p) (hs : step1 p d.heap = some (p', h')) {Ls : Nat → List NodeId}
    (t : ThreadInv A pk lo P Q d Ls) : ∃ Ls', ThreadInv A pk lo P Q ⟨h', d.threads.set i p'⟩ Ls' ∧
      ∀ j, j ≠ i → j < d.threads.length → Ls' j = Ls j := by
  have hp := t.disc i p hi
  have hlt : i < d.threads.length := (List.getElem?_eq_some_iff.1 hi).1
  -- steps that change neither locks nor other threads
  have same : Lk A pk lo P (Pres P) Q p' (Ls i) → HeapInv lo P h' → h'.held = d.heap.held →
      ∃ Ls', ThreadInv A pk lo P Q ⟨h', d.threads.set i p'⟩ Ls' ∧
        ∀ j, j ≠ i → j < d.threads.length → Ls' j = Ls j := by
    intro k iv hh
    refine ⟨Ls, ⟨iv, ?_, t.nodup, t.excl, ?_⟩, fun _ _ _ => rfl⟩
    · intro j q hj
      simp only [List.getElem?_set] at hj
      split at hj
      · rename_i e; subst e; simp [hlt] at hj; subst hj; exact k
      · exact t.disc j q hj
    · intro n; simp only [hh, List.length_set]; exact t.held n
  cases p with
  | ret a => cases hs
  | panic m => cases hs
  | diverge => cases hs; exact same hp t.inv rfl
  | read n k => cases hs; exact same (hp.2 _ (t.inv.2 n)) t.inv rfl
  | write n f k => cases hs; exact same hp.2.2 (t.inv.modify hp.2.1) rfl
  | upgrade n k => cases hs; exact same (hp _) t.inv rfl
  | alloc s k => cases hs; exact same (hp _ t.inv.1).2 (t.inv.push (hp _ t.inv.1).1) rfl
  | lock n k =>
    simp only [step1] at hs; split at hs
    · cases hs
    · rename_i nh
      cases hs
      have free : ∀ j, j < d.threads.length → n ∉ Ls j := fun j hj hn =>
        nh ((t.held n).2 ⟨j, hj, hn⟩)
      refine ⟨fun j => if j = i then n :: Ls i else if j < d.threads.length then Ls j else [],
        ⟨t.inv, ?_, ?_, ?_, ?_⟩, fun j ne l => by simp [ne, l]⟩
      · intro j q hj
        simp only [List.getElem?_set] at hj
        split at hj
        · rename_i e; subst e; simp [hlt] at hj; subst hj; simpa using hp.2
        · rename_i e
          have : j < d.threads.length := (List.getElem?_eq_some_iff.1 hj).1
          simp only [if_neg (Ne.symm e), this, if_true]
          exact t.disc j q hj
      · intro j; split
        · exact List.nodup_cons.2 ⟨free i hlt, t.nodup i⟩
        · split
          · exact t.nodup j
          · simp
      · intro j1 j2 m h1 h2
        by_cases e1 : j1 = i <;> by_cases e2 : j2 = i
        · rw [e1, e2]
        · simp only [e1, e2, if_true, if_false] at h1 h2
          split at h2
          · rename_i l2
            rcases List.mem_cons.1 h1 with rfl | h1
            · exact absurd h2 (free _ l2)
            · exact e1.trans (t.excl _ _ _ h1 h2)
          · cases h2
        · simp only [e1, e2, if_true, if_false] at h1 h2
          split at h1
          · rename_i l2
            rcases List.mem_cons.1 h2 with rfl | h2
            · exact absurd h1 (free _ l2)
            · exact (t.excl _ _ _ h1 h2).trans e2.symm
          · cases h1
        · simp only [e1, e2, if_false] at h1 h2
          split at h1 <;> split at h2
          · exact t.excl _ _ _ h1 h2
          · cases h2
          · cases h1
          · cases h1
      · intro m
        simp only [Heap.setHeld, List.length_set]
        constructor
        · intro hm
          by_cases e : m = n
          · exact ⟨i, hlt, by simp [e]⟩
          · simp only [e, if_false] at hm
            obtain ⟨j, jl, hj⟩ := (t.held m).1 hm
            refine ⟨j, jl, ?_⟩
            by_cases ej : j = i
            · subst ej; simp [hj]
            · simp [ej, jl, hj]
        · rintro ⟨j, jl, hj⟩
          by_cases e : m = n
          · simp [e]
          · simp only [e, if_false]
            refine (t.held m).2 ?_
            by_cases ej : j = i
            · subst ej; simp [e] at hj; exact ⟨j, jl, hj⟩
            · simp [ej, jl] at hj; exact ⟨j, jl, hj⟩
  | unlock n k =>
    cases hs
    refine ⟨fun j => if j = i then (Ls i).erase n else Ls j, ⟨t.inv, ?_, ?_, ?_, ?_⟩, fun j ne _ => by simp [ne]⟩
    · intro j q hj
      simp only [List.getElem?_set] at hj
      split at hj
      · rename_i e; subst e; simp [hlt] at hj; subst hj; simpa using hp.2
      · rename_i e
        simp only [if_neg (Ne.symm e)]
        exact t.disc j q hj
    · intro j; split
      · exact (t.nodup i).erase n
      · exact t.nodup j
    · intro j1 j2 m h1 h2
      refine t.excl j1 j2 m ?_ ?_
      · split at h1
        · rename_i e; subst e; exact List.mem_of_mem_erase h1
        · exact h1
      · split at h2
        · rename_i e; subst e; exact List.mem_of_mem_erase h2
        · exact h2
    · intro m
      simp only [Heap.setHeld, List.length_set]
      constructor
      · intro hm
        by_cases e : m = n
        · simp [e] at hm
        · simp only [e, if_false] at hm
          obtain ⟨j, jl, hj⟩ := (t.held m).1 hm
          refine ⟨j, jl, ?_⟩
          by_cases ej : j = i
          · subst ej; simp [(t.nodup j).mem_erase_iff, e, hj]
          · simp [ej, hj]
      · rintro ⟨j, jl, hj⟩
        by_cases ej : j = i
        · subst ej
          simp only [if_true, (t.nodup j).mem_erase_iff] at hj
          simp only [hj.1, if_false]
          exact (t.held m).2 ⟨j, jl, hj.2⟩
        · simp only [ej, if_false] at hj
          have : m ≠ n := by
            rintro rfl
            exact ej (t.excl j i m hj hp.1)
          simp only [this, if_false]
          exact (t.held m).2 ⟨j, jl, hj⟩

theorem step_lk {d e : Config S α} (s : Step d e) {Ls : Nat → List NodeId}
    (t : ThreadInv A pk lo P Q d Ls) : ∃ Ls', ThreadInv A pk lo P Q e Ls' := by
  obtain ⟨i, p, p', h', hi, hs⟩ := s
  obtain ⟨Ls', t', -⟩ := step_lk_at hi hs t
  exact ⟨Ls', t'⟩

theorem steps_lk {c d : Config S α} (st : DSteps c d) {Ls : Nat → List NodeId}
    (t : ThreadInv A pk lo P Q c Ls) : ∃ Ls', ThreadInv A pk lo P Q d Ls' := by
  induction st with
  | refl => exact ⟨Ls, t⟩
  | tail h s ih =>
    obtain ⟨Ls', t'⟩ := ih
    cases s with
    | thread s => exact step_lk s t'
    | free F => exact ⟨Ls', t'.inv, t'.disc, t'.nodup, t'.excl, t'.held⟩

/-- a finite non-empty set of threads has one with a maximal measure -/
theorem exists_max {X : Nat → Prop} (f : Nat → Nat) (b : Nat) (hb : ∀ i, X i → i < b)
    (ne : ∃ i, X i) : ∃ i, X i ∧ ∀ j, X j → f j ≤ f i := by
  induction b generalizing X with
  | zero => obtain ⟨i, hi⟩ := ne; exact absurd (hb i hi) (Nat.not_lt_zero _)
  | succ b ih =>
    by_cases h : ∃ i, X i ∧ i < b
    · obtain ⟨i, hi, mx⟩ := ih (X := fun i => X i ∧ i < b) (fun i h => h.2) h
      by_cases hx : X b
      · by_cases hc : f b ≤ f i
        · refine ⟨i, hi.1, fun j hj => ?_⟩
          rcases Nat.lt_succ_iff_lt_or_eq.1 (hb j hj) with l | rfl
          · exact mx j ⟨hj, l⟩
          · exact hc
        · refine ⟨b, hx, fun j hj => ?_⟩
          rcases Nat.lt_succ_iff_lt_or_eq.1 (hb j hj) with l | rfl
          · exact Nat.le_trans (mx j ⟨hj, l⟩) (by omega)
          · exact Nat.le_refl _
      · refine ⟨i, hi.1, fun j hj => ?_⟩
        rcases Nat.lt_succ_iff_lt_or_eq.1 (hb j hj) with l | rfl
        · exact mx j ⟨hj, l⟩
        · exact absurd hj hx
    · obtain ⟨i, hi⟩ := ne
      have ib : i = b := by
        rcases Nat.lt_succ_iff_lt_or_eq.1 (hb i hi) with l | e
        · exact absurd ⟨i, hi, l⟩ h
        · exact e
      refine ⟨i, hi, fun j hj => ?_⟩
      rcases Nat.lt_succ_iff_lt_or_eq.1 (hb j hj) with l | e
      · exact absurd ⟨j, hj, l⟩ h
      · rw [e, ib]; exact Nat.le_refl _

/-- a thread that waits for a mutex -/
def Prog.WaitsFor : Prog S α → NodeId → Prop
  | .lock n _, m => n = m
  | _, _ => False

/-- With a lock order, if some thread waits and no thread can move, then some thread has panicked. -/
theorem no_deadlock (rank : NodeId → Nat) {d : Config S α} {Ls : Nat → List NodeId}
    (t : ThreadInv (fun L n => ∀ m ∈ L, rank m < rank n) pk lo P (fun L (_ : α) => L = [] ∧ True) d Ls)
    (stuck : ¬ ∃ e, Step d e) (w : ∃ p ∈ d.threads, ∃ n, p.WaitsFor n) :
    ∃ L msg, L ≠ [] ∧ pk L ∧ (Prog.panic msg : Prog S α) ∈ d.threads := by
  apply Classical.byContradiction
  intro np
  -- what a thread waits for
  let want : Nat → Nat := fun i => match d.threads[i]? with
    | some (.lock n _) => rank n
    | _ => 0
  obtain ⟨i, ⟨n, k, hi⟩, mx⟩ := exists_max (X := fun i => ∃ n k, d.threads[i]? = some (.lock n k)) want
    d.threads.length (fun i ⟨n, k, h⟩ => (List.getElem?_eq_some_iff.1 h).1) (by
      obtain ⟨p, hp, n, hn⟩ := w
      obtain ⟨i, hi⟩ := List.getElem?_of_mem hp
      cases p <;> simp [Prog.WaitsFor] at hn
      exact ⟨i, _, _, hi⟩)
  have hh : d.heap.held n = true := by
    cases hb : d.heap.held n with
    | true => rfl
    | false => exact absurd ⟨_, Step.mk d i _ k (d.heap.setHeld n true) hi (by simp [step1, hb])⟩ stuck
  obtain ⟨j, jl, hj⟩ := (t.held n).1 hh
  have hq : d.threads[j]? = some d.threads[j] := List.getElem?_eq_getElem jl
  have dj := t.disc j _ hq
  have moves : ∀ p' h', step1 d.threads[j] d.heap = some (p', h') → False := fun p' h' e =>
    stuck ⟨_, Step.mk d j _ p' h' hq e⟩
  generalize hpj : d.threads[j] = pj at hq dj moves
  cases pj with
  | ret a => have h1 := dj.1; rw [h1] at hj; cases hj
  | lock m k' =>
    have h1 : rank n < rank m := dj.1 n hj
    have h2 := mx j ⟨m, k', hq⟩
    simp only [want, hi, hq] at h2
    omega
  | unlock m k' => exact moves _ _ rfl
  | read m k' => exact moves _ _ rfl
  | write m f k' => exact moves _ _ rfl
  | upgrade m k' => exact moves _ _ rfl
  | alloc s k' => exact moves _ _ rfl
  | panic msg => exact np ⟨_, msg, List.ne_nil_of_mem hj, dj, hpj ▸ List.getElem_mem jl⟩
  | diverge => exact moves _ _ rfl

/-- With a lock order, when no thread can move, then all have returned or panicked, or one has panicked
while holding a lock. -/
theorem stuck_done (rank : NodeId → Nat) {d : Config S α} {Ls : Nat → List NodeId}
    (t : ThreadInv (fun L n => ∀ m ∈ L, rank m < rank n) pk lo P (fun L (_ : α) => L = [] ∧ True) d Ls)
    (stuck : ¬ ∃ e, Step d e) :
    (∀ p ∈ d.threads, (∃ a, p = .ret a) ∨ ∃ L msg, pk L ∧ p = .panic msg) ∨
      ∃ L msg, L ≠ [] ∧ pk L ∧ (Prog.panic msg : Prog S α) ∈ d.threads := by
  by_cases np : ∃ L msg, L ≠ [] ∧ pk L ∧ (Prog.panic msg : Prog S α) ∈ d.threads
  · exact .inr np
  refine .inl fun p hp => ?_
  have nw : ¬ ∃ p ∈ d.threads, ∃ n, p.WaitsFor n := fun w => np (no_deadlock rank t stuck w)
  obtain ⟨i, hi⟩ := List.getElem?_of_mem hp
  have mv : ∀ p' h', step1 p d.heap = some (p', h') → False := fun p' h' e =>
    stuck ⟨_, Step.mk d i p p' h' hi e⟩
  cases p with
  | ret a => exact .inl ⟨a, rfl⟩
  | panic m => exact .inr ⟨_, m, t.disc i _ hi, rfl⟩
  | lock n k => exact absurd ⟨_, hp, n, rfl⟩ nw
  | unlock n k => exact (mv _ _ rfl).elim
  | read n k => exact (mv _ _ rfl).elim
  | write n f k => exact (mv _ _ rfl).elim
  | upgrade n k => exact (mv _ _ rfl).elim
  | alloc s k => exact (mv _ _ rfl).elim
  | diverge => exact (mv _ _ rfl).elim

end K
