import Verif.Lemmas.Locks
import Verif.Lemmas.Deadlock
/-!
# Data protected by a mutex

The mutex of `n` may protect more than the content of `n` (a mimic master protects the positions of its
mimic children).  `Guarded S` says what the mutex of a node protects (`same`) and which fact about it
holds whenever the mutex is free (`inv`).  `Rg G P Q B p L A`: started while holding `L` in a memory with
`A`, the program `p` changes data protected by `m` only while it holds `m` and restores `inv m` before it
releases `m`; it returns with locks and value related by `Q` and memory and value by `B`.  This is a rely-guarantee logic; `steps_rg` is its soundness for every interleaving.
-/

set_option linter.unusedSectionVars false

namespace K
open Prog

variable {S α β : Type}

/-- write to one node -/
def upd (g : NodeId → S) (n : NodeId) (f : S → S) : NodeId → S := fun m => if m = n then f (g m) else g m

/-- see the file comment -/
structure Guarded (S : Type) (lo : Nat) where
  same : NodeId → (NodeId → S) → (NodeId → S) → Prop
  inv : NodeId → (NodeId → S) → Prop
  keep : ∀ n g g', same n g g' → inv n g → inv n g'
  fresh : ∀ n k s g, lo ≤ k → same n g (fun m => if m = k then s else g m)

variable {lo : Nat} (G : Guarded S lo) {P : NodeId → S → Prop}

/-- `A` speaks only of data protected by the mutexes in `L` -/
def Guarded.Stable (L : List NodeId) (A : (NodeId → S) → Prop) : Prop :=
  ∀ g g', (∀ m ∈ L, G.same m g g') → A g → A g'

/-- see the file comment -/
def Rg (G : Guarded S lo) (P : NodeId → S → Prop) (Q : List NodeId → α → Prop)
    (B : α → (NodeId → S) → Prop) :
    Prog S α → List NodeId → ((NodeId → S) → Prop) → Prop
  | .ret a, L, A => Q L a ∧ ∀ g, A g → B a g
  | .lock n k, L, A => Rg G P Q B k (n :: L) (fun g => A g ∧ G.inv n g)
  | .unlock n k, L, A => n ∈ L ∧ (∀ g, A g → G.inv n g) ∧
      ∃ A' : (NodeId → S) → Prop, (∀ g, A g → A' g) ∧ G.Stable (L.erase n) A' ∧ Rg G P Q B k (L.erase n) A'
  | .read n k, L, A => n ∈ L ∧ ∀ s, P n s → Rg G P Q B (k s) L A
  | .write n f k, L, A => n ∈ L ∧ (∀ s, P n s → P n (f s)) ∧
      (∀ g, (∀ m, P m (g m)) → A g → ∀ m, m ∉ L → G.same m g (upd g n f)) ∧
      ∃ A' : (NodeId → S) → Prop, (∀ g, (∀ m, P m (g m)) → A g → A' (upd g n f)) ∧ G.Stable L A' ∧
        Rg G P Q B k L A'
  | .upgrade _ k, L, A => ∀ b, Rg G P Q B (k b) L A
  | .alloc s k, L, A => ∀ m, lo ≤ m → P m s ∧ Rg G P Q B (k m) L A
  | .panic _, _, _ => True
  | .diverge, _, _ => True

variable {G}

theorem Guarded.Stable.lock {L : List NodeId} {A : (NodeId → S) → Prop} (s : G.Stable L A) (n : NodeId) :
    G.Stable (n :: L) (fun g => A g ∧ G.inv n g) := fun g g' e a =>
  ⟨s g g' (fun m hm => e m (by simp [hm])) a.1, G.keep n g g' (e n (by simp)) a.2⟩

theorem Rg.strengthen {Q : List NodeId → α → Prop} {B : α → (NodeId → S) → Prop} {p : Prog S α} {L : List NodeId}
    {A A' : (NodeId → S) → Prop} (h : Rg G P Q B p L A) (i : ∀ g, A' g → A g) : Rg G P Q B p L A' := by
  induction p generalizing L A A' with
  | ret a => exact ⟨h.1, fun g b => h.2 g (i g b)⟩
  | lock n k ih => exact ih h fun g b => ⟨i g b.1, b.2⟩
  | unlock n k ih =>
    obtain ⟨a, b, A', c, d, e⟩ := h
    exact ⟨a, fun g x => b g (i g x), A', fun g x => c g (i g x), d, e⟩
  | read n k ih => exact ⟨h.1, fun s hs => ih s (h.2 s hs) i⟩
  | write n f k ih =>
    obtain ⟨a, b, b', A', c, d, e⟩ := h
    exact ⟨a, b, fun g v x => b' g v (i g x), A', fun g v x => c g v (i g x), d, e⟩
  | upgrade n k ih => exact fun b => ih b (h b) i
  | alloc s k ih => exact fun m hm => ⟨(h m hm).1, ih m (h m hm).2 i⟩
  | panic m => trivial
  | diverge => trivial

theorem Rg.bind {Q : List NodeId → α → Prop} {R : List NodeId → β → Prop}
    {B : α → (NodeId → S) → Prop} {C : β → (NodeId → S) → Prop}
    {p : Prog S α} {f : α → Prog S β} {L : List NodeId} {A : (NodeId → S) → Prop} (h : Rg G P Q B p L A)
    (hf : ∀ L a, Q L a → Rg G P R C (f a) L (B a)) : Rg G P R C (p >>= f) L A := by
  show Rg G P R C (p.bind f) L A
  induction p generalizing L A with
  | ret a => exact (hf L a h.1).strengthen h.2
  | lock n k ih => exact ih h
  | unlock n k ih =>
    obtain ⟨a, b, A', c, d, e⟩ := h
    exact ⟨a, b, A', c, d, ih e⟩
  | read n k ih => exact ⟨h.1, fun s hs => ih s (h.2 s hs)⟩
  | write n f k ih =>
    obtain ⟨a, b, b', A', c, d, e⟩ := h
    exact ⟨a, b, b', A', c, d, ih e⟩
  | upgrade n k ih => exact fun b => ih b (h b)
  | alloc s k ih => exact fun m hm => ⟨(h m hm).1, ih m (h m hm).2⟩
  | panic m => trivial
  | diverge => trivial

/-- A disciplined program whose updates do not touch protected data. -/
theorem Lk.rg {A : List NodeId → NodeId → Prop} {pk : List NodeId → Prop}
    {U : NodeId → (S → S) → Prop} {Q : List NodeId → α → Prop} {p : Prog S α} {L : List NodeId}
    (h : Lk A pk lo P U Q p L) (hp : ∀ n f, U n f → Pres P n f)
    (hs : ∀ n f, U n f → ∀ g, (∀ m, P m (g m)) → ∀ m, G.same m g (upd g n f)) :
    Rg G P Q (fun _ _ => True) p L (fun g => ∀ m ∈ L, G.inv m g) := by
  induction p generalizing L with
  | ret a => exact ⟨h, fun _ _ => trivial⟩
  | lock n k ih =>
    refine (ih h.2).strengthen fun g hg m hm => ?_
    rcases List.mem_cons.1 hm with rfl | hm
    · exact hg.2
    · exact hg.1 m hm
  | unlock n k ih =>
    refine ⟨h.1, fun g hg => hg n h.1, _, fun g hg m hm => hg m (List.mem_of_mem_erase hm), ?_, ih h.2⟩
    exact fun g g' e a m hm => G.keep m g g' (e m hm) (a m hm)
  | read n k ih => exact ⟨h.1, fun s hs' => ih s (h.2 s hs')⟩
  | write n f k ih =>
    refine ⟨h.1, hp n f h.2.1, fun g v _ m _ => hs n f h.2.1 g v m, _,
      fun g v a m hm => G.keep m g _ (hs n f h.2.1 g v m) (a m hm), ?_, ih h.2.2⟩
    exact fun g g' e a m hm => G.keep m g g' (e m hm) (a m hm)
  | upgrade n k ih => exact fun b => ih b (h b)
  | alloc s k ih => exact fun m hm => ⟨(h m hm).1, ih m (h m hm).2⟩
  | panic m => trivial
  | diverge => trivial

/-! ## threads -/

/-- thread `i` holds `Ls i` and knows `As i` -/
structure RInv (G : Guarded S lo) (P : NodeId → S → Prop) (Q : List NodeId → α → Prop) (B : α → (NodeId → S) → Prop)
    (d : Config S α) (Ls : Nat → List NodeId) (As : Nat → (NodeId → S) → Prop) : Prop where
  heap : HeapInv lo P d.heap
  disc : ∀ i p, d.threads[i]? = some p → Rg G P Q B p (Ls i) (As i) ∧ G.Stable (Ls i) (As i) ∧
    As i d.heap.get
  nodup : ∀ i, (Ls i).Nodup
  excl : ∀ i j n, n ∈ Ls i → n ∈ Ls j → i = j
  held : ∀ n, d.heap.held n = true ↔ ∃ i, i < d.threads.length ∧ n ∈ Ls i
  free : ∀ n, d.heap.held n = false → G.inv n d.heap.get

theorem step_rg {Q : List NodeId → α → Prop} {B : α → (NodeId → S) → Prop} {d e : Config S α} (s : Step d e)
    {Ls : Nat → List NodeId} {As : Nat → (NodeId → S) → Prop} (t : RInv G P Q B d Ls As) :
    ∃ Ls' As', RInv G P Q B e Ls' As' := by
  cases s with
  | mk i p p' h' hi hs =>
    obtain ⟨hp, st, ha⟩ := t.disc i p hi
    have hlt : i < d.threads.length := (List.getElem?_eq_some_iff.1 hi).1
    -- steps that change no locks
    have same : ∀ A', Rg G P Q B p' (Ls i) A' → G.Stable (Ls i) A' → A' h'.get → HeapInv lo P h' →
        h'.held = d.heap.held → (∀ m, m ∉ Ls i → G.same m d.heap.get h'.get) →
        ∃ Ls' As', RInv G P Q B ⟨h', d.threads.set i p'⟩ Ls' As' := by
      intro A' k sA aA iv hh sm
      refine ⟨Ls, fun j => if j = i then A' else As j, iv, ?_, t.nodup, t.excl, ?_, ?_⟩
      · intro j q hj
        simp only [List.getElem?_set] at hj
        split at hj
        · rename_i e; subst e; simp [hlt] at hj; subst hj; simp only [if_true]; exact ⟨k, sA, aA⟩
        · rename_i e
          obtain ⟨a, b, c⟩ := t.disc j q hj
          simp only [if_neg (Ne.symm e)]
          refine ⟨a, b, b _ _ (fun m hm => sm m fun hm' => e (t.excl i j m hm' hm)) c⟩
      · intro n; simp only [hh, List.length_set]; exact t.held n
      · intro n hn
        refine G.keep n _ _ (sm n fun hm => ?_) (t.free n (hh ▸ hn))
        have := (t.held n).2 ⟨i, hlt, hm⟩
        rw [hh, this] at hn; cases hn
    cases p with
    | ret a => cases hs
    | panic m => cases hs
    | diverge =>
      cases hs
      refine ⟨Ls, As, t.heap, fun j q hj => ?_, t.nodup, t.excl, fun n => ?_, t.free⟩
      · simp only [List.getElem?_set] at hj
        split at hj
        · rename_i e; subst e; simp [hlt] at hj; subst hj; exact t.disc _ _ hi
        · exact t.disc j q hj
      · simp only [List.length_set]; exact t.held n
    | read n k =>
      cases hs
      refine ⟨Ls, As, t.heap, fun j q hj => ?_, t.nodup, t.excl, fun n => ?_, t.free⟩
      · simp only [List.getElem?_set] at hj
        split at hj
        · rename_i e; subst e; simp [hlt] at hj; subst hj
          exact ⟨hp.2 _ (t.heap.2 n), st, ha⟩
        · exact t.disc j q hj
      · simp only [List.length_set]; exact t.held n
    | upgrade n k =>
      cases hs
      refine ⟨Ls, As, t.heap, fun j q hj => ?_, t.nodup, t.excl, fun n => ?_, t.free⟩
      · simp only [List.getElem?_set] at hj
        split at hj
        · rename_i e; subst e; simp [hlt] at hj; subst hj
          exact ⟨hp _, st, ha⟩
        · exact t.disc j q hj
      · simp only [List.length_set]; exact t.held n
    | write n f k =>
      cases hs
      obtain ⟨_, pw, gu, A', a1, a2, a3⟩ := hp
      exact same A' a3 a2 (a1 _ t.heap.2 ha) (t.heap.modify pw) rfl fun m hm => gu _ t.heap.2 ha m hm
    | alloc s k =>
      cases hs
      have q := hp _ t.heap.1
      exact same _ q.2 st (st _ _ (fun m _ => G.fresh m _ s _ t.heap.1) ha) (t.heap.push q.1) rfl
        fun m _ => G.fresh m _ s _ t.heap.1
    | lock n k =>
      simp only [step1] at hs; split at hs
      · cases hs
      · rename_i nh
        cases hs
        have nf : d.heap.held n = false := by simpa using nh
        have free : ∀ j, j < d.threads.length → n ∉ Ls j := fun j hj hn =>
          nh ((t.held n).2 ⟨j, hj, hn⟩)
        refine ⟨fun j => if j = i then n :: Ls i else if j < d.threads.length then Ls j else [],
          fun j => if j = i then (fun g => As i g ∧ G.inv n g) else As j, t.heap, ?_, ?_, ?_, ?_, ?_⟩
        · intro j q hj
          simp only [List.getElem?_set] at hj
          split at hj
          · rename_i e; subst e; simp [hlt] at hj; subst hj
            simp only [if_true]
            exact ⟨hp, st.lock n, ha, t.free n nf⟩
          · rename_i e
            have : j < d.threads.length := (List.getElem?_eq_some_iff.1 hj).1
            simp only [if_neg (Ne.symm e), this, if_true]
            exact t.disc j q hj
        · intro j; split
          · exact List.nodup_cons.2 ⟨free i hlt, t.nodup i⟩
          · split
            · exact t.nodup j
            · simp
        · intro j1 j2 m h1 h2
          by_cases e1 : j1 = i <;> by_cases e2 : j2 = i
          · rw [e1, e2]
          · simp only [e1, e2, if_true, if_false] at h1 h2
            split at h2
            · rename_i l2
              rcases List.mem_cons.1 h1 with rfl | h1
              · exact absurd h2 (free _ l2)
              · exact e1.trans (t.excl _ _ _ h1 h2)
            · cases h2
          · simp only [e1, e2, if_true, if_false] at h1 h2
            split at h1
            · rename_i l2
              rcases List.mem_cons.1 h2 with rfl | h2
              · exact absurd h1 (free _ l2)
              · exact (t.excl _ _ _ h1 h2).trans e2.symm
            · cases h1
          · simp only [e1, e2, if_false] at h1 h2
            split at h1 <;> split at h2
            · exact t.excl _ _ _ h1 h2
            · cases h2
            · cases h1
            · cases h1
        · intro m
          simp only [Heap.setHeld, List.length_set]
          constructor
          · intro hm
            by_cases e : m = n
            · exact ⟨i, hlt, by simp [e]⟩
            · simp only [e, if_false] at hm
              obtain ⟨j, jl, hj⟩ := (t.held m).1 hm
              refine ⟨j, jl, ?_⟩
              by_cases ej : j = i
              · subst ej; simp [hj]
              · simp [ej, jl, hj]
          · rintro ⟨j, jl, hj⟩
            by_cases e : m = n
            · simp [e]
            · simp only [e, if_false]
              refine (t.held m).2 ?_
              by_cases ej : j = i
              · subst ej; simp [e] at hj; exact ⟨j, jl, hj⟩
              · simp [ej, jl] at hj; exact ⟨j, jl, hj⟩
        · intro m hm
          refine t.free m ?_
          simp only [Heap.setHeld] at hm
          split at hm
          · cases hm
          · exact hm
    | unlock n k =>
      cases hs
      obtain ⟨hn, iv, A', a1, a2, a3⟩ := hp
      refine ⟨fun j => if j = i then (Ls i).erase n else Ls j, fun j => if j = i then A' else As j,
        t.heap, ?_, ?_, ?_, ?_, ?_⟩
      · intro j q hj
        simp only [List.getElem?_set] at hj
        split at hj
        · rename_i e; subst e; simp [hlt] at hj; subst hj
          simp only [if_true]
          exact ⟨a3, a2, a1 _ ha⟩
        · rename_i e
          simp only [if_neg (Ne.symm e)]
          exact t.disc j q hj
      · intro j; split
        · exact (t.nodup i).erase n
        · exact t.nodup j
      · intro j1 j2 m h1 h2
        refine t.excl j1 j2 m ?_ ?_
        · split at h1
          · rename_i e; subst e; exact List.mem_of_mem_erase h1
          · exact h1
        · split at h2
          · rename_i e; subst e; exact List.mem_of_mem_erase h2
          · exact h2
      · intro m
        simp only [Heap.setHeld, List.length_set]
        constructor
        · intro hm
          by_cases e : m = n
          · simp [e] at hm
          · simp only [e, if_false] at hm
            obtain ⟨j, jl, hj⟩ := (t.held m).1 hm
            refine ⟨j, jl, ?_⟩
            by_cases ej : j = i
            · subst ej; simp [(t.nodup j).mem_erase_iff, e, hj]
            · simp [ej, hj]
        · rintro ⟨j, jl, hj⟩
          by_cases ej : j = i
          · subst ej
            simp only [if_true, (t.nodup j).mem_erase_iff] at hj
            simp only [hj.1, if_false]
            exact (t.held m).2 ⟨j, jl, hj.2⟩
          · simp only [ej, if_false] at hj
            have : m ≠ n := by
              rintro rfl
              exact ej (t.excl j i m hj hn)
            simp only [this, if_false]
            exact (t.held m).2 ⟨j, jl, hj⟩
      · intro m hm
        simp only [Heap.setHeld] at hm
        split at hm
        · rename_i e; subst e; exact iv _ ha
        · exact t.free m hm

/-- In every interleaving the fact about a mutex holds whenever the mutex is free. -/
theorem steps_rg {Q : List NodeId → α → Prop} {B : α → (NodeId → S) → Prop} {c d : Config S α} (st : DSteps c d)
    {Ls : Nat → List NodeId} {As : Nat → (NodeId → S) → Prop} (t : RInv G P Q B c Ls As) :
    ∃ Ls' As', RInv G P Q B d Ls' As' := by
  induction st with
  | refl => exact ⟨Ls, As, t⟩
  | tail h s ih =>
    obtain ⟨Ls', As', t'⟩ := ih
    cases s with
    | thread s => exact step_rg s t'
    | free F => exact ⟨Ls', As', t'.heap, t'.disc, t'.nodup, t'.excl, t'.held, t'.free⟩

end K
