import Verif.Lemmas.Answer
/-!
# Invariants of nodes that hold because some code never runs

`Inv lo P Q p L`: started while holding the locks `L`, in a memory whose nodes satisfy `P`, `p` keeps `P` of every
node with each write and allocation and can return only locks and values related by `Q`.  As in `Ans`, nothing is
required after locking a mutex the program already holds.  `steps_inv` is the soundness for every interleaving.
-/

set_option linter.unusedSectionVars false

namespace K
open Prog

variable {S α β γ δ : Type}

/-- see the file comment -/
def Inv (lo : Nat) (P : NodeId → S → Prop) (Q : List NodeId → α → Prop) :
    Prog S α → List NodeId → Prop
  | .ret a, L => Q L a
  | .lock n k, L => n ∉ L → Inv lo P Q k (n :: L)
  | .unlock n k, L => n ∈ L ∧ Inv lo P Q k (L.erase n)
  | .read n k, L => ∀ s, P n s → Inv lo P Q (k s) L
  | .write n f k, L => Pres P n f ∧ Inv lo P Q k L
  | .upgrade _ k, L => ∀ b, Inv lo P Q (k b) L
  | .alloc s k, L => ∀ m, lo ≤ m → P m s ∧ Inv lo P Q (k m) L
  | .panic _, _ => True
  | .diverge, _ => True

variable {lo : Nat} {P : NodeId → S → Prop} {L : List NodeId}

theorem Inv.mono {Q Q' : List NodeId → α → Prop} {p : Prog S α} {L : List NodeId}
    (h : Inv lo P Q p L) (i : ∀ L a, Q L a → Q' L a) : Inv lo P Q' p L := by
  induction p generalizing L with
  | ret a => exact i L a h
  | lock n k ih => exact fun hn => ih (h hn)
  | unlock n k ih => exact ⟨h.1, ih h.2⟩
  | read n k ih => exact fun s hs => ih s (h s hs)
  | write n f k ih => exact ⟨h.1, ih h.2⟩
  | upgrade n k ih => exact fun b => ih b (h b)
  | alloc s k ih => exact fun m hm => ⟨(h m hm).1, ih m (h m hm).2⟩
  | panic m => trivial
  | diverge => trivial

theorem Inv.bind {Q : List NodeId → α → Prop} {R : List NodeId → β → Prop} {p : Prog S α}
    {f : α → Prog S β} {L : List NodeId} (h : Inv lo P Q p L)
    (hf : ∀ L a, Q L a → Inv lo P R (f a) L) : Inv lo P R (p >>= f) L := by
  show Inv lo P R (p.bind f) L
  induction p generalizing L with
  | ret a => exact hf L a h
  | lock n k ih => exact fun hn => ih (h hn)
  | unlock n k ih => exact ⟨h.1, ih h.2⟩
  | read n k ih => exact fun s hs => ih s (h s hs)
  | write n f k ih => exact ⟨h.1, ih h.2⟩
  | upgrade n k ih => exact fun b => ih b (h b)
  | alloc s k ih => exact fun m hm => ⟨(h m hm).1, ih m (h m hm).2⟩
  | panic m => trivial
  | diverge => trivial

theorem Lk.inv {A : List NodeId → NodeId → Prop} {pk : List NodeId → Prop}
    {Q : List NodeId → α → Prop} {p : Prog S α} {L : List NodeId}
    (h : Lk A pk lo P (Pres P) Q p L) : Inv lo P Q p L := by
  induction p generalizing L with
  | ret a => exact h
  | lock n k ih => exact fun _ => ih h.2
  | unlock n k ih => exact ⟨h.1, ih h.2⟩
  | read n k ih => exact fun s hs => ih s (h.2 s hs)
  | write n f k ih => exact ⟨h.2.1, ih h.2.2⟩
  | upgrade n k ih => exact fun b => ih b (h b)
  | alloc s k ih => exact fun m hm => ⟨(h m hm).1, ih m (h m hm).2⟩
  | panic m => trivial
  | diverge => trivial

/-- `p` keeps `P`, gives back the locks it took and returns something in `Q` -/
def Holds (lo : Nat) (P : NodeId → S → Prop) (L : List NodeId) (Q : α → Prop) (p : Prog S α) : Prop :=
  Inv lo P (fun L' a => L' = L ∧ Q a) p L

theorem Holds.inv {Q : α → Prop} {R : List NodeId → β → Prop} {p : Prog S α}
    {f : α → Prog S β} (h : Holds lo P L Q p)
    (hf : ∀ a, Q a → Inv lo P R (f a) L) : Inv lo P R (p >>= f) L :=
  Inv.bind h fun L' a ha => by obtain ⟨rfl, ha⟩ := ha; exact hf a ha
theorem Holds.bind {Q : α → Prop} {R : β → Prop} {p : Prog S α}
    {f : α → Prog S β} (h : Holds lo P L Q p)
    (hf : ∀ a, Q a → Holds lo P L R (f a)) : Holds lo P L R (p >>= f) := h.inv hf
theorem Holds.mono {Q Q' : α → Prop} {p : Prog S α} (h : Holds lo P L Q p)
    (i : ∀ a, Q a → Q' a) : Holds lo P L Q' p := Inv.mono h fun _ _ ha => ⟨ha.1, i _ ha.2⟩
theorem Keep.holds {A : List NodeId → NodeId → Prop} {pk : List NodeId → Prop} {Q : α → Prop} {p : Prog S α}
    (h : Keep A pk lo P (Pres P) L Q p) : Holds lo P L Q p := Lk.inv h

theorem inv_unlock {n : NodeId} {f : Unit → Prog S α} {Q : List NodeId → α → Prop}
    (h : Inv lo P Q (f ()) L) : Inv lo P Q (doUnlock n >>= f) (n :: L) := by
  refine ⟨by simp, ?_⟩
  rw [List.erase_cons_head]; exact h
theorem holds_pure {Q : α → Prop} {a : α} (h : Q a) : Holds lo P L Q (pure a : Prog S α) := ⟨rfl, h⟩
theorem holds_peek {n : NodeId} : Holds lo P L (P n) (peek n) :=
  fun _ s hs => inv_unlock (L := L) (f := fun _ => pure s) ⟨rfl, hs⟩
theorem holds_poke {n : NodeId} {f : S → S} (w : Pres P n f) : Holds lo P L (fun _ => True) (poke n f) :=
  fun _ => ⟨w, by simp, by rw [List.erase_cons_head]; exact ⟨rfl, trivial⟩⟩
theorem holds_expect {o : Option α} {m : String} : Holds lo P L (fun a => o = some a) (expect o m) := by
  cases o with
  | none => trivial
  | some a => exact ⟨rfl, rfl⟩
theorem holds_mapList {Q : γ → δ → Prop} {xs : List γ} {f : γ → Prog S δ}
    (h : ∀ x ∈ xs, Holds lo P L (Q x) (f x)) :
    Holds lo P L (fun ys => List.Forall₂ Q xs ys) (mapList xs f) := by
  induction xs with
  | nil => exact ⟨rfl, .nil⟩
  | cons x xs ih =>
    refine (h x (by simp)).bind fun y hy => ?_
    exact (ih fun z hz => h z (by simp [hz])).bind fun ys hys => holds_pure (.cons hy hys)

/-! ## threads -/

/-- thread `i` holds `Ls i` -/
structure IInv (lo : Nat) (P : NodeId → S → Prop) (Q : Nat → List NodeId → α → Prop)
    (d : Config S α) (Ls : Nat → List NodeId) : Prop where
  disc : ∀ i p, d.threads[i]? = some p → Inv lo P (Q i) p (Ls i)
  nodup : ∀ i, (Ls i).Nodup
  excl : ∀ i j n, n ∈ Ls i → n ∈ Ls j → i = j
  held : ∀ i n, n ∈ Ls i → d.heap.held n = true

private theorem disc_set {Q : Nat → List NodeId → α → Prop} {d : Config S α} {Ls : Nat → List NodeId}
    (t : ∀ i p, d.threads[i]? = some p → Inv lo P (Q i) p (Ls i)) {i : Nat} {p' : Prog S α}
    {K : List NodeId} (a : Inv lo P (Q i) p' K) :
    ∀ j q, (d.threads.set i p')[j]? = some q →
      Inv lo P (Q j) q (if j = i then K else Ls j) := by
  intro j q hq
  by_cases e : j = i
  · subst e
    rw [List.getElem?_set_self'] at hq
    cases hj : d.threads[j]? with
    | none => rw [hj] at hq; cases hq
    | some z => rw [hj] at hq; cases hq; simpa using a
  · rw [List.getElem?_set_ne (Ne.symm e)] at hq
    simpa [e] using t j q hq

theorem step_inv {Q : Nat → List NodeId → α → Prop} {d e : Config S α} (s : Step d e)
    (i : HeapInv lo P d.heap) {Ls : Nat → List NodeId} (t : IInv lo P Q d Ls) :
    HeapInv lo P e.heap ∧ ∃ Ls', IInv lo P Q e Ls' := by
  cases s with
  | mk j p p' h' hj hs =>
    have same : Inv lo P (Q j) p' (Ls j) → (∀ m, h'.held m = d.heap.held m) → HeapInv lo P h' →
        HeapInv lo P h' ∧ ∃ Ls', IInv lo P Q ⟨h', d.threads.set j p'⟩ Ls' := by
      intro a eh hi
      refine ⟨hi, Ls, fun k q hq => ?_, t.nodup, t.excl, fun k n hn => (eh n).trans (t.held k n hn)⟩
      have := disc_set t.disc a k q hq
      by_cases e : k = j
      · subst e; simpa using this
      · simpa [e] using this
    have tj := t.disc j p hj
    cases p with
    | ret a => cases hs
    | lock n k =>
      simp only [step1] at hs; split at hs
      · cases hs
      · rename_i fr
        cases hs
        have free : ∀ k, n ∉ Ls k := fun k hn => fr (t.held k n hn)
        refine ⟨i, fun k => if k = j then n :: Ls j else Ls k, disc_set t.disc (tj (free j)), ?_, ?_, ?_⟩
        · intro k; split
          · exact List.nodup_cons.2 ⟨free j, t.nodup j⟩
          · exact t.nodup k
        · intro a b m ha hb
          split at ha <;> split at hb
          · rename_i x y; rw [x, y]
          · rename_i x y
            rcases List.mem_cons.1 ha with rfl | ha
            · exact absurd hb (free b)
            · exact absurd (t.excl _ _ _ ha hb) (by rintro rfl; exact y rfl)
          · rename_i x y
            rcases List.mem_cons.1 hb with rfl | hb
            · exact absurd ha (free a)
            · exact absurd (t.excl _ _ _ hb ha) (by rintro rfl; exact x rfl)
          · exact t.excl _ _ _ ha hb
        · intro k m hm
          show (d.heap.setHeld n true).held m = true
          by_cases e : m = n
          · simp [Heap.setHeld, e]
          · have : ∃ k, m ∈ Ls k := by
              split at hm
              · exact ⟨j, (List.mem_cons.1 hm).resolve_left e⟩
              · exact ⟨k, hm⟩
            obtain ⟨k, hk⟩ := this
            simpa [Heap.setHeld, e] using t.held k m hk
    | unlock n k =>
      cases hs
      refine ⟨i, fun k => if k = j then (Ls j).erase n else Ls k, disc_set t.disc tj.2, ?_, ?_, ?_⟩
      · intro k; split
        · exact (t.nodup j).erase n
        · exact t.nodup k
      · intro a b m ha hb
        have sub : ∀ k, m ∈ (if k = j then (Ls j).erase n else Ls k) → m ∈ Ls k := by
          intro k hk; split at hk
          · rename_i e; exact e ▸ List.mem_of_mem_erase hk
          · exact hk
        exact t.excl _ _ _ (sub a ha) (sub b hb)
      · intro k m hm
        have ne : m ≠ n := by
          rintro rfl
          split at hm
          · exact (List.Nodup.not_mem_erase (t.nodup j)) hm
          · rename_i e; exact e (t.excl _ _ _ hm tj.1)
        have : ∃ k, m ∈ Ls k := by
          split at hm
          · exact ⟨j, List.mem_of_mem_erase hm⟩
          · exact ⟨k, hm⟩
        obtain ⟨k, hk⟩ := this
        show (d.heap.setHeld n false).held m = true
        simpa [Heap.setHeld, ne] using t.held k m hk
    | read n k => cases hs; exact same (tj _ (i.2 n)) (fun _ => rfl) i
    | write n f k => cases hs; exact same tj.2 (fun _ => rfl) (i.modify tj.1)
    | upgrade n k => cases hs; exact same (tj _) (fun _ => rfl) i
    | alloc s k => cases hs; exact same (tj _ i.1).2 (fun _ => rfl) (HeapInv.push i (tj _ i.1).1)
    | panic m => cases hs
    | diverge => cases hs; exact same trivial (fun _ => rfl) i

/-- In every interleaving every node satisfies `P` at every moment, and a thread that returns, returns what its
program can answer. -/
theorem steps_inv {Q : Nat → List NodeId → α → Prop} {c d : Config S α} (st : DSteps c d)
    (inv : HeapInv lo P c.heap) (sp : ∀ i p, c.threads[i]? = some p → Inv lo P (Q i) p []) :
    HeapInv lo P d.heap ∧ ∀ (i : Nat) (a : α), d.threads[i]? = some (.ret a) → ∃ L, Q i L a := by
  have : HeapInv lo P d.heap ∧ ∃ Ls, IInv lo P Q d Ls := by
    induction st with
    | refl => exact ⟨inv, fun _ => [], sp, fun _ => List.nodup_nil, fun _ _ _ h => (by cases h),
        fun _ _ h => (by cases h)⟩
    | tail h s ih =>
      obtain ⟨hi, Ls, t⟩ := ih
      cases s with
      | thread s => exact step_inv s hi t
      | free F => exact ⟨hi, Ls, t.disc, t.nodup, t.excl, t.held⟩
  obtain ⟨hi, Ls, t⟩ := this
  exact ⟨hi, fun i a r => ⟨Ls i, t.disc i _ r⟩⟩

end K
