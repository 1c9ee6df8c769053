import Verif.Lemmas.Own
import Mathlib.Data.List.Forall2
/-!
# What a program can return under interference

`Ans lo P Q p L`: started while holding the locks `L`, in a memory whose nodes satisfy `P` at every moment
(other threads change everything else at will), `p` unlocks only what it holds and can return only locks
and values related by `Q`.  Locking a mutex the program already holds never returns, so nothing is required
after it.  `steps_ans` is the soundness for every interleaving.
-/

set_option linter.unusedSectionVars false

namespace K
open Prog

variable {S α β γ δ ε : Type}

/-- see the file comment -/
def Ans (lo : Nat) (P : NodeId → S → Prop) (Q : List NodeId → α → Prop) :
    Prog S α → List NodeId → Prop
  | .ret a, L => Q L a
  | .lock n k, L => n ∉ L → Ans lo P Q k (n :: L)
  | .unlock n k, L => n ∈ L ∧ Ans lo P Q k (L.erase n)
  | .read n k, L => ∀ s, P n s → Ans lo P Q (k s) L
  | .write _ _ k, L => Ans lo P Q k L
  | .upgrade _ k, L => ∀ b, Ans lo P Q (k b) L
  | .alloc _ k, L => ∀ m, lo ≤ m → Ans lo P Q (k m) L
  | .panic _, _ => True
  | .diverge, _ => True

variable {lo : Nat} {P : NodeId → S → Prop} {L : List NodeId}

theorem Ans.mono {Q Q' : List NodeId → α → Prop} {p : Prog S α} {L : List NodeId}
    (h : Ans lo P Q p L) (i : ∀ L a, Q L a → Q' L a) : Ans lo P Q' p L := by
  induction p generalizing L with
  | ret a => exact i L a h
  | lock n k ih => exact fun hn => ih (h hn)
  | unlock n k ih => exact ⟨h.1, ih h.2⟩
  | read n k ih => exact fun s hs => ih s (h s hs)
  | write n f k ih => exact ih h
  | upgrade n k ih => exact fun b => ih b (h b)
  | alloc s k ih => exact fun m hm => ih m (h m hm)
  | panic m => trivial
  | diverge => trivial

theorem Ans.bind {Q : List NodeId → α → Prop} {R : List NodeId → β → Prop} {p : Prog S α}
    {f : α → Prog S β} {L : List NodeId} (h : Ans lo P Q p L)
    (hf : ∀ L a, Q L a → Ans lo P R (f a) L) : Ans lo P R (p >>= f) L := by
  show Ans lo P R (p.bind f) L
  induction p generalizing L with
  | ret a => exact hf L a h
  | lock n k ih => exact fun hn => ih (h hn)
  | unlock n k ih => exact ⟨h.1, ih h.2⟩
  | read n k ih => exact fun s hs => ih s (h s hs)
  | write n f k ih => exact ih h
  | upgrade n k ih => exact fun b => ih b (h b)
  | alloc s k ih => exact fun m hm => ih m (h m hm)
  | panic m => trivial
  | diverge => trivial

theorem Lk.ans {A : List NodeId → NodeId → Prop} {pk : List NodeId → Prop}
    {U : NodeId → (S → S) → Prop} {Q : List NodeId → α → Prop} {p : Prog S α} {L : List NodeId}
    (h : Lk A pk 0 (fun _ _ => True) U Q p L) : Ans lo P Q p L := by
  induction p generalizing L with
  | ret a => exact h
  | lock n k ih => exact fun _ => ih h.2
  | unlock n k ih => exact ⟨h.1, ih h.2⟩
  | read n k ih => exact fun s _ => ih s (h.2 s trivial)
  | write n f k ih => exact ih h.2.2
  | upgrade n k ih => exact fun b => ih b (h b)
  | alloc s k ih => exact fun m _ => ih m (h m (Nat.zero_le _)).2
  | panic m => trivial
  | diverge => trivial

/-- `p` gives back the locks it took and returns something in `Q` -/
def Gives (lo : Nat) (P : NodeId → S → Prop) (L : List NodeId) (Q : α → Prop) (p : Prog S α) : Prop :=
  Ans lo P (fun L' a => L' = L ∧ Q a) p L

theorem Gives.ans {Q : α → Prop} {R : List NodeId → β → Prop} {p : Prog S α}
    {f : α → Prog S β} (h : Gives lo P L Q p)
    (hf : ∀ a, Q a → Ans lo P R (f a) L) : Ans lo P R (p >>= f) L :=
  Ans.bind h fun L' a ha => by obtain ⟨rfl, ha⟩ := ha; exact hf a ha
theorem Gives.bind {Q : α → Prop} {R : β → Prop} {p : Prog S α}
    {f : α → Prog S β} (h : Gives lo P L Q p)
    (hf : ∀ a, Q a → Gives lo P L R (f a)) : Gives lo P L R (p >>= f) := h.ans hf
theorem Gives.mono {Q Q' : α → Prop} {p : Prog S α} (h : Gives lo P L Q p)
    (i : ∀ a, Q a → Q' a) : Gives lo P L Q' p := Ans.mono h fun _ _ ha => ⟨ha.1, i _ ha.2⟩
theorem Keep.gives {A : List NodeId → NodeId → Prop} {pk : List NodeId → Prop}
    {U : NodeId → (S → S) → Prop} {Q : α → Prop} {p : Prog S α}
    (h : Keep A pk 0 (fun _ _ => True) U L Q p) : Gives lo P L Q p := Lk.ans h

theorem ans_lock {n : NodeId} {f : Unit → Prog S α} {Q : List NodeId → α → Prop}
    (h : n ∉ L → Ans lo P Q (f ()) (n :: L)) : Ans lo P Q (doLock n >>= f) L := h
theorem ans_read {n : NodeId} {f : S → Prog S α} {Q : List NodeId → α → Prop}
    (h : ∀ s, P n s → Ans lo P Q (f s) L) : Ans lo P Q (doRead n >>= f) L := h
theorem ans_write {n : NodeId} {g : S → S} {f : Unit → Prog S α} {Q : List NodeId → α → Prop}
    (h : Ans lo P Q (f ()) L) : Ans lo P Q (doWrite n g >>= f) L := h
theorem ans_unlock {n : NodeId} {f : Unit → Prog S α} {Q : List NodeId → α → Prop}
    (h : Ans lo P Q (f ()) L) : Ans lo P Q (doUnlock n >>= f) (n :: L) := by
  refine ⟨by simp, ?_⟩
  rw [List.erase_cons_head]; exact h
theorem gives_pure {Q : α → Prop} {a : α} (h : Q a) : Gives lo P L Q (pure a : Prog S α) := ⟨rfl, h⟩
theorem gives_peek {n : NodeId} : Gives lo P L (P n) (peek n) :=
  ans_lock fun _ => ans_read fun s hs => ans_unlock ⟨rfl, hs⟩
theorem gives_poke {n : NodeId} {f : S → S} : Gives lo P L (fun _ => True) (poke n f) := by
  refine ans_lock fun _ => ans_write ?_
  exact ⟨by simp, by rw [List.erase_cons_head]; exact ⟨rfl, trivial⟩⟩
theorem gives_expect {o : Option α} {m : String} : Gives lo P L (fun a => o = some a) (expect o m) := by
  cases o with
  | none => trivial
  | some a => exact ⟨rfl, rfl⟩
theorem gives_ofExcept {o : Except String α} : Gives lo P L (fun a => o = .ok a) (ofExcept o) := by
  cases o with
  | error m => trivial
  | ok a => exact ⟨rfl, rfl⟩

theorem gives_forEach {xs : List γ} {f : γ → Prog S Unit}
    (h : ∀ x ∈ xs, Gives lo P L (fun _ => True) (f x)) :
    Gives lo P L (fun _ => True) (forEach xs f) := by
  induction xs with
  | nil => exact ⟨rfl, trivial⟩
  | cons x xs ih => exact (h x (by simp)).bind fun _ _ => ih fun y hy => h y (by simp [hy])
theorem gives_mapList {Q : γ → δ → Prop} {xs : List γ} {f : γ → Prog S δ}
    (h : ∀ x ∈ xs, Gives lo P L (Q x) (f x)) :
    Gives lo P L (fun ys => List.Forall₂ Q xs ys) (mapList xs f) := by
  induction xs with
  | nil => exact ⟨rfl, .nil⟩
  | cons x xs ih =>
    refine (h x (by simp)).bind fun y hy => ?_
    exact (ih fun z hz => h z (by simp [hz])).bind fun ys hys => gives_pure (.cons hy hys)
theorem gives_filterList {Q : γ → Bool → Prop} {xs : List γ} {f : γ → Prog S Bool}
    (h : ∀ x ∈ xs, Gives lo P L (Q x) (f x)) :
    Gives lo P L (fun ys => ∃ bs, List.Forall₂ Q xs bs ∧
      ys = ((xs.zip bs).filter Prod.snd).map Prod.fst) (filterList xs f) := by
  induction xs with
  | nil => exact ⟨rfl, [], .nil, rfl⟩
  | cons x xs ih =>
    refine (h x (by simp)).bind fun b hb => ?_
    refine (ih fun z hz => h z (by simp [hz])).bind fun ys ⟨bs, hbs, e⟩ => gives_pure ?_
    refine ⟨b :: bs, .cons hb hbs, ?_⟩
    cases b <;> simp [e]
theorem gives_tryEach {Q : γ → ε → Prop} {xs : List γ} {f : γ → Prog S (Except ε Unit)}
    (h : ∀ x ∈ xs, Gives lo P L (fun r => ∀ e, r = .error e → Q x e) (f x)) :
    Gives lo P L (fun r => ∀ e, r = .error e → ∃ x ∈ xs, Q x e) (tryEach xs f) := by
  induction xs with
  | nil => exact ⟨rfl, fun e he => by cases he⟩
  | cons x xs ih =>
    refine (h x (by simp)).bind fun r hr => ?_
    cases r with
    | error e =>
      exact gives_pure fun e' he => by cases he; exact ⟨x, by simp, hr e rfl⟩
    | ok u =>
      refine (ih fun z hz => h z (by simp [hz])).mono fun r hr e he => ?_
      obtain ⟨y, hy, q⟩ := hr e he
      exact ⟨y, by simp [hy], q⟩
theorem gives_findFirst {Q : γ → Bool → Prop} {xs : List γ} {f : γ → Prog S Bool}
    (h : ∀ x ∈ xs, Gives lo P L (Q x) (f x)) :
    Gives lo P L (fun o => (o = none ∧ ∀ x ∈ xs, Q x false) ∨
      ∃ pre x post, xs = pre ++ x :: post ∧ o = some x ∧ Q x true ∧ ∀ y ∈ pre, Q y false)
      (findFirst xs f) := by
  induction xs with
  | nil => exact ⟨rfl, .inl ⟨rfl, by simp⟩⟩
  | cons x xs ih =>
    refine (h x (by simp)).bind fun b hb => ?_
    cases b with
    | true => exact gives_pure (.inr ⟨[], x, xs, rfl, rfl, hb, by simp⟩)
    | false =>
      refine (ih fun z hz => h z (by simp [hz])).mono fun o ho => ?_
      rcases ho with ⟨e, a⟩ | ⟨pre, y, post, e, eo, qy, a⟩
      · refine .inl ⟨e, fun z hz => ?_⟩
        rcases List.mem_cons.1 hz with rfl | hz
        · exact hb
        · exact a z hz
      · refine .inr ⟨x :: pre, y, post, by simp [e], eo, qy, fun z hz => ?_⟩
        rcases List.mem_cons.1 hz with rfl | hz
        · exact hb
        · exact a z hz

/-! ## threads -/

/-- thread `i` holds `Ls i` -/
structure AInv (lo : Nat) (P : NodeId → S → Prop) (Q : Nat → List NodeId → α → Prop)
    (d : Config S α) (Ls : Nat → List NodeId) : Prop where
  disc : ∀ i p, d.threads[i]? = some p → Ans lo P (Q i) p (Ls i)
  nodup : ∀ i, (Ls i).Nodup
  excl : ∀ i j n, n ∈ Ls i → n ∈ Ls j → i = j
  held : ∀ i n, n ∈ Ls i → d.heap.held n = true

private theorem disc_set {Q : Nat → List NodeId → α → Prop} {d : Config S α} {Ls : Nat → List NodeId}
    (t : ∀ i p, d.threads[i]? = some p → Ans lo P (Q i) p (Ls i)) {i : Nat} {p' : Prog S α}
    {K : List NodeId} (a : Ans lo P (Q i) p' K) :
    ∀ j q, (d.threads.set i p')[j]? = some q →
      Ans lo P (Q j) q (if j = i then K else Ls j) := by
  intro j q hq
  by_cases e : j = i
  · subst e
    rw [List.getElem?_set_self'] at hq
    cases hj : d.threads[j]? with
    | none => rw [hj] at hq; cases hq
    | some z => rw [hj] at hq; cases hq; simpa using a
  · rw [List.getElem?_set_ne (Ne.symm e)] at hq
    simpa [e] using t j q hq

theorem step_ans {Q : Nat → List NodeId → α → Prop} {d e : Config S α} (s : Step d e)
    (i : HeapInv lo P d.heap) {Ls : Nat → List NodeId} (t : AInv lo P Q d Ls) :
    ∃ Ls', AInv lo P Q e Ls' := by
  cases s with
  | mk j p p' h' hj hs =>
    have same : Ans lo P (Q j) p' (Ls j) → (∀ m, h'.held m = d.heap.held m) →
        ∃ Ls', AInv lo P Q ⟨h', d.threads.set j p'⟩ Ls' := by
      intro a eh
      refine ⟨Ls, fun k q hq => ?_, t.nodup, t.excl, fun k n hn => (eh n).trans (t.held k n hn)⟩
      have := disc_set t.disc a k q hq
      by_cases e : k = j
      · subst e; simpa using this
      · simpa [e] using this
    have tj := t.disc j p hj
    cases p with
    | ret a => cases hs
    | lock n k =>
      simp only [step1] at hs; split at hs
      · cases hs
      · rename_i fr
        cases hs
        have free : ∀ k, n ∉ Ls k := fun k hn => fr (t.held k n hn)
        refine ⟨fun k => if k = j then n :: Ls j else Ls k, disc_set t.disc (tj (free j)), ?_, ?_, ?_⟩
        · intro k; split
          · exact List.nodup_cons.2 ⟨free j, t.nodup j⟩
          · exact t.nodup k
        · intro a b m ha hb
          split at ha <;> split at hb
          · rename_i x y; rw [x, y]
          · rename_i x y
            rcases List.mem_cons.1 ha with rfl | ha
            · exact absurd hb (free b)
            · exact absurd (t.excl _ _ _ ha hb) (by rintro rfl; exact y rfl)
          · rename_i x y
            rcases List.mem_cons.1 hb with rfl | hb
            · exact absurd ha (free a)
            · exact absurd (t.excl _ _ _ hb ha) (by rintro rfl; exact x rfl)
          · exact t.excl _ _ _ ha hb
        · intro k m hm
          show (d.heap.setHeld n true).held m = true
          by_cases e : m = n
          · simp [Heap.setHeld, e]
          · have : ∃ k, m ∈ Ls k := by
              split at hm
              · exact ⟨j, (List.mem_cons.1 hm).resolve_left e⟩
              · exact ⟨k, hm⟩
            obtain ⟨k, hk⟩ := this
            simpa [Heap.setHeld, e] using t.held k m hk
    | unlock n k =>
      cases hs
      refine ⟨fun k => if k = j then (Ls j).erase n else Ls k, disc_set t.disc tj.2, ?_, ?_, ?_⟩
      · intro k; split
        · exact (t.nodup j).erase n
        · exact t.nodup k
      · intro a b m ha hb
        have sub : ∀ k, m ∈ (if k = j then (Ls j).erase n else Ls k) → m ∈ Ls k := by
          intro k hk; split at hk
          · rename_i e; exact e ▸ List.mem_of_mem_erase hk
          · exact hk
        exact t.excl _ _ _ (sub a ha) (sub b hb)
      · intro k m hm
        have ne : m ≠ n := by
          rintro rfl
          split at hm
          · exact (List.Nodup.not_mem_erase (t.nodup j)) hm
          · rename_i e; exact e (t.excl _ _ _ hm tj.1)
        have : ∃ k, m ∈ Ls k := by
          split at hm
          · exact ⟨j, List.mem_of_mem_erase hm⟩
          · exact ⟨k, hm⟩
        obtain ⟨k, hk⟩ := this
        show (d.heap.setHeld n false).held m = true
        simpa [Heap.setHeld, ne] using t.held k m hk
    | read n k => cases hs; exact same (tj _ (i.2 n)) fun _ => rfl
    | write n f k => cases hs; exact same tj fun _ => rfl
    | upgrade n k => cases hs; exact same (tj _) fun _ => rfl
    | alloc s k => cases hs; exact same (tj _ i.1) fun _ => rfl
    | panic m => cases hs
    | diverge => cases hs; exact same trivial fun _ => rfl

/-- In every interleaving a thread that returns, returns what its program can answer. -/
theorem steps_ans {Q : Nat → List NodeId → α → Prop} {c d : Config S α} (st : DSteps c d)
    (inv : ∀ e, DSteps c e → HeapInv lo P e.heap) (sp : ∀ i p, c.threads[i]? = some p → Ans lo P (Q i) p [])
    {i : Nat} {a : α} (r : d.threads[i]? = some (.ret a)) : ∃ L, Q i L a := by
  have : ∃ Ls, AInv lo P Q d Ls := by
    clear r
    induction st with
    | refl => exact ⟨fun _ => [], sp, fun _ => List.nodup_nil, fun _ _ _ h => (by cases h),
        fun _ _ h => (by cases h)⟩
    | tail h s ih =>
      obtain ⟨Ls, t⟩ := ih
      cases s with
      | thread s => exact step_ans s (inv _ h) t
      | free F => exact ⟨Ls, t.disc, t.nodup, t.excl, t.held⟩
  obtain ⟨Ls, t⟩ := this
  exact ⟨Ls i, t.disc i _ r⟩

end K
