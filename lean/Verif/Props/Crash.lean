import Verif.Lemmas.Unwind
import Verif.Props.Guards
/-!
# C80: panics of the user's own code

A thread of the user may panic at any time, also while it keeps guards; unwinding drops the guards and poisons
their mutexes (`Model/Poison.lean`).
-/

set_option linter.unusedSectionVars false

namespace K
open Prog
variable {T : Type} [Scalar T] {α γ : Type}

/-! ## specification -/

/-- nothing can happen any more: no thread can run, panic or unwind -/
def PStuck (d : PConfig (NodeImpl T) α) : Prop := ¬ ∃ e, PStep d e

/-- the client keeps guards of nodes in `X` only, and its calls are in `φ` -/
def GClient.Within (φ : ∀ {β : Type}, Call T β → Prop) (X : NodeId → Prop) : GClient T α → Prop
  | .done _ => True
  | .call c k => φ c ∧ ∀ r, (k r).Within φ X
  | .take n k => X n ∧ k.Within φ X
  | .look _ k => ∀ v, (k v).Within φ X
  | .drop _ k => k.Within φ X
  | .crash _ => True

/-- the client begins with a method of `n` or by taking a guard of `n` -/
def GClient.StartsOn (n : NodeId) : GClient T α → Prop
  | .call c _ => c.On n
  | .take m _ => m = n
  | _ => False

/-! ## every thread comes to an end -/

/-- **C80** (no thread waits for a panicked one).  Clients that keep guards in the order of C66 and whose code may
panic anywhere: when nothing can happen any more, every thread has returned or panicked, and no mutex is locked. -/
theorem C80_nobody_waits (h : KHeap T) (u : h.Unlocked) (wf : MimicWF h) (al : MimicAllocated h)
    (rank : NodeId → Nat)
    (rm : ∀ n, (h.get n).mimicParent = none → ∀ c ∈ (h.get n).mimicChildren, rank n < rank c)
    (ts : List (GClient T α)) (ord : ∀ t ∈ ts, t.Ordered (fun c => SharedCall c) True rank [])
    (d : PConfig (NodeImpl T) α) (st : PDSteps (.init (gstart h ts)) d) (stuck : PStuck d) :
    (∀ p ∈ d.threads, (∃ a, p = .ret a) ∨ ∃ msg, p = .panic msg) ∧ ∀ n, d.heap.held n = false := by
  let A : List NodeId → NodeId → Prop := fun L n => ∀ m ∈ L, rank m < rank n
  let P : NodeId → NodeImpl T → Prop := LockInv (fun c => ∃ m, c ∈ (h.get m).mimicChildren)
    (fun _ => False) (fun _ _ => True) (fun n c => rank n < rank c)
  have key : ∀ (g : GClient T α) (L : List NodeId), g.Ordered (fun c => SharedCall c) True rank L →
      Lk A (fun _ => True) h.next P (Pres P) (fun L (_ : α) => L = []) g.prog L := by
    intro g
    induction g with
    | done a => exact fun L ok => ok
    | call c k ih =>
      rintro L ⟨rfl, sc, hk⟩
      exact Keep.lk (keep_call (A := A) (pk := fun _ => True) (F := fun _ => False) (R := fun _ _ => True)
        (fun n m hm => (by cases hm)) (fun n c r m hm => by rw [List.mem_singleton.1 hm]; exact r)
        (fun n ⟨m, hm⟩ => al m n hm) (fun n hn => hn.elim) False (fun _ _ => False) (fun f => f.elim)
        (fun f => f.elim) (fun f => f.elim) c (by cases c <;> simp_all [SharedCall, LockCall]))
        fun r _ => ih r _ (hk r)
    | take n k ih => exact fun L ok => ⟨ok.1, ih _ ok.2⟩
    | look n k ih => exact fun L ok => ⟨ok.1, fun s _ => ih _ _ (ok.2 _)⟩
    | drop n k ih => exact fun L ok => ⟨ok.1, ih _ ok.2⟩
    | crash m => exact fun L ok => trivial
  have t0 : UnwindInv A (fun _ => True) h.next P (fun L (_ : α) => L = []) (fun _ => True)
      (.init (gstart h ts)) := by
    refine ⟨⟨Nat.le_refl _, fun n => ?_⟩, ?_, fun n i hn => (by cases hn),
      fun n => by simp [PConfig.init, gstart, u n], fun n hn => (by cases hn)⟩
    · exact ⟨fun ⟨m, hm⟩ => wf m n hm, fun c hc => ⟨⟨n, hc⟩, fun e => rm n e c hc⟩,
        fun _ _ => trivial, fun f => f.elim⟩
    · intro k p hp
      have := List.mem_of_getElem? hp
      simp only [PConfig.init, gstart, List.mem_map] at this
      obtain ⟨t, ht, rfl⟩ := this
      exact .inr ⟨[], key t [] (ord t ht), by simp, fun n => by simp [PConfig.init]⟩
  exact unwind_done rank (fun _ _ h => h) (fun _ _ h => h)
    (psteps_unwind (fun _ _ _ _ => trivial) (fun _ _ _ _ _ _ => trivial) st t0) stuck

/-! ## which nodes are lost -/

private theorem Lk.more {S : Type} {X : NodeId → Prop} {lo : Nat}
    {P : NodeId → S → Prop} {U : NodeId → (S → S) → Prop} {Q : List NodeId → α → Prop} {p : Prog S α}
    {L F : List NodeId} (hF : ∀ n ∈ F, X n)
    (h : Lk (fun L n => X n → ∀ m ∈ L, X m) (fun L => ∀ n ∈ L, X n) lo P U Q p L) :
    Lk (fun L n => X n → ∀ m ∈ L, X m) (fun L => ∀ n ∈ L, X n) lo P U
      (fun L' a => ∃ L0, L' = L0 ++ F ∧ Q L0 a) p (L ++ F) := by
  induction p generalizing L with
  | ret a => exact ⟨L, rfl, h⟩
  | lock n k ih =>
    exact ⟨fun x m hm => (List.mem_append.1 hm).elim (h.1 x m) (hF m), ih h.2⟩
  | unlock n k ih =>
    refine ⟨List.mem_append_left _ h.1, ?_⟩
    rw [List.erase_append_left _ h.1]; exact ih h.2
  | read n k ih => exact ⟨List.mem_append_left _ h.1, fun s hs => ih s (h.2 s hs)⟩
  | write n f k ih => exact ⟨List.mem_append_left _ h.1, h.2.1, ih h.2.2⟩
  | upgrade n k ih => exact fun b => ih b (h b)
  | alloc s k ih => exact fun m hm => ⟨(h m hm).1, ih m (h m hm).2⟩
  | panic m => exact fun n hn => (List.mem_append.1 hn).elim (h n) (hF n)
  | diverge => trivial

private theorem CleanCall.lockCall {h : KHeap T} {pk : List NodeId → Prop} (p0 : pk []) {β : Type} {c : Call T β}
    (l : CleanCall h c) :
    LockCall (fun n => n < h.next ∧ (h.get n).joint.isMovable = true) (fun _ _ => True) False pk c := by
  cases c <;> simp_all [CleanCall, LockCall]

/-- **C80** (which nodes are lost).  Let `X` contain every node of which some client keeps a guard, and with every
mimic child its master.  Whatever the clients do - keep guards in any order, make calls meanwhile, panic anywhere -
only nodes in `X` are ever poisoned. -/
theorem C80_confined (h : KHeap T) (u : h.Unlocked) (wf : MimicWF h) (al : MimicAllocated h)
    (X : NodeId → Prop)
    (up : ∀ n, (h.get n).mimicParent = none → ∀ c ∈ (h.get n).mimicChildren, X c → X n)
    (ts : List (GClient T α)) (ok : ∀ t ∈ ts, t.Ok [] [])
    (within : ∀ t ∈ ts, t.Within (fun c => CleanCall h c) X)
    (d : PConfig (NodeImpl T) α) (st : PDSteps (.init (gstart h ts)) d) (n : NodeId)
    (bad : d.poisoned n = true) : X n := by
  let A : List NodeId → NodeId → Prop := fun L n => X n → ∀ m ∈ L, X m
  let pk : List NodeId → Prop := fun L => ∀ n ∈ L, X n
  let F : NodeId → Prop := fun n => n < h.next ∧ (h.get n).joint.isMovable = true
  let P : NodeId → NodeImpl T → Prop := LockInv (fun c => ∃ m, c ∈ (h.get m).mimicChildren)
    F (fun _ _ => True) (fun n c => X c → X n)
  have key : ∀ (g : GClient T α) (L : List NodeId), g.Ok [] L → g.Within (fun c => CleanCall h c) X →
      (∀ n ∈ L, X n) → Lk A pk h.next P (Pres P) (fun L (_ : α) => L = []) g.prog L := by
    intro g
    induction g with
    | done a => exact fun L ok _ _ => ok
    | call c k ih =>
      intro L ok wi hL
      have kc : Keep A pk h.next P (Pres P) [] (fun _ => True) c.prog :=
        keep_call (A := A) (pk := pk) (F := F) (R := fun _ _ => True)
          (fun n _ m hm => (by cases hm)) (fun n c r x m hm => by rw [List.mem_singleton.1 hm]; exact r x)
          (fun n ⟨m, hm⟩ => al m n hm) (fun n hn => hn.1) False (fun _ _ => False) (fun f => f.elim)
          (fun f => f.elim) (fun f => f.elim) c (CleanCall.lockCall (fun _ h => by cases h) wi.1)
      refine Lk.bind' (Lk.more hL kc) ?_
      rintro L' a ⟨L0, rfl, rfl, -⟩
      exact ih a _ (ok a) (wi.2 a) hL
    | take n k ih =>
      exact fun L ok wi hL => ⟨fun _ => hL, ih _ ok wi.2 fun m hm =>
        (List.mem_cons.1 hm).elim (fun e => e ▸ wi.1) (hL m)⟩
    | look n k ih => exact fun L ok wi hL => ⟨ok.1.resolve_right (by simp), fun s _ => ih _ _ (ok.2 _) (wi _) hL⟩
    | drop n k ih => exact fun L ok wi hL => ⟨ok.1, ih _ ok.2 wi fun m hm => hL m (List.mem_of_mem_erase hm)⟩
    | crash m => exact fun L _ _ hL => hL
  have t0 : UnwindInv A pk h.next P (fun L (_ : α) => L = []) X (.init (gstart h ts)) := by
    refine ⟨⟨Nat.le_refl _, fun n => ?_⟩, ?_, fun n i hn => (by cases hn),
      fun n => by simp [PConfig.init, gstart, u n], fun n hn => (by cases hn)⟩
    · exact ⟨fun ⟨m, hm⟩ => wf m n hm, fun c hc => ⟨⟨n, hc⟩, fun e => up n e c hc⟩,
        fun _ _ => trivial, fun f => f.2⟩
    · intro k p hp
      have := List.mem_of_getElem? hp
      simp only [PConfig.init, gstart, List.mem_map] at this
      obtain ⟨t, ht, rfl⟩ := this
      exact .inr ⟨[], key t [] (ok t ht) (within t ht) (by simp), by simp, fun n => by simp [PConfig.init]⟩
  exact ((psteps_unwind (fun _ h => h) (fun _ _ h => h) st t0).bad n bad).1

/-! ## a poisoned node -/

/-- the invariant of all clients -/
private abbrev Free (d : PConfig (NodeImpl T) α) : Prop :=
  UnwindInv (fun _ _ => True) (fun _ => True) 0 (fun _ _ => True) (fun L (_ : α) => L = []) (fun _ => True) d

private theorem free_start (h : KHeap T) (u : h.Unlocked) (ts : List (GClient T α)) (ok : ∀ t ∈ ts, t.Ok [] []) :
    Free (.init (gstart h ts)) := by
  refine ⟨⟨Nat.zero_le _, fun n => trivial⟩, ?_, fun n i hn => (by cases hn),
    fun n => by simp [PConfig.init, gstart, u n], fun n hn => (by cases hn)⟩
  intro k p hp
  have := List.mem_of_getElem? hp
  simp only [PConfig.init, gstart, List.mem_map] at this
  obtain ⟨t, ht, rfl⟩ := this
  exact .inr ⟨[], (own_gclient t (ok t ht)).upd fun _ _ _ _ _ => trivial, by simp, fun n => by simp [PConfig.init]⟩

private theorem free_steps {d e : PConfig (NodeImpl T) α} (s : PDSteps d e) (f : Free d) : Free e :=
  psteps_unwind (fun _ _ _ _ => trivial) (fun _ _ _ _ _ _ => trivial) s f

private theorem frozen_step {d e : PConfig (NodeImpl T) α} (s : PStep d e) (f : Free d) (n : NodeId)
    (bad : d.poisoned n = true) :
    e.poisoned n = true ∧ (n < d.heap.next → n < e.heap.next ∧ e.heap.get n = d.heap.get n) := by
  cases s with
  | poison i m k hi free b => exact ⟨bad, fun h => ⟨h, rfl⟩⟩
  | unwind i m x hi mine => exact ⟨by by_cases e : n = x <;> simp [e, bad], fun h => ⟨h, rfl⟩⟩
  | run i p p' h' hi hs ok =>
    refine ⟨bad, fun hn => ?_⟩
    have no : d.owner n = none := (f.bad n bad).2
    rcases f.disc i p hi with ⟨m, rfl, -⟩ | ⟨L, lk, nd, o⟩
    · cases hs
    have nL : n ∉ L := fun h => by rw [o n, no] at h; cases h
    cases p with
    | ret a => cases hs
    | panic m => cases hs
    | lock m k => simp only [step1] at hs; split at hs <;> cases hs; exact ⟨hn, rfl⟩
    | write m g k =>
      cases hs
      have : n ≠ m := fun e => nL (e ▸ lk.1)
      exact ⟨hn, by simp [Heap.modify, this]⟩
    | alloc s k => cases hs; exact ⟨Nat.lt_succ_of_lt hn, by simp [Heap.push, Nat.ne_of_lt hn]⟩
    | unlock m k => cases hs; exact ⟨hn, rfl⟩
    | read m k => cases hs; exact ⟨hn, rfl⟩
    | upgrade m k => cases hs; exact ⟨hn, rfl⟩
    | diverge => cases hs; exact ⟨hn, rfl⟩

private theorem frozen {c d : PConfig (NodeImpl T) α} (s : PDSteps c d) (f : Free c) (n : NodeId)
    (bad : c.poisoned n = true) :
    d.poisoned n = true ∧ (n < c.heap.next → n < d.heap.next ∧ d.heap.get n = c.heap.get n) := by
  induction s with
  | refl => exact ⟨bad, fun h => ⟨h, rfl⟩⟩
  | tail s1 s2 ih =>
    obtain ⟨b, g⟩ := ih
    cases s2 with
    | free F => exact ⟨b, g⟩
    | thread s2 =>
    obtain ⟨b', g'⟩ := frozen_step s2 (free_steps s1 f) n b
    exact ⟨b', fun h => ⟨(g' (g h).1).1, (g' (g h).1).2.trans (g h).2⟩⟩

/-- **C80** (a poisoned node is lost for good).  Once the mutex of a node is poisoned it stays poisoned and
unlocked, and the content of the node never changes again, whatever any client does. -/
theorem C80_frozen (h : KHeap T) (u : h.Unlocked) (ts : List (GClient T α)) (ok : ∀ t ∈ ts, t.Ok [] [])
    (c d : PConfig (NodeImpl T) α) (st : PDSteps (.init (gstart h ts)) c) (n : NodeId)
    (bad : c.poisoned n = true) (hn : n < c.heap.next) (st' : PDSteps c d) :
    d.poisoned n = true ∧ d.heap.held n = false ∧ d.heap.get n = c.heap.get n := by
  have f := free_steps st (free_start h u ts ok)
  obtain ⟨b, g⟩ := frozen st' f n bad
  have f' := free_steps st' f
  refine ⟨b, ?_, (g hn).2⟩
  have := f'.held n
  rw [(f'.bad n b).2] at this
  simpa using this

/-- **C80** (later uses panic).  A thread about to call a method of a poisoned node, or to take a guard of it, can
always go on, and all that ever happens to it is that it panics with `PoisonError`. -/
theorem C80_later_uses_panic (h : KHeap T) (u : h.Unlocked) (ts : List (GClient T α)) (ok : ∀ t ∈ ts, t.Ok [] [])
    (c d : PConfig (NodeImpl T) α) (st : PDSteps (.init (gstart h ts)) c) (n : NodeId)
    (bad : c.poisoned n = true) (i : Nat) (g : GClient T α) (on : g.StartsOn n)
    (hi : c.threads[i]? = some g.prog) (st' : PDSteps c d) :
    d.threads[i]? = some (.panic "PoisonError") ∨
      d.threads[i]? = some g.prog ∧ ∃ e, PStep d e ∧ e.threads[i]? = some (.panic "PoisonError") := by
  obtain ⟨k, hk⟩ : ∃ k, g.prog = .lock n k := by
    cases g with
    | call c f =>
      obtain ⟨k, hk⟩ := Call.On.lock on
      exact ⟨_, by show c.prog.bind _ = _; rw [hk]; rfl⟩
    | take m g => cases on; exact ⟨_, rfl⟩
    | done a => exact on.elim
    | look m f => exact on.elim
    | drop m f => exact on.elim
    | crash m => exact on.elim
  have f := free_steps st (free_start h u ts ok)
  rw [hk] at hi ⊢
  have key : d.threads[i]? = some (.panic "PoisonError") ∨ d.threads[i]? = some (.lock n k) := by
    induction st' with
    | refl => exact .inr hi
    | @tail d e s1 s2 ih =>
      have b := (frozen s1 f n bad).1
      cases s2 with
      | free F => exact ih
      | thread s2 =>
      cases s2 with
      | poison j m k' hj free b' =>
        by_cases e : j = i
        · subst e
          have hlt := (List.getElem?_eq_some_iff.1 hj).1
          exact .inl (by simp [hlt])
        · simpa [List.getElem?_set, e] using ih
      | unwind j m x hj mine => exact ih
      | run j p p' h' hj hs ok' =>
        by_cases e : j = i
        · subst e
          rcases ih with ih | ih
          · rw [ih] at hj; cases hj; cases hs
          · rw [ih] at hj; cases hj
            have := ok' n k rfl
            rw [b] at this; cases this
        · simpa [List.getElem?_set, e] using ih
  refine key.imp id fun hd => ⟨hd, _, PStep.poison d i n k hd ?_ (frozen st' f n bad).1, ?_⟩
  · have f' := free_steps st' f
    have := f'.held n
    rw [(f'.bad n (frozen st' f n bad).1).2] at this
    simpa using this
  · have hlt := (List.getElem?_eq_some_iff.1 hd).1
    simp [hlt]

/-! ## the kept node is poisoned -/

/-- holding the mutex of `n`, the program neither returns nor unlocks it -/
private def Keeps (n : NodeId) : KProg T α → Prop
  | .ret _ => False
  | .lock m k => m = n ∨ Keeps n k
  | .unlock m k => m ≠ n ∧ Keeps n k
  | .read _ k => ∀ s, Keeps n (k s)
  | .write _ _ k => Keeps n k
  | .upgrade _ k => ∀ b, Keeps n (k b)
  | .alloc _ k => ∀ m, Keeps n (k m)
  | .panic _ => True
  | .diverge => True

private theorem Keeps.own {n : NodeId} {R : List NodeId → γ → Prop}
    {p : KProg T γ} {f : γ → KProg T α} {L : List NodeId} (o : Own R p L) (nL : n ∉ L)
    (hf : ∀ a, Keeps n (f a)) : Keeps n (p.bind f) := by
  induction p generalizing L with
  | ret a => exact hf a
  | lock m k ih =>
    by_cases e : m = n
    · exact .inl e
    · exact .inr (ih o.2 (by simp [nL, Ne.symm e]))
  | unlock m k ih =>
    exact ⟨fun e => nL (e ▸ o.1), ih o.2 fun h => nL (List.mem_of_mem_erase h)⟩
  | read m k ih => exact fun s => ih s (o.2 s trivial) nL
  | write m g k ih => exact ih o.2.2 nL
  | upgrade m k ih => exact fun b => ih b (o b) nL
  | alloc s k ih => exact fun m => ih m (o m (Nat.zero_le _)).2 nL
  | panic m => trivial
  | diverge => trivial

private theorem Keeps.body {n : NodeId} (g : GClient T γ)
    {f : γ → GClient T α} {L : List NodeId} (ok : g.Ok [n] L) (nL : n ∉ L)
    (hf : ∀ a, Keeps n (f a).prog) : Keeps n (g.bind f).prog := by
  induction g generalizing L with
  | done a => exact hf a
  | call c k ih => exact Keeps.own (own_call c) (by simp) fun r => ih r (ok r) nL
  | take m k ih =>
    by_cases e : m = n
    · exact .inl e
    · exact .inr (ih ok (by simp [nL, Ne.symm e]))
  | look m k ih => exact fun s => ih _ (ok.2 _) nL
  | drop m k ih =>
    exact ⟨fun e => nL (e ▸ ok.1), ih ok.2 fun h => nL (List.mem_of_mem_erase h)⟩
  | crash m => trivial

/-- **C80** (the kept node is poisoned).  A thread that takes a guard of `n` and whose code panics before it drops it
never returns; and when nothing can happen any more and the thread does not wait for a mutex, `n` is poisoned. -/
theorem C80_poisoned (h : KHeap T) (u : h.Unlocked) (ts : List (GClient T α)) (ok : ∀ t ∈ ts, t.Ok [] [])
    (i : Nat) (n : NodeId) (body : GClient T γ) (okb : body.Ok [n] []) (msg : String)
    (hi : ts[i]? = some (.take n <| body.bind fun _ => .crash msg))
    (d : PConfig (NodeImpl T) α) (st : PDSteps (.init (gstart h ts)) d) :
    (∀ a, d.threads[i]? ≠ some (.ret a)) ∧
    (PStuck d → (∀ m k, d.threads[i]? ≠ some (.lock m k)) → d.poisoned n = true) := by
  have kb : Keeps n (body.bind fun _ => .crash msg : GClient T α).prog := Keeps.body body okb (by simp) fun _ => trivial
  generalize hg : (body.bind fun _ => .crash msg : GClient T α) = g at hi kb
  have key : d.threads[i]? = some (.lock n g.prog) ∨
      (d.owner n = some i ∧ ∃ p, d.threads[i]? = some p ∧ Keeps n p) ∨
      (d.poisoned n = true ∧ ∃ m, d.threads[i]? = some (.panic m)) := by
    induction st with
    | refl => exact .inl (by simp [PConfig.init, gstart, hi, GClient.prog])
    | @tail d e s1 s2 ih =>
      have f := free_steps s1 (free_start h u ts ok)
      cases s2 with
      | free F => exact ih
      | thread s2 =>
      cases s2 with
      | poison j m k' hj free b' =>
        have hlt := (List.getElem?_eq_some_iff.1 hj).1
        by_cases e : j = i
        · subst e
          rcases ih with ih | ⟨o, p, ih, kp⟩ | ⟨b, m', ih⟩
          · rw [ih] at hj; cases hj
            exact .inr (.inr ⟨b', "PoisonError", by simp [hlt]⟩)
          · exact .inr (.inl ⟨o, .panic "PoisonError", by simp [hlt], trivial⟩)
          · rw [ih] at hj; cases hj
        · simpa [List.getElem?_set, e] using ih
      | unwind j m x hj mine =>
        rcases ih with ih | ⟨o, p, ih, kp⟩ | ⟨b, m', ih⟩
        · exact .inl ih
        · by_cases ex : n = x
          · subst ex
            rw [o] at mine; cases mine
            exact .inr (.inr ⟨by simp, m, hj⟩)
          · exact .inr (.inl ⟨by simp [ex, o], p, ih, kp⟩)
        · exact .inr (.inr ⟨by by_cases ex : n = x <;> simp [ex, b], m', ih⟩)
      | run j p p' h' hj hs ok' =>
        have hlt := (List.getElem?_eq_some_iff.1 hj).1
        by_cases e : j = i
        · subst e
          have at_j : (d.threads.set j p')[j]? = some p' := by simp [hlt]
          rcases ih with ih | ⟨o, q, ih, kp⟩ | ⟨b, m', ih⟩
          · rw [ih] at hj; cases hj
            simp only [step1] at hs; split at hs <;> cases hs
            exact .inr (.inl ⟨by simp [own], _, at_j, kb⟩)
          · rw [ih] at hj; cases hj
            refine .inr (.inl ?_)
            have hh : d.heap.held n = true := by rw [f.held n, o]; rfl
            cases p with
            | ret a => cases hs
            | panic m => cases hs
            | lock m k =>
              simp only [step1] at hs; split at hs <;> cases hs
              rename_i nh
              have ne : n ≠ m := by rintro rfl; exact nh hh
              exact ⟨by simp [own, ne, o], _, at_j, kp.resolve_left (Ne.symm ne)⟩
            | unlock m k => cases hs; exact ⟨by simp [own, Ne.symm kp.1, o], _, at_j, kp.2⟩
            | read m k => cases hs; exact ⟨o, _, at_j, kp _⟩
            | write m g k => cases hs; exact ⟨o, _, at_j, kp⟩
            | upgrade m k => cases hs; exact ⟨o, _, at_j, kp _⟩
            | alloc s k => cases hs; exact ⟨o, _, at_j, kp _⟩
            | diverge => cases hs; exact ⟨o, _, at_j, kp⟩
          · rw [ih] at hj; cases hj; cases hs
        · have at_i : (d.threads.set j p')[i]? = d.threads[i]? := by simp [List.getElem?_set, e]
          rcases ih with ih | ⟨o, q, ih, kp⟩ | ⟨b, m', ih⟩
          · exact .inl (at_i.trans ih)
          · refine .inr (.inl ⟨?_, q, at_i.trans ih, kp⟩)
            have hh : d.heap.held n = true := by rw [f.held n, o]; rfl
            rcases f.disc j p hj with ⟨m, rfl, -⟩ | ⟨L, lk, nd, ol⟩
            · cases hs
            have nL : n ∉ L := fun hl => by rw [ol n, o] at hl; cases hl; exact e rfl
            cases p with
            | lock m k =>
              simp only [step1] at hs; split at hs <;> cases hs
              rename_i nh
              have ne : n ≠ m := by rintro rfl; exact nh hh
              simp [own, ne, o]
            | unlock m k =>
              have ne : n ≠ m := fun e => nL (e ▸ lk.1)
              simp [own, ne, o]
            | _ => exact o
          · exact .inr (.inr ⟨b, m', at_i.trans ih⟩)
  refine ⟨fun a ha => ?_, fun stuck nl => ?_⟩
  · rcases key with key | ⟨o, p, key, kp⟩ | ⟨b, m', key⟩
    · rw [key] at ha; cases ha
    · rw [key] at ha; cases ha; exact kp
    · rw [key] at ha; cases ha
  · rcases key with key | ⟨o, p, key, kp⟩ | ⟨b, -⟩
    · exact absurd key (nl _ _)
    · exfalso
      have mv : ∀ p' h', step1 p d.heap = some (p', h') → (∀ n k, p = .lock n k → d.poisoned n = false) → False :=
        fun p' h' e ok => stuck ⟨_, PStep.run d i p p' h' key e ok⟩
      cases p with
      | ret a => exact kp
      | panic m => exact stuck ⟨_, PStep.unwind d i m n key o⟩
      | lock m k => exact nl _ _ key
      | unlock m k' => exact (mv _ _ rfl (by simp)).elim
      | read m k' => exact (mv _ _ rfl (by simp)).elim
      | write m f k' => exact (mv _ _ rfl (by simp)).elim
      | upgrade m k' => exact (mv _ _ rfl (by simp)).elim
      | alloc s k' => exact (mv _ _ rfl (by simp)).elim
      | diverge => exact (mv _ _ rfl (by simp)).elim
    · exact b

/-! ## a follower takes its master with it -/

/-- an action of a schedule -/
inductive PAct where
  /-- thread `i` makes a step, or panics at a poisoned mutex -/
  | go (i : Nat)
  /-- panicked thread `i` drops its guard of `n` -/
  | free (i : Nat) (n : NodeId)

/-- carry out the listed actions -/
def psched {S : Type} : List PAct → PConfig S α → Option (PConfig S α)
  | [], c => some c
  | .go i :: as, c => match c.threads[i]? with
    | none => none
    | some (.lock n k) =>
      if c.heap.held n then none
      else if c.poisoned n then psched as ⟨c.heap, c.threads.set i (.panic "PoisonError"), c.owner, c.poisoned⟩
      else psched as ⟨c.heap.setHeld n true, c.threads.set i k, own i (.lock n k) c.owner, c.poisoned⟩
    | some p => match step1 p c.heap with
      | none => none
      | some (p', h') => psched as ⟨h', c.threads.set i p', own i p c.owner, c.poisoned⟩
  | .free i n :: as, c => match c.threads[i]?, c.owner n with
    | some (.panic _), some j =>
      if i = j then psched as ⟨c.heap.setHeld n false, c.threads, fun x => if x = n then none else c.owner x,
        fun x => if x = n then true else c.poisoned x⟩
      else none
    | _, _ => none

theorem psched_psteps {S : Type} {as : List PAct} {c d : PConfig S α} (h : psched as c = some d) : PSteps c d := by
  induction as generalizing c with
  | nil => cases h; exact .refl _
  | cons a as ih =>
    cases a with
    | go i =>
      simp only [psched] at h
      split at h
      · cases h
      · rename_i n k hp
        split at h
        · cases h
        · rename_i nh
          split at h
          · rename_i bad
            exact ((PSteps.refl c).tail (PStep.poison c i n k hp (by simpa using nh) bad)).trans (ih h)
          · rename_i good
            refine ((PSteps.refl c).tail (PStep.run c i _ k _ hp (by simp [step1, nh]) ?_)).trans (ih h)
            intro m k' e; cases e; simpa using good
      · rename_i p np hp
        split at h
        · cases h
        · rename_i p' h' hs
          refine ((PSteps.refl c).tail (PStep.run c i p p' h' hp hs ?_)).trans (ih h)
          rintro m k' rfl
          exact absurd rfl (np m k')
    | free i n =>
      simp only [psched] at h
      split at h
      · rename_i m j hp ho
        split at h
        · rename_i e; subst e
          exact ((PSteps.refl c).tail (PStep.unwind c i m n hp ho)).trans (ih h)
        · cases h
      · cases h

/-- **C80** (a follower takes its master with it).  Joint 1 mimics joint 0.  Thread 0 panics with a guard of joint 1,
thread 1 sets joint 0, thread 2 reads it.  In some execution thread 1 panics after it has moved joint 0 but not
joint 1, and joint 0 is lost as well: thread 2 panics. -/
theorem C80_spreads (x : T) : ∃ d : PConfig (NodeImpl T) Unit,
    PSteps (.init (gstart exMaster [.take 1 <| .crash "user",
      .call (.setJointPosition 0 x) fun _ => .done (),
      .call (.jointPosition 0) fun _ => .done ()])) d ∧
    d.threads = [.panic "user", .panic "PoisonError", .panic "PoisonError"] ∧
    d.poisoned 1 = true ∧ d.poisoned 0 = true ∧
    (d.heap.get 0).joint.position = x ∧ (d.heap.get 1).joint.position = 0 := by
  refine ⟨_, psched_psteps (as := [.go 0, .free 0 1, .go 1, .go 1, .go 1, .go 1, .free 1 0, .go 2]) rfl, rfl, rfl,
    rfl, rfl, rfl⟩

/-! ### the hypotheses are met -/

/-- the three clients of `C80_spreads` -/
private def exClients (x : T) : List (GClient T Unit) :=
  [.take 1 <| .crash "user", .call (.setJointPosition 0 x) fun _ => .done (),
    .call (.jointPosition 0) fun _ => .done ()]

private theorem exMaster_rank (n : NodeId) : ∀ c ∈ ((exMaster (T := T)).get n).mimicChildren, n < c := by
  intro c hc
  by_cases e : n = 0
  · subst e; simp [exMaster] at hc; subst hc; exact Nat.zero_lt_one
  · simp [exMaster, e, NodeImpl.fresh] at hc

/-- none of them waits for ever -/
example (x : T) (d : PConfig (NodeImpl T) Unit) (st : PDSteps (.init (gstart exMaster (exClients x))) d)
    (stuck : PStuck d) : (∀ p ∈ d.threads, (∃ a, p = .ret a) ∨ ∃ msg, p = .panic msg) ∧ ∀ n, d.heap.held n = false := by
  refine C80_nobody_waits exMaster (fun _ => rfl) exMaster_built.mimic exMaster_built.allocated (fun n => n)
    (fun n _ => exMaster_rank n) _ ?_ d st stuck
  intro t ht
  simp only [exClients, List.mem_cons, List.not_mem_nil, or_false] at ht
  rcases ht with rfl | rfl | rfl
  · exact ⟨by simp, trivial⟩
  · exact ⟨rfl, trivial, fun _ => rfl⟩
  · exact ⟨rfl, trivial, fun _ => rfl⟩

/-- with two unrelated joints, only the kept one is lost -/
example (x : T) (d : PConfig (NodeImpl T) Unit) (st : PDSteps (.init (gstart exTwo (exClients x))) d) :
    d.poisoned 0 = false := by
  cases e : d.poisoned 0 with
  | false => rfl
  | true =>
    refine absurd (C80_confined exTwo (fun _ => rfl) (fun m c hc => ?_) (fun m c hc => ?_) (fun n => n = 1)
      (fun m _ c hc => ?_) (exClients x) ?_ ?_ d st 0 e) (by simp)
    · by_cases e : m = 0 <;> simp [exTwo, e, NodeImpl.fresh] at hc
    · by_cases e : m = 0 <;> simp [exTwo, e, NodeImpl.fresh] at hc
    · by_cases e : m = 0 <;> simp [exTwo, e, NodeImpl.fresh] at hc
    all_goals
      intro t ht
      simp only [exClients, List.mem_cons, List.not_mem_nil, or_false] at ht
      rcases ht with rfl | rfl | rfl
    · trivial
    · exact fun _ => rfl
    · exact fun _ => rfl
    · exact ⟨rfl, trivial⟩
    · exact ⟨trivial, fun _ => trivial⟩
    · exact ⟨trivial, fun _ => trivial⟩

/-- at the end joint 1 is poisoned: the hypotheses of `C80_poisoned` -/
example (x : T) : (GClient.done () : GClient T Unit).Ok [1] [] ∧
    (exClients x)[0]? = some (.take 1 <| (GClient.done () : GClient T Unit).bind fun _ => .crash "user") :=
  ⟨rfl, rfl⟩

end K
