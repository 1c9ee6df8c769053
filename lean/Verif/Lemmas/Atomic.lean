import Verif.Lemmas.Locks
/-!
# Critical sections are atomic

Programs that hold at most one lock at a time (`Lk` with `Single`): every interleaving can be
rearranged so that each critical section runs without interruption.  The proof simulates the execution
by one in which a section takes place at the moment of its unlock.
-/

set_option linter.unusedSectionVars false

namespace K
open Prog
variable {S α : Type}

/-- a lock is taken only while none is held -/
def Single (L : List NodeId) (_ : NodeId) : Prop := L = []

/-- one step of a section on node `n`; `d` tells which nodes are dead -/
inductive LStep (d : NodeId → Bool) (n : NodeId) : Prog S α × S → Prog S α × S → Prop
  | read (k : S → Prog S α) (s : S) : LStep d n (.read n k, s) (k s, s)
  | write (f : S → S) (k : Prog S α) (s : S) : LStep d n (.write n f k, s) (k, f s)
  | upgrade (m : NodeId) (k : Bool → Prog S α) (s : S) : LStep d n (.upgrade m k, s) (k (!d m), s)

/-- some steps of a section -/
inductive LSteps (d : NodeId → Bool) (n : NodeId) : Prog S α × S → Prog S α × S → Prop
  | refl (x : Prog S α × S) : LSteps d n x x
  | tail {x y z : Prog S α × S} (a : LSteps d n x y) (b : LStep d n y z) : LSteps d n x z

/-- thread `i` passes through one critical section, or looks whether a node is alive, or spins -/
inductive SecStep : Config S α → Config S α → Prop
  | sec (c : Config S α) (i : Nat) (n : NodeId) (k p : Prog S α) (s : S)
      (hi : c.threads[i]? = some (.lock n k)) (body : LSteps c.heap.dead n (k, c.heap.get n) (.unlock n p, s)) :
      SecStep c ⟨c.heap.modify n fun _ => s, c.threads.set i p⟩
  | upgrade (c : Config S α) (i : Nat) (m : NodeId) (k : Bool → Prog S α)
      (hi : c.threads[i]? = some (.upgrade m k)) : SecStep c ⟨c.heap, c.threads.set i (k (!c.heap.dead m))⟩

/-- any number of sections -/
inductive SecSteps : Config S α → Config S α → Prop
  | refl (c : Config S α) : SecSteps c c
  | tail {c d e : Config S α} (a : SecSteps c d) (b : SecStep d e) : SecSteps c e

variable {pk : List NodeId → Prop} {lo : Nat} {P : NodeId → S → Prop} {Q : List NodeId → α → Prop}

/-- the relation of a concrete thread (program `p`) to a serial one (program `q`); `o` gives the thread
inside the section of a node -/
inductive TRel (lo : Nat) (P : NodeId → S → Prop) (pk : List NodeId → Prop) (Q : List NodeId → α → Prop)
    (o : NodeId → Option Nat) (ha hc : Heap S) (i : Nat) : Prog S α → Prog S α → Prop
  | out (p : Prog S α) (l : Lk Single pk lo P (Pres P) Q p []) (no : ∀ n, o n ≠ some i) :
      TRel lo P pk Q o ha hc i p p
  | inn (n : NodeId) (k p : Prog S α) (l : Lk Single pk lo P (Pres P) Q p [n]) (me : o n = some i)
      (one : ∀ m, o m = some i → m = n) (body : LSteps hc.dead n (k, ha.get n) (p, hc.get n)) :
      TRel lo P pk Q o ha hc i p (.lock n k)

/-- the serial execution `a` follows the concrete one `c` -/
structure Sim (lo : Nat) (P : NodeId → S → Prop) (pk : List NodeId → Prop) (Q : List NodeId → α → Prop)
    (o : NodeId → Option Nat) (a c : Config S α) : Prop where
  unl : a.heap.Unlocked
  next : a.heap.next = c.heap.next
  dead : a.heap.dead = c.heap.dead
  held : ∀ n, c.heap.held n = (o n).isSome
  free : ∀ n, o n = none → c.heap.get n = a.heap.get n
  inv : ∀ n, P n (c.heap.get n)
  len : a.threads.length = c.threads.length
  thr : ∀ i p q, c.threads[i]? = some p → a.threads[i]? = some q → TRel lo P pk Q o a.heap c.heap i p q

theorem Sim.partner {o : NodeId → Option Nat} {a c : Config S α} (s : Sim lo P pk Q o a c) {i : Nat}
    {p : Prog S α} (hi : c.threads[i]? = some p) : ∃ q, a.threads[i]? = some q := by
  have : i < a.threads.length := by
    rw [s.len]; exact (List.getElem?_eq_some_iff.1 hi).1
  exact ⟨_, List.getElem?_eq_getElem this⟩

private theorem get_set {β : Type} {l : List β} {i j : Nat} {x y z : β} (hi : l[i]? = some z)
    (h : (l.set i x)[j]? = some y) : (j = i ∧ y = x) ∨ (j ≠ i ∧ l[j]? = some y) := by
  by_cases e : j = i
  · subst e
    rw [List.getElem?_set_self (List.getElem?_eq_some_iff.1 hi).1] at h
    exact .inl ⟨rfl, (Option.some.inj h).symm⟩
  · rw [List.getElem?_set_ne (Ne.symm e)] at h
    exact .inr ⟨e, h⟩

/-- a thread is not concerned by changes away from the node of its section -/
theorem TRel.frame {o o' : NodeId → Option Nat} {ha hc ha' hc' : Heap S} {i : Nat} {p q : Prog S α}
    (t : TRel lo P pk Q o ha hc i p q) (oi : ∀ n, o' n = some i ↔ o n = some i)
    (ea : ∀ n, o n = some i → ha'.get n = ha.get n) (ec : ∀ n, o n = some i → hc'.get n = hc.get n)
    (ed : hc'.dead = hc.dead) : TRel lo P pk Q o' ha' hc' i p q := by
  cases t with
  | out p l no => exact .out p l fun n h => no n ((oi n).1 h)
  | inn n k p l me one body =>
    refine .inn n k p l ((oi n).2 me) (fun m hm => one m ((oi m).1 hm)) ?_
    rw [ea n me, ec n me, ed]; exact body

/-- one step of a thread inside the section of node `n` -/
theorem Sim.local {o : NodeId → Option Nat} {a c : Config S α} (s : Sim lo P pk Q o a c) {i : Nat}
    {n : NodeId} {k p p' : Prog S α} {s' : S} (hi : c.threads[i]? = some p)
    (hq : a.threads[i]? = some (.lock n k)) (me : o n = some i) (one : ∀ m, o m = some i → m = n)
    (body : LSteps c.heap.dead n (k, a.heap.get n) (p, c.heap.get n))
    (st : LStep c.heap.dead n (p, c.heap.get n) (p', s'))
    (l : Lk Single pk lo P (Pres P) Q p' [n]) (hp : P n s') (h' : Heap S)
    (hg : ∀ m, h'.get m = if m = n then s' else c.heap.get m) (hn : h'.next = c.heap.next)
    (hd : h'.dead = c.heap.dead) (hh : h'.held = c.heap.held) :
    Sim lo P pk Q o a ⟨h', c.threads.set i p'⟩ := by
  refine ⟨s.unl, s.next.trans hn.symm, s.dead.trans hd.symm, fun m => by rw [← s.held, hh], ?_, ?_,
    by simp [s.len], ?_⟩
  · intro m hm
    have : m ≠ n := fun e => by rw [e, me] at hm; cases hm
    show h'.get m = _
    rw [hg, if_neg this]; exact s.free m hm
  · intro m
    show P m (h'.get m)
    rw [hg]; split
    · subst_vars; exact hp
    · exact s.inv m
  · intro j r q hj hqj
    rcases get_set hi hj with ⟨rfl, rfl⟩ | ⟨ne, hj⟩
    · rw [hq] at hqj; cases hqj
      refine .inn n k _ l me one ?_
      show LSteps h'.dead n (k, a.heap.get n) (_, h'.get n)
      rw [hd, hg, if_pos rfl]; exact body.tail st
    · refine (s.thr j r q hj hqj).frame (fun _ => Iff.rfl) (fun _ _ => rfl) (fun m hm => ?_) hd
      show h'.get m = _
      rw [hg, if_neg]
      intro e; rw [e, me] at hm; exact ne (Option.some.inj hm).symm

theorem Sim.step {o : NodeId → Option Nat} {a c d : Config S α} (s : Sim lo P pk Q o a c)
    (st : Step c d) (nx : d.heap.next = c.heap.next) :
    ∃ o' a', Sim lo P pk Q o' a' d ∧ SecSteps a a' := by
  obtain ⟨i, p, p', h', hi, hs⟩ := st
  obtain ⟨q, hq⟩ := s.partner hi
  cases s.thr i p q hi hq with
  | out _ l no =>
    cases p with
    | ret x => cases hs
    | panic m => cases hs
    | diverge =>
      cases hs
      refine ⟨o, a, ⟨s.unl, s.next, s.dead, s.held, s.free, s.inv, by simp [s.len], ?_⟩, .refl _⟩
      intro j r q' hj hqj
      rcases get_set hi hj with ⟨rfl, rfl⟩ | ⟨ne, hj⟩
      · exact s.thr j _ _ hi hqj
      · exact s.thr j _ _ hj hqj
    | unlock n k => exact absurd l.1 (by simp)
    | read n k => exact absurd l.1 (by simp)
    | write n f k => exact absurd l.1 (by simp)
    | alloc x k =>
      cases hs
      exact absurd nx (by simp [Heap.push])
    | upgrade m k =>
      cases hs
      refine ⟨o, ⟨a.heap, a.threads.set i (k (!a.heap.dead m))⟩, ⟨s.unl, s.next, s.dead, s.held,
        s.free, s.inv, by simp [s.len], ?_⟩, .tail (.refl _) (.upgrade a i m k hq)⟩
      intro j r q' hj hqj
      rcases get_set hi hj with ⟨rfl, rfl⟩ | ⟨ne, hj⟩
      · rcases get_set hq hqj with ⟨-, rfl⟩ | ⟨ne, -⟩
        · rw [s.dead]; exact .out _ (l _) no
        · exact absurd rfl ne
      · rcases get_set hq hqj with ⟨rfl, -⟩ | ⟨-, hqj⟩
        · exact absurd rfl ne
        · exact s.thr j _ _ hj hqj
    | lock n k =>
      simp only [step1] at hs
      split at hs
      · cases hs
      · rename_i free
        cases hs
        have on : o n = none := by
          have := s.held n
          cases e : o n with
          | none => rfl
          | some x => rw [e] at this; exact absurd this free
        refine ⟨fun m => if m = n then some i else o m, a, ⟨s.unl, s.next, s.dead, ?_, ?_, s.inv,
          by simp [s.len], ?_⟩, .refl _⟩
        · intro m
          show (c.heap.setHeld n true).held m = _
          rw [Heap.held_setHeld]
          by_cases e : m = n
          · simp [e]
          · simp [e, s.held]
        · intro m hm
          by_cases e : m = n
          · simp [e] at hm
          · simp only [e, if_false] at hm
            exact s.free m hm
        · intro j r q' hj hqj
          rcases get_set hi hj with ⟨rfl, rfl⟩ | ⟨ne, hj⟩
          · rw [hq] at hqj; cases hqj
            refine .inn n _ _ l.2 (by simp) (fun m hm => ?_) ?_
            · by_cases e : m = n
              · exact e
              · simp only [e, if_false] at hm; exact absurd hm (no m)
            · show LSteps _ n _ (_, c.heap.get n)
              rw [s.free n on]; exact .refl _
          · refine (s.thr j r q' hj hqj).frame (fun m => ?_) (fun _ _ => rfl) (fun _ _ => rfl) rfl
            by_cases e : m = n
            · subst e; simp [on, Ne.symm ne]
            · simp [e]
  | inn n k _ l me one body =>
    cases p with
    | ret x => cases hs
    | panic m => cases hs
    | diverge =>
      cases hs
      refine ⟨o, a, ⟨s.unl, s.next, s.dead, s.held, s.free, s.inv, by simp [s.len], ?_⟩, .refl _⟩
      intro j r q' hj hqj
      rcases get_set hi hj with ⟨rfl, rfl⟩ | ⟨ne, hj⟩
      · exact s.thr j _ _ hi hqj
      · exact s.thr j _ _ hj hqj
    | lock m k' => exact absurd l.1 (by simp [Single])
    | alloc x k' =>
      cases hs
      exact absurd nx (by simp [Heap.push])
    | upgrade m k' =>
      cases hs
      refine ⟨o, a, s.local hi hq me one body (.upgrade m k' _) (l _) (s.inv n) _ (fun x => ?_) rfl rfl
        rfl, .refl _⟩
      split
      · subst_vars; rfl
      · rfl
    | read m k' =>
      obtain rfl : m = n := by simpa using l.1
      cases hs
      refine ⟨o, a, s.local hi hq me one body (.read k' _) (l.2 _ (s.inv _)) (s.inv m) _ (fun x => ?_)
        rfl rfl rfl, .refl _⟩
      split
      · subst_vars; rfl
      · rfl
    | write m f k' =>
      obtain rfl : m = n := by simpa using l.1
      cases hs
      refine ⟨o, a, s.local hi hq me one body (.write f p' _) l.2.2 (l.2.1 _ (s.inv m)) _ (fun x => ?_)
        rfl rfl rfl, .refl _⟩
      rw [Heap.get_modify]
      split
      · subst_vars; rfl
      · rfl
    | unlock m k' =>
      obtain rfl : m = n := by simpa using l.1
      cases hs
      have l' : Lk Single pk lo P (Pres P) Q p' [] := by simpa using l.2
      refine ⟨fun x => if x = m then none else o x, ⟨a.heap.modify m fun _ => c.heap.get m,
        a.threads.set i p'⟩, ⟨fun x => s.unl x, s.next, s.dead, ?_, ?_, s.inv, by simp [s.len], ?_⟩,
        .tail (.refl _) (.sec a i m k p' _ hq (by rw [s.dead]; exact body))⟩
      · intro x
        show (c.heap.setHeld m false).held x = _
        rw [Heap.held_setHeld]
        by_cases e : x = m
        · simp [e]
        · simp [e, s.held]
      · intro x hx
        show c.heap.get x = (a.heap.modify m fun _ => c.heap.get m).get x
        rw [Heap.get_modify]
        by_cases e : x = m
        · simp [e]
        · simp only [e, if_false] at hx ⊢
          exact s.free x hx
      · intro j r q' hj hqj
        rcases get_set hi hj with ⟨rfl, rfl⟩ | ⟨ne, hj⟩
        · rcases get_set hq hqj with ⟨-, rfl⟩ | ⟨ne, -⟩
          · refine .out _ l' fun x hx => ?_
            by_cases e : x = m
            · simp [e] at hx
            · simp only [e, if_false] at hx; exact e (one x hx)
          · exact absurd rfl ne
        · rcases get_set hq hqj with ⟨rfl, -⟩ | ⟨-, hqj⟩
          · exact absurd rfl ne
          · have om : o m ≠ some j := fun h => ne (by rw [me] at h; exact (Option.some.inj h).symm)
            refine (s.thr j r q' hj hqj).frame (fun x => ?_) (fun x hx => ?_) (fun _ _ => rfl) rfl
            · by_cases e : x = m
              · subst e; simp [om]
              · simp [e]
            · show (a.heap.modify m fun _ => c.heap.get m).get x = _
              rw [Heap.get_modify, if_neg]
              intro e; exact om (e ▸ hx)

theorem SecSteps.trans {a b c : Config S α} (x : SecSteps a b) (y : SecSteps b c) : SecSteps a c := by
  induction y with
  | refl => exact x
  | tail _ s ih => exact .tail ih s

theorem step_next {c d : Config S α} (s : Step c d) : c.heap.next ≤ d.heap.next := by
  obtain ⟨i, p, p', h', hi, hs⟩ := s
  cases p <;> simp only [step1] at hs <;> first | cases hs | skip
  all_goals first | exact Nat.le_refl _ | exact Nat.le_succ _ | skip
  split at hs <;> cases hs
  exact Nat.le_refl _

theorem steps_next {c d : Config S α} (s : Steps c d) : c.heap.next ≤ d.heap.next := by
  induction s with
  | refl => exact Nat.le_refl _
  | tail _ s ih => exact Nat.le_trans ih (step_next s)

theorem Sim.steps {o : NodeId → Option Nat} {a c d : Config S α} (s : Sim lo P pk Q o a c)
    (st : Steps c d) (nx : d.heap.next = c.heap.next) :
    ∃ o' a', Sim lo P pk Q o' a' d ∧ SecSteps a a' := by
  induction st with
  | refl => exact ⟨o, a, s, .refl _⟩
  | @tail e d st t ih =>
    have h1 := steps_next st
    have h2 := step_next t
    obtain ⟨o', b, sm, ss⟩ := ih (by omega)
    obtain ⟨o'', a', sm', ss'⟩ := sm.step t (by omega)
    exact ⟨o'', a', sm', ss.trans ss'⟩

theorem Sim.start {c : Config S α} (u : c.heap.Unlocked) (inv : ∀ n, P n (c.heap.get n))
    (l : ∀ p ∈ c.threads, Lk Single pk lo P (Pres P) Q p []) :
    Sim lo P pk Q (fun _ => none) c c := by
  refine ⟨u, rfl, rfl, fun n => by simp [u n], fun _ _ => rfl, inv, rfl, ?_⟩
  intro i p q hp hq
  rw [hp] at hq; cases hq
  exact .out p (l p (List.mem_of_getElem? hp)) (by simp)

/-- in a quiescent state the two executions agree -/
theorem Sim.quiet {o : NodeId → Option Nat} {a c : Config S α} (s : Sim lo P pk Q o a c)
    (u : c.heap.Unlocked) : a = c := by
  have no : ∀ n, o n = none := fun n => by
    have := s.held n
    rw [u n] at this
    cases e : o n with
    | none => rfl
    | some x => rw [e] at this; cases this
  obtain ⟨ha, ta⟩ := a
  obtain ⟨hc, tc⟩ := c
  have eh : ha = hc := Heap.ext' (funext fun n => (s.free n (no n)).symm) s.next s.dead
    (funext fun n => (s.unl n).trans (u n).symm)
  have et : ta = tc := by
    refine List.ext_getElem s.len fun i h1 h2 => ?_
    have t := s.thr i tc[i] ta[i] (List.getElem?_eq_getElem h2) (List.getElem?_eq_getElem h1)
    generalize ta[i] = q at t ⊢
    generalize tc[i] = p at t ⊢
    cases t with
    | out => rfl
    | inn n k p l me => rw [no n] at me; cases me
  rw [eh, et]

/-- every interleaving that starts and ends without locks is a sequence of uninterrupted sections, and
every state `e` on the way is close to a state `a` of this sequence -/
theorem steps_sections {c d e : Config S α} (u : c.heap.Unlocked) (u' : d.heap.Unlocked)
    (inv : ∀ n, P n (c.heap.get n)) (l : ∀ p ∈ c.threads, Lk Single pk lo P (Pres P) Q p [])
    (st : Steps c e) (st' : Steps e d) (nx : d.heap.next = c.heap.next) :
    ∃ o a, SecSteps c a ∧ SecSteps a d ∧ Sim lo P pk Q o a e := by
  have h1 := steps_next st
  have h2 := steps_next st'
  obtain ⟨o, a, sm, ss⟩ := (Sim.start u inv l).steps st (by omega)
  obtain ⟨o', a', sm', ss'⟩ := sm.steps st' (by omega)
  rw [sm'.quiet u'] at ss'
  exact ⟨o, a, ss, ss', sm⟩

/-! ## Programs that are one section -/

/-- the rest of a section on node `n` that ends the program -/
def Inside (P : NodeId → S → Prop) (n : NodeId) : Prog S α → Prop
  | .unlock m k => m = n ∧ ∃ r, k = .ret r
  | .read m k => m = n ∧ ∀ s, P n s → Inside P n (k s)
  | .write m f k => m = n ∧ Pres P n f ∧ Inside P n k
  | .upgrade _ k => ∀ b, Inside P n (k b)
  | .diverge => True
  | _ => False

theorem Inside.lk {P : NodeId → S → Prop} {n : NodeId} {p : Prog S α} {A : List NodeId → NodeId → Prop}
    (h : Inside P n p) : Lk A pk lo P (Pres P) (fun L _ => L = []) p [n] := by
  induction p with
  | ret a => exact h.elim
  | lock m k ih => exact h.elim
  | unlock m k ih =>
    obtain ⟨rfl, r, rfl⟩ := h
    exact ⟨by simp, by simp [Lk]⟩
  | read m k ih =>
    obtain ⟨rfl, h⟩ := h
    exact ⟨by simp, fun s hs => ih s (h s hs)⟩
  | write m f k ih =>
    obtain ⟨rfl, f, h⟩ := h
    exact ⟨by simp, f, ih h⟩
  | upgrade m k ih => exact fun b => ih b (h b)
  | alloc s k ih => exact h.elim
  | panic m => exact h.elim
  | diverge => trivial

/-- the steps of a section followed by more are steps of the section -/
theorem Inside.steps {β : Type} {P : NodeId → S → Prop} {n : NodeId} {k : Prog S α} {s : S}
    {g : α → Prog S β} {d : NodeId → Bool} (hk : Inside P n k) (hs : P n s) {y : Prog S β × S}
    (t : LSteps d n (k >>= g, s) y) :
    ∃ k', y.1 = k' >>= g ∧ Inside P n k' ∧ P n y.2 ∧ LSteps d n (k, s) (k', y.2) := by
  generalize hx : (k >>= g, s) = x at t
  induction t with
  | refl => subst hx; exact ⟨k, rfl, hk, hs, .refl _⟩
  | tail _ b ih =>
    obtain ⟨k', e, i, p, l⟩ := ih
    rename_i y z _
    obtain ⟨q, s1⟩ := y
    obtain rfl : q = k' >>= g := e
    cases k' with
    | ret a => exact i.elim
    | lock m k => exact i.elim
    | unlock m k => cases b
    | read m k =>
      obtain ⟨rfl, i⟩ := i
      cases b
      exact ⟨k s1, rfl, i _ p, p, l.tail (.read _ _)⟩
    | write m f k =>
      obtain ⟨rfl, f', i⟩ := i
      cases b
      exact ⟨k, rfl, i, f' _ p, l.tail (.write _ _ _)⟩
    | upgrade m k =>
      cases b
      exact ⟨k _, rfl, i _, p, l.tail (.upgrade _ _ _)⟩
    | alloc s k => exact i.elim
    | panic m => exact i.elim
    | diverge => cases b

theorem LSteps.run_eq {d : NodeId → Bool} {n : NodeId} {h : Heap S} {x y : Prog S α × S}
    (t : LSteps d n x y) (hd : h.dead = d) :
    run x.1 (h.modify n fun _ => x.2) = run y.1 (h.modify n fun _ => y.2) := by
  induction t with
  | refl => rfl
  | tail _ b ih =>
    rw [ih]
    cases b with
    | read k s => simp [run, Heap.get_modify]
    | write f k s => simp [run, Heap.modify_modify]
    | upgrade m k s => simp [run, ← hd]

/-- a section run on its own -/
theorem LSteps.run_lock {n : NodeId} {h : Heap S} {k : Prog S α} {r : α} {s : S} (u : h.Unlocked)
    (t : LSteps h.dead n (k, h.get n) (.unlock n (.ret r), s)) :
    run (.lock n k) h = .ok r (h.modify n fun _ => s) := by
  have e := LSteps.run_eq (h := h.setHeld n true) t rfl
  rw [Heap.modify_eq_self _ _ _ (by simp)] at e
  show (if h.held n = true then _ else run k (h.setHeld n true)) = _
  rw [u n, if_neg (by simp), e]
  show Res.ok r _ = _
  rw [Heap.setHeld_modify_setHeld _ _ _ _ (u n)]

/-! ## Programs that create no node -/

/-- the program creates no node and keeps the per-node invariant -/
def NoAlloc (P : NodeId → S → Prop) : Prog S α → Prop
  | .lock _ k => NoAlloc P k
  | .unlock _ k => NoAlloc P k
  | .read n k => ∀ s, P n s → NoAlloc P (k s)
  | .write n f k => Pres P n f ∧ NoAlloc P k
  | .upgrade _ k => ∀ b, NoAlloc P (k b)
  | .alloc _ _ => False
  | _ => True

theorem NoAlloc.bind {β : Type} {P : NodeId → S → Prop} {p : Prog S α} {g : α → Prog S β}
    (h : NoAlloc P p) (hg : ∀ r, NoAlloc P (g r)) : NoAlloc P (p >>= g) := by
  induction p with
  | ret a => exact hg a
  | lock m k ih => exact ih h
  | unlock m k ih => exact ih h
  | read m k ih => exact fun s hs => ih s (h s hs)
  | write m f k ih => exact ⟨h.1, ih h.2⟩
  | upgrade m k ih => exact fun b => ih b (h b)
  | alloc s k ih => exact h.elim
  | panic m => trivial
  | diverge => trivial

theorem Inside.noAlloc {P : NodeId → S → Prop} {n : NodeId} {p : Prog S α} (h : Inside P n p) :
    NoAlloc P p := by
  induction p with
  | ret a => exact h.elim
  | lock m k ih => exact h.elim
  | unlock m k ih => obtain ⟨-, r, rfl⟩ := h; trivial
  | read m k ih => obtain ⟨rfl, h⟩ := h; exact fun s hs => ih s (h s hs)
  | write m f k ih => obtain ⟨rfl, h⟩ := h; exact ⟨h.1, ih h.2⟩
  | upgrade m k ih => exact fun b => ih b (h b)
  | alloc s k ih => exact h.elim
  | panic m => trivial
  | diverge => trivial

theorem NoAlloc.steps {P : NodeId → S → Prop} {c d : Config S α} (st : Steps c d)
    (h : ∀ p ∈ c.threads, NoAlloc P p) (inv : ∀ n, P n (c.heap.get n)) :
    (∀ p ∈ d.threads, NoAlloc P p) ∧ (∀ n, P n (d.heap.get n)) ∧ d.heap.next = c.heap.next := by
  induction st with
  | refl => exact ⟨h, inv, rfl⟩
  | @tail e d _ t ih =>
    obtain ⟨hp, hi, hn⟩ := ih
    obtain ⟨i, p, p', h', gi, gs⟩ := t
    have np := hp p (List.mem_of_getElem? gi)
    have key : NoAlloc P p' ∧ (∀ n, P n (h'.get n)) ∧ h'.next = e.heap.next := by
      cases p with
      | ret x => cases gs
      | panic m => cases gs
      | diverge => cases gs; exact ⟨trivial, hi, rfl⟩
      | lock n k =>
        simp only [step1] at gs
        split at gs
        · cases gs
        · cases gs; exact ⟨np, hi, rfl⟩
      | unlock n k => cases gs; exact ⟨np, hi, rfl⟩
      | read n k => cases gs; exact ⟨np _ (hi n), hi, rfl⟩
      | write n f k =>
        cases gs
        refine ⟨np.2, fun m => ?_, rfl⟩
        rw [Heap.get_modify]; split
        · subst_vars; exact np.1 _ (hi _)
        · exact hi m
      | upgrade m k => cases gs; exact ⟨np _, hi, rfl⟩
      | alloc s k => exact np.elim
    refine ⟨fun q hq => ?_, key.2.1, key.2.2.trans hn⟩
    rcases List.mem_or_eq_of_mem_set hq with hq | rfl
    · exact hp q hq
    · exact key.1

end K
