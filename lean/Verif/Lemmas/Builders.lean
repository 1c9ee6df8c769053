import Verif.Spec.Builders
import Verif.Lemmas.Region
import Verif.Lemmas.MirrorCalls
import Mathlib.Logic.Equiv.Basic
import Mathlib.Data.List.Induction
/-!
# Programs that stay in a growing region

`Roams p R Q`: `p` locks, unlocks, reads, writes and upgrades only nodes in `R` and nodes it has created itself, if
the links of what it reads lead to such nodes; the links of what it writes lead to such nodes again.  The result is in
`Q R'`, `R'` being the region at the end.
-/

set_option linter.unusedSectionVars false

namespace K
open Prog
variable {T : Type} {α β γ δ ε : Type}

/-- see the file comment -/
def Roams : KProg T α → (NodeId → Prop) → ((NodeId → Prop) → α → Prop) → Prop
  | .ret a, R, Q => Q R a
  | .lock n k, R, Q => R n ∧ Roams k R Q
  | .unlock n k, R, Q => R n ∧ Roams k R Q
  | .read n k, R, Q => R n ∧ ∀ s, s.LinksIn R → Roams (k s) R Q
  | .write n f k, R, Q => R n ∧ (∀ s, s.LinksIn R → (f s).LinksIn R) ∧ Roams k R Q
  | .upgrade n k, R, Q => R n ∧ ∀ b, Roams (k b) R Q
  | .alloc s k, R, Q => s.LinksIn R ∧ ∀ m, Roams (k m) (fun n => R n ∨ n = m) Q
  | .panic _, _, _ => True
  | .diverge, _, _ => True

variable {R : NodeId → Prop}

theorem NodeImpl.LinksIn.grow {R' : NodeId → Prop} {s : NodeImpl T} (l : s.LinksIn R) (i : ∀ n, R n → R' n) :
    s.LinksIn R' :=
  ⟨fun p e => i p (l.parent p e), fun p e => i p (l.children p e), fun p e => i p (l.mimicParent p e),
    fun p e => i p (l.mimicChildren p e)⟩

theorem NodeImpl.LinksIn.rename {ρ : Equiv.Perm NodeId} {s : NodeImpl T} {D : NodeId → Prop}
    (l : (s.rename ρ).LinksIn D) : s.LinksIn fun n => D (ρ n) where
  parent p e := l.parent (ρ p) (by simp [NodeImpl.rename, e])
  children p e := l.children (ρ p) (by simpa [NodeImpl.rename] using e)
  mimicParent p e := l.mimicParent (ρ p) (by simp [NodeImpl.rename, e])
  mimicChildren p e := l.mimicChildren (ρ p) (by simpa [NodeImpl.rename] using e)

/-- the region only grows -/
theorem Roams.bind {Q : (NodeId → Prop) → α → Prop} {Q' : (NodeId → Prop) → β → Prop} {p : KProg T α}
    {f : α → KProg T β} (h : Roams p R Q)
    (hf : ∀ R' a, (∀ n, R n → R' n) → Q R' a → Roams (f a) R' Q') : Roams (p >>= f) R Q' := by
  show Roams (p.bind f) R Q'
  induction p generalizing R with
  | ret a => exact hf R a (fun _ x => x) h
  | lock n k ih => exact ⟨h.1, ih h.2 hf⟩
  | unlock n k ih => exact ⟨h.1, ih h.2 hf⟩
  | read n k ih => exact ⟨h.1, fun s hs => ih s (h.2 s hs) hf⟩
  | write n f k ih => exact ⟨h.1, h.2.1, ih h.2.2 hf⟩
  | upgrade n k ih => exact ⟨h.1, fun b => ih b (h.2 b) hf⟩
  | alloc s k ih => exact ⟨h.1, fun m => ih m (h.2 m) fun R' a i => hf R' a fun n hn => i n (.inl hn)⟩
  | panic m => trivial
  | diverge => trivial

/-- a program that creates nothing -/
theorem Stays.roams {Q : α → Prop} {p : KProg T α} (h : Stays R R (NodeImpl.LinksIn R) Q p) :
    Roams p R fun R' a => R' = R ∧ Q a := by
  induction p with
  | ret a => exact ⟨rfl, h⟩
  | lock n k ih => exact ⟨h.1, ih h.2⟩
  | unlock n k ih => exact ⟨h.1, ih h.2⟩
  | read n k ih => exact ⟨h.1, fun s hs => ih s (h.2 s hs)⟩
  | write n f k ih => exact ⟨h.1, h.2.1, ih h.2.2⟩
  | upgrade n k ih =>
    refine ⟨h.1, fun b => ih b ?_⟩
    cases b
    · exact h.2.2
    · exact h.2.1 h.1
  | alloc s k ih => exact h.elim
  | panic m => trivial
  | diverge => trivial

theorem Roams.mono {Q Q' : (NodeId → Prop) → α → Prop} {p : KProg T α} (h : Roams p R Q)
    (i : ∀ R' a, Q R' a → Q' R' a) : Roams p R Q' := by
  induction p generalizing R with
  | ret a => exact i R a h
  | lock n k ih => exact ⟨h.1, ih h.2⟩
  | unlock n k ih => exact ⟨h.1, ih h.2⟩
  | read n k ih => exact ⟨h.1, fun s hs => ih s (h.2 s hs)⟩
  | write n f k ih => exact ⟨h.1, h.2.1, ih h.2.2⟩
  | upgrade n k ih => exact ⟨h.1, fun b => ih b (h.2 b)⟩
  | alloc s k ih => exact ⟨h.1, fun m => ih m (h.2 m)⟩
  | panic m => trivial
  | diverge => trivial

/-! ## the calls -/
variable [Scalar T]

theorem Chain.In.grow {R' : NodeId → Prop} {c : Chain} (h : c.In R) (i : ∀ n, R n → R' n) : c.In R' :=
  ⟨fun n hn => i n (h.nodes n hn), fun n hn => i n (h.movable n hn)⟩

theorem links_fresh (j : Joint T) : (NodeImpl.fresh j).LinksIn R := by
  constructor <;> simp [NodeImpl.fresh]

theorem roams_new (j : Joint T) : Roams (Node.new j : KProg T _) R fun R' n => R' n := by
  refine ⟨links_fresh j, fun m => ?_⟩
  exact .inr rfl

theorem stays_links {Q : α → Prop} {p : KProg T α} (h : Stays R R (NodeImpl.Links R R) Q p) :
    Stays R R (NodeImpl.LinksIn R) Q p := h.congr (NodeImpl.links_iff R)

theorem roams_cloneNode {n : NodeId} (hn : R n) : Roams (Chain.cloneNode n : KProg T _) R fun R' m => R' m := by
  refine (stays_doLock hn).roams.bind fun R1 _ i1 h1 => ?_
  obtain ⟨rfl, -⟩ := h1
  refine (stays_doRead (C := NodeImpl.LinksIn R1) hn).roams.bind fun R2 s i2 h2 => ?_
  obtain ⟨rfl, -⟩ := h2
  refine (roams_new s.joint).bind fun R3 m i3 hm => ?_
  have hn := i3 n hn
  refine (stays_doUnlock hn).roams.bind fun R4 _ _ h4 => ?_
  obtain ⟨rfl, -⟩ := h4
  refine (stays_doLock hn).roams.bind fun R4 _ _ h4 => ?_
  obtain ⟨rfl, -⟩ := h4
  refine (stays_doRead (C := NodeImpl.LinksIn R4) hn).roams.bind fun R5 s _ h5 => ?_
  obtain ⟨rfl, -⟩ := h5
  refine (stays_links (R := R5) (stays_poke hm fun s hs => hs.setLink _)).roams.bind fun R6 _ _ h6 => ?_
  obtain ⟨rfl, -⟩ := h6
  refine (stays_doUnlock hn).roams.bind fun R7 _ _ h7 => ?_
  obtain ⟨rfl, -⟩ := h7
  exact hm

theorem roams_cloneNodes (ns : List NodeId) (h : ∀ n ∈ ns, R n) :
    Roams (mapList ns Chain.cloneNode : KProg T _) R fun R' ms => ∀ m ∈ ms, R' m := by
  induction ns generalizing R with
  | nil => exact fun m hm => by cases hm
  | cons n ns ih =>
    refine (roams_cloneNode (h n (by simp))).bind fun R1 m i1 h1 => ?_
    refine (ih fun k hk => i1 k (h k (by simp [hk]))).bind fun R2 ms i2 h2 => ?_
    intro k hk
    rcases List.mem_cons.1 hk with rfl | hk
    · exact i2 _ h1
    · exact h2 k hk

theorem stays_cloneConnect {ns ms : List NodeId} {x : NodeId × NodeId} (h1 : R x.1) (h2 : R x.2)
    (hm : ∀ m ∈ ms, R m) :
    Stays R R (NodeImpl.Links R R) (fun _ => True) (Chain.cloneConnect ns ms x : KProg T _) := by
  unfold Chain.cloneConnect
  have at_ : ∀ (i : Nat) (m : String), Stays R R (NodeImpl.Links R R) (fun p => R p) (expect ms[i]? m : KProg T _) := by
    intro i m
    refine stays_expect fun p e => hm p (List.mem_of_getElem? e)
  have rest : Stays R R (NodeImpl.Links R R) (fun _ => True) (do
      match ← Node.mimicParent x.1 with
      | some m =>
        let i ← expect (position m ns) "called `Option::unwrap()` on a `None` value"
        let m' ← expect ms[i]? "index out of bounds"
        doLock x.1
        let s ← doRead x.1
        let mimic ← expect s.mimic "called `Option::unwrap()` on a `None` value"
        Node.setMimicParent x.2 m' mimic
        doUnlock x.1
      | none => pure () : KProg T Unit) := by
    refine (stays_Node_mimicParent h1).bind fun o _ => ?_
    cases o with
    | none => trivial
    | some p =>
      refine stays_expect'.bind fun i _ => (at_ i _).bind fun p' hp' => ?_
      refine (stays_doLock h1).bind fun _ _ => (stays_doRead h1).bind fun s _ => stays_expect'.bind fun mi _ => ?_
      exact (stays_Node_setMimicParent (fun _ x => x) mi h2 hp').bind fun _ _ => stays_doUnlock h1
  refine (stays_Node_parent h1).bind fun o _ => ?_
  cases o with
  | none => exact rest
  | some p =>
    exact stays_expect'.bind fun i _ => (at_ i _).bind fun p' hp' =>
      (stays_Node_setParent (fun _ x => x) h2 hp').bind fun _ _ => rest

theorem roams_clone (fuel : Nat) {c : Chain} (h : c.In R) :
    Roams (c.clone fuel : KProg T _) R fun R' c' => c'.In R' := by
  unfold Chain.clone
  cases e : c.nodes with
  | nil =>
    show Chain.In R _
    exact ⟨fun n hn => (by cases hn), fun n hn => (by cases hn)⟩
  | cons n0 rest =>
    have hn : ∀ n ∈ n0 :: rest, R n := e ▸ h.nodes
    refine (stays_links (stays_Node_isRoot (hn n0 (by simp)))).roams.bind fun R1 b _ h1 => ?_
    obtain ⟨rfl, -⟩ := h1
    cases b with
    | false => trivial
    | true =>
      refine (roams_cloneNodes _ hn).bind fun R2 ms i2 h2 => ?_
      have fe : Stays R2 R2 (NodeImpl.Links R2 R2) (fun _ => True)
          (forEach ((n0 :: rest).zip ms) (Chain.cloneConnect (n0 :: rest) ms) : KProg T _) := by
        refine stays_forEach fun x hx => ?_
        have := List.of_mem_zip hx
        exact stays_cloneConnect (i2 _ (hn _ this.1)) (h2 _ this.2) h2
      refine (stays_links fe).roams.bind fun R3 _ _ h3 => ?_
      obtain ⟨rfl, -⟩ := h3
      have he : Stays R3 R3 (NodeImpl.LinksIn R3) R3 (expect ms.head? "index out of bounds" : KProg T _) :=
        stays_expect fun p e => h2 p (List.mem_of_head? e)
      refine he.roams.bind fun R4 r _ h4 => ?_
      obtain ⟨rfl, hr⟩ := h4
      refine (stays_links (stays_Node_isRoot hr)).roams.bind fun R5 b _ h5 => ?_
      obtain ⟨rfl, -⟩ := h5
      cases b with
      | false => trivial
      | true =>
        refine (stays_links (Chain.stays_fromRoot fuel hr)).roams.mono fun R' c' x => ?_
        obtain ⟨rfl, x⟩ := x
        exact x

theorem gotOwn_grow {R' : NodeId → Prop} (i : ∀ n, R n → R' n) {β : Type} (c : Call T β) (r : β)
    (h : c.GotOwn R r) : c.GotOwn R' r := by
  cases c <;> first
    | trivial
    | exact Chain.In.grow h i
    | exact i _ h
    | exact fun n hn => i n (h n hn)
    | exact fun x e => Chain.In.grow (h x e) i

theorem roams_call {β : Type} (c : Call T β) (h : c.InOwn R) : Roams c.prog R fun R' r => c.GotOwn R' r := by
  have old : c.In R → (∀ R' r, c.Got R' r → c.GotOwn R' r) → Roams c.prog R fun R' r => c.GotOwn R' r := by
    intro hi g
    refine (stays_links (stays_call (fun _ x => x) c hi)).roams.mono fun R' r x => ?_
    obtain ⟨rfl, x⟩ := x
    exact g _ r x
  cases c with
  | newNode j => exact roams_new j
  | cloneChain fuel c => exact roams_clone fuel h
  | _ => exact old h fun _ _ x => x

theorem roams_client (c : Client T α) (h : c.Owns R) : Roams c.prog R fun _ _ => True := by
  induction c generalizing R with
  | done a => trivial
  | call c k ih =>
    refine (roams_call c (h R fun _ x => x).1).bind fun R' r i hr => ih r fun R'' i' => ?_
    exact (h R'' fun n hn => i' n (i n hn)).2 r (gotOwn_grow i' c r hr)

/-! ## naming the new nodes -/

/-- the objects `base`, `base + 1`, ... get the names in the list -/
theorem exists_naming (base : Nat) (F : List NodeId) (nd : F.Nodup) (ge : ∀ m ∈ F, base ≤ m) :
    ∃ ρ : Equiv.Perm NodeId, (∀ n, n < base → ρ n = n) ∧ ∀ j m, F[j]? = some m → ρ (base + j) = m := by
  induction F using List.reverseRecOn with
  | nil => exact ⟨Equiv.refl _, fun _ _ => rfl, fun j m e => by simp at e⟩
  | append_singleton F m ih =>
    obtain ⟨nd1, -, nd2⟩ := List.nodup_append.1 nd
    obtain ⟨ρ, low, at_⟩ := ih nd1 fun x hx => ge x (by simp [hx])
    have mF : m ∉ F := fun hm => nd2 m hm m (by simp) rfl
    have bm : base ≤ m := ge m (by simp)
    refine ⟨ρ.trans (Equiv.swap (ρ (base + F.length)) m), fun n hn => ?_, fun j x e => ?_⟩
    · simp only [Equiv.trans_apply, low n hn]
      refine Equiv.swap_apply_of_ne_of_ne (fun q => ?_) (fun q => by omega)
      have : ρ n = ρ (base + F.length) := by rw [low n hn]; exact q
      have := ρ.injective this
      omega
    · simp only [Equiv.trans_apply]
      by_cases hj : j < F.length
      · rw [List.getElem?_append_left hj] at e
        rw [at_ j x e]
        refine Equiv.swap_apply_of_ne_of_ne (fun q => ?_) (fun q => mF (q ▸ List.mem_of_getElem? e))
        have : ρ (base + j) = ρ (base + F.length) := by rw [at_ j x e]; exact q
        have := ρ.injective this
        omega
      · rw [List.getElem?_append_right (by omega)] at e
        have : j = F.length := by
          have := (List.getElem?_eq_some_iff.1 e).1
          simp at this; omega
        subst this
        simp at e
        rw [Equiv.swap_apply_left, e]

/-! ## who has created what -/

/-- an execution from `c` in which each thread has created the listed nodes and made that many steps -/
inductive Logged (c : Config (NodeImpl T) α) : Config (NodeImpl T) α → (Nat → List NodeId) → (Nat → Nat) → Prop
  | refl : Logged c c (fun _ => []) fun _ => 0
  | step {d : Config (NodeImpl T) α} {L : Nat → List NodeId} {N : Nat → Nat} {i : Nat} {p p' : KProg T α} {h' : KHeap T}
      (l : Logged c d L N) (hi : d.threads[i]? = some p) (hs : step1 p d.heap = some (p', h')) :
      Logged c ⟨h', d.threads.set i p'⟩
        (fun j => if j = i ∧ h'.next ≠ d.heap.next then L j ++ [d.heap.next] else L j)
        fun j => if j = i then N j + 1 else N j

theorem exists_logged {c d : Config (NodeImpl T) α} (s : Steps c d) : ∃ L N, Logged c d L N := by
  induction s with
  | refl => exact ⟨_, _, .refl⟩
  | tail _ s ih =>
    obtain ⟨L, N, l⟩ := ih
    cases s with
    | mk i p p' h' hi hs => exact ⟨_, _, l.step hi hs⟩

/-- no id is handed out twice -/
theorem Logged.facts {c d : Config (NodeImpl T) α} {L : Nat → List NodeId} {N : Nat → Nat}
    (l : Logged c d L N) :
    c.heap.next ≤ d.heap.next ∧ (∀ i, (L i).Nodup) ∧ (∀ i, ∀ m ∈ L i, c.heap.next ≤ m ∧ m < d.heap.next) ∧
      ∀ i j m, i ≠ j → m ∈ L i → m ∉ L j := by
  induction l with
  | refl => exact ⟨Nat.le_refl _, fun _ => List.nodup_nil, fun _ m hm => by simp at hm, fun _ _ m _ hm => by simp at hm⟩
  | @step d L N i p p' h' l hi hs ih =>
    obtain ⟨le, nd, rg, dj⟩ := ih
    have nx : h'.next = d.heap.next ∨ h'.next = d.heap.next + 1 := by
      cases p <;> simp only [step1] at hs
      case lock n k => split at hs <;> cases hs; exact .inl rfl
      case alloc s k => cases hs; exact .inr rfl
      all_goals cases hs
      all_goals exact .inl rfl
    rcases nx with nx | nx
    · simp only [nx, ne_eq, not_true, and_false, if_false]
      exact ⟨le, nd, rg, dj⟩
    · have ne : h'.next ≠ d.heap.next := by omega
      simp only [nx, ne_eq, Nat.succ_ne_self, not_false_eq_true, and_true]
      have new : ∀ j, d.heap.next ∉ L j := fun j hm => by
        have := (rg j _ hm).2
        omega
      refine ⟨by omega, fun j => ?_, fun j m hm => ?_, fun j k m jk hm hk => ?_⟩
      · split
        · exact List.nodup_append.2 ⟨nd j, by simp, fun a ha b hb q => by
            simp at hb; subst hb; subst q; exact new j ha⟩
        · exact nd j
      · split at hm
        · rcases List.mem_append.1 hm with x | x
          · have := rg j m x; omega
          · simp at x; omega
        · have := rg j m hm; omega
      · split at hm <;> split at hk
        · omega
        · rcases List.mem_append.1 hm with x | x
          · exact dj j k m jk x hk
          · simp at x; subst x; exact new k hk
        · rcases List.mem_append.1 hk with x | x
          · exact dj j k m jk hm x
          · simp at x; subst x; exact new j hm
        · exact dj j k m jk hm hk

theorem Logged.steps {c d : Config (NodeImpl T) α} {L : Nat → List NodeId} {N : Nat → Nat} (l : Logged c d L N) :
    Steps c d := by
  induction l with
  | refl => exact .refl _
  | step l hi hs ih => exact .tail ih (.mk _ _ _ _ _ hi hs)

/-! ## counting the steps of a program that runs alone -/

/-- the program and the memory after `n` steps -/
def afterSteps : Nat → KProg T α → KHeap T → Option (KProg T α × KHeap T)
  | 0, p, h => some (p, h)
  | n + 1, p, h => (afterSteps n p h).bind fun x => step1 x.1 x.2

theorem afterSteps_cons {p p' : KProg T α} {h h' : KHeap T} (s : step1 p h = some (p', h')) (n : Nat) :
    afterSteps (n + 1) p h = afterSteps n p' h' := by
  induction n with
  | zero => simp [afterSteps, s]
  | succ n ih => rw [afterSteps, ih]; rfl

theorem afterSteps_add (n k : Nat) (p : KProg T α) (h : KHeap T) :
    afterSteps (n + k) p h = (afterSteps n p h).bind fun x => afterSteps k x.1 x.2 := by
  induction k with
  | zero => cases afterSteps n p h <;> rfl
  | succ k ih =>
    rw [← Nat.add_assoc, afterSteps, ih]
    cases afterSteps n p h <;> rfl

theorem afterSteps_run {p q : KProg T α} {h g : KHeap T} {n : Nat} (e : afterSteps n p h = some (q, g)) :
    run p h = run q g := by
  induction n generalizing q g with
  | zero => cases e; rfl
  | succ n ih =>
    simp only [afterSteps, Option.bind_eq_some_iff] at e
    obtain ⟨x, ex, es⟩ := e
    rw [ih (q := x.1) (g := x.2) ex, run_step1 es]

/-- A program that returns makes finitely many steps. -/
theorem exists_afterSteps {p : KProg T α} {h g : KHeap T} {a : α} (e : run p h = .ok a g) :
    ∃ n, afterSteps n p h = some (.ret a, g) := by
  induction p generalizing h with
  | ret x => simp only [run, Res.ok.injEq] at e; exact ⟨0, by rw [← e.1, ← e.2]; rfl⟩
  | panic m => cases e
  | diverge => cases e
  | lock n k ih =>
    simp only [run] at e
    split at e
    · cases e
    · rename_i f
      obtain ⟨m, hm⟩ := ih e
      exact ⟨m + 1, by rw [afterSteps_cons (p' := k) (h' := h.setHeld n true) (by simp [step1, f]), hm]⟩
  | unlock n k ih => obtain ⟨m, hm⟩ := ih e; exact ⟨m + 1, by rw [afterSteps_cons rfl, hm]⟩
  | read n k ih => obtain ⟨m, hm⟩ := ih _ e; exact ⟨m + 1, by rw [afterSteps_cons rfl, hm]⟩
  | write n f k ih => obtain ⟨m, hm⟩ := ih e; exact ⟨m + 1, by rw [afterSteps_cons rfl, hm]⟩
  | upgrade n k ih => obtain ⟨m, hm⟩ := ih _ e; exact ⟨m + 1, by rw [afterSteps_cons rfl, hm]⟩
  | alloc s k ih => obtain ⟨m, hm⟩ := ih _ e; exact ⟨m + 1, by rw [afterSteps_cons rfl, hm]⟩

/-- After at most that many steps, it has finished or can go on. -/
theorem afterSteps_le {p q : KProg T α} {h g g' : KHeap T} {a : α} {n m : Nat} (e : afterSteps n p h = some (.ret a, g))
    (f : afterSteps m p h = some (q, g')) : m ≤ n ∧ (m = n → q = .ret a) := by
  refine ⟨Nat.le_of_not_lt fun lt => ?_, ?_⟩
  · obtain ⟨k, rfl⟩ := Nat.exists_eq_add_of_lt lt
    rw [Nat.add_assoc, afterSteps_add, e] at f
    simp only [Option.bind_some] at f
    rw [Nat.add_comm, ] at f
    have : ∀ k, afterSteps (k + 1) (.ret a : KProg T α) g = none := by
      intro k
      induction k with
      | zero => rfl
      | succ k ih => rw [afterSteps, ih]; rfl
    rw [Nat.add_comm, this] at f
    cases f
  · rintro rfl
    rw [e] at f
    cases f; rfl

end K
