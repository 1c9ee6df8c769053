import Verif.Lemmas.Own
import Verif.Spec.Guards
import Verif.Props.Concurrency
/-!
# C66: guards that the user keeps
-/

set_option linter.unusedSectionVars false

namespace K
open Prog
variable {T : Type} [Scalar T] {α γ : Type}

/-! ## specification -/

/-- calls of methods of node `n` (they begin by locking `n`) -/
def Call.On (n : NodeId) {β : Type} : Call T β → Prop
  | .setParent m _ => m = n
  | .removeParent m _ => m = n
  | .setMimicParent m _ _ => m = n
  | .setLink m _ => m = n
  | .setOrigin m _ => m = n
  | .setJointPosition m _ => m = n
  | .setJointPositionClamped m _ => m = n
  | .setJointPositionUnchecked m _ => m = n
  | .joint m => m = n
  | .jointPosition m => m = n
  | .parent m => m = n
  | .mimicParent m => m = n
  | .children m => m = n
  | .link m => m = n
  | .isRoot m => m = n
  | .isEnd m => m = n
  | .origin m => m = n
  | .worldTransform m => m = n
  | .worldVelocity m => m = n
  | _ => False

/-- A client that makes calls (all in `φ`) only while it has no guard, and takes guards in the order of
`rank`; its own code may panic if `cr`. -/
def GClient.Ordered (φ : ∀ {β : Type}, Call T β → Prop) (cr : Prop) (rank : NodeId → Nat) :
    GClient T α → List NodeId → Prop
  | .done _, L => L = []
  | .call c k, L => L = [] ∧ φ c ∧ ∀ r, (k r).Ordered φ cr rank L
  | .take n k, L => (∀ m ∈ L, rank m < rank n) ∧ k.Ordered φ cr rank (n :: L)
  | .look n k, L => n ∈ L ∧ ∀ v, (k v).Ordered φ cr rank L
  | .drop n k, L => n ∈ L ∧ k.Ordered φ cr rank (L.erase n)
  | .crash _, _ => cr

/-! ## lemmas -/

theorem Lk.frame {S : Type} {A : List NodeId → NodeId → Prop} {pk : List NodeId → Prop} {lo : Nat}
    {P : NodeId → S → Prop} {U : NodeId → (S → S) → Prop} {Q : List NodeId → α → Prop} {p : Prog S α}
    {L F : List NodeId} (h : Lk A pk lo P U Q p L) :
    Lk (fun _ _ => True) (fun _ => True) lo P U (fun L' a => ∃ L0, L' = L0 ++ F ∧ Q L0 a) p (L ++ F) := by
  induction p generalizing L with
  | ret a => exact ⟨L, rfl, h⟩
  | lock n k ih => exact ⟨trivial, ih h.2⟩
  | unlock n k ih =>
    refine ⟨List.mem_append_left _ h.1, ?_⟩
    rw [List.erase_append_left _ h.1]; exact ih h.2
  | read n k ih => exact ⟨List.mem_append_left _ h.1, fun s hs => ih s (h.2 s hs)⟩
  | write n f k ih => exact ⟨List.mem_append_left _ h.1, h.2.1, ih h.2.2⟩
  | upgrade n k ih => exact fun b => ih b (h b)
  | alloc s k ih => exact fun m hm => ⟨(h m hm).1, ih m (h m hm).2⟩
  | panic m => trivial
  | diverge => trivial

theorem Lk.upd {S : Type} {A : List NodeId → NodeId → Prop} {pk : List NodeId → Prop} {lo : Nat}
    {P : NodeId → S → Prop} {U U' : NodeId → (S → S) → Prop} {Q : List NodeId → α → Prop} {p : Prog S α}
    {L : List NodeId} (h : Lk A pk lo P U Q p L) (i : ∀ n f, U n f → U' n f) :
    Lk A pk lo P U' Q p L := by
  induction p generalizing L with
  | ret a => exact h
  | lock n k ih => exact ⟨h.1, ih h.2⟩
  | unlock n k ih => exact ⟨h.1, ih h.2⟩
  | read n k ih => exact ⟨h.1, fun s hs => ih s (h.2 s hs)⟩
  | write n f k ih => exact ⟨h.1, i n f h.2.1, ih h.2.2⟩
  | upgrade n k ih => exact fun b => ih b (h b)
  | alloc s k ih => exact fun m hm => ⟨(h m hm).1, ih m (h m hm).2⟩
  | panic m => exact h
  | diverge => trivial

theorem own_gclient (g : GClient T α) {L : List NodeId} (ok : g.Ok [] L) :
    Own (fun L' _ => L' = []) g.prog L := by
  induction g generalizing L with
  | done a => exact ok
  | call c k ih =>
    refine Lk.bind' (Lk.frame (F := L) (own_call c)) ?_
    rintro L' a ⟨L0, rfl, rfl, -⟩
    exact ih a (ok a)
  | take n k ih => exact ⟨trivial, ih ok⟩
  | look n k ih =>
    refine ⟨ok.1.resolve_right (by simp), fun s _ => ih _ (ok.2 _)⟩
  | drop n k ih => exact ⟨ok.1, ih ok.2⟩
  | crash m => trivial

/-- While it holds the mutex of `n`, whose content is `s0`, the program writes only elsewhere and either waits
for ever for the mutex of `n` or gives it back and returns at once something in `Q`. -/
def Hold (n : NodeId) (s0 : NodeImpl T) (Q : α → Prop) : KProg T α → Prop
  | .ret _ => False
  | .lock m k => m = n ∨ Hold n s0 Q k
  | .unlock m k => (m = n ∧ ∃ a, k = .ret a ∧ Q a) ∨ m ≠ n ∧ Hold n s0 Q k
  | .read m k => (m = n ∧ Hold n s0 Q (k s0)) ∨ m ≠ n ∧ ∀ s, Hold n s0 Q (k s)
  | .write m _ k => m ≠ n ∧ Hold n s0 Q k
  | .upgrade _ k => ∀ b, Hold n s0 Q (k b)
  | .alloc _ k => ∀ m, Hold n s0 Q (k m)
  | .panic _ => True
  | .diverge => True

theorem Hold.own {n : NodeId} {s0 : NodeImpl T} {Q : α → Prop} {R : List NodeId → γ → Prop}
    {p : KProg T γ} {f : γ → KProg T α} {L : List NodeId} (o : Own R p L) (nL : n ∉ L)
    (hf : ∀ L' a, R L' a → n ∉ L' → Hold n s0 Q (f a)) : Hold n s0 Q (p.bind f) := by
  induction p generalizing L with
  | ret a => exact hf L a o nL
  | lock m k ih =>
    by_cases e : m = n
    · exact .inl e
    · exact .inr (ih o.2 (by simp [nL, Ne.symm e]))
  | unlock m k ih =>
    refine .inr ⟨fun e => nL (e ▸ o.1), ih o.2 fun h => nL (List.mem_of_mem_erase h)⟩
  | read m k ih => exact .inr ⟨fun e => nL (e ▸ o.1), fun s => ih s (o.2 s trivial) nL⟩
  | write m g k ih => exact ⟨fun e => nL (e ▸ o.1), ih o.2.2 nL⟩
  | upgrade m k ih => exact fun b => ih b (o b) nL
  | alloc s k ih => exact fun m => ih m (o m (Nat.zero_le _)).2 nL
  | panic m => trivial
  | diverge => trivial

theorem Hold.body {n : NodeId} {s0 : NodeImpl T} {Q : α → Prop} (g : GClient T γ)
    {f : γ → GClient T α} {L : List NodeId} (ok : g.Ok [n] L) (nL : n ∉ L)
    (hf : ∀ a, Hold n s0 Q (f a).prog) : Hold n s0 Q (g.bind f).prog := by
  induction g generalizing L with
  | done a => exact hf a
  | call c k ih =>
    exact Hold.own (own_call c) (by simp) fun _ r _ _ => ih r (ok r) nL
  | take m k ih =>
    by_cases e : m = n
    · exact .inl e
    · exact .inr (ih ok (by simp [nL, Ne.symm e]))
  | look m k ih =>
    by_cases e : m = n
    · exact .inl ⟨e, ih _ (ok.2 _) nL⟩
    · exact .inr ⟨e, fun s => ih _ (ok.2 _) nL⟩
  | drop m k ih =>
    exact .inr ⟨fun e => nL (e ▸ ok.1), ih ok.2 fun h => nL (List.mem_of_mem_erase h)⟩
  | crash m => trivial

theorem threads_own (h : KHeap T) (u : h.Unlocked) (ts : List (GClient T α)) (ok : ∀ t ∈ ts, t.Ok [] []) :
    ThreadInv (fun _ _ => True) (fun _ => True) 0 (fun _ _ => True) (fun L (_ : α) => L = [])
      (gstart h ts) (fun _ => []) := by
  refine ⟨⟨Nat.zero_le _, fun _ => trivial⟩, ?_, fun _ => by simp, fun i j n hn => (by cases hn),
    fun n => ?_⟩
  · intro k p hp
    have := List.mem_of_getElem? hp
    simp only [gstart, List.mem_map] at this
    obtain ⟨t, ht, rfl⟩ := this
    exact (own_gclient t (ok t ht)).upd fun _ _ _ _ _ => trivial
  · simp [gstart, u n]

/-- the state of thread `i`, which takes the mutex of `n` and then runs `p1` -/
private def Phase (i : Nat) (n : NodeId) (p1 : KProg T α) (Q : α → Prop) (d : Config (NodeImpl T) α)
    (Ls : Nat → List NodeId) : Prop :=
  d.threads[i]? = some (.lock n p1) ∨
  (∃ p, d.threads[i]? = some p ∧ n ∈ Ls i ∧ Hold n (d.heap.get n) Q p) ∨
  ∃ a, d.threads[i]? = some (.ret a) ∧ Q a

private theorem hold_step {n : NodeId} {s0 : NodeImpl T} {Q : α → Prop} {p p' : KProg T α}
    {h h' : KHeap T} (hd : Hold n s0 Q p) (e0 : h.get n = s0) (hn : n < h.next) (held : h.held n = true)
    (hs : step1 p h = some (p', h')) :
    (Hold n s0 Q p' ∧ h'.get n = s0 ∧ h'.held n = true) ∨ ∃ a, p' = .ret a ∧ Q a := by
  cases p with
  | ret a => cases hs
  | panic m => cases hs
  | diverge => cases hs; exact .inl ⟨hd, e0, held⟩
  | lock m k =>
    simp only [step1] at hs; split at hs
    · cases hs
    · rename_i nh
      cases hs
      rcases hd with rfl | hd
      · exact absurd held nh
      · refine .inl ⟨hd, e0, ?_⟩
        simp only [Heap.setHeld]; split <;> simp [held]
  | unlock m k =>
    cases hs
    rcases hd with ⟨rfl, a, rfl, q⟩ | ⟨ne, hd⟩
    · exact .inr ⟨a, rfl, q⟩
    · refine .inl ⟨hd, e0, ?_⟩
      simp [Heap.setHeld, Ne.symm ne, held]
  | read m k =>
    cases hs
    rcases hd with ⟨rfl, hd⟩ | ⟨ne, hd⟩
    · exact .inl ⟨by rw [e0]; exact hd, e0, held⟩
    · exact .inl ⟨hd _, e0, held⟩
  | write m f k =>
    cases hs
    exact .inl ⟨hd.2, by simp [Heap.modify, Ne.symm hd.1, e0], held⟩
  | upgrade m k => cases hs; exact .inl ⟨hd _, e0, held⟩
  | alloc s k =>
    cases hs
    refine .inl ⟨hd _, ?_, held⟩
    simp [Heap.push, Nat.ne_of_lt hn, e0]

private theorem next_le {S : Type} {p p' : Prog S α} {h h' : Heap S} (hs : step1 p h = some (p', h')) :
    h.next ≤ h'.next := by
  cases p <;> simp only [step1] at hs <;> try cases hs
  case lock n k => split at hs <;> cases hs; exact Nat.le_refl _
  all_goals first | exact Nat.le_refl _ | exact Nat.le_succ _

/-- a disciplined step leaves the content of nodes it has not locked -/
private theorem other_step {A : List NodeId → NodeId → Prop} {pk : List NodeId → Prop} {lo : Nat}
    {S : Type} {P : NodeId → S → Prop} {U : NodeId → (S → S) → Prop} {Q : List NodeId → α → Prop}
    {p p' : Prog S α} {h h' : Heap S} {L : List NodeId} {n : NodeId} (k : Lk A pk lo P U Q p L)
    (nL : n ∉ L) (hn : n < h.next) (hs : step1 p h = some (p', h')) : h'.get n = h.get n := by
  cases p <;> simp only [step1] at hs <;> try cases hs
  case lock m k => split at hs <;> cases hs; rfl
  case write m f =>
    have : n ≠ m := fun e => nL (e ▸ k.1)
    simp [Heap.modify, this]
  case alloc s k => simp [Heap.push, Nat.ne_of_lt hn]
  all_goals rfl

private theorem phases (h : KHeap T) (u : h.Unlocked) (ts : List (GClient T α))
    (ok : ∀ t ∈ ts, t.Ok [] []) (i : Nat) (n : NodeId) (hn : n < h.next) (g : GClient T α)
    (hi : ts[i]? = some (.take n g)) (Q : α → Prop) (hd : ∀ s0, Hold n s0 Q g.prog)
    (d : Config (NodeImpl T) α) (st : DSteps (gstart h ts) d) :
    n < d.heap.next ∧ ∃ Ls, ThreadInv (fun _ _ => True) (fun _ => True) 0 (fun _ _ => True)
      (fun L (_ : α) => L = []) d Ls ∧ Phase i n g.prog Q d Ls := by
  induction st with
  | refl => exact ⟨hn, _, threads_own h u ts ok, .inl (by simp [gstart, hi, GClient.prog])⟩
  | @tail d e st s ih =>
    obtain ⟨dn, Ls, t, ph⟩ := ih
    cases s with
    | free F => exact ⟨dn, Ls, ⟨t.inv, t.disc, t.nodup, t.excl, t.held⟩, ph⟩
    | thread s =>
    obtain ⟨j, p, p', h', hj, hs⟩ := s
    obtain ⟨Ls', t', same⟩ := step_lk_at hj hs t
    refine ⟨Nat.lt_of_lt_of_le dn (next_le hs), Ls', t', ?_⟩
    have jl : j < d.threads.length := (List.getElem?_eq_some_iff.1 hj).1
    by_cases e : j = i
    · subst e
      have at_j : (d.threads.set j p')[j]? = some p' := by simp [jl]
      have mine : h'.held n = true → (d.heap.held n = false ∨ n ∈ Ls j) → n ∈ Ls' j := by
        intro hh or
        obtain ⟨l, ll, hl⟩ := (t'.held n).1 hh
        by_cases e : l = j
        · exact e ▸ hl
        · have ll' : l < d.threads.length := by simpa using ll
          rw [same l e ll'] at hl
          rcases or with f | m
          · rw [(t.held n).2 ⟨l, ll', hl⟩] at f; cases f
          · exact absurd (t.excl _ _ _ hl m) e
      rcases ph with ph | ⟨q, ph, m, hq⟩ | ⟨a, ph, -⟩
      · rw [ph] at hj; cases hj
        simp only [step1] at hs; split at hs
        · cases hs
        · rename_i nh
          cases hs
          refine .inr (.inl ⟨_, at_j, mine ?_ (.inl ?_), hd _⟩)
          · simp [Heap.setHeld]
          · simpa using nh
      · rw [ph] at hj; cases hj
        have held := (t.held n).2 ⟨j, jl, m⟩
        rcases hold_step hq rfl dn held hs with ⟨h1, h2, h3⟩ | ⟨a, rfl, qa⟩
        · exact .inr (.inl ⟨_, at_j, mine h3 (.inr m), by rw [h2]; exact h1⟩)
        · exact .inr (.inr ⟨a, at_j, qa⟩)
      · rw [ph] at hj; cases hj; cases hs
    · have at_i : (d.threads.set j p')[i]? = d.threads[i]? := by simp [List.getElem?_set, e]
      rcases ph with ph | ⟨q, ph, m, hq⟩ | ⟨a, ph, qa⟩
      · exact .inl (at_i.trans ph)
      · have il : i < d.threads.length := (List.getElem?_eq_some_iff.1 ph).1
        have nm : n ∉ Ls j := fun h => e (t.excl _ _ _ h m)
        refine .inr (.inl ⟨q, at_i.trans ph, ?_, ?_⟩)
        · rw [same i (Ne.symm e) il]; exact m
        · show Hold n (h'.get n) Q q
          rw [other_step (t.disc j p hj) nm dn hs]; exact hq
      · exact .inr (.inr ⟨a, at_i.trans ph, qa⟩)

private theorem held_result (h : KHeap T) (u : h.Unlocked) (ts : List (GClient T α))
    (ok : ∀ t ∈ ts, t.Ok [] []) (i : Nat) (n : NodeId) (hn : n < h.next) (g : GClient T α)
    (hi : ts[i]? = some (.take n g)) (Q : α → Prop) (hd : ∀ s0, Hold n s0 Q g.prog)
    (d : Config (NodeImpl T) α) (st : DSteps (gstart h ts) d) (a : α)
    (r : d.threads[i]? = some (.ret a)) : Q a := by
  obtain ⟨-, Ls, -, ph | ⟨p, ph, -, hp⟩ | ⟨b, ph, q⟩⟩ := phases h u ts ok i n hn g hi Q hd d st
  · rw [ph] at r; cases r
  · rw [ph] at r; cases r; exact hp.elim
  · rw [ph] at r; cases r; exact q

/-! ## C66 -/

/-- take a guard of `n`, look, do `body`, look again, drop the guard -/
def GClient.lookTwice (n : NodeId) (body : GClient T γ) (f : Seen T → γ → Seen T → α) : GClient T α :=
  .take n <| .look n fun v => body.bind fun b => .look n fun w => .drop n <| .done (f v b w)

/-- **C66**: while a guard of a node is kept, what it shows does not change, whatever the owner of the
guard (calls and further guards) and any number of other threads do meanwhile: the second look gives what
the first gave. -/
theorem C66_stable (h : KHeap T) (u : h.Unlocked) (ts : List (GClient T α)) (ok : ∀ t ∈ ts, t.Ok [] [])
    (i : Nat) (n : NodeId) (hn : n < h.next) (body : GClient T γ) (okb : body.Ok [n] [])
    (f : Seen T → γ → Seen T → α) (hi : ts[i]? = some (.lookTwice n body f))
    (d : Config (NodeImpl T) α) (st : DSteps (gstart h ts) d) (a : α)
    (r : d.threads[i]? = some (.ret a)) : ∃ v b, a = f v b v := by
  refine held_result h u ts ok i n hn _ hi (fun a => ∃ v b, a = f v b v) (fun s0 => ?_) d st a r
  refine .inl ⟨rfl, Hold.body body okb (by simp) fun b => ?_⟩
  exact .inl ⟨rfl, .inl ⟨rfl, _, rfl, _, _, rfl⟩⟩

theorem Call.On.lock {n : NodeId} {β : Type} {c : Call T β} (o : c.On n) : ∃ k, c.prog = .lock n k := by
  cases c <;> first | exact o.elim | (cases o; exact ⟨_, rfl⟩)

/-- **C66**: a method of a node called by a thread that keeps a guard of the same node never returns,
whatever happens in between and whatever the other threads do. -/
theorem C66_self_block (h : KHeap T) (u : h.Unlocked) (ts : List (GClient T α))
    (ok : ∀ t ∈ ts, t.Ok [] []) (i : Nat) (n : NodeId) (hn : n < h.next) (body : GClient T γ)
    (okb : body.Ok [n] []) {β : Type} (c : γ → Call T β) (on : ∀ b, (c b).On n)
    (k : γ → β → GClient T α) (hi : ts[i]? = some (.take n <| body.bind fun b => .call (c b) (k b)))
    (d : Config (NodeImpl T) α) (st : DSteps (gstart h ts) d) (a : α) :
    d.threads[i]? ≠ some (.ret a) := by
  intro r
  refine held_result h u ts ok i n hn _ hi (fun _ => False) (fun s0 => ?_) d st a r
  refine Hold.body body okb (by simp) fun b => ?_
  obtain ⟨q, hq⟩ := (on b).lock
  show Hold n s0 _ ((c b).prog.bind _)
  rw [hq]; exact .inl rfl

private theorem ordered_reach (pk : List NodeId → Prop) (F : NodeId → Prop) (h : KHeap T) (u : h.Unlocked)
    (wf : MimicWF h) (al : MimicAllocated h)
    (hF : ∀ n, F n → n < h.next ∧ (h.get n).joint.isMovable = true)
    (rank : NodeId → Nat)
    (rm : ∀ n, (h.get n).mimicParent = none → ∀ c ∈ (h.get n).mimicChildren, rank n < rank c)
    (ts : List (GClient T α))
    (ord : ∀ t ∈ ts, t.Ordered (fun c => LockCall F (fun _ _ => True) False pk c) (∀ L, pk L) rank [])
    (d : Config (NodeImpl T) α) (st : DSteps (gstart h ts) d) (stuck : Stuck d) :
    (∀ p ∈ d.threads, (∃ a, p = .ret a) ∨ ∃ L msg, pk L ∧ p = .panic msg) ∨
      ∃ L msg, L ≠ [] ∧ pk L ∧ (Prog.panic msg : KProg T α) ∈ d.threads := by
  let A : List NodeId → NodeId → Prop := fun L n => ∀ m ∈ L, rank m < rank n
  let P : NodeId → NodeImpl T → Prop := LockInv (fun c => ∃ m, c ∈ (h.get m).mimicChildren)
    F (fun _ _ => True) (fun n c => rank n < rank c)
  have key : ∀ (g : GClient T α) (L : List NodeId),
      g.Ordered (fun c => LockCall F (fun _ _ => True) False pk c) (∀ L, pk L) rank L →
      Lk A pk h.next P (Pres P) (fun L (_ : α) => L = [] ∧ True) g.prog L := by
    intro g
    induction g with
    | done a => exact fun L ok => ⟨ok, trivial⟩
    | call c k ih =>
      rintro L ⟨rfl, sc, hk⟩
      exact Keep.lk (keep_call (A := A) (pk := pk)
        (fun n m hm => (by cases hm)) (fun n c r m hm => by rw [List.mem_singleton.1 hm]; exact r)
        (fun n ⟨m, hm⟩ => al m n hm) (fun n hn => (hF n hn).1) False (fun _ _ => False) (fun f => f.elim)
        (fun f => f.elim) (fun f => f.elim) c sc)
        fun r _ => ih r _ (hk r)
    | take n k ih => exact fun L ok => ⟨ok.1, ih _ ok.2⟩
    | look n k ih => exact fun L ok => ⟨ok.1, fun s _ => ih _ _ (ok.2 _)⟩
    | drop n k ih => exact fun L ok => ⟨ok.1, ih _ ok.2⟩
    | crash m => exact fun L ok => ok L
  have t0 : ThreadInv A pk h.next P (fun L (_ : α) => L = [] ∧ True)
      (gstart h ts) (fun _ => []) := by
    refine ⟨⟨Nat.le_refl _, fun n => ?_⟩, ?_, fun _ => by simp, fun i j n hn => (by cases hn),
      fun n => by simp [gstart, u n]⟩
    · exact ⟨fun ⟨m, hm⟩ => wf m n hm, fun c hc => ⟨⟨n, hc⟩, fun e => rm n e c hc⟩,
        fun _ _ => trivial, fun f => (hF n f).2⟩
    · intro k p hp
      have := List.mem_of_getElem? hp
      simp only [gstart, List.mem_map] at this
      obtain ⟨t, ht, rfl⟩ := this
      exact key t [] (ord t ht)
  obtain ⟨Ls, t⟩ := steps_lk st t0
  exact stuck_done _ t stuck

theorem ordered_mono {φ ψ : ∀ {β : Type}, Call T β → Prop} {cr cr' : Prop} {rank : NodeId → Nat}
    (i : ∀ {β : Type} (c : Call T β), φ c → ψ c) (j : cr → cr') (g : GClient T α) {L : List NodeId}
    (o : g.Ordered φ cr rank L) : g.Ordered ψ cr' rank L := by
  induction g generalizing L with
  | done a => exact o
  | call c k ih => exact ⟨o.1, i c o.2.1, fun r => ih r (o.2.2 r)⟩
  | take n k ih => exact ⟨o.1, ih o.2⟩
  | look n k ih => exact ⟨o.1, fun v => ih v (o.2 v)⟩
  | drop n k ih => exact ⟨o.1, ih o.2⟩
  | crash m => exact j o

/-- **C66**: guards are safe for all threads when every client makes calls only while it has no guard and
takes guards in a fixed order in which free mimic masters come before their mimic children: when no
thread can move, all have returned, or one has panicked. -/
theorem C66_ordered (h : KHeap T) (u : h.Unlocked) (wf : MimicWF h) (al : MimicAllocated h)
    (rank : NodeId → Nat)
    (rm : ∀ n, (h.get n).mimicParent = none → ∀ c ∈ (h.get n).mimicChildren, rank n < rank c)
    (ts : List (GClient T α)) (ord : ∀ t ∈ ts, t.Ordered (fun c => SharedCall c) True rank [])
    (d : Config (NodeImpl T) α) (st : DSteps (gstart h ts) d) (stuck : Stuck d) :
    (∀ p ∈ d.threads, ∃ a, p = .ret a) ∨ ∃ msg, (Prog.panic msg : KProg T α) ∈ d.threads := by
  by_cases np : ∃ msg, (Prog.panic msg : KProg T α) ∈ d.threads
  · exact .inr np
  · rcases ordered_reach (fun _ => True) (fun _ => False) h u wf al (fun n f => f.elim) rank rm ts
      (fun t ht => ordered_mono (fun c hc => by cases c <;> simp_all [SharedCall, LockCall]) (fun _ _ => trivial) t (ord t ht))
      d st stuck with this | ⟨_, msg, _, _, hm⟩
    · refine .inl fun p hp => (this p hp).resolve_right ?_
      rintro ⟨_, msg, _, rfl⟩
      exact np ⟨msg, hp⟩
    · exact absurd ⟨msg, hm⟩ np

/-- The same for calls without panic paths: when no thread can move, all have returned. -/
theorem C66_ordered_finishes (h : KHeap T) (u : h.Unlocked) (wf : MimicWF h) (al : MimicAllocated h)
    (rank : NodeId → Nat)
    (rm : ∀ n, (h.get n).mimicParent = none → ∀ c ∈ (h.get n).mimicChildren, rank n < rank c)
    (ts : List (GClient T α)) (ord : ∀ t ∈ ts, t.Ordered (fun c => QuietCall h c) False rank [])
    (d : Config (NodeImpl T) α) (st : DSteps (gstart h ts) d) (stuck : Stuck d) :
    ∀ p ∈ d.threads, ∃ a, p = .ret a := by
  rcases ordered_reach (fun _ => False) (fun n => n < h.next ∧ (h.get n).joint.isMovable = true) h u wf al
    (fun n f => f) rank rm ts
    (fun t ht => ordered_mono (fun c hc => by cases c <;> simp_all [QuietCall, LockCall]) (fun f => f.elim) t (ord t ht))
    d st stuck with this | ⟨_, _, _, f, _⟩
  · exact fun p hp => (this p hp).resolve_right fun ⟨_, _, f, _⟩ => f
  · exact f.elim

/-- Two threads, each keeping a guard of one node while it reads the position of the other node, can
wait for each other for ever. -/
theorem C66_two_guards_deadlock : ∃ d : Config (NodeImpl T) (Option T),
    Steps (gstart exTwo [
      .take 0 <| .call (.jointPosition 1) fun x => .drop 0 <| .done x,
      .take 1 <| .call (.jointPosition 0) fun x => .drop 1 <| .done x]) d ∧ Deadlocked d := by
  refine ⟨_, runSched_steps (is := [0, 1]) rfl, List.cons_ne_nil _ _, ?_⟩
  intro p hp
  rcases List.mem_cons.1 hp with rfl | hp
  · exact ⟨1, rfl, rfl⟩
  · rw [List.mem_singleton.1 hp]; exact ⟨0, rfl, rfl⟩

/-- `c.iter_joints().collect::<Vec<_>>()` (`src/chain.rs:274-276`): the guards of all movable nodes at
once; then they are looked at in the same order and dropped (front to back). -/
def GClient.collect : List NodeId → (List (Joint T) → GClient T α) → GClient T α
  | ns, k => takeAll ns <| lookAll ns [] fun js => dropAll ns (k js)
where
  takeAll : List NodeId → GClient T α → GClient T α
    | [], k => k
    | n :: ns, k => .take n (takeAll ns k)
  lookAll : List NodeId → List (Joint T) → (List (Joint T) → GClient T α) → GClient T α
    | [], js, k => k js
    | n :: ns, js, k => .look n fun v => lookAll ns (js ++ [v.joint]) k
  dropAll : List NodeId → GClient T α → GClient T α
    | [], k => k
    | n :: ns, k => .drop n (dropAll ns k)

/-- Two threads that collect `iter_joints()` of two chains with the same nodes in opposite order can
deadlock. -/
theorem C66_collect_deadlock : ∃ d : Config (NodeImpl T) Nat,
    Steps (gstart exTwo [.collect [0, 1] fun js => .done js.length,
      .collect [1, 0] fun js => .done js.length]) d ∧ Deadlocked d := by
  refine ⟨_, runSched_steps (is := [0, 1]) rfl, List.cons_ne_nil _ _, ?_⟩
  intro p hp
  rcases List.mem_cons.1 hp with rfl | hp
  · exact ⟨1, rfl, rfl⟩
  · rw [List.mem_singleton.1 hp]; exact ⟨0, rfl, rfl⟩

/-- Collecting `iter_joints()` of a chain that lists its movable nodes in increasing order is ordered. -/
theorem GClient.collect_ordered (φ : ∀ {β : Type}, Call T β → Prop) (cr : Prop) (rank : NodeId → Nat) (ns : List NodeId)
    (inc : ns.Pairwise fun a b => rank a < rank b) (k : List (Joint T) → GClient T α)
    (hk : ∀ js, (k js).Ordered φ cr rank []) : (GClient.collect ns k).Ordered φ cr rank [] := by
  have drops : ∀ (ms : List NodeId) (L : List NodeId) (g : GClient T α), L.Nodup → ms.Nodup → (∀ n, n ∈ L ↔ n ∈ ms) →
      g.Ordered φ cr rank [] → (collect.dropAll ms g).Ordered φ cr rank L := by
    intro ms
    induction ms with
    | nil =>
      intro L g nd _ e hg
      have : L = [] := by
        cases L with
        | nil => rfl
        | cons x l => exact absurd ((e x).1 (by simp)) (by simp)
      rw [this]; exact hg
    | cons m ms ih =>
      intro L g nd nd' e hg
      refine ⟨(e m).2 (by simp), ih _ _ (nd.erase m) (List.nodup_cons.1 nd').2 (fun n => ?_) hg⟩
      rw [nd.mem_erase_iff, e n, List.mem_cons]
      constructor
      · rintro ⟨h1, h2⟩; exact h2.resolve_left h1
      · exact fun h => ⟨fun e => (List.nodup_cons.1 nd').1 (e ▸ h), .inr h⟩
  have looks : ∀ (ms : List NodeId) (js : List (Joint T)) (L : List NodeId)
      (f : List (Joint T) → GClient T α), (∀ m ∈ ms, m ∈ L) → (∀ js, (f js).Ordered φ cr rank L) →
      (collect.lookAll ms js f).Ordered φ cr rank L := by
    intro ms
    induction ms with
    | nil => exact fun js L f _ hf => hf js
    | cons m ms ih =>
      exact fun js L f hm hf => ⟨hm m (by simp), fun v => ih _ _ _ (fun x hx => hm x (by simp [hx])) hf⟩
  have takes : ∀ (ms : List NodeId) (L : List NodeId) (g : GClient T α),
      ms.Pairwise (fun a b => rank a < rank b) → (∀ a ∈ L, ∀ b ∈ ms, rank a < rank b) →
      g.Ordered φ cr rank (ms.reverse ++ L) → (collect.takeAll ms g).Ordered φ cr rank L := by
    intro ms
    induction ms with
    | nil => exact fun L g _ _ hg => hg
    | cons m ms ih =>
      intro L g pw lt hg
      rw [List.pairwise_cons] at pw
      refine ⟨fun a ha => lt a ha m (by simp), ih _ _ pw.2 (fun a ha b hb => ?_) ?_⟩
      · rcases List.mem_cons.1 ha with rfl | ha
        · exact pw.1 b hb
        · exact lt a ha b (by simp [hb])
      · simpa using hg
  have nd : ns.Nodup := inc.imp fun h e => by rw [e] at h; exact Nat.lt_irrefl _ h
  refine takes ns [] _ inc (by simp) (looks _ _ _ _ (by simp) fun js => drops _ _ _ ?_ nd (by simp) (hk js))
  simpa using nd

/-- **C66**: any number of threads that collect `iter_joints()` of chains listing their movable nodes
in one common order (masters before mimic children) never deadlock: when no thread can move, all have
returned. -/
theorem C66_collect_ordered (h : KHeap T) (u : h.Unlocked) (wf : MimicWF h) (al : MimicAllocated h)
    (rank : NodeId → Nat)
    (rm : ∀ n, (h.get n).mimicParent = none → ∀ c ∈ (h.get n).mimicChildren, rank n < rank c)
    (cs : List Chain) (inc : ∀ c ∈ cs, c.movableNodes.Pairwise fun a b => rank a < rank b)
    (f : List (Joint T) → α) (d : Config (NodeImpl T) α)
    (st : DSteps (gstart h (cs.map fun c => .collect c.movableNodes fun js => .done (f js))) d)
    (stuck : Stuck d) :
    ∀ p ∈ d.threads, ∃ a, p = .ret a := by
  refine C66_ordered_finishes h u wf al rank rm _ (fun t ht => ?_) d st stuck
  obtain ⟨c, hc, rfl⟩ := List.mem_map.1 ht
  exact GClient.collect_ordered _ _ rank _ (inc c hc) _ fun js => rfl

/-- a case of `C66_stable`: thread 0 keeps a guard of node 0 while it reads node 1, thread 1 sets node 0;
thread 0 returns (here before thread 1 has begun) -/
example (x y : T) (body : GClient T (Option T)) (hb : body = .call (.jointPosition 1) .done)
    (ts : List (GClient T (T × T)))
    (hts : ts = [.lookTwice 0 body fun v _ w => (v.joint.position, w.joint.position),
      .call (.setJointPosition 0 x) fun _ => .done (y, y)]) :
    (∀ t ∈ ts, t.Ok [] []) ∧ body.Ok [0] [] ∧ ∃ d a, Steps (gstart exTwo ts) d ∧
      d.threads[0]? = some (.ret a) := by
  subst hts hb
  refine ⟨?_, fun _ => rfl, _, _, runSched_steps (is := [0, 0, 0, 0, 0, 0, 0]) rfl, rfl⟩
  intro t ht
  rcases List.mem_cons.1 ht with rfl | ht
  · exact ⟨.inl (by simp), fun v r => ⟨.inl (by simp), fun w => ⟨by simp, by simp [GClient.Ok]⟩⟩⟩
  · rw [List.mem_singleton.1 ht]; exact fun _ => rfl

/-- a case of `C66_self_block`: `let g = n.joint(); let x = m.joint_position(); n.set_joint_position_unchecked(x)`
reaches the last call and stays there -/
example (x : T) (ts : List (GClient T Unit)) (body : GClient T (Option T))
    (hb : body = .call (.jointPosition 1) .done)
    (hts : ts = [.take 0 <| body.bind fun y => .call (.setJointPositionUnchecked 0 (y.getD x)) fun _ =>
      .drop 0 <| .done ()]) :
    (∀ t ∈ ts, t.Ok [] []) ∧ body.Ok [0] [] ∧ (∀ y : Option T,
      (Call.setJointPositionUnchecked 0 (y.getD x) : Call T Unit).On 0) ∧
    ∃ d, Steps (gstart exTwo ts) d ∧ Deadlocked d := by
  subst hts hb
  refine ⟨?_, fun _ => rfl, fun _ => rfl, _, runSched_steps (is := [0, 0, 0, 0]) rfl,
    List.cons_ne_nil _ _, ?_⟩
  · intro t ht
    rw [List.mem_singleton.1 ht]; exact fun y r => ⟨by simp, rfl⟩
  · intro p hp
    rw [List.mem_singleton.1 hp]; exact ⟨0, rfl, rfl⟩

/-- a case of `C66_ordered`: both threads keep two guards, in the same order, and call afterwards -/
example (x : T) : (GClient.take 0 <| .take 1 <| .look 0 fun v => .drop 0 <| .drop 1 <|
      .call (.setJointPosition 0 x) fun _ => .done v.joint.position : GClient T T).Ordered
      (fun c => SharedCall c) True (fun n => n) [] := by
  refine ⟨by simp, by simp, by simp, fun v => ⟨by simp, by simp, ?_⟩⟩
  exact ⟨rfl, trivial, fun _ => rfl⟩

end K
