import Verif.Lemmas.Loose
import Verif.Lemmas.Own
import Verif.Lemmas.Builders
/-!
# Looser limits and threads

`Eased W B Q F p q`: with the looser limits `q` does what `p` does, or `p` is about to end with a result in `B`.  `F` is
the node that `p` has just looked at, with what it has seen: its lock is held, so no other thread changes it.
-/

set_option linter.unusedSectionVars false

namespace K
open Prog
variable {T : Type} {α β γ δ : Type} [Scalar T] {W : Loosening T}

/-- the program ends with a result in `B`, waiting for nothing -/
inductive Quits (B : α → Prop) : KProg T α → Prop
  | ret {a} (b : B a) : Quits B (.ret a)
  | unlock {n k} (x : Quits B k) : Quits B (.unlock n k)
  | write {n f k} (x : Quits B k) : Quits B (.write n f k)

theorem Quits.bind {B : α → Prop} {C : β → Prop} {p : KProg T α} (x : Quits B p) {f : α → KProg T β}
    (h : ∀ a, B a → Quits C (f a)) : Quits C (p >>= f) := by
  show Quits C (p.bind f)
  induction x with
  | ret b => exact h _ b
  | unlock _ ih => exact .unlock ih
  | write _ ih => exact .write ih

theorem Quits.step {B : α → Prop} {p p' : KProg T α} (x : Quits B p) {h h' : KHeap T}
    (e : step1 p h = some (p', h')) : Quits B p' := by
  cases x with
  | ret b => cases e
  | unlock x => cases e; exact x
  | write x => cases e; exact x

/-- see the file comment -/
inductive Eased (W : Loosening T) (B : α → Prop) (Q : α → β → Prop) :
    Option (NodeId × NodeImpl T) → KProg T α → KProg T β → Prop
  | quits {F p q} (x : Quits B p) : Eased W B Q F p q
  | ret {F a b} (q : Q a b) : Eased W B Q F (.ret a) (.ret b)
  | lock {F n k k'} (x : Eased W B Q none k k') : Eased W B Q F (.lock n k) (.lock n k')
  | unlock {F n k k'} (x : Eased W B Q none k k') : Eased W B Q F (.unlock n k) (.unlock n k')
  | read {F n k k'} (x : ∀ s, Eased W B Q (some (n, s)) (k s) (k' (W.node s))) : Eased W B Q F (.read n k) (.read n k')
  | write {F n f f' k k'} (hf : ∀ s, (∀ s', F = some (n, s') → s = s') → f' (W.node s) = W.node (f s))
      (x : Eased W B Q none k k') : Eased W B Q F (.write n f k) (.write n f' k')
  | upgrade {F n k k'} (x : ∀ b, Eased W B Q none (k b) (k' b)) : Eased W B Q F (.upgrade n k) (.upgrade n k')
  | alloc {F s k k'} (x : ∀ m, Eased W B Q none (k m) (k' m)) : Eased W B Q F (.alloc s k) (.alloc (W.node s) k')
  | panic {F} (m : String) : Eased W B Q F (.panic m) (.panic m)
  | diverge {F} : Eased W B Q F .diverge .diverge

/-- what the thread has seen is still there -/
def Still (F : Option (NodeId × NodeImpl T)) (h : KHeap T) : Prop := ∀ n s, F = some (n, s) → h.get n = s

namespace Eased
variable {B : α → Prop} {C : β → Prop} {F : Option (NodeId × NodeImpl T)}

theorem forget {Q : α → β → Prop} {p : KProg T α} {q : KProg T β} (s : Eased W B Q none p q) : Eased W B Q F p q := by
  cases s with
  | quits x => exact .quits x
  | ret q => exact .ret q
  | lock x => exact .lock x
  | unlock x => exact .unlock x
  | read x => exact .read x
  | write hf x => exact .write (fun s _ => hf s fun _ e => nomatch e) x
  | upgrade x => exact .upgrade x
  | alloc x => exact .alloc x
  | panic m => exact .panic m
  | diverge => exact .diverge

theorem bind {Q : α → γ → Prop} {R : β → δ → Prop} {p : KProg T α} {q : KProg T γ} (s : Eased W B Q F p q)
    {f : α → KProg T β} {g : γ → KProg T δ} (bad : ∀ a, B a → Quits C (f a))
    (next : ∀ a b, Q a b → Eased W C R none (f a) (g b)) : Eased W C R F (p >>= f) (q >>= g) := by
  show Eased W C R F (p.bind f) (q.bind g)
  induction s with
  | quits x => exact .quits (x.bind bad)
  | ret q => exact (next _ _ q).forget
  | lock _ ih => exact .lock ih
  | unlock _ ih => exact .unlock ih
  | read _ ih => exact .read fun s => ih s
  | write h _ ih => exact .write h ih
  | upgrade _ ih => exact .upgrade fun b => ih b
  | alloc _ ih => exact .alloc fun m => ih m
  | panic m => exact .panic m
  | diverge => exact .diverge

theorem ofLoosened {Q : α → β → Prop} {p : KProg T α} {q : KProg T β} (s : Loosened W Q p q) : Eased W B Q F p q := by
  induction s generalizing F with
  | ret q => exact .ret q
  | lock _ ih => exact .lock ih
  | unlock _ ih => exact .unlock ih
  | read _ ih => exact .read fun s => ih s
  | write h _ ih => exact .write (fun s _ => h s) ih
  | upgrade _ ih => exact .upgrade fun b => ih b
  | alloc _ ih => exact .alloc fun m => ih m
  | panic m => exact .panic m
  | diverge => exact .diverge

/-- look at a locked node -/
theorem look {Q : β → δ → Prop} {n : NodeId} {f : NodeImpl T → KProg T β} {f' : NodeImpl T → KProg T δ}
    (x : ∀ s, Eased W C Q (some (n, s)) (f s) (f' (W.node s))) : Eased W C Q F (doRead n >>= f) (doRead n >>= f') :=
  .read x

/-! ### the checked setters -/

theorem setMimicChild (n : NodeId) (x : T) (c : NodeId) :
    Eased W Refusal Loosened.Id F (Node.setMimicChild n x c) (Node.setMimicChild n x c) := by
  refine .lock (look fun s => ?_)
  simp only [Loosening.node]
  cases em : s.mimic with
  | none =>
    exact ofLoosened ((Loosened.joint n).thn fun j => (Loosened.joint c).thn fun j2 =>
      (Loosened.doUnlock c).seq fun _ => .ret rfl)
  | some m =>
    rcases LooseAt.setJointPosition_joint (W := W) s.joint (m.mimicPosition x) with r | e
    · exact .quits (.write (.unlock (.ret r)))
    · refine .write (fun s' hs => ?_) (.unlock (.ret ?_))
      · obtain rfl := hs s rfl
        simp only [Loosening.node, e]
      · simp only [e]

theorem tryEach {f : γ → KProg T (Except (KError T) Unit)}
    (hf : ∀ x, Eased W Refusal Loosened.Id none (f x) (f x)) (xs : List γ) :
    Eased W Refusal Loosened.Id none (tryEach xs f) (tryEach xs f) := by
  induction xs with
  | nil => exact .ret rfl
  | cons x xs ih =>
    refine (hf x).bind (fun a b => ?_) fun _ a e => ?_
    · cases a with
      | ok => exact b.elim
      | error e => exact .ret b
    · subst e
      cases a with
      | error e => exact .ret rfl
      | ok => exact ih

theorem setJointPosition (n : NodeId) (x : T) :
    Eased W Refusal Loosened.Id none (Node.setJointPosition n x) (Node.setJointPosition n x) := by
  refine .lock (look fun s => ?_)
  by_cases hp : s.mimicParent.isSome = true
  · have hp' : (W.node s).mimicParent.isSome = true := hp
    rw [if_pos hp, if_pos hp']
    exact ofLoosened ((Loosened.doUnlock n).seq fun _ => .ret rfl)
  · have hp' : ¬(W.node s).mimicParent.isSome = true := hp
    rw [if_neg hp, if_neg hp']
    rcases LooseAt.setJointPosition_joint (W := W) s.joint x with r | e
    · cases er : (s.joint.setJointPosition x).2 with
      | ok => rw [er] at r; exact r.elim
      | error e => exact .quits (.write (.unlock (.ret (by rw [er] at r; exact r))))
    · refine .write (fun s' hs => ?_) ?_
      · obtain rfl := hs s rfl
        simp only [Loosening.node, e]
      · simp only [Loosening.node, e]
        cases (s.joint.setJointPosition x).2 with
        | error e => exact ofLoosened ((Loosened.doUnlock n).seq fun _ => .ret rfl)
        | ok =>
          refine (tryEach (fun c => setMimicChild n x c) _).bind (fun a b => .unlock (.ret b)) fun _ r e => ?_
          subst e
          exact ofLoosened ((Loosened.doUnlock n).seq fun _ => .ret rfl)

theorem setJointPositions (c : Chain) (xs : List T) :
    Eased W Refusal Loosened.Id none (c.setJointPositions xs) (c.setJointPositions xs) := by
  unfold Chain.setJointPositions
  split
  · exact ofLoosened (.ret rfl)
  · exact tryEach (fun p : NodeId × T => setJointPosition p.1 p.2) _

theorem call {β : Type} (c : Call T β) (u : c.Unclamped) :
    Eased W c.Refused (Loosened.To (c.looseAnswer W)) none c.prog (c.loosened W).prog := by
  cases c with
  | newNode j => exact ofLoosened (Loosened.new j)
  | setParent n p => exact ofLoosened (Loosened.setParent n p)
  | removeParent n p => exact ofLoosened (Loosened.removeParent n p)
  | setMimicParent n p m => exact ofLoosened (Loosened.setMimicParent n p m)
  | setLink n l => exact ofLoosened (Loosened.setLink n l)
  | setOrigin n t => exact ofLoosened (Loosened.setOrigin n t)
  | setJointPosition n x => exact Eased.setJointPosition n x
  | setJointPositionClamped n x => exact u.elim
  | setJointPositionUnchecked n x => exact ofLoosened (Loosened.setJointPositionUnchecked n x)
  | joint n => exact ofLoosened (Loosened.joint n)
  | jointPosition n => exact ofLoosened (Loosened.jointPosition n)
  | parent n => exact ofLoosened (Loosened.parent n)
  | mimicParent n => exact ofLoosened (Loosened.mimicParent n)
  | children n => exact ofLoosened (Loosened.children n)
  | link n => exact ofLoosened (Loosened.link n)
  | isRoot n => exact ofLoosened (Loosened.isRoot n)
  | isEnd n => exact ofLoosened (Loosened.isEnd n)
  | origin n => exact ofLoosened (Loosened.origin n)
  | worldTransform n => exact ofLoosened (Loosened.worldTransform n)
  | worldVelocity n => exact ofLoosened (Loosened.worldVelocity n)
  | iterAncestors fuel n => exact ofLoosened (Loosened.ancestors fuel (some n))
  | iterDescendants fuel n => exact ofLoosened (Loosened.descendants fuel [n])
  | fromNodes ns => exact ofLoosened (Loosened.fromNodes ns)
  | fromRoot fuel n => exact ofLoosened (Loosened.fromRoot fuel n)
  | fromEnd fuel n => exact ofLoosened (Loosened.fromEnd fuel n)
  | fromEndToRoot fuel e r => exact ofLoosened (Loosened.fromEndToRoot fuel e r)
  | chainSetOrigin c t => exact ofLoosened (Loosened.chainSetOrigin c t)
  | chainOrigin c => exact ofLoosened (Loosened.chainOrigin c)
  | iterJoints c => exact ofLoosened (Loosened.iterJoints c)
  | iterLinks c => exact ofLoosened (Loosened.iterLinks c)
  | find c name => exact ofLoosened (Loosened.find c name)
  | jointPositions c => exact ofLoosened (Loosened.jointPositions c)
  | setJointPositions c xs => exact Eased.setJointPositions c xs
  | setJointPositionsClamped c xs => exact u.elim
  | setJointPositionsUnchecked c xs => exact ofLoosened (Loosened.setJointPositionsUnchecked c xs)
  | updateTransforms c => exact ofLoosened (Loosened.updateTransforms c)
  | updateVelocities c => exact ofLoosened (Loosened.updateVelocities c)
  | updateLinkTransforms c => exact ofLoosened (Loosened.updateLinkTransforms c)
  | cloneChain fuel c => exact ofLoosened (Loosened.clone c fuel)
  | tryNew c => exact ofLoosened (Loosened.tryNew c)
  | endTransform c => exact ofLoosened (Loosened.endTransform c)
  | display fuel c => exact ofLoosened (Loosened.display c fuel)
  | jacobian c => exact ofLoosened (Loosened.jacobian c)
  | centerOfMass c => exact ofLoosened (Loosened.centerOfMass c)
  | solve s c target cs => exact u.elim

theorem client {p q : Client T (Option α)} (same : p.Loosens W q) :
    Eased W (· = none) Loosened.Id none p.prog q.prog := by
  induction same with
  | done a => exact .ret rfl
  | call c k k' u stops _ ih =>
    refine (Eased.call (W := W) c u).bind (fun a x => ?_) fun a b e => ?_
    · rw [stops a x]; exact .ret rfl
    · subst e
      by_cases rf : c.Refused a
      · rw [stops a rf]; exact .quits (.ret rfl)
      · exact ih a rf

/-! ### steps -/

theorem heap_modify_at {h : KHeap T} {n : NodeId} {f f' : NodeImpl T → NodeImpl T}
    (e : f' (W.node (h.get n)) = W.node (f (h.get n))) : W.heap (h.modify n f) = (W.heap h).modify n f' := by
  simp only [Loosening.heap, Heap.modify]
  congr 1
  funext m
  by_cases x : m = n
  · subst x; simp [e]
  · simp [x]

theorem step {Q : α → β → Prop} {p p' : KProg T α} {q : KProg T β} (s : Eased W B Q F p q) {h h' : KHeap T}
    (st : Still F h) (nq : ¬Quits B p) (e : step1 p h = some (p', h')) :
    ∃ F' q', step1 q (W.heap h) = some (q', W.heap h') ∧ Eased W B Q F' p' q' ∧ Still F' h' ∧
      ∀ n x, F' = some (n, x) → ∃ k, p = .read n k := by
  have no : ∀ g : KHeap T, Still (T := T) none g := fun _ _ _ x => nomatch x
  cases s with
  | quits x => exact absurd x nq
  | ret q => cases e
  | @lock _ n k k' x =>
    simp only [step1] at e ⊢
    split at e
    · cases e
    · cases e; rename_i y
      refine ⟨none, k', ?_, x, no _, fun _ _ e => nomatch e⟩
      rw [if_neg (show ¬(W.heap h).held n = true from y)]
      rfl
  | unlock x => cases e; exact ⟨none, _, rfl, x, no _, fun _ _ e => nomatch e⟩
  | read x =>
    cases e
    refine ⟨_, _, rfl, x _, fun n s e => ?_, fun n s e => ?_⟩
    · cases e; rfl
    · cases e; exact ⟨_, rfl⟩
  | write hf x =>
    cases e
    refine ⟨none, _, ?_, x, no _, fun _ _ e => nomatch e⟩
    rw [heap_modify_at (hf _ fun s' e => st _ _ e)]
    rfl
  | upgrade x => cases e; exact ⟨none, _, rfl, x _, no _, fun _ _ e => nomatch e⟩
  | alloc x =>
    cases e
    refine ⟨none, _, ?_, x _, no _, fun _ _ e => nomatch e⟩
    rw [Loosening.heap_push]
    rfl
  | panic m => cases e
  | diverge => cases e; exact ⟨none, _, rfl, .diverge, no _, fun _ _ e => nomatch e⟩

theorem back {Q : α → β → Prop} {p : KProg T α} {q q' : KProg T β} (s : Eased W B Q F p q) {h : KHeap T} {g' : KHeap T}
    (nq : ¬Quits B p) (e : step1 q (W.heap h) = some (q', g')) : ∃ p' h', step1 p h = some (p', h') := by
  cases s with
  | quits x => exact absurd x nq
  | ret q => cases e
  | @lock _ n k k' x =>
    simp only [step1] at e ⊢
    split at e
    · cases e
    · rename_i y
      exact ⟨k, _, if_neg y⟩
  | panic m => cases e
  | _ => exact ⟨_, _, rfl⟩

end Eased

/-! ### threads -/

/-- a thread that quits keeps quitting -/
theorem quits_dsteps {B : α → Prop} {d e : Config (NodeImpl T) α} (st : DSteps d e) {i : Nat}
    (x : ∃ p, d.threads[i]? = some p ∧ Quits B p) : ∃ p, e.threads[i]? = some p ∧ Quits B p := by
  induction st with
  | refl => exact x
  | tail _ s ih =>
    obtain ⟨p, hp, qp⟩ := ih
    cases s with
    | free F => exact ⟨p, hp, qp⟩
    | thread s =>
      cases s with
      | mk j q q' h' hj hs =>
        simp only [List.getElem?_set]
        split
        · rename_i e; subst e
          rw [hp] at hj; cases hj
          have hlt := (List.getElem?_eq_some_iff.1 hp).1
          rw [if_pos hlt]
          exact ⟨q', rfl, qp.step hs⟩
        · exact ⟨p, hp, qp⟩

/-- a thread that quits can end on its own -/
theorem quits_ends {B : α → Prop} {p : KProg T α} (x : Quits B p) (d : Config (NodeImpl T) α) {i : Nat}
    (hp : d.threads[i]? = some p) : ∃ e a, Steps d e ∧ e.threads[i]? = some (.ret a) ∧ B a := by
  have tr : ∀ {d e f : Config (NodeImpl T) α}, Step d e → Steps e f → Steps d f := by
    intro d e f a b
    induction b with
    | refl => exact .tail (.refl _) a
    | tail _ s ih => exact .tail ih s
  have hlt := (List.getElem?_eq_some_iff.1 hp).1
  induction x generalizing d with
  | ret b => exact ⟨d, _, .refl _, hp, b⟩
  | @unlock n k _ ih =>
    obtain ⟨e, a, st, he, b⟩ := ih ⟨d.heap.setHeld n false, d.threads.set i k⟩ (by simp [hlt]) (by simpa using hlt)
    exact ⟨e, a, tr (Step.mk d i _ k _ hp rfl) st, he, b⟩
  | @write n f k _ ih =>
    obtain ⟨e, a, st, he, b⟩ := ih ⟨d.heap.modify n f, d.threads.set i k⟩ (by simp [hlt]) (by simpa using hlt)
    exact ⟨e, a, tr (Step.mk d i _ k _ hp rfl) st, he, b⟩

theorem quits_givesUp {d : Config (NodeImpl T) (Option α)} {i : Nat}
    (x : ∃ p, d.threads[i]? = some p ∧ Quits (· = none) p) : d.GivesUp i := by
  refine ⟨?_, fun e st a ha => ?_⟩
  · obtain ⟨p, hp, qp⟩ := x
    obtain ⟨e, a, st, he, rfl⟩ := quits_ends qp d hp
    exact ⟨e, st, he⟩
  · obtain ⟨p, hp, qp⟩ := quits_dsteps st x
    rw [ha] at hp; cases hp
    cases qp with
    | ret b => exact b

/-- the lock discipline of all threads -/
abbrev Owns (d : Config (NodeImpl T) α) (Ls : Nat → List NodeId) : Prop :=
  ThreadInv (fun _ _ => True) (fun _ => True) 0 (fun _ _ => True) (fun L (_ : α) => L = [] ∧ True) d Ls

private theorem own_pres {Q : List NodeId → α → Prop} {p : KProg T α} {L : List NodeId} (h : Own Q p L) :
    Lk (fun _ _ => True) (fun _ => True) 0 (fun _ _ => True) (Pres fun _ _ => True) Q p L := by
  induction p generalizing L with
  | ret a => exact h
  | lock n k ih => exact ⟨h.1, ih h.2⟩
  | unlock n k ih => exact ⟨h.1, ih h.2⟩
  | read n k ih => exact ⟨h.1, fun s hs => ih s (h.2 s hs)⟩
  | write n f k ih => exact ⟨h.1, fun _ _ => trivial, ih h.2.2⟩
  | upgrade n k ih => exact fun b => ih b (h b)
  | alloc s k ih => exact fun m hm => ⟨(h m hm).1, ih m (h m hm).2⟩
  | panic m => exact h
  | diverge => trivial

theorem owns_start (h : KHeap T) (u : h.Unlocked) (ps : List (Client T α)) :
    Owns ⟨h, ps.map Client.prog⟩ (fun _ => []) := by
  refine ⟨⟨Nat.zero_le _, fun _ => trivial⟩, ?_, fun _ => by simp, fun i j n hn => (by cases hn), fun n => ?_⟩
  · intro k p hp
    have := List.mem_of_getElem? hp
    simp only [List.mem_map] at this
    obtain ⟨t, ht, rfl⟩ := this
    have : Own (fun L' _ => L' = [] ∧ True) t.prog [] := by
      clear hp ht
      induction t with
      | done a => exact ⟨rfl, trivial⟩
      | call c k ih => exact Keep.lk (own_call c) fun r _ => ih r
    exact own_pres this
  · simp [u n]

/-- the threads `ts` do with looser limits what the threads of `d` do -/
structure EasedAll (W : Loosening T) (d : Config (NodeImpl T) (Option α)) (ts : List (KProg T (Option α)))
    (Ls : Nat → List NodeId) : Prop where
  len : ts.length = d.threads.length
  thread : ∀ i p, d.threads[i]? = some p → ∃ F q, ts[i]? = some q ∧ Eased W (· = none) Loosened.Id F p q ∧
    Still F d.heap ∧ ∀ n s, F = some (n, s) → n ∈ Ls i

theorem easedAll_free {d : Config (NodeImpl T) (Option α)} {ts : List (KProg T (Option α))} {Ls : Nat → List NodeId}
    (F : NodeId → Bool) (a : EasedAll W d ts Ls) (o : Owns d Ls) :
    EasedAll W ⟨d.heap.free F, d.threads⟩ ts Ls ∧ Owns ⟨d.heap.free F, d.threads⟩ Ls :=
  ⟨⟨a.len, a.thread⟩, ⟨⟨Nat.zero_le _, fun _ => trivial⟩, o.disc, o.nodup, o.excl, o.held⟩⟩

theorem easedAll_step {d : Config (NodeImpl T) (Option α)} {ts : List (KProg T (Option α))} {Ls : Nat → List NodeId}
    (a : EasedAll W d ts Ls) (o : Owns d Ls)
    (fresh : ∀ (i : Nat) s k, d.threads[i]? = some (.alloc s k) → d.heap.held d.heap.next = false)
    {i : Nat} {p p' : KProg T (Option α)} {h' : KHeap T} (hi : d.threads[i]? = some p)
    (hs : step1 p d.heap = some (p', h')) (nq : ¬Quits (· = none) p) :
    ∃ q q', ts[i]? = some q ∧ step1 q (W.heap d.heap) = some (q', W.heap h') ∧
      ∃ Ls', EasedAll W ⟨h', d.threads.set i p'⟩ (ts.set i q') Ls' ∧ Owns ⟨h', d.threads.set i p'⟩ Ls' := by
  obtain ⟨F, q, hq, s, st, _⟩ := a.thread i p hi
  obtain ⟨F', q', e, s', st', fr⟩ := s.step st nq hs
  obtain ⟨Ls', o', same⟩ := step_lk_at hi hs o
  have hlt : i < d.threads.length := (List.getElem?_eq_some_iff.1 hi).1
  refine ⟨q, q', hq, e, Ls', ⟨by simp [a.len], fun j r hj => ?_⟩, o'⟩
  simp only [List.getElem?_set] at hj ⊢
  by_cases ij : i = j
  · subst ij
    simp only [if_true, hlt] at hj
    cases hj
    refine ⟨F', q', by simp [a.len, hlt], s', st', fun n x ex => ?_⟩
    obtain ⟨k, rfl⟩ := fr n x ex
    have mem := (o.disc i _ hi).1
    cases hs
    have hn : d.heap.held n = true := (o.held n).2 ⟨i, hlt, mem⟩
    obtain ⟨j, lj, hj⟩ := (o'.held n).1 hn
    by_cases ji : j = i
    · subst ji; exact hj
    · rw [same j ji (by simpa using lj)] at hj
      exact absurd (o.excl j i n hj mem) ji
  · rw [if_neg ij] at hj ⊢
    have lj : j < d.threads.length := (List.getElem?_eq_some_iff.1 hj).1
    obtain ⟨G, r', hr, sr, str, memr⟩ := a.thread j r hj
    refine ⟨G, r', hr, sr, fun n x ex => ?_, fun n x ex => by rw [same j (Ne.symm ij) lj]; exact memr n x ex⟩
    have old := str n x ex
    have mine := memr n x ex
    have hn : d.heap.held n = true := (o.held n).2 ⟨j, lj, mine⟩
    rw [← old]
    cases p with
    | ret a => cases hs
    | panic m => cases hs
    | diverge => cases hs; rfl
    | lock m k =>
      simp only [step1] at hs
      split at hs
      · cases hs
      · cases hs; rfl
    | unlock m k => cases hs; rfl
    | read m k => cases hs; rfl
    | upgrade m k => cases hs; rfl
    | write m f k =>
      cases hs
      have mi := (o.disc i _ hi).1
      have ne : n ≠ m := fun e => ij (o.excl i j n (e ▸ mi) mine)
      simp only [Heap.get_modify, if_neg ne]
    | alloc s k =>
      cases hs
      have ne : n ≠ d.heap.next := fun e => by
        have := fresh i _ k hi
        rw [← e, hn] at this; cases this
      simp [Heap.push, ne]

/-- whatever threads do, one gives up or with the looser limits they can do it too -/
theorem eased_steps {c d : Config (NodeImpl T) (Option α)} {ts : List (KProg T (Option α))} {Ls : Nat → List NodeId}
    (a : EasedAll W c ts Ls) (o : Owns c Ls) (fresh : c.LocksExist) (st : DSteps c d) :
    (∃ (i : Nat) (p : KProg T (Option α)), d.threads[i]? = some p ∧ Quits (· = none) p) ∨
      ∃ us Ls', DSteps ⟨W.heap c.heap, ts⟩ ⟨W.heap d.heap, us⟩ ∧ EasedAll W d us Ls' ∧ Owns d Ls' := by
  induction st with
  | refl => exact .inr ⟨ts, Ls, .refl _, a, o⟩
  | @tail d e st s ih =>
    rcases ih with ⟨i, x⟩ | ⟨us, Ls', t, a', o'⟩
    · exact .inl ⟨i, quits_dsteps (.tail (.refl _) s) x⟩
    · cases s with
      | free F =>
        obtain ⟨x, y⟩ := easedAll_free F a' o'
        exact .inr ⟨us, Ls', t.tail (DStep.free ⟨W.heap d.heap, us⟩ F), x, y⟩
      | thread s =>
        cases s with
        | mk i p p' h' hi hs =>
          by_cases nq : Quits (· = none) p
          · exact .inl ⟨i, quits_dsteps (.tail (.refl _) (.thread (Step.mk d i p p' h' hi hs))) ⟨p, hi, nq⟩⟩
          · obtain ⟨q, q', hq, e, L2, x, y⟩ := easedAll_step a' o' (fresh d st) hi hs nq
            exact .inr ⟨_, L2, t.tail (.thread (Step.mk ⟨W.heap d.heap, us⟩ i q q' _ hq e)), x, y⟩

/-- whatever threads do with the looser limits, they can do it with the tighter ones until one gives up -/
theorem eased_back {c : Config (NodeImpl T) (Option α)} {ts : List (KProg T (Option α))} {Ls : Nat → List NodeId}
    (a : EasedAll W c ts Ls) (o : Owns c Ls) (fresh : c.LocksExist) {d' : Config (NodeImpl T) (Option α)}
    (st : DSteps ⟨W.heap c.heap, ts⟩ d') :
    ∃ d, DSteps c d ∧ ((∃ (i : Nat) (p : KProg T (Option α)), d.threads[i]? = some p ∧ Quits (· = none) p) ∨
      d'.heap = W.heap d.heap ∧ ∃ Ls', EasedAll W d d'.threads Ls' ∧ Owns d Ls') := by
  generalize hc : (⟨W.heap c.heap, ts⟩ : Config (NodeImpl T) (Option α)) = c' at st
  induction st with
  | refl => subst hc; exact ⟨c, .refl _, .inr ⟨rfl, Ls, a, o⟩⟩
  | @tail e' f' st s ih =>
    obtain ⟨d, t, x | ⟨hh, Ls', a', o'⟩⟩ := ih
    · exact ⟨d, t, .inl x⟩
    · cases s with
      | free F =>
        obtain ⟨x, y⟩ := easedAll_free F a' o'
        exact ⟨_, t.tail (DStep.free d F), .inr ⟨by rw [hh]; rfl, Ls', x, y⟩⟩
      | thread s =>
        cases s with
        | mk i q q' g' hi hs =>
          have hlt : i < d.threads.length := a'.len ▸ (List.getElem?_eq_some_iff.1 hi).1
          obtain ⟨p, hp⟩ : ∃ p, d.threads[i]? = some p := ⟨_, List.getElem?_eq_getElem hlt⟩
          by_cases nq : Quits (· = none) p
          · exact ⟨d, t, .inl ⟨i, p, hp, nq⟩⟩
          · obtain ⟨F, r, hr, sr, _, _⟩ := a'.thread i p hp
            rw [hi] at hr; cases hr
            rw [hh] at hs
            obtain ⟨p', h', hs'⟩ := sr.back nq hs
            obtain ⟨r, r', hr, e, L2, x, y⟩ := easedAll_step a' o' (fresh d t) hp hs' nq
            rw [hi] at hr; cases hr
            rw [hs] at e; cases e
            exact ⟨_, t.tail (.thread (Step.mk d i p p' h' hp hs')), .inr ⟨rfl, L2, x, y⟩⟩

theorem eased_start {pq : List (Client T (Option α) × Client T (Option α))} (same : ∀ x ∈ pq, x.1.Loosens W x.2)
    (h : KHeap T) : EasedAll W ⟨h, pq.map fun x => x.1.prog⟩ (pq.map fun x => x.2.prog) (fun _ => []) := by
  refine ⟨by simp, fun i p hp => ?_⟩
  simp only [List.getElem?_map, Option.map_eq_some_iff] at hp
  obtain ⟨x, hx, rfl⟩ := hp
  refine ⟨none, x.2.prog, by simp [hx], Eased.client (same x (List.mem_of_getElem? hx)), ?_, ?_⟩
  · intro n s e; cases e
  · intro n s e; cases e

/-- what can be seen of the threads is the same, unless one gives up -/
theorem eased_seen {d : Config (NodeImpl T) (Option α)} {us : List (KProg T (Option α))} {Ls : Nat → List NodeId}
    (a : EasedAll W d us Ls) (nq : ¬∃ (i : Nat) (p : KProg T (Option α)), d.threads[i]? = some p ∧ Quits (· = none) p)
    (i : Nat) :
    (∀ r, d.threads[i]? = some (.ret r) ↔ us[i]? = some (.ret r)) ∧
    (∀ m, d.threads[i]? = some (.panic m) ↔ us[i]? = some (.panic m)) ∧
    ∀ n, (∃ k, d.threads[i]? = some (.lock n k)) ↔ ∃ k, us[i]? = some (.lock n k) := by
  cases hp : d.threads[i]? with
  | none =>
    have : us[i]? = none := by
      rw [List.getElem?_eq_none_iff] at hp ⊢; rw [a.len]; exact hp
    simp [this]
  | some p =>
    obtain ⟨F, q, hq, s, _⟩ := a.thread i p hp
    rw [hq]
    cases s with
    | quits x => exact absurd ⟨i, p, hp, x⟩ nq
    | ret e => cases e; simp
    | _ => simp

/-! ### clients that create no node -/

theorem builds_stays {β : Type} (c : Call T β) (b : ¬c.Builds) :
    Stays (fun _ => True) (fun _ => True) (NodeImpl.Links (fun _ => True) (fun _ => True)) (c.Got fun _ => True) c.prog := by
  refine stays_call (fun _ _ => trivial) c ?_
  cases c <;> first
    | exact absurd trivial b
    | exact trivial
    | exact ⟨trivial, trivial⟩
    | exact fun _ _ => trivial
    | exact ⟨fun _ _ => trivial, fun _ _ => trivial⟩

theorem locksExist_of_stays {c : Config (NodeImpl T) α}
    (sp : ∀ p ∈ c.threads, Stays (fun _ => True) (fun _ => True) (NodeImpl.Links (fun _ => True) (fun _ => True))
      (fun _ => True) p) : c.LocksExist := by
  intro d st i s k hk
  have : ∀ p ∈ d.threads, Stays (fun _ => True) (fun _ => True) (NodeImpl.Links (fun _ => True) (fun _ => True))
      (fun _ => True) p := by
    clear hk
    induction st with
    | refl => exact sp
    | tail _ s ih =>
      cases s with
      | free F => exact ih
      | thread s =>
        cases s with
        | mk i p p' h' hi hs =>
          have := (ih p (List.mem_of_getElem? hi)).step
            (fun n _ => ⟨fun _ _ => trivial, fun _ _ => trivial, fun _ _ => trivial, fun _ _ => trivial⟩) hs
          intro q hq
          rcases List.mem_or_eq_of_mem_set hq with hq | rfl
          · exact ih q hq
          · exact this.1
  exact (this _ (List.mem_of_getElem? hk)).elim

theorem locksExist {ps : List (Client T α)} (b : ∀ p ∈ ps, p.Only fun c => ¬c.Builds) (h : KHeap T) :
    Config.LocksExist ⟨h, ps.map Client.prog⟩ := by
  refine locksExist_of_stays fun q hq => ?_
  simp only [List.mem_map] at hq
  obtain ⟨p, hp, rfl⟩ := hq
  have := b p hp
  clear hp
  induction p with
  | done a => trivial
  | call c k ih => exact (builds_stays c this.1).bind fun r _ => ih r (this.2 r)

/-! ### clients that only have handles of nodes that exist -/

private theorem roams_step {p p' : KProg T α} {h h' : KHeap T}
    (rp : ∀ b, h.next ≤ b → Roams p (· < b) fun _ _ => True) (links : ∀ n < h.next, (h.get n).LinksIn (· < h.next))
    (held : ∀ n, h.held n = true → n < h.next) (e : step1 p h = some (p', h')) :
    h.next ≤ h'.next ∧ (∀ b, h'.next ≤ b → Roams p' (· < b) fun _ _ => True) ∧
      (∀ n < h'.next, (h'.get n).LinksIn (· < h'.next)) ∧ ∀ n, h'.held n = true → n < h'.next := by
  cases p with
  | ret a => cases e
  | panic m => cases e
  | diverge => cases e; exact ⟨Nat.le_refl _, rp, links, held⟩
  | lock n k =>
    simp only [step1] at e
    split at e
    · cases e
    · cases e
      refine ⟨Nat.le_refl _, fun b hb => (rp b hb).2, links, fun m hm => ?_⟩
      have hn : n < h.next := (rp _ (Nat.le_refl _)).1
      simp only [Heap.held_setHeld] at hm
      split at hm
      · rename_i em; rw [em]; exact hn
      · exact held m hm
  | unlock n k =>
    cases e
    refine ⟨Nat.le_refl _, fun b hb => (rp b hb).2, links, fun m hm => ?_⟩
    simp only [Heap.held_setHeld] at hm
    split at hm
    · cases hm
    · exact held m hm
  | read n k =>
    cases e
    have hn : n < h.next := (rp _ (Nat.le_refl _)).1
    exact ⟨Nat.le_refl _, fun b hb => (rp b hb).2 _ ((links n hn).grow fun m hm => Nat.lt_of_lt_of_le hm hb), links, held⟩
  | write n f k =>
    cases e
    refine ⟨Nat.le_refl _, fun b hb => (rp b hb).2.2, fun m hm => ?_, held⟩
    simp only [Heap.get_modify]
    split
    · exact (rp _ (Nat.le_refl _)).2.1 _ (links m hm)
    · exact links m hm
  | upgrade n k => cases e; exact ⟨Nat.le_refl _, fun b hb => (rp b hb).2 _, links, held⟩
  | alloc s k =>
    cases e
    refine ⟨Nat.le_succ _, fun b hb => ?_, fun m hm => ?_, fun m hm => Nat.lt_succ_of_lt (held m hm)⟩
    · have hb' : h.next + 1 ≤ b := hb
      have := (rp b (by omega)).2 h.next
      rwa [show (fun n => n < b ∨ n = h.next) = (· < b) from
        funext fun n => propext ⟨fun x => by omega, fun x => .inl x⟩] at this
    · have hm' : m < h.next + 1 := hm
      have up : ∀ {x : NodeImpl T}, x.LinksIn (· < h.next) → x.LinksIn (· < (h.push s).next) := fun l =>
        l.grow fun _ hn => Nat.lt_succ_of_lt hn
      simp only [Heap.push]
      split
      · exact up (rp _ (Nat.le_refl _)).1
      · exact up (links m (by omega))

theorem locksExist_owns {ps : List (Client T α)} {h : KHeap T} (u : h.Unlocked)
    (links : ∀ n < h.next, (h.get n).LinksIn (· < h.next)) (own : ∀ p ∈ ps, p.Owns (· < h.next)) :
    Config.LocksExist ⟨h, ps.map Client.prog⟩ := by
  intro d st i s k hk
  clear hk
  suffices (∀ p ∈ d.threads, ∀ b, d.heap.next ≤ b → Roams p (· < b) fun _ _ => True) ∧
      (∀ n < d.heap.next, (d.heap.get n).LinksIn (· < d.heap.next)) ∧
      ∀ n, d.heap.held n = true → n < d.heap.next by
    cases e : d.heap.held d.heap.next with
    | false => rfl
    | true => exact absurd (this.2.2 _ e) (Nat.lt_irrefl _)
  induction st with
  | refl =>
    refine ⟨fun q hq b hb => ?_, links, fun n hn => ?_⟩
    · simp only [List.mem_map] at hq
      obtain ⟨p, hp, rfl⟩ := hq
      exact roams_client p fun R' i => own p hp R' fun n hn => i n (Nat.lt_of_lt_of_le hn hb)
    · rw [u n] at hn; cases hn
  | tail _ s ih =>
    obtain ⟨ip, il, ih⟩ := ih
    cases s with
    | free F => exact ⟨ip, il, ih⟩
    | thread s =>
      cases s with
      | mk i p p' h' hi hs =>
        obtain ⟨le, a, b, c⟩ := roams_step (ip p (List.mem_of_getElem? hi)) il ih hs
        refine ⟨fun q hq => ?_, b, c⟩
        rcases List.mem_or_eq_of_mem_set hq with hq | rfl
        · exact fun b hb => ip q hq b (Nat.le_trans le hb)
        · exact a

end K
