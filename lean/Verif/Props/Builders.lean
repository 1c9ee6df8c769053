import Verif.Lemmas.Builders
import Verif.Props.Region
import Mathlib.Algebra.BigOperators.Group.Finset.Piecewise
import Mathlib.Algebra.Order.BigOperators.Group.Finset
/-!
# C102: threads that build robots of their own do not influence each other

Every thread may create nodes, connect and copy them.  Which objects it gets depends on the schedule; nothing else does.
-/

set_option linter.unusedSectionVars false

namespace K
open Prog
variable {T α : Type} [Scalar T]

/-! ## one thread -/

section OwnStep
variable {ρ : Equiv.Perm NodeId} {D : NodeId → Prop} {Q : (NodeId → Prop) → α → Prop}

/-- A step of a renamed program is the renamed step. -/
private theorem own_step {q p' : KProg T α} {hs g g' : KHeap T}
    (like : Like ρ (fun n => D (ρ n)) hs g) (roam : Roams (q.rename ρ) D Q)
    (links : ∀ n, D n → (g.get n).LinksIn D) (below : ∀ n, D n → n < g.next) (sbelow : ∀ n, D (ρ n) → n < hs.next)
    (idle : ∀ n, g.next ≤ n → g.held n = false) (sidle : ∀ n, hs.next ≤ n → hs.held n = false)
    (name : g'.next ≠ g.next → ρ hs.next = g.next)
    (e : step1 (q.rename ρ) g = some (p', g')) :
    ∃ q' hs' D', step1 q hs = some (q', hs') ∧ p' = q'.rename ρ ∧ Roams p' D' Q ∧
      Like ρ (fun n => D' (ρ n)) hs' g' ∧ (∀ n, D' n → (g'.get n).LinksIn D') ∧
      (∀ n, g'.next ≤ n → g'.held n = false) ∧ (∀ n, hs'.next ≤ n → hs'.held n = false) ∧
      (∀ n, ¬ D' n → g'.get n = g.get n ∧ g'.held n = g.held n ∧ g'.dead n = g.dead n) ∧
      ((g'.next = g.next ∧ hs'.next = hs.next ∧ D' = D) ∨
        (g'.next = g.next + 1 ∧ hs'.next = hs.next + 1 ∧ D' = fun n => D n ∨ n = g.next)) := by
  cases q with
  | ret a => cases e
  | panic m => cases e
  | diverge =>
    cases e
    exact ⟨.diverge, hs, D, rfl, rfl, trivial, like, links, idle, sidle, fun _ _ => ⟨rfl, rfl, rfl⟩, .inl ⟨rfl, rfl, rfl⟩⟩
  | lock n k =>
    obtain ⟨hn, hk⟩ := roam
    simp only [Prog.rename, step1] at e
    split at e
    · cases e
    · rename_i free
      cases e
      have sf : hs.held n = false := by
        have := like.held n hn
        simp only [Bool.not_eq_true] at free
        rw [← this, free]
      refine ⟨k, hs.setHeld n true, D, by simp [step1, sf], rfl, hk, ⟨like.get, fun m hm => ?_, like.dead⟩, links,
        fun m hm => ?_, fun m hm => ?_, fun m hm => ⟨rfl, ?_, rfl⟩, .inl ⟨rfl, rfl, rfl⟩⟩
      · simp only [Heap.held_setHeld, ρ.injective.eq_iff, like.held m hm]
      · have := below _ hn
        simp only [Heap.held_setHeld]
        rw [if_neg (by rintro rfl; exact absurd (show g.next ≤ ρ n from hm) (by omega))]
        exact idle m hm
      · have := sbelow _ hn
        simp only [Heap.held_setHeld]
        rw [if_neg (by rintro rfl; exact absurd (show hs.next ≤ m from hm) (by omega))]
        exact sidle m hm
      · simp only [Heap.held_setHeld]
        rw [if_neg (by rintro rfl; exact hm hn)]
  | unlock n k =>
    obtain ⟨hn, hk⟩ := roam
    cases e
    refine ⟨k, hs.setHeld n false, D, rfl, rfl, hk, ⟨like.get, fun m hm => ?_, like.dead⟩, links,
      fun m hm => ?_, fun m hm => ?_, fun m hm => ⟨rfl, ?_, rfl⟩, .inl ⟨rfl, rfl, rfl⟩⟩
    · simp only [Heap.held_setHeld, ρ.injective.eq_iff, like.held m hm]
    · simp only [Heap.held_setHeld]
      split
      · rfl
      · exact idle m hm
    · simp only [Heap.held_setHeld]
      split
      · rfl
      · exact sidle m hm
    · simp only [Heap.held_setHeld]
      rw [if_neg (by rintro rfl; exact hm hn)]
  | read n k =>
    obtain ⟨hn, hk⟩ := roam
    cases e
    refine ⟨k (hs.get n), hs, D, rfl, ?_, hk _ (links _ hn), like, links, idle, sidle, fun _ _ => ⟨rfl, rfl, rfl⟩,
      .inl ⟨rfl, rfl, rfl⟩⟩
    rw [like.get n hn]
    show Prog.rename ρ (k (NodeImpl.rename ρ.symm (NodeImpl.rename ρ (hs.get n)))) = _
    rw [NodeImpl.rename_symm]
  | write n f k =>
    obtain ⟨hn, hf, hk⟩ := roam
    cases e
    refine ⟨k, hs.modify n f, D, rfl, rfl, hk, ⟨fun m hm => ?_, like.held, like.dead⟩, fun m hm => ?_, idle, sidle,
      fun m hm => ⟨?_, rfl, rfl⟩, .inl ⟨rfl, rfl, rfl⟩⟩
    · simp only [Heap.get_modify, ρ.injective.eq_iff, like.get m hm]
      split
      · rw [NodeImpl.rename_symm]
      · rfl
    · simp only [Heap.get_modify]
      split
      · exact hf _ (links m hm)
      · exact links m hm
    · simp only [Heap.get_modify]
      rw [if_neg (by rintro rfl; exact hm hn)]
  | upgrade n k =>
    obtain ⟨hn, hk⟩ := roam
    cases e
    refine ⟨k (!hs.dead n), hs, D, rfl, ?_, hk _, like, links, idle, sidle, fun _ _ => ⟨rfl, rfl, rfl⟩,
      .inl ⟨rfl, rfl, rfl⟩⟩
    rw [like.dead n hn]
  | alloc s k =>
    obtain ⟨hs', hk⟩ := roam
    cases e
    have nm : ρ hs.next = g.next := name (by show g.next + 1 ≠ g.next; omega)
    have nm' : ρ.symm g.next = hs.next := by rw [← nm]; simp
    have ne : ∀ n, D n → n ≠ g.next := fun n hn => by have := below n hn; omega
    have sne : ∀ n, D (ρ n) → n ≠ hs.next := fun n hn => by have := sbelow n hn; omega
    have iff : ∀ n, ρ n = g.next ↔ n = hs.next := fun n => by rw [← nm]; exact ρ.injective.eq_iff
    refine ⟨k hs.next, hs.push s, fun n => D n ∨ n = g.next, rfl, ?_, hk g.next, ⟨fun m hm => ?_, fun m hm => ?_, fun m hm => ?_⟩,
      fun m hm => ?_, fun m hm => idle m ?_, fun m hm => sidle m ?_, fun m hm => ⟨?_, rfl, ?_⟩, .inr ⟨rfl, rfl, rfl⟩⟩
    · show Prog.rename ρ (k (ρ.symm g.next)) = _
      rw [nm']
    · simp only [Heap.push, iff]
      split
      · rfl
      · rename_i x
        exact like.get m (hm.resolve_right fun y => x ((iff m).1 y))
    · simp only [Heap.push]
      rcases hm with hm | hm
      · exact like.held m hm
      · rw [hm, (iff m).1 hm, idle _ (Nat.le_refl _), sidle _ (Nat.le_refl _)]
    · simp only [Heap.push, iff]
      split
      · rfl
      · rename_i x
        exact like.dead m (hm.resolve_right fun y => x ((iff m).1 y))
    · simp only [Heap.push]
      split
      · exact hs'.grow fun n hn => .inl hn
      · rename_i x
        exact (links m (hm.resolve_right x)).grow fun n hn => .inl hn
    · have : g.next + 1 ≤ m := hm
      omega
    · have : hs.next + 1 ≤ m := hm
      omega
    · simp only [Heap.push]
      rw [if_neg fun x => hm (.inr x)]
    · simp only [Heap.push]
      rw [if_neg fun x => hm (.inr x)]

end OwnStep

/-! ## all threads -/

/-- the nodes of thread `i`: those it has been given and those it has created -/
def ownNodes (R : Nat → NodeId → Prop) (L : Nat → List NodeId) (i : Nat) (n : NodeId) : Prop := R i n ∨ n ∈ L i

private theorem builders_inv {R : Nat → NodeId → Prop} {c d : Config (NodeImpl T) α} {L F : Nat → List NodeId}
    {N : Nat → Nat} {ρ : Nat → Equiv.Perm NodeId} (l : Logged c d L N) (sep : Separate R c.heap)
    (low : ∀ i n, R i n → n < c.heap.next) (idle : ∀ n, c.heap.next ≤ n → c.heap.held n = false)
    (roam : ∀ i p, c.threads[i]? = some p → Roams p (R i) fun _ _ => True)
    (fix : ∀ i n, n < c.heap.next → ρ i n = n)
    (same : ∀ i (p : KProg T α), c.threads[i]? = some p → p.rename (ρ i) = p)
    (pre : ∀ i, L i <+: F i) (name : ∀ i j m, (F i)[j]? = some m → ρ i (c.heap.next + j) = m) :
    (∀ i p', d.threads[i]? = some p' → ∃ p q hs, c.threads[i]? = some p ∧ afterSteps (N i) p c.heap = some (q, hs) ∧
        p' = q.rename (ρ i) ∧ hs.next = c.heap.next + (L i).length ∧
        Like (ρ i) (fun n => ownNodes R L i (ρ i n)) hs d.heap ∧ (∀ n, hs.next ≤ n → hs.held n = false) ∧
        Roams p' (ownNodes R L i) fun _ _ => True) ∧
      (∀ i n, ownNodes R L i n → (d.heap.get n).LinksIn (ownNodes R L i)) ∧
      (∀ n, d.heap.next ≤ n → d.heap.held n = false) ∧ d.threads.length = c.threads.length := by
  induction l with
  | refl =>
    have fix' : ∀ i n, R i (ρ i n) → ρ i n = n := fun i n hn => (ρ i).injective (fix i _ (low i _ hn))
    have own : ∀ i, ownNodes R (fun _ => []) i = R i := fun i => by funext n; simp [ownNodes]
    refine ⟨fun i p' e => ⟨p', p', c.heap, e, rfl, (same i p' e).symm, rfl, ?_, idle, ?_⟩, fun i n hn => ?_, idle, rfl⟩
    · rw [own]
      refine ⟨fun n hn => ?_, fun n hn => by rw [fix' i n hn], fun n hn => by rw [fix' i n hn]⟩
      have hn' : R i n := by have := hn; rwa [fix' i n hn] at this
      obtain ⟨a, b, x, y⟩ := sep.closed i n hn'
      have fm : ∀ k, R i k → ρ i k = k := fun k hk => fix i k (low i k hk)
      have m1 : ∀ o : Option NodeId, (∀ k, o = some k → R i k) → o.map (ρ i) = o := by
        intro o ho
        cases o with
        | none => rfl
        | some k => rw [Option.map_some, fm k (ho k rfl)]
      have m2 : ∀ o : List NodeId, (∀ k ∈ o, R i k) → o.map (ρ i) = o := by
        intro o ho
        calc o.map (ρ i) = o.map id := List.map_congr_left fun k hk => fm k (ho k hk)
          _ = o := List.map_id o
      rw [fix' i n hn]
      unfold NodeImpl.rename
      rw [m1 _ a, m2 _ b, m1 _ x, m2 _ y]
    · rw [own]; exact roam i p' e
    · rw [own] at hn ⊢; exact sep.closed i n hn
  | @step d L N j q0 q0' h' l hj hs ih =>
    have pre0 : ∀ i, L i <+: F i := fun i => by
      refine List.IsPrefix.trans ?_ (pre i)
      show L i <+: if i = j ∧ h'.next ≠ d.heap.next then L i ++ [d.heap.next] else L i
      split
      · exact List.prefix_append _ _
      · exact List.prefix_rfl
    obtain ⟨th, lk, id, len⟩ := ih pre0
    obtain ⟨le, nd, rg, dj⟩ := l.facts
    have dis : ∀ i k n, i ≠ k → ownNodes R L i n → ¬ ownNodes R L k n := by
      rintro i k n ik (a | a) (b | b)
      · exact sep.disjoint i k n ik a b
      · have := low i n a; have := rg k n b; omega
      · have := low k n b; have := rg i n a; omega
      · exact dj i k n ik a b
    have below : ∀ i n, ownNodes R L i n → n < d.heap.next := by
      rintro i n (a | a)
      · have := low i n a; omega
      · exact (rg i n a).2
    obtain ⟨p, q, hs0, ep, er, rfl, nx, like, sid, rm⟩ := th j q0 hj
    have sbelow : ∀ n, ownNodes R L j (ρ j n) → n < hs0.next := by
      rintro n (a | a)
      · have : ρ j n = n := (ρ j).injective (fix j _ (low j _ a))
        rw [this] at a
        have := low j n a
        omega
      · obtain ⟨k, hk⟩ := List.getElem?_of_mem a
        have kl := (List.getElem?_eq_some_iff.1 hk).1
        have : (F j)[k]? = some (ρ j n) := by
          obtain ⟨t, ht⟩ := pre0 j
          rw [← ht, List.getElem?_append_left kl, hk]
        have := (ρ j).injective (name j k _ this)
        omega
    have nm : h'.next ≠ d.heap.next → ρ j hs0.next = d.heap.next := by
      intro ne
      have := pre j
      simp only [true_and, ne_eq, ne, not_false_eq_true, if_true] at this
      obtain ⟨t, ht⟩ := this
      rw [nx]
      refine name j (L j).length _ ?_
      rw [← ht, List.append_assoc, List.getElem?_append_right (Nat.le_refl _)]
      simp
    obtain ⟨q', hs1, D', es, eq', rm', like', lk', id', sid', fr, kind⟩ :=
      own_step like rm (lk j) (below j) sbelow id sid nm hs
    have Dj : ownNodes R (fun k => if k = j ∧ h'.next ≠ d.heap.next then L k ++ [d.heap.next] else L k) j = D' := by
      rcases kind with ⟨a, -, rfl⟩ | ⟨a, -, rfl⟩
      · funext n; simp only [ownNodes, a, ne_eq, not_true, and_false, if_false]
      · have : h'.next ≠ d.heap.next := by omega
        funext n; simp [ownNodes, this, or_assoc]
    have Di : ∀ i, i ≠ j → ownNodes R (fun k => if k = j ∧ h'.next ≠ d.heap.next then L k ++ [d.heap.next] else L k) i =
        ownNodes R L i := fun i ij => by funext n; simp [ownNodes, ij]
    have other : ∀ i, i ≠ j → ∀ n, ownNodes R L i n → ¬ D' n := by
      intro i ij n hn
      rcases kind with ⟨-, -, rfl⟩ | ⟨-, -, rfl⟩
      · exact dis i j n ij hn
      · rintro (x | x)
        · exact dis i j n ij hn x
        · have := below i n hn; omega
    refine ⟨fun i p' e => ?_, fun i n hn => ?_, id', by simpa using len⟩
    · by_cases ij : i = j
      · subst ij
        have lt : i < d.threads.length := (List.getElem?_eq_some_iff.1 hj).1
        simp only [List.getElem?_set_self lt, Option.some.injEq] at e
        subst e
        refine ⟨p, q', hs1, ep, by simp only [if_true, afterSteps, er, Option.bind_some, es], eq', ?_, ?_, sid', ?_⟩
        · rcases kind with ⟨a, b, -⟩ | ⟨a, b, -⟩
          · simp only [a, ne_eq, not_true, and_false, if_false]; rw [b, nx]
          · have ne : h'.next ≠ d.heap.next := by omega
            simp only [true_and, ne_eq, ne, not_false_eq_true, if_true, List.length_append, List.length_singleton]
            rw [b, nx]; omega
        · rw [Dj]; exact like'
        · rw [Dj]; exact rm'
      · rw [List.getElem?_set_ne (Ne.symm ij)] at e
        obtain ⟨p2, q2, hs2, a1, a2, a3, a4, a5, a6, a7⟩ := th i p' e
        refine ⟨p2, q2, hs2, a1, by simp only [ij, if_false]; exact a2, a3, ?_, ?_, a6, ?_⟩
        · simp only [ij, false_and, if_false]; exact a4
        · rw [Di i ij]
          exact ⟨fun n hn => by rw [(fr _ (other i ij _ hn)).1]; exact a5.get n hn,
            fun n hn => by rw [(fr _ (other i ij _ hn)).2.1]; exact a5.held n hn,
            fun n hn => by rw [(fr _ (other i ij _ hn)).2.2]; exact a5.dead n hn⟩
        · rw [Di i ij]; exact a7
    · by_cases ij : i = j
      · subst ij
        rw [Dj] at hn ⊢
        exact lk' n hn
      · rw [Di i ij] at hn ⊢
        rw [(fr _ (other i ij _ hn)).1]
        exact lk i n hn

/-! ## C102 -/

variable {R : Nat → NodeId → Prop} {h : KHeap T} {cs : List (Client T α)}

/-- Threads that each have nodes of their own and create further ones: the nodes they start with are separate and
exist, no mutex is locked that does not exist yet, each client uses its own handles only and looks at no handle
otherwise than by using it and comparing it. -/
structure Builders (R : Nat → NodeId → Prop) (h : KHeap T) (cs : List (Client T α)) : Prop where
  separate : Separate R h
  exist : ∀ i n, R i n → n < h.next
  idle : ∀ n, h.next ≤ n → h.held n = false
  owns : ∀ (i : Nat) (c : Client T α), cs[i]? = some c → c.Owns (R i)
  nameless : ∀ (i : Nat) (c : Client T α), cs[i]? = some c → c.Nameless h.next

private theorem builders_logged (b : Builders R h cs) {d : Config (NodeImpl T) α} {L : Nat → List NodeId} {N : Nat → Nat}
    (l : Logged (Config.ofClients h cs) d L N) :
    (∀ i p', d.threads[i]? = some p' → ∃ (c : Client T α) (q : KProg T α) (g : KHeap T) (ρ : Equiv.Perm NodeId)
        (D : NodeId → Prop), cs[i]? = some c ∧
        afterSteps (N i) c.prog h = some (q, g) ∧ p' = q.rename ρ ∧ (∀ n, n < h.next → ρ n = n) ∧
        Like ρ (fun n => D (ρ n)) g d.heap ∧ Roams p' D (fun _ _ => True) ∧
        (∀ n, R i n ∨ h.next ≤ n ∧ n < g.next → D (ρ n)) ∧ h.next ≤ g.next ∧
        (∀ n, n < g.next → h.next ≤ n → h.next ≤ ρ n ∧ ρ n < d.heap.next) ∧ D = ownNodes R L i) ∧
      d.threads.length = cs.length := by
  obtain ⟨le, nd, rg, dj⟩ := l.facts
  have ex : ∀ i, ∃ ρ : Equiv.Perm NodeId, (∀ n, n < h.next → ρ n = n) ∧
      ∀ j m, (L i)[j]? = some m → ρ (h.next + j) = m := fun i =>
    exists_naming h.next (L i) (nd i) fun m hm => (rg i m hm).1
  choose ρ fix name using ex
  have thread : ∀ (i : Nat) (p : KProg T α), (Config.ofClients h cs).threads[i]? = some p → ∃ c : Client T α, cs[i]? = some c ∧ p = c.prog := by
    intro i p e
    simp only [Config.ofClients, List.getElem?_map, Option.map_eq_some_iff] at e
    obtain ⟨c, ec, rfl⟩ := e
    exact ⟨c, ec, rfl⟩
  obtain ⟨th, -, -, len⟩ := builders_inv (R := R) (F := L) (ρ := ρ) l b.separate b.exist b.idle
    (fun i p e => by
      obtain ⟨c, ec, rfl⟩ := thread i p e
      exact roams_client c (b.owns i c ec))
    fix
    (fun i p e => by
      obtain ⟨c, ec, rfl⟩ := thread i p e
      rw [← Client.prog_rename, b.nameless i c ec (ρ i) (fix i)])
    (fun _ => List.prefix_rfl) name
  refine ⟨fun i p' e => ?_, by simpa [Config.ofClients] using len⟩
  obtain ⟨p, q, g, a1, a2, a3, a4, a5, -, a7⟩ := th i p' e
  obtain ⟨c, ec, rfl⟩ := thread i p a1
  have at_ : ∀ n, h.next ≤ n → n < g.next → ρ i n ∈ L i := by
    intro n h1 h2
    have a4' : g.next = h.next + (L i).length := a4
    have lt : n - h.next < (L i).length := by omega
    have := name i (n - h.next) _ (List.getElem?_eq_getElem lt)
    rw [show h.next + (n - h.next) = n by omega] at this
    rw [this]
    exact List.getElem_mem lt
  refine ⟨c, q, g, ρ i, ownNodes R L i, ec, a2, a3, fix i, a5, a7, ?_, ?_, ?_, rfl⟩
  · rintro n (x | ⟨x, y⟩)
    · rw [fix i n (b.exist i n x)]; exact .inl x
    · exact .inr (at_ n x y)
  · have a4' : g.next = h.next + (L i).length := a4
    omega
  · intro n h1 h2
    exact rg i _ (at_ n h2 h1)

private theorem builders (b : Builders R h cs) {d : Config (NodeImpl T) α} (st : Steps (Config.ofClients h cs) d) :
    (∀ i p', d.threads[i]? = some p' → ∃ (c : Client T α) (q : KProg T α) (g : KHeap T) (ρ : Equiv.Perm NodeId)
        (D : NodeId → Prop), cs[i]? = some c ∧
        run c.prog h = run q g ∧ p' = q.rename ρ ∧ (∀ n, n < h.next → ρ n = n) ∧
        Like ρ (fun n => D (ρ n)) g d.heap ∧ Roams p' D (fun _ _ => True) ∧
        (∀ n, R i n ∨ h.next ≤ n ∧ n < g.next → D (ρ n)) ∧ h.next ≤ g.next ∧
        ∀ n, n < g.next → h.next ≤ n → h.next ≤ ρ n ∧ ρ n < d.heap.next) ∧
      d.threads.length = cs.length := by
  obtain ⟨L, N, l⟩ := exists_logged st
  obtain ⟨th, len⟩ := builders_logged b l
  refine ⟨fun i p' e => ?_, len⟩
  obtain ⟨c, q, g, ρ, D, ec, er, a1, a2, a3, a4, a5, a6, a7, -⟩ := th i p' e
  exact ⟨c, q, g, ρ, D, ec, afterSteps_run er, a1, a2, a3, a4, a5, a6, a7⟩

/-- **C102.** A thread that has finished has the result that it has when it runs alone, and the nodes it was given and
those it has created are as they are then - the latter are other objects (`ρ`). -/
theorem C102_result (b : Builders R h cs) {d : Config (NodeImpl T) α} (st : Steps (Config.ofClients h cs) d) (i : Nat)
    (c : Client T α) (hc : cs[i]? = some c) (a : α) (e : d.threads[i]? = some (.ret a)) :
    ∃ g, ∃ ρ : Equiv.Perm NodeId, run c.prog h = .ok a g ∧ (∀ n, n < h.next → ρ n = n) ∧
      (∀ n, n < g.next → h.next ≤ n → h.next ≤ ρ n ∧ ρ n < d.heap.next) ∧
      Like ρ (fun n => R i n ∨ h.next ≤ n ∧ n < g.next) g d.heap := by
  obtain ⟨c', q, g, ρ, D, ec, er, eq, fix, like, -, own, -, rg⟩ := (builders b st).1 i _ e
  obtain rfl : c' = c := by rw [hc] at ec; exact (Option.some.inj ec).symm
  cases q <;> try cases eq
  exact ⟨g, ρ, er, fix, rg, fun n hn => like.get n (own n hn), fun n hn => like.held n (own n hn),
    fun n hn => like.dead n (own n hn)⟩

/-- **C102.** A thread that has panicked panics with the same message when it runs alone. -/
theorem C102_panic (b : Builders R h cs) {d : Config (NodeImpl T) α} (st : Steps (Config.ofClients h cs) d) (i : Nat)
    (c : Client T α) (hc : cs[i]? = some c) (m : String) (e : d.threads[i]? = some (.panic m)) :
    ∃ g, run c.prog h = .panic m g := by
  obtain ⟨c', q, g, ρ, D, ec, er, eq, -⟩ := (builders b st).1 i _ e
  obtain rfl : c' = c := by rw [hc] at ec; exact (Option.some.inj ec).symm
  cases q <;> try cases eq
  exact ⟨g, er⟩

/-- **C102.** A thread that returns alone has at every moment finished or can make its next step: it never waits for
another thread. -/
theorem C102_progress (b : Builders R h cs) {d : Config (NodeImpl T) α} (st : Steps (Config.ofClients h cs) d) (i : Nat)
    (c : Client T α) (hc : cs[i]? = some c) (a : α) (g : KHeap T) (e : run c.prog h = .ok a g) :
    d.threads[i]? = some (.ret a) ∨
      ∃ p p' h', d.threads[i]? = some p ∧ step1 p d.heap = some (p', h') := by
  obtain ⟨th, len⟩ := builders b st
  have lt : i < d.threads.length := by rw [len]; exact (List.getElem?_eq_some_iff.1 hc).1
  obtain ⟨c', q, g', ρ, D, ec, er, eq, -, like, rm, -⟩ := th i _ (List.getElem?_eq_getElem lt)
  obtain rfl : c' = c := by rw [hc] at ec; exact (Option.some.inj ec).symm
  rw [e] at er
  rw [List.getElem?_eq_getElem lt, eq]
  rw [eq] at rm
  cases q with
  | ret x => simp only [run, Res.ok.injEq] at er; exact .inl (by rw [er.1]; rfl)
  | panic m => cases er
  | diverge => cases er
  | lock n k =>
    refine .inr ⟨_, k.rename ρ, d.heap.setHeld (ρ n) true, rfl, ?_⟩
    have hn : D (ρ n) := rm.1
    simp only [run] at er
    split at er
    · cases er
    · rename_i x
      simp only [Prog.rename, step1, like.held n hn, x]
      rfl
  | unlock n k => exact .inr ⟨_, _, _, rfl, rfl⟩
  | read n k => exact .inr ⟨_, _, _, rfl, rfl⟩
  | write n f k => exact .inr ⟨_, _, _, rfl, rfl⟩
  | upgrade n k => exact .inr ⟨_, _, _, rfl, rfl⟩
  | alloc s k => exact .inr ⟨_, _, _, rfl, rfl⟩

/-- **C102.** The results do not depend on the schedule: two executions in which a thread has finished have given it
the same result. -/
theorem C102_deterministic (b : Builders R h cs) {d e : Config (NodeImpl T) α} (sd : Steps (Config.ofClients h cs) d)
    (se : Steps (Config.ofClients h cs) e) (i : Nat) (x y : α) (hx : d.threads[i]? = some (.ret x))
    (hy : e.threads[i]? = some (.ret y)) : x = y := by
  obtain ⟨c, -, -, -, -, ec, -⟩ := (builders b sd).1 i _ hx
  obtain ⟨g, -, e1, -⟩ := C102_result b sd i c ec x hx
  obtain ⟨g', -, e2, -⟩ := C102_result b se i c ec y hy
  rw [e1] at e2
  cases e2; rfl

/-- **C102.** If every thread returns alone, then every execution can be completed, with the results they have alone. -/
theorem C102_finish (b : Builders R h cs) (as : Nat → α)
    (al : ∀ i (c : Client T α), cs[i]? = some c → ∃ g, run c.prog h = .ok (as i) g)
    {d : Config (NodeImpl T) α} (st : Steps (Config.ofClients h cs) d) :
    ∃ e, Steps d e ∧ ∀ i < cs.length, e.threads[i]? = some (.ret (as i)) := by
  suffices ∀ k ≤ cs.length, ∃ e, Steps d e ∧ ∀ i < k, e.threads[i]? = some (.ret (as i)) from
    this _ le_rfl
  intro k
  induction k with
  | zero => exact fun _ => ⟨d, .refl _, fun i lt => absurd lt (Nat.not_lt_zero i)⟩
  | succ k ih =>
    intro le
    obtain ⟨e, se, done⟩ := ih (by omega)
    have lt : k < cs.length := by omega
    obtain ⟨g, eg⟩ := al k _ (List.getElem?_eq_getElem lt)
    obtain ⟨M, hM⟩ := exists_afterSteps eg
    obtain ⟨L, N, l⟩ := exists_logged (st.trans se)
    suffices ∀ r (e : Config (NodeImpl T) α) (L : Nat → List NodeId) (N : Nat → Nat),
        Logged (Config.ofClients h cs) e L N → N k + r = M → Steps d e → (∀ i < k, e.threads[i]? = some (.ret (as i))) →
        ∃ e', Steps d e' ∧ ∀ i < k + 1, e'.threads[i]? = some (.ret (as i)) by
      obtain ⟨th, len⟩ := builders_logged b l
      have lt' : k < e.threads.length := by omega
      obtain ⟨c, q, g', ρ, D, ec, er, -⟩ := th k _ (List.getElem?_eq_getElem lt')
      obtain rfl : c = cs[k] := by rw [List.getElem?_eq_getElem lt] at ec; exact (Option.some.inj ec).symm
      have ml := (afterSteps_le hM er).1
      exact this (M - N k) e L N l (by omega) se done
    intro r
    induction r with
    | zero =>
      intro e L N l hr se done
      obtain ⟨th, len⟩ := builders_logged b l
      have lt' : k < e.threads.length := by omega
      obtain ⟨c, q, g', ρ, D, ec, er, eq, -⟩ := th k _ (List.getElem?_eq_getElem lt')
      obtain rfl : c = cs[k] := by rw [List.getElem?_eq_getElem lt] at ec; exact (Option.some.inj ec).symm
      have fin := (afterSteps_le hM er).2 (by omega)
      refine ⟨e, se, fun i hi => ?_⟩
      by_cases ik : i = k
      · subst ik; rw [List.getElem?_eq_getElem lt', eq, fin]; rfl
      · exact done i (by omega)
    | succ r ih =>
      intro e L N l hr se done
      have ne : e.threads[k]? ≠ some (.ret (as k)) := by
        intro x
        obtain ⟨th, -⟩ := builders_logged b l
        obtain ⟨c, q, g', ρ, D, ec, er, eq, -⟩ := th k _ x
        obtain rfl : c = cs[k] := by rw [List.getElem?_eq_getElem lt] at ec; exact (Option.some.inj ec).symm
        cases q <;> try cases eq
        have z : afterSteps (N k + (r + 1)) cs[k].prog h = afterSteps (r + 1) (.ret (as k)) g' := by
          rw [afterSteps_add, er]; rfl
        rw [hr, hM] at z
        have := (afterSteps_le (n := 0) (p := (.ret (as k) : KProg T α)) rfl z.symm).1
        omega
      rcases C102_progress b l.steps k _ (List.getElem?_eq_getElem lt) _ _ eg with x | ⟨p, p', h', hp, hs⟩
      · exact absurd x ne
      · refine ih _ _ _ (l.step hp hs) (by simp; omega) (.tail se (.mk _ _ _ _ _ hp hs)) fun i hi => ?_
        show (e.threads.set k p')[i]? = _
        rw [List.getElem?_set_ne (by omega)]
        exact done i hi

/-- **C102.** If every thread returns alone, no execution goes on for ever. -/
theorem C102_ends (b : Builders R h cs)
    (al : ∀ (i : Nat) (c : Client T α), cs[i]? = some c → ∃ a g, run c.prog h = .ok a g) :
    ∃ N, ∀ (f : Nat → Config (NodeImpl T) α) (k : Nat), f 0 = Config.ofClients h cs →
      (∀ j < k, Step (f j) (f (j + 1))) → k ≤ N := by
  have bound : ∀ i : Nat, ∃ M, ∀ c : Client T α, cs[i]? = some c → ∃ a g, afterSteps M c.prog h = some (.ret a, g) := by
    intro i
    cases e : cs[i]? with
    | none => exact ⟨0, fun c hc => by cases hc⟩
    | some c =>
      obtain ⟨a, g, er⟩ := al i c e
      obtain ⟨M, hM⟩ := exists_afterSteps er
      exact ⟨M, fun c' hc => by cases hc; exact ⟨a, g, hM⟩⟩
  choose M hM using bound
  refine ⟨∑ i ∈ Finset.range cs.length, M i, fun f k f0 st => ?_⟩
  have key : ∃ L N, Logged (Config.ofClients h cs) (f k) L N ∧ ∑ i ∈ Finset.range cs.length, N i = k := by
    induction k with
    | zero => exact ⟨fun _ => [], fun _ => 0, by rw [f0]; exact Logged.refl, by simp⟩
    | succ k ih =>
      obtain ⟨L, N, l, sum⟩ := ih fun j hj => st j (by omega)
      have s := st k (by omega)
      generalize f k = x at l s
      generalize f (k + 1) = y at s
      cases s with
      | mk i p p' h' hi hs =>
        refine ⟨_, _, l.step hi hs, ?_⟩
        have lt : i < cs.length := by
          have := (builders_logged b l).2
          have := (List.getElem?_eq_some_iff.1 hi).1
          omega
        have : ∀ j, (if j = i then N j + 1 else N j) = N j + if j = i then 1 else 0 := fun j => by split <;> rfl
        simp only [this, Finset.sum_add_distrib, sum, Finset.sum_ite_eq', Finset.mem_range, lt, if_true]
  obtain ⟨L, N, l, sum⟩ := key
  rw [← sum]
  refine Finset.sum_le_sum fun i hi => ?_
  have lt := Finset.mem_range.1 hi
  obtain ⟨th, len⟩ := builders_logged b l
  have lt' : i < (f k).threads.length := by omega
  obtain ⟨c, q, g', ρ, D, ec, er, -⟩ := th i _ (List.getElem?_eq_getElem lt')
  obtain ⟨a, g, e⟩ := hM i c ec
  exact (afterSteps_le e er).1

/-! ### panics -/

private theorem ownNodes_disjoint (b : Builders R h cs) {d : Config (NodeImpl T) α} {L : Nat → List NodeId} {N : Nat → Nat}
    (l : Logged (Config.ofClients h cs) d L N) {i k : Nat} {n : NodeId} (ik : i ≠ k) (hi : ownNodes R L i n) :
    ¬ ownNodes R L k n := by
  obtain ⟨-, -, rg, dj⟩ := l.facts
  have rg' : ∀ i, ∀ m ∈ L i, h.next ≤ m := fun i m hm => (rg i m hm).1
  intro hk
  rcases hi with a | a <;> rcases hk with c | c
  · exact b.separate.disjoint i k n ik a c
  · have := b.exist i n a; have := rg' k n c; omega
  · have := b.exist k n c; have := rg' i n a; omega
  · exact dj i k n ik a c

/-- With poisoned mutexes: there is an execution without any that differs in the mutexes of panicked threads only. -/
private theorem poison_sim (b : Builders R h cs) {d : PConfig (NodeImpl T) α} (st : PSteps (.init (Config.ofClients h cs)) d) :
    ∃ s L N, Logged (Config.ofClients h cs) s L N ∧ s.threads = d.threads ∧ s.heap.get = d.heap.get ∧
      s.heap.next = d.heap.next ∧ s.heap.dead = d.heap.dead ∧ (∀ n i, d.owner n = some i → ownNodes R L i n) ∧
      (∀ n, s.heap.held n = d.heap.held n ∨ ∃ i m, d.threads[i]? = some (.panic m) ∧ ownNodes R L i n) ∧
      ∀ n, d.poisoned n = true → ∃ i m, d.threads[i]? = some (.panic m) ∧ ownNodes R L i n := by
  generalize e0 : PConfig.init (Config.ofClients h cs) = c0 at st
  induction st with
  | refl =>
    subst e0
    exact ⟨_, _, _, .refl, rfl, rfl, rfl, rfl, (fun _ _ e => by cases e), fun _ => .inl rfl, (fun _ e => by cases e)⟩
  | @tail d e st s ih =>
    obtain ⟨s0, L, N, l, et, eg, en, ed, ow, he, po⟩ := ih
    have mine : ∀ {j : Nat} {n : NodeId} {k : KProg T α}, d.threads[j]? = some (.lock n k) → ownNodes R L j n := by
      intro j n k hj
      obtain ⟨c, q, g, ρ, D, ec, er, eq, -, -, rm, -, -, -, rfl⟩ := (builders_logged b l).1 j _ (et ▸ hj)
      exact rm.1
    have free : ∀ {j : Nat} {n : NodeId} {p : KProg T α}, d.threads[j]? = some p → (∀ m, p ≠ .panic m) → ownNodes R L j n →
        ¬ ∃ i m, d.threads[i]? = some (.panic m) ∧ ownNodes R L i n := by
      rintro j n p hj np hn ⟨i, m, hi, on⟩
      by_cases ij : i = j
      · subst ij; rw [hj] at hi; cases hi; exact np m rfl
      · exact ownNodes_disjoint b l ij on hn
    cases s with
    | poison j n k hj _ bad =>
      exact absurd (po n bad) (free hj (fun m => by simp) (mine hj))
    | unwind j m x hj mx =>
      refine ⟨s0, L, N, l, et, eg, en, ed, fun n i e => ?_, fun n => ?_, fun n e => ?_⟩
      · simp only at e
        split at e
        · cases e
        · exact ow n i e
      · by_cases nx : n = x
        · subst nx; exact .inr ⟨j, m, hj, ow n j mx⟩
        · rcases he n with y | y
          · exact .inl (by rw [y]; simp [Heap.held_setHeld, nx])
          · exact .inr y
      · simp only at e
        split at e
        · rename_i nx; subst nx; exact ⟨j, m, hj, ow n j mx⟩
        · exact po n e
    | run j p p' h' hj hs ok =>
      have np : ∀ m, p ≠ .panic m := by rintro m rfl; cases hs
      have hj' : s0.threads[j]? = some p := et ▸ hj
      have keep : ∀ {n : NodeId} {L' : Nat → List NodeId}, (∀ i n, ownNodes R L i n → ownNodes R L' i n) →
          (∃ i m, d.threads[i]? = some (.panic m) ∧ ownNodes R L i n) →
          ∃ i m, (d.threads.set j p')[i]? = some (.panic m) ∧ ownNodes R L' i n := by
        rintro n L' mono ⟨i, m, hi, on⟩
        have : i ≠ j := by rintro rfl; rw [hj] at hi; cases hi; exact np m rfl
        exact ⟨i, m, by rw [List.getElem?_set_ne (Ne.symm this)]; exact hi, mono i n on⟩
      obtain ⟨h1, hs1, e1, e2, e3, e4⟩ : ∃ h1, step1 p s0.heap = some (p', h1) ∧ h1.get = h'.get ∧ h1.next = h'.next ∧
          h1.dead = h'.dead ∧ ∀ n, s0.heap.held n = d.heap.held n → h1.held n = h'.held n := by
        cases p with
        | ret a => cases hs
        | panic m => cases hs
        | diverge => cases hs; exact ⟨_, rfl, eg, en, ed, fun _ x => x⟩
        | lock n k =>
          simp only [step1] at hs
          split at hs
          · cases hs
          · rename_i nf
            cases hs
            have hn : s0.heap.held n = d.heap.held n := (he n).resolve_right (free hj np (mine hj))
            refine ⟨s0.heap.setHeld n true, by simp only [step1, hn, nf]; rfl, eg, en, ed, fun m x => ?_⟩
            simp only [Heap.held_setHeld, x]
        | unlock n k =>
          cases hs
          exact ⟨s0.heap.setHeld n false, rfl, eg, en, ed, fun m x => by simp only [Heap.held_setHeld, x]⟩
        | read n k => cases hs; exact ⟨_, by simp only [step1, eg], eg, en, ed, fun _ x => x⟩
        | write n f k =>
          cases hs
          exact ⟨s0.heap.modify n f, rfl, by funext m; simp only [Heap.get_modify, eg], en, ed, fun _ x => x⟩
        | upgrade n k => cases hs; exact ⟨_, by simp only [step1, ed], eg, en, ed, fun _ x => x⟩
        | alloc s k =>
          cases hs
          refine ⟨s0.heap.push s, by simp only [step1, en], by funext m; simp only [Heap.push, eg, en], ?_,
            by funext m; simp only [Heap.push, ed, en], fun _ x => x⟩
          show s0.heap.next + 1 = d.heap.next + 1
          rw [en]
      have mono : ∀ i n, ownNodes R L i n →
          ownNodes R (fun k => if k = j ∧ h1.next ≠ s0.heap.next then L k ++ [s0.heap.next] else L k) i n := by
        rintro i n (x | x)
        · exact .inl x
        · refine .inr ?_
          simp only
          split
          · exact List.mem_append_left _ x
          · exact x
      refine ⟨_, _, _, l.step hj' hs1, by simp only [et], e1, e2, e3, fun n i e => ?_, fun n => ?_, fun n e => keep mono (po n e)⟩
      · cases p with
        | lock m k =>
          simp only [own] at e
          split at e
          · rename_i x; cases e; subst x; exact mono _ _ (mine hj)
          · exact mono _ _ (ow n i e)
        | unlock m k =>
          simp only [own] at e
          split at e
          · cases e
          · exact mono _ _ (ow n i e)
        | _ => exact mono _ _ (ow n i e)
      · rcases he n with x | x
        · exact .inl (e4 n x)
        · exact .inr (keep mono x)

/-- **C102.** All this holds with poisoned mutexes, too: whatever other threads panic and poison, a thread that
finishes has the result it has alone, a panic of it is one it has alone, and a thread that returns alone finds no
mutex it needs poisoned. -/
theorem C102_poison (b : Builders R h cs) {d : PConfig (NodeImpl T) α} (st : PSteps (.init (Config.ofClients h cs)) d)
    (i : Nat) (c : Client T α) (hc : cs[i]? = some c) :
    (∀ a, d.threads[i]? = some (.ret a) → ∃ g, ∃ ρ : Equiv.Perm NodeId, run c.prog h = .ok a g ∧
      (∀ n, n < h.next → ρ n = n) ∧ Like ρ (fun n => R i n ∨ h.next ≤ n ∧ n < g.next) g d.heap ∧
      ∀ n, R i n ∨ h.next ≤ n ∧ n < g.next → d.poisoned (ρ n) = false) ∧
    (∀ m, d.threads[i]? = some (.panic m) → ∃ g, run c.prog h = .panic m g) ∧
    ∀ a g, run c.prog h = .ok a g → d.threads[i]? = some (.ret a) ∨ ∃ p p' h',
      d.threads[i]? = some p ∧ step1 p d.heap = some (p', h') ∧ ∀ n k, p = .lock n k → d.poisoned n = false := by
  obtain ⟨s, L, N, l, et, eg, en, ed, ow, he, po⟩ := poison_sim b st
  have free : ∀ {n : NodeId} {p : KProg T α}, d.threads[i]? = some p → (∀ m, p ≠ .panic m) → ownNodes R L i n →
      ¬ ∃ i m, d.threads[i]? = some (.panic m) ∧ ownNodes R L i n := by
    rintro n p hj np hn ⟨k, m, hi, on⟩
    by_cases ij : k = i
    · subst ij; rw [hj] at hi; cases hi; exact np m rfl
    · exact ownNodes_disjoint b l ij on hn
  have notp : ∀ {n : NodeId} {p : KProg T α}, d.threads[i]? = some p → (∀ m, p ≠ .panic m) → ownNodes R L i n →
      d.poisoned n = false := by
    intro n p hj np hn
    cases e : d.poisoned n with
    | false => rfl
    | true => exact absurd (po n e) (free hj np hn)
  refine ⟨fun a e => ?_, fun m e => ?_, fun a g e => ?_⟩
  · obtain ⟨c', q, g, ρ, D, ec, er, eq, fix, like, -, own', -, -, rfl⟩ := (builders_logged b l).1 i _ (et ▸ e)
    obtain rfl : c' = c := by rw [hc] at ec; exact (Option.some.inj ec).symm
    cases q <;> try cases eq
    refine ⟨g, ρ, afterSteps_run er, fix, ⟨fun n hn => ?_, fun n hn => ?_, fun n hn => ?_⟩,
      fun n hn => notp e (fun m => by simp) (own' n hn)⟩
    · rw [← eg]; exact like.get n (own' n hn)
    · rw [← (he (ρ n)).resolve_right (free e (fun m => by simp) (own' n hn))]; exact like.held n (own' n hn)
    · rw [← ed]; exact like.dead n (own' n hn)
  · exact C102_panic b l.steps i c hc m (et ▸ e)
  · rcases C102_progress b l.steps i c hc a g e with x | ⟨p, p', h', hp, hs⟩
    · exact .inl (et ▸ x)
    · have hp' : d.threads[i]? = some p := et ▸ hp
      have np : ∀ m, p ≠ .panic m := by rintro m rfl; cases hs
      have mine : ∀ n k, p = .lock n k → ownNodes R L i n := by
        rintro n k rfl
        obtain ⟨c, q, g, ρ, D, ec, er, eq, -, -, rm, -, -, -, rfl⟩ := (builders_logged b l).1 i _ hp
        exact rm.1
      refine .inr ?_
      cases p with
      | ret a => cases hs
      | panic m => cases hs
      | lock n k =>
        simp only [step1] at hs
        split at hs
        · cases hs
        · rename_i nf
          rw [(he n).resolve_right (free hp' np (mine n k rfl))] at nf
          exact ⟨_, k, d.heap.setHeld n true, hp', by simp only [step1, nf]; rfl,
            fun m k' e => by cases e; exact notp hp' np (mine n k rfl)⟩
      | unlock n k => exact ⟨_, _, _, hp', rfl, by simp⟩
      | read n k => exact ⟨_, _, _, hp', rfl, by simp⟩
      | write n f k => exact ⟨_, _, _, hp', rfl, by simp⟩
      | upgrade n k => exact ⟨_, _, _, hp', rfl, by simp⟩
      | alloc s k => exact ⟨_, _, _, hp', rfl, by simp⟩
      | diverge => exact ⟨_, _, _, hp', rfl, by simp⟩

end K
