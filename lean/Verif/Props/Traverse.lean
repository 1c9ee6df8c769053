import Verif.Lemmas.Tree
import Verif.Props.ChainSet
/-!
# C09, C10, C11: traversal order
-/

set_option linter.unusedSectionVars false

namespace K
open Prog
variable {T : Type} [Scalar T]

/-! ## C09 -/

/-- **C09** (`iter_descendants`).  In a forest of nodes the iteration below any node ends (the number of
allocated nodes bounds it), changes nothing, starts with that node, yields every node of the subtree
exactly once and nothing else, and every node after its parent. -/
theorem C09_descendants (h : KHeap T) (u : h.Unlocked) (f : Forest h) (r : NodeId) :
    ∃ ns, (∀ fuel, h.next + 1 ≤ fuel → run (descendants fuel [r]) h = .ok ns h) ∧
      ns.head? = some r ∧ ns.Nodup ∧ (∀ n, n ∈ ns ↔ Below h r n) ∧
      ParentsFirst h (· = r) ns := by
  obtain ⟨t, rt, rfl⟩ := f.exists_rep r
  refine ⟨t.pre, fun fuel hf => ?_, ?_, pre_nodup f t rt, mem_pre_iff t rt, ?_⟩
  · have := run_descendants h u fuel [t] (by simpa using rt)
      (by have := rt.pre_length_le f; simpa using Nat.le_trans this hf)
    simpa using this
  · cases t; simp [RTree.pre_node, RTree.id]
  · exact fun pre n post e => parentsFirst_pre f t rt pre n post e

/-- **C09** (`Chain::from_root`): the chain lists exactly these nodes. -/
theorem C09_from_root (h : KHeap T) (u : h.Unlocked) (f : Forest h) (r : NodeId) :
    ∃ c : Chain, (∀ fuel, h.next + 1 ≤ fuel → run (Chain.fromRoot fuel r) h = .ok c h) ∧
      c.Wf h ∧ c.nodes.head? = some r ∧ c.nodes.Nodup ∧ (∀ n, n ∈ c.nodes ↔ Below h r n) ∧
      ParentsFirst h (· = r) c.nodes := by
  obtain ⟨ns, a, b⟩ := C09_descendants h u f r
  obtain ⟨c, e, rfl, w⟩ := C07_from_nodes h u ns
  exact ⟨c, fun fuel hf => by simp only [Chain.fromRoot, run_bind, a fuel hf, Res.bind_ok, e], w, b⟩

/-- **C09** (exact order).  Among the children of a node the one attached last is visited first, with
its whole subtree. -/
theorem C09_order (h : KHeap T) (u : h.Unlocked) (f : Forest h) (r : NodeId)
    (fuel : Nat) (hf : h.next + 1 ≤ fuel) (below : NodeId → List NodeId)
    (hb : ∀ c ∈ (h.get r).children, run (descendants fuel [c]) h = .ok (below c) h) :
    run (descendants fuel [r]) h = .ok (r :: (h.get r).children.reverse.flatMap below) h := by
  obtain ⟨t, rt, rfl⟩ := f.exists_rep r
  obtain ⟨n, ts⟩ := t
  have e := run_descendants h u fuel [.node n ts] (by simpa using rt)
    (by have := rt.pre_length_le f; simpa using Nat.le_trans this hf)
  simp only [RTree.id] at hb ⊢
  have key : ∀ t ∈ ts, t.pre = below t.id := by
    intro t ht
    have e' := run_descendants h u fuel [t] (by simpa using rt.sub t ht)
      (by have := (rt.sub t ht).pre_length_le f; simpa using Nat.le_trans this hf)
    have hc := hb t.id (by rw [rt.children]; exact List.mem_map.2 ⟨t, ht, rfl⟩)
    simp only [List.map_cons, List.map_nil, hc, List.flatMap_cons, List.flatMap_nil,
      List.append_nil, Res.ok.injEq, and_true] at e'
    exact e'.symm
  simp only [List.map_cons, List.map_nil, RTree.id, List.flatMap_cons, List.flatMap_nil,
    List.append_nil, RTree.pre_node] at e
  rw [e, rt.children]
  congr 2
  rw [← List.map_reverse, List.flatMap_map]
  exact List.flatMap_congr fun t ht => key t (List.mem_reverse.1 ht)

/-! ## C10 -/

/-- **C10**.  In a forest, `iter_ancestors` from `n` ends, changes nothing and yields `n`, its parent,
and so on up to the first node whose `parent()` is `None`, without repetition; `from_end` lists the
same nodes in reverse. -/
theorem C10_ancestors (h : KHeap T) (u : h.Unlocked) (f : Forest h) (n : NodeId) :
    ∃ ps, Lineage h n ps ∧ ps.Nodup ∧
      (∃ N, ∀ fuel, N ≤ fuel → run (ancestors fuel (some n)) h = .ok ps h) ∧
      ∃ c : Chain, (∃ N, ∀ fuel, N ≤ fuel → run (Chain.fromEnd fuel n) h = .ok c h) ∧ c.Wf h ∧
        c.nodes = ps.reverse := by
  obtain ⟨rank, hr⟩ := f.acyclic
  have hr' : ∀ p c, liveParent h c = some p → rank p < rank c := fun p c e =>
    hr p c (liveParent_eq_some e).1
  obtain ⟨ps, l⟩ := exists_lineage h rank hr' n
  refine ⟨ps, l, l.nodup hr', ⟨_, run_ancestors h u n ps l⟩, ?_⟩
  obtain ⟨c, e, e', w⟩ := C07_from_nodes h u ps.reverse
  refine ⟨c, ⟨ps.length, fun fuel hf => ?_⟩, w, e'⟩
  simp only [Chain.fromEnd, run_bind, run_ancestors h u n ps l fuel hf, Res.bind_ok, e]

/-- **C10**, any amount of fuel: the model never reports anything but this list. -/
theorem C10_lineage_unique (h : KHeap T) (n : NodeId) (ps qs : List NodeId) (a : Lineage h n ps)
    (b : Lineage h n qs) : ps = qs := a.unique b

/-- **C10** (shape of a lineage): consecutive entries are child and parent, the last has no parent. -/
theorem C10_lineage_shape (h : KHeap T) (n : NodeId) (ps : List NodeId) (l : Lineage h n ps) :
    ps.head? = some n ∧
    (∀ pre a b post, ps = pre ++ a :: b :: post → liveParent h a = some b) ∧
    (∀ pre z, ps = pre ++ [z] → liveParent h z = none) := by
  refine ⟨by cases l <;> rfl, ?_, ?_⟩
  · induction l with
    | root e => intro pre a b post h; cases pre with
      | nil => simp at h
      | cons x pre => cases pre <;> simp at h
    | @step n p ps e l ih =>
      intro pre a b post h
      cases pre with
      | nil =>
        simp only [List.nil_append, List.cons.injEq] at h
        obtain ⟨rfl, h⟩ := h
        cases l <;> simp only [List.cons.injEq] at h <;> rw [← h.1] <;> exact e
      | cons x pre =>
        simp only [List.cons_append, List.cons.injEq] at h
        exact ih pre a b post h.2
  · induction l with
    | root e => intro pre z h; cases pre with
      | nil => simp only [List.nil_append, List.cons.injEq, and_true] at h; exact h ▸ e
      | cons x pre => cases pre <;> simp at h
    | @step n p ps e l ih =>
      intro pre z h
      cases pre with
      | nil =>
        simp only [List.nil_append, List.cons.injEq] at h
        obtain ⟨rfl, h⟩ := h
        cases l <;> cases h
      | cons x pre =>
        simp only [List.cons_append, List.cons.injEq] at h
        exact ih pre z h.2

/-! ## C11 -/

/-- **C11**.  `from_end_to_root(e, r)`: if `r` is on the path from `e` to the root, the chain is exactly
the path from `r` down to `e`; otherwise it is the whole path from the real root to `e`. -/
theorem C11_from_end_to_root (h : KHeap T) (u : h.Unlocked) (f : Forest h) (e r : NodeId)
    (ps : List NodeId) (l : Lineage h e ps) :
    ∃ c : Chain, (∀ fuel, ps.length ≤ fuel → run (Chain.fromEndToRoot fuel e r) h = .ok c h) ∧
      c.Wf h ∧
      (∀ up rest, ps = up ++ r :: rest → c.nodes = r :: up.reverse) ∧
      (r ∉ ps → c.nodes = ps.reverse) := by
  obtain ⟨rank, hr⟩ := f.acyclic
  have hr' : ∀ p c, liveParent h c = some p → rank p < rank c := fun p c e =>
    hr p c (liveParent_eq_some e).1
  obtain ⟨c, e1, e2, w⟩ := C07_from_nodes h u (upTo r ps).reverse
  refine ⟨c, fun fuel hf => ?_, w, ?_, ?_⟩
  · simp only [Chain.fromEndToRoot, run_bind, run_ancestorsUntil h u r e ps l fuel hf, Res.bind_ok,
      e1]
  · intro up rest hp
    have nd := l.nodup hr'
    rw [hp] at nd
    have : r ∉ up := fun hm => (List.nodup_append.1 nd).2.2 r hm r (by simp) rfl
    rw [e2, hp, upTo_append _ _ _ this]; simp
  · intro hr; rw [e2, upTo_of_not_mem _ _ hr]

/-! ## example -/

/-- root 0 with children 1 and 2, node 3 below 1 -/
noncomputable def exTree : KHeap ℝ :=
  { get := fun n =>
      let j : Joint ℝ := Joint.new "j" (.rotational ⟨0, 1, 0⟩)
      if n = 0 then { NodeImpl.fresh j with children := [1, 2] }
      else if n = 1 then { NodeImpl.fresh j with parent := some 0, children := [3] }
      else if n = 2 then { NodeImpl.fresh j with parent := some 0 }
      else if n = 3 then { NodeImpl.fresh j with parent := some 1 }
      else NodeImpl.fresh j
    next := 4, dead := fun _ => false, held := fun _ => false }

theorem exTree_forest : Forest exTree := by
  have big : ∀ n, n ≠ 0 → n ≠ 1 → n ≠ 2 → n ≠ 3 →
      (exTree.get n).parent = none ∧ (exTree.get n).children = [] := by
    intro n a b c d; simp [exTree, a, b, c, d, NodeImpl.fresh]
  have ch0 : (exTree.get 0).children = [1, 2] := by simp [exTree]
  have ch1 : (exTree.get 1).children = [3] := by simp [exTree]
  have ch2 : (exTree.get 2).children = [] := by simp [exTree, NodeImpl.fresh]
  have ch3 : (exTree.get 3).children = [] := by simp [exTree, NodeImpl.fresh]
  have p0 : (exTree.get 0).parent = none := by simp [exTree, NodeImpl.fresh]
  have p1 : (exTree.get 1).parent = some 0 := by simp [exTree]
  have p2 : (exTree.get 2).parent = some 0 := by simp [exTree]
  have p3 : (exTree.get 3).parent = some 1 := by simp [exTree]
  have split5 : ∀ n : Nat, n = 0 ∨ n = 1 ∨ n = 2 ∨ n = 3 ∨ (n ≠ 0 ∧ n ≠ 1 ∧ n ≠ 2 ∧ n ≠ 3) := by
    intro n; omega
  refine ⟨?_, ?_, ?_, ⟨id, ?_⟩⟩
  · intro p c
    rcases split5 p with rfl | rfl | rfl | rfl | ⟨a, b, d, e⟩ <;>
    rcases split5 c with rfl | rfl | rfl | rfl | ⟨a', b', d', e'⟩ <;>
    simp_all [Ne.symm]
    all_goals omega
  · intro p
    rcases split5 p with rfl | rfl | rfl | rfl | ⟨a, b, d, e⟩ <;> simp_all
  · intro p c
    have : exTree.next = 4 := rfl
    rw [this]
    rcases split5 p with rfl | rfl | rfl | rfl | ⟨a, b, d, e⟩
    · rw [ch0]; simp only [List.mem_cons, List.not_mem_nil, or_false]
      rintro (rfl | rfl) <;> decide
    · rw [ch1]; simp only [List.mem_singleton]
      rintro rfl; decide
    · rw [ch2]; simp
    · rw [ch3]; simp
    · rw [(big p a b d e).2]; simp
  · intro p c hp
    rcases split5 c with rfl | rfl | rfl | rfl | ⟨a, b, d, e⟩
    · rw [p0] at hp; cases hp
    · rw [p1] at hp; cases hp; decide
    · rw [p2] at hp; cases hp; decide
    · rw [p3] at hp; cases hp; decide
    · rw [(big c a b d e).1] at hp; cases hp

/-- the hypotheses of C09-C11 hold for `exTree`; its descendants come out as 0, 2, 1, 3 -/
example : run (descendants 5 [0]) exTree = .ok [0, 2, 1, 3] exTree := by
  have e := run_descendants exTree (fun _ => rfl) 5
    [.node 0 [.node 1 [.node 3 []], .node 2 []]] (by
      intro t ht
      simp only [List.mem_singleton] at ht
      subst ht
      refine .mk _ _ (by simp [exTree, RTree.id]) ?_
      simp only [List.mem_cons, List.not_mem_nil, or_false]
      rintro t (rfl | rfl)
      · refine .mk _ _ (by simp [exTree, RTree.id]) ?_
        simp only [List.mem_singleton]
        rintro t rfl
        exact .mk _ _ (by simp [exTree, NodeImpl.fresh]) (by simp)
      · exact .mk _ _ (by simp [exTree, NodeImpl.fresh]) (by simp))
    (by simp [RTree.pre_node])
  simpa [RTree.pre_node, RTree.id] using e

example : Lineage exTree 3 [3, 1, 0] :=
  .step (p := 1) (by simp [liveParent, exTree])
    (.step (p := 0) (by simp [liveParent, exTree]) (.root (by simp [liveParent, exTree,
      NodeImpl.fresh])))

end K
