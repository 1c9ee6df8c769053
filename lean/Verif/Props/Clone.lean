import Verif.Lemmas.Clone
import Verif.Props.Topology
import Verif.Lemmas.Calls
import Verif.Props.Traverse
import Verif.Props.ChainSet
/-!
# C18, C19: cloning a chain
-/

set_option linter.unusedSectionVars false

namespace K
open Prog
open scoped Classical
variable {T : Type} [Scalar T]

/-! ## C19 -/

/-- A chain that can be cloned: it lists allocated nodes once, begins with a root `r`, the `parent()` of
every other node and every `mimic_parent()` are in the chain (with the `Mimic` data set). -/
structure CloneReady (h : KHeap T) (c : Chain) (r : NodeId) : Prop where
  first : c.nodes.head? = some r
  root : (h.get r).parent = none
  nodup : c.nodes.Nodup
  node : ∀ n ∈ c.nodes, n < h.next
  parent : ∀ n ∈ c.nodes, n = r ∨ ∃ p ∈ c.nodes, liveParent h n = some p
  mimicHandle : ∀ n ∈ c.nodes, ∀ m, (h.get n).mimicParent = some m → m < h.next
  mimic : ∀ n ∈ c.nodes, ∀ m, liveMimic h n = some m → m ∈ c.nodes ∧ (h.get n).mimic.isSome

/-- `n'` is a copy of `n`, where `φ` maps the nodes of the list `ns` to their copies: same joint (name, type, position,
velocity, limits, origin and caches), link and mimic data; links go to the copies of the linked nodes;
children are in the order of the list. -/
structure CopyOf (h g : KHeap T) (ns : List NodeId) (φ : NodeId → NodeId) (n : NodeId) : Prop where
  joint : (g.get (φ n)).joint = (h.get n).joint
  link : (g.get (φ n)).link = (h.get n).link
  parent : (g.get (φ n)).parent = (liveParent h n).map φ
  mimicParent : (g.get (φ n)).mimicParent = (liveMimic h n).map φ
  mimic : (g.get (φ n)).mimic = if (liveMimic h n).isSome then (h.get n).mimic else none
  children : (g.get (φ n)).children = (ns.filter fun m => liveParent h m = some n).map φ
  mimicChildren : (g.get (φ n)).mimicChildren = (ns.filter fun m => liveMimic h m = some n).map φ

theorem CloneReady.handles {h : KHeap T} {c : Chain} {r : NodeId} (cr : CloneReady h c r)
    (f : Forest h) : Cl.Handles h c.nodes :=
  ⟨cr.node, fun n _ p e => (f.bound p n ((f.agree p n).2 e)).2, cr.mimicHandle⟩

theorem CloneReady.closed {h : KHeap T} {c : Chain} {r : NodeId} (cr : CloneReady h c r) :
    ∀ n ∈ c.nodes, Cl.Closed h c.nodes n := fun n hn =>
  ⟨fun p e => by
    rcases cr.parent n hn with rfl | ⟨q, hq, e'⟩
    · exact absurd (liveParent_eq_some e).1 (by rw [cr.root]; simp)
    · rw [e] at e'; cases e'; exact hq, cr.mimic n hn⟩

private theorem filter_range_idx (ns : List NodeId) (nd : ns.Nodup) (k : Nat)
    (q : NodeId → Option NodeId) (hq : ∀ n ∈ ns, ∀ p, q n = some p → p ∈ ns) (n : NodeId)
    (hn : n ∈ ns) :
    ((List.range ns.length).filter fun j => (q (Cl.nd ns j)).map ns.idxOf = some (ns.idxOf n)).map
      (k + ·) = (ns.filter fun m => q m = some n).map fun m => k + ns.idxOf m := by
  have e : (List.range ns.length) = ns.map ns.idxOf := by
    apply List.ext_getElem (by simp)
    intro i h1 h2
    simp only [List.getElem_range, List.getElem_map]
    exact (nd.idxOf_getElem i (by simpa using h1)).symm
  rw [e, List.filter_map, List.map_map]
  have : ∀ m ∈ ns, ((fun j => decide ((q (Cl.nd ns j)).map ns.idxOf = some (ns.idxOf n))) ∘
      ns.idxOf) m = decide (q m = some n) := by
    intro m hm
    simp only [Function.comp, Cl.nd_idxOf hm]
    congr 1
    apply propext
    constructor
    · intro e
      obtain ⟨p, e1, e2⟩ := Option.map_eq_some_iff.1 e
      rw [e1, ← Cl.nd_idxOf hn, ← e2, Cl.nd_idxOf (hq m hm p e1)]
    · intro e; rw [e]; rfl
  rw [List.filter_congr this]
  rfl

/-- **C19**.  Cloning a chain over a forest returns; it leaves every existing node as it was and
allocates exactly one new node per node of the chain; the new nodes are copies (`CopyOf`), the new
chain consists of exactly these, begins with the copy of the root and has the same dof. -/
theorem C19_clone (h : KHeap T) (u : h.Unlocked) (f : Forest h) (c : Chain) (w : c.Wf h) (r : NodeId)
    (cr : CloneReady h c r) (fuel : Nat) (hf : h.next + c.nodes.length + 1 ≤ fuel) :
    ∃ c' g φ, run (c.clone fuel) h = .ok c' g ∧ c'.Wf g ∧ g.Unlocked ∧ Forest g ∧
      g.next = h.next + c.nodes.length ∧ (∀ m < h.next, g.get m = h.get m ∧ g.dead m = h.dead m) ∧
      (∀ n ∈ c.nodes, h.next ≤ φ n ∧ φ n < g.next ∧ g.dead (φ n) = false) ∧
      (∀ a ∈ c.nodes, ∀ b ∈ c.nodes, φ a = φ b → a = b) ∧
      (∀ n ∈ c.nodes, CopyOf h g c.nodes φ n) ∧
      c'.nodes.Perm (c.nodes.map φ) ∧ c'.nodes.head? = some (φ r) ∧ c'.dof = c.dof ∧
      ParentsFirst g (· = φ r) c'.nodes ∧ run (descendants fuel [φ r]) g = .ok c'.nodes g ∧
      ∀ m, (∀ n ∈ c.nodes, φ n ≠ m) → g.get m = h.get m ∧ g.dead m = h.dead m := by
  obtain ⟨g, iv, er⟩ := (Cl.run_clone u c (cr.handles f) fuel r cr.first).1 ⟨cr.root, cr.closed⟩
  have fg := iv.forest f cr.closed
  have ug := iv.unlocked u
  have rmem : r ∈ c.nodes := List.mem_of_mem_head? (by rw [cr.first]; rfl)
  have r0 : c.nodes.idxOf r = 0 := by
    have := cr.first
    cases hc : c.nodes with
    | nil => rw [hc] at this; cases this
    | cons x xs => rw [hc] at this; simp at this; simp [this]
  let φ : NodeId → NodeId := fun n => h.next + c.nodes.idxOf n
  have copy : ∀ n ∈ c.nodes, CopyOf h g c.nodes φ n := by
    intro n hn
    have hi := List.idxOf_lt_length_of_mem hn
    have e : g.get (φ n) = _ := iv.copy _ hi
    refine ⟨?_, ?_, ?_, ?_, ?_, ?_, ?_⟩ <;> rw [e]
    · simp only [Cl.cell, Cl.nd_idxOf hn]
    · simp only [Cl.cell, Cl.nd_idxOf hn]
    · simp only [Cl.cell, Cl.nd_idxOf hn, hi, if_true]; rfl
    · simp only [Cl.cell, Cl.nd_idxOf hn, hi, if_true]; rfl
    · simp only [Cl.cell, Cl.nd_idxOf hn, hi, true_and]
    · exact filter_range_idx _ cr.nodup _ _ (fun n hn => (cr.closed n hn).parent) n hn
    · exact filter_range_idx _ cr.nodup _ _ (fun n hn p e => ((cr.closed n hn).mimic p e).1) n hn
  obtain ⟨c', ec, wc, hd, ndc, memc, pf⟩ := C09_from_root g ug fg h.next
  have φr : φ r = h.next := by simp [φ, r0]
  -- exactly the copies are below the copy of the root
  have inj : ∀ a ∈ c.nodes, ∀ b ∈ c.nodes, φ a = φ b → a = b := by
    intro a ha b hb e
    have e' : c.nodes.idxOf a = c.nodes.idxOf b := by simp only [φ] at e; omega
    rw [← Cl.nd_idxOf ha, e', Cl.nd_idxOf hb]
  have below1 : ∀ m, Below g h.next m → ∃ n ∈ c.nodes, m = φ n := by
    intro m b
    induction b with
    | refl => exact ⟨r, rmem, φr.symm⟩
    | step _ hc ih =>
      obtain ⟨p, hp, rfl⟩ := ih
      rw [(copy p hp).children, List.mem_map] at hc
      obtain ⟨n, hn, rfl⟩ := hc
      exact ⟨n, (List.mem_filter.1 hn).1, rfl⟩
  have below2 : ∀ n ∈ c.nodes, Below g h.next (φ n) := by
    obtain ⟨rank, hr⟩ := f.acyclic
    suffices ∀ k, ∀ n ∈ c.nodes, rank n ≤ k → Below g h.next (φ n) from
      fun n hn => this _ n hn (Nat.le_refl _)
    intro k
    induction k with
    | zero =>
      intro n hn hk
      rcases cr.parent n hn with rfl | ⟨p, hp, e⟩
      · rw [φr]; exact .refl
      · have := hr p n (liveParent_eq_some e).1; omega
    | succ k ih =>
      intro n hn hk
      rcases cr.parent n hn with rfl | ⟨p, hp, e⟩
      · rw [φr]; exact .refl
      · have := hr p n (liveParent_eq_some e).1
        refine (ih p hp (by omega)).step ?_
        rw [(copy p hp).children, List.mem_map]
        exact ⟨n, List.mem_filter.2 ⟨hn, by simpa using e⟩, rfl⟩
  have perm : c'.nodes.Perm (c.nodes.map φ) := by
    rw [List.perm_ext_iff_of_nodup ndc]
    · intro m
      rw [memc, List.mem_map]
      exact ⟨fun b => (below1 m b).imp fun n x => ⟨x.1, x.2.symm⟩,
        fun ⟨n, hn, e⟩ => e ▸ below2 n hn⟩
    · exact cr.nodup.map_on fun a ha b hb e => inj a ha b hb e
  refine ⟨c', g, φ, ?_, wc, ug, fg, iv.next, ?_, ?_, inj, copy, perm, by rw [φr]; exact hd, ?_,
    by rw [φr]; exact pf, ?_, ?_⟩
  · rw [er]; exact ec fuel (by rw [iv.next]; exact hf)
  · intro m hm
    refine ⟨iv.old m (.inl hm), ?_⟩
    rw [iv.dead, if_neg (by omega)]
  · intro n hn
    have hi := List.idxOf_lt_length_of_mem hn
    refine ⟨Nat.le_add_right _ _, by rw [iv.next]; exact Nat.add_lt_add_left hi _, ?_⟩
    rw [iv.dead, if_pos ⟨Nat.le_add_right _ _, Nat.add_lt_add_left hi _⟩]
  · rw [wc.dof, w.dof, wc.movable, w.movable]
    rw [(perm.filter _).length_eq, List.filter_map, List.length_map]
    congr 1
    refine List.filter_congr fun n hn => ?_
    exact decide_eq_decide.2 (by simp only [Movable, (copy n hn).joint])
  · obtain ⟨ns, a, -⟩ := C09_descendants g ug fg h.next
    have a := a fuel (by rw [iv.next]; exact hf)
    have b := ec fuel (by rw [iv.next]; exact hf)
    obtain ⟨c2, e2, e3, -⟩ := C07_from_nodes g ug ns
    simp only [Chain.fromRoot, run_bind, a, Res.bind_ok, e2] at b
    cases b
    rw [φr, a, e3]
  · intro m hm
    have out : m < h.next ∨ h.next + c.nodes.length ≤ m := by
      by_contra x
      have lt : m - h.next < c.nodes.length := by omega
      refine hm c.nodes[m - h.next] (List.getElem_mem lt) ?_
      simp only [φ, cr.nodup.idxOf_getElem _ lt]
      omega
    exact ⟨iv.old m out, by rw [iv.dead, if_neg (by omega)]⟩

/-- **C19** (when the conditions are not met).  If the first node has a parent recorded, or the parent
or mimic parent of some node of the chain is alive but not in the chain, `clone` panics. -/
theorem C19_panics (h : KHeap T) (u : h.Unlocked) (f : Forest h) (c : Chain) (r : NodeId)
    (first : c.nodes.head? = some r) (node : ∀ n ∈ c.nodes, n < h.next)
    (mh : ∀ n ∈ c.nodes, ∀ m, (h.get n).mimicParent = some m → m < h.next)
    (bad : (h.get r).parent ≠ none ∨ (∃ n ∈ c.nodes, ∃ p, liveParent h n = some p ∧ p ∉ c.nodes) ∨
      ∃ n ∈ c.nodes, ∃ m, liveMimic h n = some m ∧ m ∉ c.nodes) (fuel : Nat) :
    ∃ msg g, run (c.clone fuel) h = .panic msg g := by
  have hh : Cl.Handles h c.nodes :=
    ⟨node, fun n _ p e => (f.bound p n ((f.agree p n).2 e)).2, mh⟩
  refine (Cl.run_clone u c hh fuel r first).2 ?_
  rintro ⟨a, b⟩
  rcases bad with x | ⟨n, hn, p, e, np⟩ | ⟨n, hn, p, e, np⟩
  · exact x a
  · exact np ((b n hn).parent p e)
  · exact np ((b n hn).mimic p e).1

/-- **C19** (empty chain) -/
theorem C19_empty (h : KHeap T) (fuel d : Nat) (mv : List NodeId) :
    run (Chain.clone fuel ⟨[], mv, d⟩) h = .ok ⟨[], [], 0⟩ h := rfl

/-! ### order -/

/-- the list is the pre-order of the subtree below a node, first child first -/
inductive FirstChildFirst (h : KHeap T) : NodeId → List NodeId → Prop
  | mk (n : NodeId) (below : NodeId → List NodeId)
      (e : ∀ c ∈ (h.get n).children, FirstChildFirst h c (below c)) :
      FirstChildFirst h n (n :: (h.get n).children.flatMap below)

private theorem flatMap_single {α β : Type} (f : α → List β) (l : List α) (nd : l.Nodup) (a : α)
    (ha : a ∈ l) (hb : ∀ b ∈ l, b ≠ a → f b = []) : l.flatMap f = f a := by
  induction l with
  | nil => cases ha
  | cons x xs ih =>
    rw [List.nodup_cons] at nd
    rw [List.flatMap_cons]
    by_cases e : x = a
    · subst e
      have : xs.flatMap f = [] := by
        rw [List.flatMap_eq_nil_iff]
        exact fun b hb' => hb b (by simp [hb']) fun e => nd.1 (e ▸ hb')
      rw [this, List.append_nil]
    · rw [hb x (by simp) e, List.nil_append]
      exact ih nd.2 ((List.mem_cons.1 ha).resolve_left (Ne.symm e)) fun b hb' => hb b (by simp [hb'])

/-- in the traversal order the children of a node come last attached first -/
private theorem pre_filter {h : KHeap T} (f : Forest h) (t : RTree) :
    Rep h t → ∀ n ∈ t.pre, (t.pre.filter fun m => (h.get m).parent = some n) =
      (h.get n).children.reverse := by
  refine RTree.induct' (P := fun t => Rep h t → ∀ n ∈ t.pre,
    (t.pre.filter fun m => (h.get m).parent = some n) = (h.get n).children.reverse) ?_ t
  intro m ts ih r n hn
  obtain ⟨rank, hr⟩ := f.acyclic
  have pm : ∀ t ∈ ts, (h.get t.id).parent = some m := fun t ht =>
    (f.agree _ _).1 (by rw [r.children]; exact List.mem_map.2 ⟨t, ht, rfl⟩)
  have bn := (mem_pre_iff _ r n).1 hn
  have hm : ¬ (h.get m).parent = some n := fun e => by
    have := hr _ _ e
    have := bn.rank_le f hr
    simp only [RTree.id] at this
    omega
  -- nodes of a subtree other than its root have their parent in it
  have inner : ∀ t ∈ ts, ∀ x ∈ t.pre, ∀ p, (h.get x).parent = some p → x = t.id ∨ p ∈ t.pre := by
    intro t ht x hx p e
    obtain ⟨pre, post, e'⟩ := List.append_of_mem hx
    rcases parentsFirst_pre f t (r.sub t ht) pre x post e' with y | ⟨q, hq, y⟩
    · exact .inl y
    · rw [e] at y; cases y
      exact .inr (by rw [e']; simp [hq])
  have head : ∀ t : RTree, ∃ tl, t.pre = t.id :: tl := by
    intro t; cases t; exact ⟨_, RTree.pre_node _ _⟩
  rw [RTree.pre_node, List.filter_cons_of_neg (by simpa using hm), List.filter_flatMap]
  rw [RTree.pre_node] at hn
  have nd := pre_nodup f _ r
  rw [RTree.pre_node, List.nodup_cons] at nd
  rcases List.mem_cons.1 hn with rfl | hn
  · -- the root
    have : ∀ t ∈ ts.reverse, (t.pre.filter fun x => (h.get x).parent = some n) = [t.id] := by
      intro t ht
      have ht := List.mem_reverse.1 ht
      obtain ⟨tl, etl⟩ := head t
      have ndt := pre_nodup f t (r.sub t ht)
      rw [etl, List.nodup_cons] at ndt
      rw [etl, List.filter_cons_of_pos (by simpa using pm t ht)]
      congr 1
      rw [List.filter_eq_nil_iff]
      intro x hx
      simp only [decide_eq_true_eq]
      intro e
      rcases inner t ht x (by rw [etl]; simp [hx]) _ e with y | y
      · exact ndt.1 (y ▸ hx)
      · have := ((mem_pre_iff t (r.sub t ht) _).1 y).rank_le f hr
        have := hr _ _ (pm t ht)
        omega
    rw [List.flatMap_congr this, r.children]
    simp [List.flatMap_singleton', List.map_reverse, ← List.map_eq_flatMap]
  · obtain ⟨t0, ht0, hn0⟩ := List.mem_flatMap.1 hn
    have ht0' := List.mem_reverse.1 ht0
    have ndts : ts.reverse.Nodup := by
      rw [List.nodup_reverse]
      have : (ts.map RTree.id).Nodup := r.children ▸ f.once m
      exact List.Nodup.of_map _ this
    rw [flatMap_single _ _ ndts t0 ht0, ih t0 ht0' (r.sub t0 ht0') n hn0]
    intro t ht ne
    rw [List.filter_eq_nil_iff]
    intro x hx
    simp only [decide_eq_true_eq]
    intro e
    rcases inner t (List.mem_reverse.1 ht) x hx n e with y | y
    · rw [y, pm t (List.mem_reverse.1 ht)] at e
      cases e
      exact nd.1 hn
    · have := (List.nodup_flatMap.1 nd.2).2
      haveI sy : Std.Symm fun a b : RTree => a ≠ b → List.Disjoint a.pre b.pre :=
        ⟨fun a b hab ne => (hab (Ne.symm ne)).symm⟩
      have key := List.Pairwise.forall_of_forall (R := fun a b : RTree => a ≠ b →
        List.Disjoint a.pre b.pre) (l := ts.reverse)
        (fun a _ ne => absurd rfl ne) (this.imp (S := fun a b : RTree => a ≠ b → List.Disjoint a.pre b.pre) fun hd _ => hd)
      exact key ht ht0 ne y hn0

/-- **C19** (order of a copied tree).  If the chain is the whole tree below its root (as `from_root`
makes it), the clone lists the copies in pre-order with the first child first -
while the original has the last child first - and every child list is reversed. -/
theorem C19_order (h : KHeap T) (u : h.Unlocked) (f : Forest h) (c : Chain) (w : c.Wf h) (r : NodeId)
    (cr : CloneReady h c r) (fuel : Nat) (hf : h.next + c.nodes.length + 1 ≤ fuel)
    (whole : run (descendants fuel [r]) h = .ok c.nodes h)
    (l : List NodeId) (hl : FirstChildFirst h r l) :
    ∃ c' g φ, run (c.clone fuel) h = .ok c' g ∧ (∀ n ∈ c.nodes, CopyOf h g c.nodes φ n) ∧
      (∀ n ∈ c.nodes, (g.get (φ n)).children = ((h.get n).children.reverse).map φ) ∧
      c'.nodes = l.map φ ∧ c'.movableNodes.map (posOf g) =
        (l.filter fun n => decide (Movable h n)).map (posOf h) := by
  obtain ⟨c', g, φ, e, wc, ug, fg, -, -, -, inj, copy, perm, -, -, -, ed, -⟩ :=
    C19_clone h u f c w r cr fuel hf
  obtain ⟨t, rt, id⟩ := f.exists_rep r
  have et := run_descendants h u fuel [t] (by simpa using rt)
    (by have := rt.pre_length_le f; simp; omega)
  simp only [List.map_cons, List.map_nil, id, List.flatMap_cons, List.flatMap_nil,
    List.append_nil] at et
  rw [whole] at et
  have ept : c.nodes = t.pre := by simpa using et
  have lp : ∀ n ∈ c.nodes, liveParent h n = (h.get n).parent := by
    intro n hn
    rcases cr.parent n hn with rfl | ⟨p, hp, e⟩
    · rw [cr.root]; simp [liveParent, cr.root]
    · rw [e, (liveParent_eq_some e).1]
  have ch : ∀ n ∈ c.nodes, (g.get (φ n)).children = ((h.get n).children.reverse).map φ := by
    intro n hn
    rw [(copy n hn).children, ← pre_filter f t rt n (ept ▸ hn), ← ept]
    congr 1
    exact List.filter_congr fun m hm => decide_eq_decide.2 (by rw [lp m hm])
  have closed : ∀ n ∈ c.nodes, ∀ k ∈ (h.get n).children, k ∈ c.nodes := by
    intro n hn k hk
    rw [ept, mem_pre_iff t rt] at *
    exact hn.step hk
  have key : ∀ n l, FirstChildFirst h n l → n ∈ c.nodes →
      (∀ m ∈ l, m ∈ c.nodes) ∧ ∃ t', Rep g t' ∧ t'.id = φ n ∧ t'.pre = l.map φ := by
    intro n l hl
    induction hl with
    | mk n below _ ih =>
      intro hn
      have ih' : ∀ k ∈ (h.get n).children, (∀ m ∈ below k, m ∈ c.nodes) ∧
          ∃ t', Rep g t' ∧ t'.id = φ k ∧ t'.pre = (below k).map φ :=
        fun k hk => ih k hk (closed n hn k hk)
      refine ⟨?_, ?_⟩
      · intro m hm
        rcases List.mem_cons.1 hm with rfl | hm
        · exact hn
        · obtain ⟨k, hk, hm⟩ := List.mem_flatMap.1 hm
          exact (ih' k hk).1 m hm
      · obtain ⟨ts, e1, e2, e3⟩ : ∃ ts : List RTree, (∀ t ∈ ts, Rep g t) ∧
            ts.map RTree.id = (h.get n).children.map φ ∧
            ts.flatMap RTree.pre = ((h.get n).children.flatMap below).map φ := by
          have := fun k hk => (ih' k hk).2
          generalize (h.get n).children = cs at this
          clear ih ih'
          induction cs with
          | nil => exact ⟨[], by simp⟩
          | cons k cs ihc =>
            obtain ⟨ts, a, b, d⟩ := ihc fun k hk => this k (by simp [hk])
            obtain ⟨t', r1, r2, r3⟩ := this k (by simp)
            exact ⟨t' :: ts, by simpa using ⟨r1, a⟩, by simp [r2, b], by simp [r3, d]⟩
        refine ⟨.node (φ n) ts.reverse, .mk _ _ ?_ ?_, rfl, ?_⟩
        · rw [ch n hn, List.map_reverse, List.map_reverse, e2]
        · exact fun t ht => e1 t (List.mem_reverse.1 ht)
        · rw [RTree.pre_node, List.reverse_reverse, e3, List.map_cons]
  have rmem : r ∈ c.nodes := List.mem_of_mem_head? (by rw [cr.first]; rfl)
  obtain ⟨lsub, t', rt', id', pre'⟩ := key r l hl rmem
  have et' := run_descendants g ug fuel [t'] (by simpa using rt') (by
    have : c'.nodes.length = c.nodes.length := by simpa using perm.length_eq
    have h3 := rt'.pre_length_le fg
    have : ∀ x ∈ t'.pre, x ∈ c'.nodes := by
      intro x hx
      rw [pre', List.mem_map] at hx
      obtain ⟨n, hn, rfl⟩ := hx
      exact (perm.mem_iff).2 (List.mem_map.2 ⟨n, lsub n hn, rfl⟩)
    have := (List.subperm_of_subset (pre_nodup fg t' rt') this).length_le
    simp; omega)
  simp only [List.map_cons, List.map_nil, id', List.flatMap_cons, List.flatMap_nil,
    List.append_nil] at et'
  rw [ed] at et'
  have en : c'.nodes = l.map φ := by rw [← pre']; simpa using et'
  refine ⟨c', g, φ, e, copy, ch, en, ?_⟩
  rw [wc.movable, en, List.filter_map, List.map_map]
  have : (l.filter ((fun n => decide (Movable g n)) ∘ φ)) = l.filter fun n => decide (Movable h n) :=
    List.filter_congr fun n hn => decide_eq_decide.2
      (by simp only [Movable, (copy n (lsub n hn)).joint])
  rw [this]
  refine List.map_congr_left fun n hn => ?_
  simp only [Function.comp, posOf, (copy n (lsub n (List.mem_filter.1 hn).1)).joint]

private theorem split_unique (p q s t : List NodeId) (a : NodeId) (hp : a ∉ p) (hq : a ∉ q)
    (e : p ++ a :: s = q ++ a :: t) : s = t := by
  induction p generalizing q with
  | nil =>
    cases q with
    | nil => simpa using e
    | cons y q => simp at e; exact absurd e.1 fun h => hq (by simp [h])
  | cons x p ih =>
    cases q with
    | nil => simp at e; exact absurd e.1.symm fun h => hp (by simp [h])
    | cons y q =>
      simp only [List.cons_append, List.cons.injEq] at e
      exact ih q (fun h => hp (by simp [h])) (fun h => hq (by simp [h])) e.2

/-- **C19** (order of a copied path).  If every node of the chain is the parent of the next one, the
clone lists the copies in the same order; `joint_positions()` reads the same values. -/
theorem C19_path (h : KHeap T) (u : h.Unlocked) (f : Forest h) (c : Chain) (w : c.Wf h) (r : NodeId)
    (cr : CloneReady h c r) (fuel : Nat) (hf : h.next + c.nodes.length + 1 ≤ fuel)
    (path : ∀ pre a b post, c.nodes = pre ++ a :: b :: post → liveParent h b = some a) :
    ∃ c' g φ, run (c.clone fuel) h = .ok c' g ∧ (∀ n ∈ c.nodes, CopyOf h g c.nodes φ n) ∧
      c'.nodes = c.nodes.map φ ∧ c'.movableNodes.map (posOf g) = c.movableNodes.map (posOf h) ∧
      c'.Wf g ∧ g.Unlocked ∧ g.next = h.next + c.nodes.length ∧
      (∀ n ∈ c.nodes, h.next ≤ φ n ∧ φ n < g.next ∧ g.dead (φ n) = false) ∧
      (∀ a ∈ c.nodes, ∀ b ∈ c.nodes, φ a = φ b → a = b) ∧
      ∀ m, (∀ n ∈ c.nodes, φ n ≠ m) → g.get m = h.get m ∧ g.dead m = h.dead m := by
  obtain ⟨c', g, φ, e, wc, ug, fg, nx, -, fresh, inj, copy, perm, hd, -, -, ed, rest'⟩ :=
    C19_clone h u f c w r cr fuel hf
  obtain ⟨rest, ens⟩ : ∃ rest, c.nodes = r :: rest := by
    have := cr.first
    cases hc : c.nodes with
    | nil => rw [hc] at this; cases this
    | cons x xs => rw [hc] at this; simp at this; exact ⟨xs, by rw [this]⟩
  -- the only child of a node of the chain within the chain is its successor
  have only : ∀ pre a post, c.nodes = pre ++ a :: post → ∀ m ∈ c.nodes,
      liveParent h m = some a → ∃ post', post = m :: post' := by
    intro pre a post e1 m hm e2
    obtain ⟨pre', post', e3⟩ := List.append_of_mem hm
    rcases pre'.eq_nil_or_concat with rfl | ⟨pre'', z, rfl⟩
    · rw [ens] at e3
      simp at e3
      rw [← e3.1] at e2
      exact absurd (liveParent_eq_some e2).1 (by rw [cr.root]; simp)
    · have e4 := path pre'' z m post' (by rw [e3]; simp)
      rw [e2] at e4; cases e4
      have nd := cr.nodup
      have e5 : pre ++ a :: post = pre'' ++ a :: (m :: post') := by
        rw [← e1, e3]; simp
      have n1 : a ∉ pre := fun x => by
        rw [e1] at nd; exact (List.nodup_append.1 nd).2.2 a x a (by simp) rfl
      have n2 : a ∉ pre'' := fun x => by
        rw [e1, e5] at nd; exact (List.nodup_append.1 nd).2.2 a x a (by simp) rfl
      have := split_unique pre pre'' post (m :: post') a n1 n2 e5
      exact ⟨post', this⟩
  have key : ∀ post pre a, c.nodes = pre ++ a :: post →
      ∃ t, Rep g t ∧ t.id = φ a ∧ t.pre = (a :: post).map φ := by
    intro post
    induction post with
    | nil =>
      intro pre a e1
      refine ⟨.node (φ a) [], .mk _ _ ?_ (by simp), rfl, by simp [RTree.pre_node]⟩
      rw [(copy a (by rw [e1]; simp)).children]
      simp only [List.map_nil, List.map_eq_nil_iff, List.filter_eq_nil_iff, decide_eq_true_eq]
      intro m hm e2
      obtain ⟨_, x⟩ := only pre a [] e1 m hm e2
      cases x
    | cons b post ih =>
      intro pre a e1
      obtain ⟨t, rt, id, ep⟩ := ih (pre ++ [a]) b (by rw [e1]; simp)
      refine ⟨.node (φ a) [t], .mk _ _ ?_ (by simpa using rt), rfl, by simp [RTree.pre_node, ep]⟩
      rw [(copy a (by rw [e1]; simp)).children]
      have : (c.nodes.filter fun m => liveParent h m = some a) = [b] := by
        rw [← List.perm_singleton, List.perm_ext_iff_of_nodup (cr.nodup.filter _) (by simp)]
        intro m
        simp only [List.mem_filter, decide_eq_true_eq, List.mem_singleton]
        constructor
        · rintro ⟨hm, e2⟩
          obtain ⟨_, x⟩ := only pre a (b :: post) e1 m hm e2
          cases x; rfl
        · rintro rfl
          exact ⟨by rw [e1]; simp, path pre a m post e1⟩
      rw [this]; simp [id]
  obtain ⟨t, rt, id, ep⟩ := key rest [] r ens
  have et' := run_descendants g ug fuel [t] (by simpa using rt) (by
    simp [ep]; rw [ens] at hf; simp at hf; omega)
  simp only [List.map_cons, List.map_nil, id, List.flatMap_cons, List.flatMap_nil,
    List.append_nil] at et'
  rw [ed] at et'
  have en : c'.nodes = c.nodes.map φ := by
    rw [ens, ← ep]; simpa using et'
  refine ⟨c', g, φ, e, copy, en, ?_, wc, ug, nx, fresh, inj, rest'⟩
  rw [wc.movable, w.movable, en, List.filter_map, List.map_map]
  have : (c.nodes.filter ((fun n => decide (Movable g n)) ∘ φ)) =
      c.nodes.filter fun n => decide (Movable h n) :=
    List.filter_congr fun n hn => decide_eq_decide.2
      (by simp only [Movable, (copy n hn).joint])
  rw [this]
  refine List.map_congr_left fun n hn => ?_
  simp only [Function.comp, posOf, (copy n (List.mem_filter.1 hn).1).joint]

/-! ### the order of a branching chain is not kept -/

/-- `exTree` with position `n` at node `n` -/
noncomputable def exTreePos : KHeap ℝ :=
  { exTree with get := fun n =>
      { exTree.get n with joint := { (exTree.get n).joint with position := (n : ℝ) } } }

theorem exTreePos_forest : Forest exTreePos :=
  exTree_forest.frame (Nat.le_refl _) fun _ => ⟨rfl, rfl⟩

theorem exTreePos_ready : CloneReady exTreePos ⟨[0, 2, 1, 3], [0, 2, 1, 3], 4⟩ 0 := by
  refine ⟨rfl, by simp [exTreePos, exTree, NodeImpl.fresh], by decide, ?_, ?_, ?_, ?_⟩
  · have : exTreePos.next = 4 := rfl
    simp only [this]; decide
  · intro n hn
    simp only [List.mem_cons, List.not_mem_nil, or_false] at hn
    rcases hn with rfl | rfl | rfl | rfl
    · exact .inl rfl
    · exact .inr ⟨0, by simp, by simp [liveParent, exTreePos, exTree]⟩
    · exact .inr ⟨0, by simp, by simp [liveParent, exTreePos, exTree]⟩
    · exact .inr ⟨1, by simp, by simp [liveParent, exTreePos, exTree]⟩
  all_goals
    intro n hn m hm
    simp only [List.mem_cons, List.not_mem_nil, or_false] at hn
    rcases hn with rfl | rfl | rfl | rfl <;>
      simp [liveMimic, exTreePos, exTree, NodeImpl.fresh] at hm

theorem exTreePos_wf : Chain.Wf exTreePos ⟨[0, 2, 1, 3], [0, 2, 1, 3], 4⟩ := by
  refine ⟨?_, rfl⟩
  refine (List.filter_eq_self.2 ?_).symm
  intro n hn
  simp only [List.mem_cons, List.not_mem_nil, or_false] at hn
  rcases hn with rfl | rfl | rfl | rfl <;>
    simp [Movable, exTreePos, exTree, NodeImpl.fresh, Joint.new]

/-- **C19** (refutation of the order part).  `joint_positions()` of a branching chain reads `0, 2, 1, 3`
and that of its clone `0, 1, 3, 2`; so `clone.set_joint_positions(orig.joint_positions())` moves other
joints. -/
theorem C19_order_refuted : ∃ c' g,
    run (Chain.fromRoot 9 0) exTreePos = .ok ⟨[0, 2, 1, 3], [0, 2, 1, 3], 4⟩ exTreePos ∧
    run (Chain.clone 9 ⟨[0, 2, 1, 3], [0, 2, 1, 3], 4⟩) exTreePos = .ok c' g ∧
    [0, 2, 1, 3].map (posOf exTreePos) = [some 0, some 2, some 1, some 3] ∧
    c'.movableNodes.map (posOf g) = [some 0, some 1, some 3, some 2] := by
  have desc : ∀ fuel, 5 ≤ fuel → run (descendants fuel [0]) exTreePos = .ok [0, 2, 1, 3] exTreePos := by
    intro fuel hf
    have e := run_descendants exTreePos (fun _ => rfl) fuel
      [.node 0 [.node 1 [.node 3 []], .node 2 []]] (by
        intro t ht
        simp only [List.mem_singleton] at ht
        subst ht
        refine .mk _ _ (by simp [exTreePos, exTree, RTree.id]) ?_
        simp only [List.mem_cons, List.not_mem_nil, or_false]
        rintro t (rfl | rfl)
        · refine .mk _ _ (by simp [exTreePos, exTree, RTree.id]) ?_
          simp only [List.mem_singleton]
          rintro t rfl
          exact .mk _ _ (by simp [exTreePos, exTree, NodeImpl.fresh]) (by simp)
        · exact .mk _ _ (by simp [exTreePos, exTree, NodeImpl.fresh]) (by simp))
      (by simp [RTree.pre_node]; omega)
    simpa [RTree.pre_node, RTree.id] using e
  have fcf : FirstChildFirst exTreePos 0 [0, 1, 3, 2] := by
    have c0 : (exTreePos.get 0).children = [1, 2] := by simp [exTreePos, exTree]
    have c1 : (exTreePos.get 1).children = [3] := by simp [exTreePos, exTree]
    have c2 : (exTreePos.get 2).children = [] := by simp [exTreePos, exTree, NodeImpl.fresh]
    have c3 : (exTreePos.get 3).children = [] := by simp [exTreePos, exTree, NodeImpl.fresh]
    have f3 : FirstChildFirst exTreePos 3 [3] := by
      have := FirstChildFirst.mk (h := exTreePos) 3 (fun _ => []) (by simp [c3])
      simpa [c3] using this
    have f2 : FirstChildFirst exTreePos 2 [2] := by
      have := FirstChildFirst.mk (h := exTreePos) 2 (fun _ => []) (by simp [c2])
      simpa [c2] using this
    have f1 : FirstChildFirst exTreePos 1 [1, 3] := by
      have := FirstChildFirst.mk (h := exTreePos) 1 (fun _ => [3]) (by simpa [c1] using f3)
      simpa [c1] using this
    have := FirstChildFirst.mk (h := exTreePos) 0 (fun n => if n = 1 then [1, 3] else [2])
      (by simpa [c0] using ⟨f1, f2⟩)
    simpa [c0] using this
  obtain ⟨c', g, φ, e, -, -, -, ep⟩ := C19_order exTreePos (fun _ => rfl) exTreePos_forest
    ⟨[0, 2, 1, 3], [0, 2, 1, 3], 4⟩ exTreePos_wf 0 exTreePos_ready 9
    (by have : exTreePos.next = 4 := rfl
        simp [this]) (desc 9 (by decide)) _ fcf
  have mv : ∀ n, Movable exTreePos n := by
    intro n
    simp only [Movable, exTreePos, exTree]
    split <;> (try split) <;> (try split) <;> (try split) <;> simp [NodeImpl.fresh, Joint.new]
  have po : ∀ n, posOf exTreePos n = some (n : ℝ) := by
    intro n
    have := mv n
    simp only [posOf, Joint.jointPosition]
    unfold Movable at this
    cases e : (exTreePos.get n).joint.jointType with
    | fixed => exact absurd e this
    | rotational a => rfl
    | linear a => rfl
  refine ⟨c', g, ?_, e, ?_, ?_⟩
  · obtain ⟨c, ec, en, wc⟩ := C07_from_nodes exTreePos (fun _ => rfl) [0, 2, 1, 3]
    simp only [Chain.fromRoot, run_bind, desc 9 (by decide), Res.bind_ok, ec]
    congr 1
    obtain ⟨ns, ms, d⟩ := c
    simp only at en
    have h1 := wc.movable
    have h2 := wc.dof
    simp only at h1 h2
    subst en
    rw [List.filter_eq_self.2 (by intro n _; simpa using mv n)] at h1
    subst h1
    subst h2
    rfl
  · simp [po]
  · rw [ep, List.filter_eq_self.2 (by intro n _; simpa using mv n)]
    simp [po]

/-! ## C18 -/

/-- the call gives none of the nodes in `O` as a node to write to -/
def Call.Avoids (O : NodeId → Prop) {β : Type} : Call T β → Prop
  | .setParent n p | .removeParent n p | .setMimicParent n p _ => ¬ O n ∧ ¬ O p
  | .setLink n _ | .setOrigin n _ | .setJointPosition n _ | .setJointPositionClamped n _
  | .setJointPositionUnchecked n _ => ¬ O n
  | .chainSetOrigin c _ | .setJointPositions c _ | .setJointPositionsClamped c _
  | .setJointPositionsUnchecked c _ | .updateTransforms c | .updateVelocities c
  | .updateLinkTransforms c | .jacobian c | .centerOfMass c | .solve _ c _ _ =>
    ∀ n, n ∈ c.nodes ∨ n ∈ c.movableNodes → ¬ O n
  | _ => True

theorem safe_avoids (O : NodeId → Prop) (h : KHeap T) (hO : ∀ m, O m → m < h.next) {β : Type}
    (c : Call T β) (a : c.Avoids O) :
    Safe h.next (fun m s => (O m → s = h.get m) ∧ (¬ O m → ∀ k ∈ s.mimicChildren, ¬ O k))
      (fun _ => True) c.prog := by
  have keep : ∀ {m : NodeId} {s s' : NodeImpl T}, ¬ O m →
      ((O m → s = h.get m) ∧ (¬ O m → ∀ k ∈ s.mimicChildren, ¬ O k)) →
      s'.mimicChildren = s.mimicChildren →
      (O m → s' = h.get m) ∧ (¬ O m → ∀ k ∈ s'.mimicChildren, ¬ O k) := by
    intro m s s' no hs e
    exact ⟨fun o => absurd o no, fun _ => by rw [e]; exact hs.2 no⟩
  have new : ∀ m, h.next ≤ m → ¬ O m := fun m hm o => absurd (hO m o) (Nat.not_lt.2 hm)
  have set : ∀ n, ¬ O n → SetOK (fun m (s : NodeImpl T) =>
      (O m → s = h.get m) ∧ (¬ O m → ∀ k ∈ s.mimicChildren, ¬ O k)) n := fun n no =>
    ⟨fun y s hs => keep no hs rfl, fun s hs k hk y s' hs' => keep (hs.2 no k hk) hs' rfl⟩
  refine safe_call c ?_ ?_ ?_
  · intro m f hf s hs
    cases c <;> first
      | exact hf.elim
      | skip
    case setParent => rcases hf with ⟨rfl, rfl⟩ | ⟨rfl, rfl⟩; exacts [keep a.1 hs rfl, keep a.2 hs rfl]
    case removeParent =>
      rcases hf with ⟨rfl, rfl⟩ | ⟨rfl, rfl⟩; exacts [keep a.1 hs rfl, keep a.2 hs rfl]
    case setMimicParent =>
      rcases hf with ⟨rfl, rfl⟩ | ⟨rfl, rfl⟩ | ⟨rfl, rfl⟩
      · exact keep a.1 hs rfl
      · refine ⟨fun o => absurd o a.2, fun no k hk => ?_⟩
        rcases List.mem_append.1 hk with x | x
        · exact hs.2 no k x
        · rw [List.mem_singleton.1 x]; exact a.1
      · exact keep a.1 hs rfl
    case setLink => rcases hf with ⟨rfl, rfl⟩; exact keep a hs rfl
    case setOrigin => rcases hf with ⟨rfl, rfl⟩; exact keep a hs rfl
    case setJointPositionClamped => rcases hf with ⟨rfl, rfl⟩; exact keep a hs rfl
    case setJointPositionUnchecked => rcases hf with ⟨rfl, rfl⟩; exact keep a hs rfl
    case chainSetOrigin => rcases hf with ⟨hm, rfl⟩; exact keep (a m (.inl hm)) hs rfl
    case setJointPositionsClamped =>
      rcases hf with ⟨hm, y, -, rfl⟩; exact keep (a m (.inr hm)) hs rfl
    case setJointPositionsUnchecked =>
      rcases hf with ⟨hm, y, -, rfl⟩; exact keep (a m (.inr hm)) hs rfl
    case updateTransforms => rcases hf with ⟨hm, t, rfl⟩; exact keep (a m (.inl hm)) hs rfl
    case updateVelocities =>
      rcases hf with ⟨hm, ⟨t, rfl⟩ | ⟨t, rfl⟩⟩ <;> exact keep (a m (.inl hm)) hs rfl
    case updateLinkTransforms =>
      rcases hf with ⟨hm, ⟨t, rfl⟩ | ⟨t, rfl⟩⟩ <;> exact keep (a m (.inl hm)) hs rfl
    case cloneChain =>
      have no := new m hf.1
      rcases hf.2 with ⟨l, rfl⟩ | ⟨l, rfl⟩ | ⟨l, -, rfl⟩ | ⟨l, rfl⟩ | ⟨l, hl, rfl⟩ | ⟨l, rfl⟩
      · exact keep no hs rfl
      · exact keep no hs rfl
      · exact keep no hs rfl
      · exact keep no hs rfl
      · refine ⟨fun o => absurd o no, fun no k hk => ?_⟩
        rcases List.mem_append.1 hk with x | x
        · exact hs.2 no k x
        · rw [List.mem_singleton.1 x]; exact new l hl
      · exact keep no hs rfl
    case jacobian => rcases hf with ⟨hm, t, rfl⟩; exact keep (a m (.inl hm)) hs rfl
    case centerOfMass => rcases hf with ⟨hm, t, rfl⟩; exact keep (a m (.inl hm)) hs rfl
    case solve =>
      rcases hf with ⟨hm, t, rfl⟩ | ⟨hm, t, rfl⟩
      · exact keep (a m (.inl hm)) hs rfl
      · exact keep (a m (.inr hm)) hs rfl
  · intro n hn
    cases c <;> first
      | exact hn.elim
      | skip
    case setJointPosition => exact set n (hn ▸ a)
    case setJointPositions => exact set n (a n (.inr hn))
    case solve => exact set n (a n (.inr hn))
  · cases c <;> first
      | trivial
      | skip
    case newNode => exact fun m hm => ⟨fun o => absurd o (new m hm), fun _ k hk => by cases hk⟩
    case cloneChain =>
      exact fun _ _ _ m hm => ⟨fun o => absurd o (new m hm), fun _ k hk => by cases hk⟩

/-- **C18** (frame).  Let `O` be a set of existing nodes that are no mimic children of nodes outside
`O`.  However many threads run whatever programs that are never given a node of `O` to write to, no
node of `O` changes, at any time. -/
theorem C18_frame {α : Type} (h : KHeap T) (O : NodeId → Prop) (hO : ∀ m, O m → m < h.next)
    (closed : ∀ m, ¬ O m → ∀ k ∈ (h.get m).mimicChildren, ¬ O k)
    (cls : List (Client T α)) (a : ∀ cl ∈ cls, cl.Only (Call.Avoids O))
    (d : Config (NodeImpl T) α) (st : DSteps ⟨h, cls.map Client.prog⟩ d) :
    ∀ m, O m → d.heap.get m = h.get m := by
  have := (steps_safe (lo := h.next) (P := fun m s => (O m → s = h.get m) ∧
      (¬ O m → ∀ k ∈ s.mimicChildren, ¬ O k)) (Q := fun _ => True) st (fun p hp => by
    obtain ⟨cl, hcl, rfl⟩ := List.mem_map.1 hp
    exact safe_client_of (φ := Call.Avoids O) (fun c ac => safe_avoids O h hO c ac) cl (a cl hcl))
    ⟨Nat.le_refl _, fun m => ⟨fun _ => rfl, closed m⟩⟩).2
  exact fun m hm => (this.2 m).1 hm

/-- **C18** (cloning itself).  `clone` never changes an existing node, whatever chain it is given and
however it ends.  (`C18_frame` says the same for a `clone` running beside other threads.) -/
theorem C18_clone_frame (h : KHeap T) (c : Chain) (fuel : Nat) :
    match run (c.clone fuel : KProg T Chain) h with
    | .ok _ g => ∀ m < h.next, g.get m = h.get m
    | .panic _ g => ∀ m < h.next, g.get m = h.get m
    | .blocked _ g => ∀ m < h.next, g.get m = h.get m
    | .diverged => True := by
  have safe : Safe h.next (fun m (s : NodeImpl T) => m < h.next → s = h.get m) (fun _ => True)
      (c.clone fuel : KProg T Chain) :=
    Chain.safe_clone c fuel (fun _ _ _ m hm lt => absurd lt (Nat.not_lt.2 hm))
      (fun n hn _ _ _ lt => absurd lt (Nat.not_lt.2 hn))
      (fun n hn _ _ _ lt => absurd lt (Nat.not_lt.2 hn))
      (fun n hn _ _ _ _ lt => absurd lt (Nat.not_lt.2 hn))
      (fun n hn _ _ _ lt => absurd lt (Nat.not_lt.2 hn))
      (fun n hn _ _ _ _ lt => absurd lt (Nat.not_lt.2 hn))
      (fun n hn _ _ _ lt => absurd lt (Nat.not_lt.2 hn))
  have := run_safe safe (h := h) ⟨Nat.le_refl _, fun _ _ => rfl⟩
  cases e : run (c.clone fuel : KProg T Chain) h with
  | ok x g => rw [e] at this; exact this.2.2
  | panic m g => rw [e] at this; exact this.2
  | blocked m g => rw [e] at this; exact this.2
  | diverged => trivial

/-- **C18**.  After cloning a chain, programs that never write to the old nodes leave all of them as
they were, and programs that never write to the copies leave the copies as they were: the two chains
share no node and no mimic relation.  (Mimic children of old nodes are old nodes: `hm`.) -/
theorem C18_independent {α : Type} (h : KHeap T) (u : h.Unlocked) (f : Forest h) (c : Chain)
    (w : c.Wf h) (r : NodeId) (cr : CloneReady h c r)
    (hm : ∀ m, ∀ k ∈ (h.get m).mimicChildren, k < h.next ∧ m < h.next)
    (fuel : Nat) (hf : h.next + c.nodes.length + 1 ≤ fuel) :
    ∃ c' g, run (c.clone fuel) h = .ok c' g ∧ (∀ n ∈ c.nodes, n < h.next) ∧
      (∀ n ∈ c'.nodes, h.next ≤ n ∧ n < g.next) ∧
      (∀ (cls : List (Client T α)) (_ : ∀ cl ∈ cls, cl.Only (Call.Avoids fun m => m < h.next))
        (d : Config (NodeImpl T) α) (_ : DSteps ⟨g, cls.map Client.prog⟩ d),
        ∀ m < h.next, d.heap.get m = h.get m) ∧
      (∀ (cls : List (Client T α))
        (_ : ∀ cl ∈ cls, cl.Only (Call.Avoids fun m => h.next ≤ m ∧ m < g.next))
        (d : Config (NodeImpl T) α) (_ : DSteps ⟨g, cls.map Client.prog⟩ d),
        ∀ m, h.next ≤ m → m < g.next → d.heap.get m = g.get m) := by
  obtain ⟨c', g, φ, e, wc, ug, fg, nx, old, new, inj, copy, perm, -, -, -⟩ :=
    C19_clone h u f c w r cr fuel hf
  obtain ⟨g', iv, eg⟩ := (Cl.run_clone u c (cr.handles f) fuel r cr.first).1 ⟨cr.root, cr.closed⟩
  have gg : g = g' := by
    have fg' := iv.forest f cr.closed
    obtain ⟨c2, ec, -⟩ := C09_from_root g' (iv.unlocked u) fg' h.next
    rw [eg, ec fuel (by rw [iv.next]; exact hf)] at e
    cases e; rfl
  subst gg
  have mc : ∀ m, (m < h.next ∧ g.get m = h.get m) ∨
      (h.next ≤ m ∧ m < g.next ∧ ∀ k ∈ (g.get m).mimicChildren, h.next ≤ k ∧ k < g.next) ∨
      (g.next ≤ m ∧ (g.get m).mimicChildren = []) := by
    intro m
    by_cases h1 : m < h.next
    · exact .inl ⟨h1, (old m h1).1⟩
    · by_cases h2 : m < g.next
      · refine .inr (.inl ⟨Nat.not_lt.1 h1, h2, fun k hk => ?_⟩)
        rw [nx] at h2
        have ei := iv.copy (m - h.next) (by omega)
        rw [show h.next + (m - h.next) = m by omega] at ei
        rw [ei] at hk
        simp only [Cl.cell, List.mem_map, List.mem_filter, List.mem_range] at hk
        obtain ⟨j, ⟨hj, -⟩, rfl⟩ := hk
        rw [nx]; omega
      · refine .inr (.inr ⟨Nat.not_lt.1 h2, ?_⟩)
        rw [iv.old m (.inr (by omega))]
        cases ec : (h.get m).mimicChildren with
        | nil => rfl
        | cons k ks => have := (hm m k (by simp [ec])).2; omega
  refine ⟨c', g, e, cr.node, ?_, ?_, ?_⟩
  · intro n hn
    obtain ⟨k, hk, rfl⟩ := List.mem_map.1 (perm.mem_iff.1 hn)
    exact ⟨(new k hk).1, (new k hk).2.1⟩
  · intro cls a d st m hlt
    rw [← (old m hlt).1]
    refine C18_frame g (fun m => m < h.next) (fun m hm => by rw [nx]; omega) ?_ cls a d st m hlt
    intro m nm k hk
    rcases mc m with x | ⟨-, -, x⟩ | ⟨-, x⟩
    · exact absurd x.1 nm
    · have := x k hk; omega
    · rw [x] at hk; cases hk
  · intro cls a d st m h1 h2
    refine C18_frame g (fun m => h.next ≤ m ∧ m < g.next) (fun m hm => hm.2) ?_ cls a d st m ⟨h1, h2⟩
    intro m nm k hk
    rcases mc m with ⟨x, y⟩ | ⟨x1, x2, -⟩ | ⟨-, x⟩
    · rw [y] at hk
      have := hm m k hk; omega
    · exact absurd ⟨x1, x2⟩ nm
    · rw [x] at hk; cases hk

/-- the hypotheses are met by a branching chain -/
example : ∃ c' g, run (Chain.clone 9 ⟨[0, 2, 1, 3], [0, 2, 1, 3], 4⟩) exTreePos = .ok c' g ∧
    ∀ n ∈ c'.nodes, 4 ≤ n ∧ n < g.next := by
  obtain ⟨c', g, e, -, a, -⟩ := C18_independent (α := Unit) exTreePos (fun _ => rfl) exTreePos_forest
    ⟨[0, 2, 1, 3], [0, 2, 1, 3], 4⟩ exTreePos_wf 0 exTreePos_ready
    (by intro m k hk
        simp only [exTreePos, exTree] at hk
        split at hk <;> (try split at hk) <;> (try split at hk) <;> (try split at hk) <;>
          simp [NodeImpl.fresh] at hk) 9
    (by have : exTreePos.next = 4 := rfl
        simp [this])
  exact ⟨c', g, e, a⟩

end K
