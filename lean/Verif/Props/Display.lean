import Verif.Props.Traverse
/-!
# C43: `Display for Chain`
-/

set_option linter.unusedSectionVars false

namespace K
open Prog
variable {T : Type} [Scalar T]

/-- `k` is the number of steps from `r` down to `n` -/
inductive DepthBelow (h : KHeap T) (r : NodeId) : NodeId → Nat → Prop
  | top : DepthBelow h r r 0
  | step {p n : NodeId} {k : Nat} (d : DepthBelow h r p k) (c : n ∈ (h.get p).children) :
      DepthBelow h r n (k + 1)

/-- four spaces per level, the text of the node, a line break -/
def lineOf (h : KHeap T) (x : NodeId × Nat) : String :=
  String.ofList (List.replicate (4 * x.2) ' ') ++ (h.get x.1).display ++ "\n"

mutual
/-- the lines below `n` at level `k`: first `n` itself, then the lines below its children in the order in
which they were attached; nodes that are not in `ns` write nothing themselves -/
inductive Printed (h : KHeap T) (ns : List NodeId) : Nat → NodeId → List (NodeId × Nat) → Prop
  | mk {k : Nat} {n : NodeId} {ls : List (NodeId × Nat)}
      (b : PrintedAll h ns (k + 1) (h.get n).children ls) :
      Printed h ns k n ((if n ∈ ns then [(n, k)] else []) ++ ls)
/-- the same for several nodes one after the other -/
inductive PrintedAll (h : KHeap T) (ns : List NodeId) : Nat → List NodeId → List (NodeId × Nat) → Prop
  | nil {k : Nat} : PrintedAll h ns k [] []
  | cons {k : Nat} {n : NodeId} {cs : List NodeId} {l ls : List (NodeId × Nat)}
      (a : Printed h ns k n l) (b : PrintedAll h ns k cs ls) : PrintedAll h ns k (n :: cs) (l ++ ls)
end

private theorem displayLine_eq (h : KHeap T) (n : NodeId) (k : Nat) :
    displayLine k (h.get n) = lineOf h (n, k) := by
  unfold displayLine lineOf
  congr 2
  induction k with
  | zero => rfl
  | succ k ih =>
    have : String.join (List.replicate (k + 1) "    ") =
        String.join (List.replicate k "    ") ++ "    " := by
      rw [List.replicate_succ']
      simp [String.join]
    rw [this, ih]
    have e : (4 * (k + 1)) = 4 * k + 4 := by omega
    show _ = String.ofList (List.replicate (4 * (k + 1)) ' ')
    rw [e, ← List.replicate_append_replicate, String.ofList_append]
    rfl

mutual
/-- nodes of a tree with their levels, children in the order they were attached -/
def RTree.lines (k : Nat) : RTree → List (NodeId × Nat)
  | .node n ts => (n, k) :: RTree.linesL (k + 1) ts
/-- the same for a list of trees -/
def RTree.linesL (k : Nat) : List RTree → List (NodeId × Nat)
  | [] => []
  | t :: ts => RTree.lines k t ++ RTree.linesL k ts
end

private theorem linesL_eq (k : Nat) (ts : List RTree) :
    RTree.linesL k ts = ts.flatMap (RTree.lines k) := by
  induction ts with
  | nil => rfl
  | cons t ts ih => simp [RTree.linesL, ih]

private theorem lines_perm (t : RTree) : ∀ k, ((t.lines k).map Prod.fst).Perm t.pre := by
  refine RTree.induct' (P := fun t => ∀ k, ((t.lines k).map Prod.fst).Perm t.pre) ?_ t
  intro n ts ih k
  rw [RTree.pre_node, RTree.lines, linesL_eq, List.map_cons]
  refine List.Perm.cons _ ?_
  rw [List.map_flatMap]
  exact (List.Perm.flatMap_left ts fun t ht => ih t ht (k + 1)).trans
    (List.Perm.flatMap_right _ (List.reverse_perm ts).symm)

private theorem lines_depth {h : KHeap T} (r : NodeId) (t : RTree) : Rep h t → ∀ k,
    DepthBelow h r t.id k → ∀ x ∈ t.lines k, DepthBelow h r x.1 x.2 := by
  refine RTree.induct' (P := fun t => Rep h t → ∀ k, DepthBelow h r t.id k → ∀ x ∈ t.lines k,
    DepthBelow h r x.1 x.2) ?_ t
  intro n ts ih rt k d x hx
  rw [RTree.lines, linesL_eq, List.mem_cons, List.mem_flatMap] at hx
  rcases hx with rfl | ⟨t, ht, hx⟩
  · exact d
  · refine ih t ht (rt.sub t ht) (k + 1) (.step d ?_) x hx
    show t.id ∈ (h.get n).children
    rw [rt.children]; exact List.mem_map.2 ⟨t, ht, rfl⟩

private theorem lines_printed {h : KHeap T} (ns : List NodeId) (t : RTree) : Rep h t → ∀ k,
    Printed h ns k t.id ((t.lines k).filter fun x => decide (x.1 ∈ ns)) := by
  refine RTree.induct' (P := fun t => Rep h t → ∀ k,
    Printed h ns k t.id ((t.lines k).filter fun x => decide (x.1 ∈ ns))) ?_ t
  intro n ts ih rt k
  have all : ∀ us : List RTree, (∀ u ∈ us, u ∈ ts) →
      PrintedAll h ns (k + 1) (us.map RTree.id)
        ((us.flatMap (RTree.lines (k + 1))).filter fun x => decide (x.1 ∈ ns)) := by
    intro us
    induction us with
    | nil => intro _; exact .nil
    | cons u us ihu =>
      intro hu
      rw [List.map_cons, List.flatMap_cons, List.filter_append]
      exact .cons (ih u (hu u (by simp)) (rt.sub u (hu u (by simp))) (k + 1))
        (ihu fun v hv => hu v (by simp [hv]))
  have := all ts fun _ h => h
  rw [← rt.children] at this
  have e : ((RTree.node n ts).lines k).filter (fun x => decide (x.1 ∈ ns)) =
      (if n ∈ ns then [(n, k)] else []) ++
        (ts.flatMap (RTree.lines (k + 1))).filter fun x => decide (x.1 ∈ ns) := by
    rw [RTree.lines, linesL_eq, ← List.singleton_append (l := ts.flatMap _), List.filter_append]
    congr 1
    by_cases hn : n ∈ ns <;> simp [hn]
  rw [e]
  exact .mk this

private theorem Rep.setHeld {h : KHeap T} (m : NodeId) (b : Bool) (t : RTree) :
    Rep h t → Rep (h.setHeld m b) t := by
  refine RTree.induct' (P := fun t => Rep h t → Rep (h.setHeld m b) t) ?_ t
  intro n ts ih r
  exact .mk n ts r.children fun t ht => ih t ht (r.sub t ht)

private theorem fmt_run (c : Chain) (h0 : KHeap T) (f : Forest h0) (t : RTree) :
    Rep h0 t → ∀ fuel k (h : KHeap T), h.get = h0.get → (∀ m ∈ t.pre, h.held m = false) →
    t.pre.length ≤ fuel →
    run (c.fmtWithIndentLevel fuel k t.id) h =
      .ok (((t.lines k).filter fun x => decide (x.1 ∈ c.nodes)).map (lineOf h0)) h := by
  refine RTree.induct' (P := fun t => Rep h0 t → ∀ fuel k (h : KHeap T), h.get = h0.get →
    (∀ m ∈ t.pre, h.held m = false) → t.pre.length ≤ fuel →
    run (c.fmtWithIndentLevel fuel k t.id) h =
      .ok (((t.lines k).filter fun x => decide (x.1 ∈ c.nodes)).map (lineOf h0)) h) ?_ t
  intro n ts ih r fuel k h hg hh hf
  have nd := pre_nodup f _ r
  obtain ⟨fuel, rfl⟩ : ∃ j, fuel = j + 1 := ⟨fuel - 1, by simp [RTree.pre_node] at hf; omega⟩
  have hn : h.held n = false := hh n (by simp [RTree.pre_node])
  have sub : ∀ t ∈ ts, ∀ m ∈ t.pre, m ∈ ts.reverse.flatMap RTree.pre := fun t ht m hm =>
    List.mem_flatMap.2 ⟨t, List.mem_reverse.2 ht, hm⟩
  rw [RTree.pre_node] at nd hh hf
  -- the loop over the children, with node `n` locked
  have loop : ∀ us : List RTree, (∀ t ∈ us, t ∈ ts) →
      run (mapList (us.map RTree.id) (c.fmtWithIndentLevel fuel (k + 1))) (h.setHeld n true) =
        .ok (us.map fun t => ((t.lines (k + 1)).filter fun x => decide (x.1 ∈ c.nodes)).map
          (lineOf h0)) (h.setHeld n true) := by
    intro us hu
    induction us with
    | nil => rfl
    | cons t us ihu =>
      have ht := hu t (by simp)
      rw [List.map_cons, run_mapList_cons, ih t ht (r.sub t ht) fuel (k + 1) (h.setHeld n true)
        (by rw [← hg]; rfl) (by
          intro m hm
          rw [Heap.held_setHeld]
          split
          · rename_i e; subst e
            exact absurd (sub t ht _ hm) (List.nodup_cons.1 nd).1
          · exact hh m (List.mem_cons_of_mem _ (sub t ht m hm))) (by
          have : t.pre.length ≤ (ts.reverse.flatMap RTree.pre).length := by
            have : t ∈ ts.reverse := List.mem_reverse.2 ht
            obtain ⟨a, b, e⟩ := List.append_of_mem this
            rw [e]; simp only [List.flatMap_append, List.flatMap_cons, List.length_append]; omega
          simp only [List.length_cons] at hf; omega), Res.bind_ok,
        ihu fun t ht => hu t (by simp [ht])]
      rfl
  have hc : (h.get n).children = ts.map RTree.id := by rw [hg]; exact r.children
  have hany : c.nodes.any (fun x => x == n) = decide (n ∈ c.nodes) := by
    rw [Bool.eq_iff_iff]; simp
  simp only [RTree.id, Chain.fmtWithIndentLevel, hany]
  have here : run (if decide (n ∈ c.nodes) = true then do
        let s ← peek n
        pure [displayLine k s]
      else pure [] : KProg T (List String)) h =
      .ok (([(n, k)].filter fun x => decide (x.1 ∈ c.nodes)).map (lineOf h0)) h := by
    by_cases hm : n ∈ c.nodes
    · simp [hm, run_bind, run_peek _ _ hn, ← displayLine_eq, hg]
    · simp [hm]
  simp only [run_bind, here, Res.bind_ok, run_doLock_free _ _ hn, run_doRead, Heap.get_setHeld, hc,
    loop ts fun _ h => h, run_doUnlock, Heap.setHeld_setHeld_false _ _ hn, run_pure]
  congr 1
  rw [RTree.lines, linesL_eq, ← List.singleton_append (l := ts.flatMap _), List.filter_append,
    List.map_append, List.filter_flatMap, List.map_flatMap, List.flatMap_def]

/-- **C43** (any chain starting with `r` in a forest).  Printing returns, changes nothing, and writes one
line for each node of the chain that is below `r`, exactly once, indented by its depth below `r`, in
pre-order with siblings in the order in which they were attached. -/
theorem C43_display (h : KHeap T) (u : h.Unlocked) (f : Forest h) (c : Chain) (r : NodeId)
    (e : c.nodes.head? = some r) :
    ∃ ls : List (NodeId × Nat),
      (∀ fuel, h.next + 1 ≤ fuel → run (c.display fuel) h = .ok (String.join (ls.map (lineOf h))) h) ∧
      (ls.map Prod.fst).Nodup ∧ (∀ n, n ∈ ls.map Prod.fst ↔ n ∈ c.nodes ∧ Below h r n) ∧
      (∀ x ∈ ls, DepthBelow h r x.1 x.2) ∧ ls.head? = some (r, 0) ∧ Printed h c.nodes 0 r ls := by
  obtain ⟨t, rt, rfl⟩ := f.exists_rep r
  have sub : (((t.lines 0).filter fun x => decide (x.1 ∈ c.nodes)).map Prod.fst).Sublist
      ((t.lines 0).map Prod.fst) := List.Sublist.map _ List.filter_sublist
  have perm := lines_perm t 0
  have hr : t.id ∈ c.nodes := List.mem_of_head? e
  refine ⟨(t.lines 0).filter fun x => decide (x.1 ∈ c.nodes), fun fuel hf => ?_, ?_, ?_, ?_, ?_,
    lines_printed c.nodes t rt 0⟩
  · have := fmt_run c h f t rt fuel 0 h rfl (fun m _ => u m)
      (Nat.le_trans (rt.pre_length_le f) hf)
    unfold Chain.display
    cases hn : c.nodes with
    | nil => rw [hn] at e; cases e
    | cons n ns =>
      rw [hn] at e; cases e
      simp only [hn] at this
      simp only [run_bind, this, Res.bind_ok, run_pure]
  · exact sub.nodup (perm.nodup_iff.2 (pre_nodup f t rt))
  · intro n
    rw [← mem_pre_iff t rt n, ← perm.mem_iff]
    simp only [List.mem_map, List.mem_filter, decide_eq_true_eq]
    constructor
    · rintro ⟨x, ⟨a, b⟩, rfl⟩; exact ⟨b, x, a, rfl⟩
    · rintro ⟨b, x, a, rfl⟩; exact ⟨x, ⟨a, b⟩, rfl⟩
  · intro x hx
    exact lines_depth t.id t rt 0 .top x (List.mem_filter.1 hx).1
  · cases t with
    | node n ts =>
      have hr : n ∈ c.nodes := hr
      simp [RTree.lines, RTree.id, hr]

/-- **C43** (`from_root`).  Printing a chain built from a root prints exactly its nodes. -/
theorem C43_from_root (h : KHeap T) (u : h.Unlocked) (f : Forest h) (r : NodeId) (fuel : Nat)
    (hf : h.next + 1 ≤ fuel) :
    ∃ (c : Chain) (ls : List (NodeId × Nat)), run (Chain.fromRoot fuel r) h = .ok c h ∧
      run (c.display fuel) h = .ok (String.join (ls.map (lineOf h))) h ∧
      (ls.map Prod.fst).Perm c.nodes ∧ (∀ x ∈ ls, DepthBelow h r x.1 x.2) ∧
      ls.head? = some (r, 0) ∧ Printed h c.nodes 0 r ls := by
  obtain ⟨c, e, w, hd, nd, mem, -⟩ := C09_from_root h u f r
  obtain ⟨ls, a, b, c1, d, e1⟩ := C43_display h u f c r hd
  refine ⟨c, ls, e fuel hf, a fuel hf, (List.perm_ext_iff_of_nodup b nd).2 fun n => ?_, d, e1⟩
  rw [c1 n, mem n]
  exact ⟨fun x => x.2, fun x => ⟨x, x⟩⟩

/-- **C43** (depths are unambiguous in a forest) -/
theorem C43_depth_unique (h : KHeap T) (f : Forest h) (r n : NodeId) (j k : Nat)
    (a : DepthBelow h r n j) (b : DepthBelow h r n k) : j = k := by
  obtain ⟨rank, hr⟩ := f.acyclic
  have below : ∀ {n k}, DepthBelow h r n k → rank r ≤ rank n := by
    intro n k d
    induction d with
    | top => exact Nat.le_refl _
    | step _ hc ih => exact Nat.le_of_lt (Nat.lt_of_le_of_lt ih (hr _ _ ((f.agree _ _).1 hc)))
  induction a generalizing k with
  | top =>
    generalize hm : r = m at b
    cases b with
    | top => rfl
    | step d hc =>
      subst hm
      exact absurd (below d) (Nat.not_le.2 (hr _ _ ((f.agree _ _).1 hc)))
  | @step p n j d hc ih =>
    generalize hm : n = m at b
    cases b with
    | top =>
      subst hm
      exact absurd (below d) (Nat.not_le.2 (hr _ _ ((f.agree _ _).1 hc)))
    | @step q _ k d' hc' =>
      subst hm
      have := (f.agree _ _).1 hc
      rw [(f.agree _ _).1 hc'] at this
      cases this
      rw [ih k d']

/-- **C43** (empty chain): the first node is unwrapped. -/
theorem C43_empty_panics (h : KHeap T) (c : Chain) (e : c.nodes = []) (fuel : Nat) :
    run (c.display fuel) h = .panic "called `Option::unwrap()` on a `None` value" h := by
  simp [Chain.display, e]

/-- C43 applies to `exTree` -/
example : ∃ (c : Chain) (ls : List (NodeId × Nat)), run (Chain.fromRoot 5 0) exTree = .ok c exTree ∧
    run (c.display 5) exTree = .ok (String.join (ls.map (lineOf exTree))) exTree ∧
    (ls.map Prod.fst).Perm c.nodes := by
  obtain ⟨c, ls, a, b, d, -⟩ := C43_from_root exTree (fun _ => rfl) exTree_forest 0 5 (Nat.le_refl 5)
  exact ⟨c, ls, a, b, d⟩

end K
