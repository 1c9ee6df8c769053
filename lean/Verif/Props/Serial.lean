import Verif.Props.Traverse
/-!
# C20: `SerialChain::try_new`
-/

set_option linter.unusedSectionVars false

namespace K
open Prog
variable {T : Type} [Scalar T]

/-- **C20** (empty chain): the subtraction `nodes.len() - 1` overflows. -/
theorem C20_empty_panics (h : KHeap T) (c : Chain) (e : c.nodes = []) :
    run c.tryNew h = .panic "attempt to subtract with overflow" h := by
  simp [Chain.tryNew, e]

/-- **C20** (every non-empty chain).  `try_new` changes nothing and answers `Some` of the same chain
exactly when every node but the last has exactly one child (in the whole graph, not just in the chain);
otherwise it answers `None`. -/
theorem C20_try_new (h : KHeap T) (u : h.Unlocked) (c : Chain) (ns : List NodeId) (z : NodeId)
    (e : c.nodes = ns ++ [z]) :
    ((∀ n ∈ ns, ∃ d, (h.get n).children = [d]) → run c.tryNew h = .ok (some c) h) ∧
    ((∃ n ∈ ns, ∀ d, (h.get n).children ≠ [d]) → run c.tryNew h = .ok none h) := by
  have key : run c.tryNew h = .ok (match ns.find? fun n => (h.get n).children.length != 1 with
      | some _ => none
      | none => some c) h := by
    have ff : run (findFirst ns fun n => do return (← Node.children n).length != 1) h =
        .ok (ns.find? fun n => (h.get n).children.length != 1) h :=
      run_findFirst_pure fun n _ => by
        simp only [run_bind, run_Node_children _ _ (u n), Res.bind_ok, run_pure]
    have : c.nodes.take ns.length = ns := by rw [e]; simp
    have hl : c.nodes.length = ns.length + 1 := by rw [e]; simp
    simp only [Chain.tryNew, hl, this, run_bind, ff, Res.bind_ok, run_pure]
    cases ns.find? fun n => (h.get n).children.length != 1 <;> rfl
  constructor
  · intro a
    have : (ns.find? fun n => (h.get n).children.length != 1) = none := by
      rw [List.find?_eq_none]
      intro n hn
      obtain ⟨d, hd⟩ := a n hn
      simp [hd]
    rw [key, this]
  · rintro ⟨n, hn, hd⟩
    cases hf : ns.find? fun n => (h.get n).children.length != 1 with
    | some m => rw [key, hf]
    | none =>
      rw [List.find?_eq_none] at hf
      have := hf n hn
      simp only [bne_iff_ne, ne_eq, Decidable.not_not] at this
      obtain ⟨d, hd'⟩ := List.length_eq_one_iff.1 this
      exact absurd hd' (hd d)

private theorem path_of_unary {h : KHeap T} (t : RTree) : Rep h t →
    (∀ n ∈ t.pre, (h.get n).children.length ≤ 1) →
    ∃ ns z, t.pre = ns ++ [z] ∧ ∀ n ∈ ns, ∃ d, (h.get n).children = [d] := by
  refine RTree.induct' (P := fun t => Rep h t → (∀ n ∈ t.pre, (h.get n).children.length ≤ 1) →
    ∃ ns z, t.pre = ns ++ [z] ∧ ∀ n ∈ ns, ∃ d, (h.get n).children = [d]) ?_ t
  intro m ts ih r a
  have hm := a m (by simp [RTree.pre_node])
  rw [r.children, List.length_map] at hm
  match ts, hm, ih, r, a with
  | [], _, _, _, _ => exact ⟨[], m, by simp [RTree.pre_node], by simp⟩
  | [t], _, ih, r, a =>
    obtain ⟨ns, z, e, k⟩ := ih t (by simp) (r.sub t (by simp)) fun n hn =>
      a n (by simp [RTree.pre_node, hn])
    refine ⟨m :: ns, z, by simp [RTree.pre_node, e], fun n hn => ?_⟩
    rcases List.mem_cons.1 hn with rfl | hn
    · exact ⟨t.id, by rw [r.children]; rfl⟩
    · exact k n hn
  | _ :: _ :: _, hm, _, _, _ => simp at hm

/-- **C20** (chains built by `from_root`).  `try_new` succeeds exactly when no node of the chain has two
children. -/
theorem C20_from_root (h : KHeap T) (u : h.Unlocked) (f : Forest h) (r : NodeId) (fuel : Nat)
    (hf : h.next + 1 ≤ fuel) :
    ∃ c : Chain, run (Chain.fromRoot fuel r) h = .ok c h ∧
      ((∀ n, Below h r n → (h.get n).children.length ≤ 1) → run c.tryNew h = .ok (some c) h) ∧
      ((∃ n, Below h r n ∧ 2 ≤ (h.get n).children.length) → run c.tryNew h = .ok none h) := by
  obtain ⟨t, rt, rfl⟩ := f.exists_rep r
  have hd := run_descendants h u fuel [t] (by simpa using rt)
    (by have := rt.pre_length_le f; simpa using Nat.le_trans this hf)
  obtain ⟨c, e, en, w⟩ := C07_from_nodes h u t.pre
  have hr : run (Chain.fromRoot fuel t.id) h = .ok c h := by
    simp only [List.map_cons, List.map_nil, List.flatMap_cons, List.flatMap_nil,
      List.append_nil] at hd
    simp only [Chain.fromRoot, run_bind, hd, Res.bind_ok, e]
  have mem := mem_pre_iff t rt
  refine ⟨c, hr, fun a => ?_, ?_⟩
  · obtain ⟨ns, z, e1, k⟩ := path_of_unary t rt fun n hn => a n ((mem n).1 hn)
    exact (C20_try_new h u c ns z (en.trans e1)).1 k
  · rintro ⟨n, hn, h2⟩
    have ne : t.pre ≠ [] := by cases t; simp [RTree.pre_node]
    obtain ⟨ns, z, e1⟩ : ∃ ns z, t.pre = ns ++ [z] :=
      ⟨_, _, (List.dropLast_append_getLast ne).symm⟩
    have zleaf : (h.get z).children = [] := by
      cases hz : (h.get z).children with
      | nil => rfl
      | cons d ds =>
        have hdz : d ∈ (h.get z).children := by simp [hz]
        have bz : Below h t.id z := (mem z).1 (by simp [e1])
        have hdm : d ∈ t.pre := (mem d).2 (.step bz hdz)
        obtain ⟨pre, post, e2⟩ := List.append_of_mem hdm
        have nd := pre_nodup f t rt
        have hp := (f.agree _ _).1 hdz
        obtain ⟨rank, hrk⟩ := f.acyclic
        have hlt := hrk z d hp
        rcases parentsFirst_pre f t rt pre d post e2 with x | ⟨p, hpp, x⟩
        · subst x
          have := bz.rank_le f hrk
          omega
        · rw [hp] at x; cases x
          -- z occurs before d, but it is the last entry
          rw [e2] at e1 nd
          have hpost : z ∈ d :: post := by
            have : (pre ++ d :: post).getLast? = some z := by rw [e1]; simp
            rw [List.getLast?_append_of_ne_nil _ (by simp)] at this
            exact List.mem_of_getLast? this
          exact absurd rfl ((List.nodup_append.1 nd).2.2 z hpp z hpost)
    refine (C20_try_new h u c ns z (en.trans e1)).2 ⟨n, ?_, fun d hd => by rw [hd] at h2; simp at h2⟩
    have : n ∈ t.pre := (mem n).2 hn
    rw [e1] at this
    rcases List.mem_append.1 this with x | x
    · exact x
    · rw [List.mem_singleton.1 x, zleaf] at h2; simp at h2

/-- **C20** (the check is about the graph, not the chain).  The path from the root 0 of `exTree` to the
end 3 is refused because node 0 has a second child outside the chain. -/
theorem C20_path_refused : run (Chain.fromEnd 4 3) exTree = .ok ⟨[0, 1, 3], [0, 1, 3], 3⟩ exTree ∧
    run (Chain.tryNew ⟨[0, 1, 3], [0, 1, 3], 3⟩) exTree = .ok none exTree := by
  have u : exTree.Unlocked := fun _ => rfl
  constructor
  · have l : Lineage exTree 3 [3, 1, 0] :=
      .step (p := 1) (by simp [liveParent, exTree])
        (.step (p := 0) (by simp [liveParent, exTree]) (.root (by simp [liveParent, exTree,
          NodeImpl.fresh])))
    obtain ⟨c, e, en, w⟩ := C07_from_nodes exTree u [0, 1, 3]
    have : run (Chain.fromEnd 4 3) exTree = .ok c exTree := by
      simp only [Chain.fromEnd, run_bind, run_ancestors exTree u 3 _ l 4 (by decide), Res.bind_ok]
      exact e
    rw [this]
    have e' : run (Chain.fromNodes [0, 1, 3]) exTree =
        .ok ⟨[0, 1, 3], [0, 1, 3], 3⟩ exTree := by
      have hm : ∀ n, (exTree.get n).joint.isMovable = true := by
        intro n
        simp only [exTree]
        split <;> try split <;> try split <;> try split <;> rfl
        all_goals rfl
      simp only [Chain.fromNodes, run_bind, run_filterList_cons, run_filterList_nil, run_pure,
        run_Node_joint _ _ (u _), Res.bind_ok, hm]
      rfl
    rw [e'] at e; cases e; rfl
  · refine (C20_try_new exTree u _ [0, 1] 3 rfl).2 ⟨0, by simp, fun d => ?_⟩
    have : (exTree.get 0).children = [1, 2] := by simp [exTree]
    rw [this]; simp

end K
