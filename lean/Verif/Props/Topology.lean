import Verif.Lemmas.Calls
import Verif.Lemmas.Tree
import Verif.Lemmas.Clone
/-!
# C40: parent and child links stay consistent
-/

set_option linter.unusedSectionVars false

namespace K
open Prog
open scoped Classical
variable {T : Type} [Scalar T]

/-- calls that do not attach, detach or copy nodes -/
def NoTopologyCall {β : Type} : Call T β → Prop
  | .setParent _ _ | .removeParent _ _ | .cloneChain _ _ => False
  | _ => True

/-- Heaps reachable from one without links by calls that returned, where
`set_parent(c, p)` is only called when `c` has no parent and `p` is not below `c`,
`remove_parent(c, p)` only with the parent `p` of `c`, and `clone` (alone, that is without a held lock)
of a chain of allocated nodes and mimic parents. -/
inductive TreeHistory : KHeap T → Prop
  | start {h : KHeap T} (e : ∀ n, (h.get n).parent = none ∧ (h.get n).children = []) : TreeHistory h
  | attach {h h' : KHeap T} (t : TreeHistory h) (c p : NodeId) (hc : c < h.next) (hp : p < h.next)
      (root : (h.get c).parent = none) (nb : ¬ Below h c p)
      (ok : run (Call.setParent c p).prog h = .ok () h') : TreeHistory h'
  | detach {h h' : KHeap T} (t : TreeHistory h) (c p : NodeId) (e : (h.get c).parent = some p)
      (ok : run (Call.removeParent c p).prog h = .ok () h') : TreeHistory h'
  | clone {h h' : KHeap T} (t : TreeHistory h) (u : h.Unlocked) (fuel : Nat) (c c' : Chain)
      (hc : ∀ n ∈ c.nodes, n < h.next ∧ ∀ p, (h.get n).mimicParent = some p → p < h.next)
      (ok : run (Call.cloneChain fuel c).prog h = .ok c' h') : TreeHistory h'
  | other {h h' : KHeap T} (t : TreeHistory h) {β : Type} (c : Call T β) (nt : NoTopologyCall c) (r : β)
      (ok : run c.prog h = .ok r h') : TreeHistory h'

/-- a write that returned has found the mutex free -/
theorem poke_ok {S : Type} {n : NodeId} {f : S → S} {h h' : Heap S}
    (e : run (poke n f) h = .ok () h') : h' = h.modify n f := by
  cases hh : h.held n with
  | true => rw [run_poke_held _ _ _ hh] at e; cases e
  | false => rw [run_poke _ _ _ hh] at e; cases e; rfl

private theorem poke2_ok {S : Type} {n p : NodeId} {f g : S → S} {h h' : Heap S}
    (e : run (poke n f >>= fun _ => poke p g) h = .ok () h') :
    h' = (h.modify n f).modify p g := by
  rw [run_bind] at e
  obtain ⟨_, h1, e1, e2⟩ := Res.bind_eq_ok e
  rw [poke_ok e2, poke_ok e1]

/-- the links of a node are those it has in `h` -/
def LinksOf (h : KHeap T) (n : NodeId) (s : NodeImpl T) : Prop :=
  s.parent = (h.get n).parent ∧ s.children = (h.get n).children

theorem safe_topology {β : Type} (c : Call T β) (nt : NoTopologyCall c) (h : KHeap T)
    (fresh : ∀ m, h.next ≤ m → (h.get m).parent = none ∧ (h.get m).children = []) :
    Safe h.next (LinksOf h) (fun _ => True) c.prog := by
  refine safe_call c ?_ (fun n _ => .all (fun _ _ _ hs => hs) n) ?_
  · intro m f hf s hs
    cases c <;> first
      | exact nt.elim
      | exact hf.elim
      | skip
    case setMimicParent => rcases hf with ⟨-, rfl⟩ | ⟨-, rfl⟩ | ⟨-, rfl⟩ <;> exact hs
    case setLink => rcases hf with ⟨-, rfl⟩; exact hs
    case setOrigin => rcases hf with ⟨-, rfl⟩; exact hs
    case setJointPositionClamped => rcases hf with ⟨-, rfl⟩; exact hs
    case setJointPositionUnchecked => rcases hf with ⟨-, rfl⟩; exact hs
    case chainSetOrigin => rcases hf with ⟨-, rfl⟩; exact hs
    case setJointPositionsClamped => rcases hf with ⟨-, y, -, rfl⟩; exact hs
    case setJointPositionsUnchecked => rcases hf with ⟨-, y, -, rfl⟩; exact hs
    case updateTransforms => rcases hf with ⟨-, t, rfl⟩; exact hs
    case updateVelocities => rcases hf with ⟨-, ⟨t, rfl⟩ | ⟨t, rfl⟩⟩ <;> exact hs
    case updateLinkTransforms => rcases hf with ⟨-, ⟨t, rfl⟩ | ⟨t, rfl⟩⟩ <;> exact hs
    case jacobian => rcases hf with ⟨-, t, rfl⟩; exact hs
    case centerOfMass => rcases hf with ⟨-, t, rfl⟩; exact hs
    case solve => rcases hf with ⟨-, t, rfl⟩ | ⟨-, t, rfl⟩ <;> exact hs
  · cases c <;> first
      | trivial
      | exact nt.elim
      | exact fun m hm => ⟨(fresh m hm).1.symm, (fresh m hm).2.symm⟩

/-- no call outside `set_parent`, `remove_parent` and `clone` changes a link -/
theorem topology_frame {β : Type} (c : Call T β) (nt : NoTopologyCall c) (h h' : KHeap T) (r : β)
    (fresh : ∀ m, h.next ≤ m → (h.get m).parent = none ∧ (h.get m).children = [])
    (ok : run c.prog h = .ok r h') :
    h.next ≤ h'.next ∧ ∀ n, (h'.get n).parent = (h.get n).parent ∧
      (h'.get n).children = (h.get n).children := by
  obtain ⟨-, a, b⟩ := run_safe_ok (safe_topology c nt h fresh) ⟨Nat.le_refl _, fun m => ⟨rfl, rfl⟩⟩ ok
  exact ⟨a, b⟩

theorem Forest.fresh {h : KHeap T} (f : Forest h) (m : NodeId) (hm : h.next ≤ m) :
    (h.get m).parent = none ∧ (h.get m).children = [] := by
  constructor
  · cases e : (h.get m).parent with
    | none => rfl
    | some p => exact absurd (f.bound p m ((f.agree p m).2 e)).1 (Nat.not_lt.2 hm)
  · cases e : (h.get m).children with
    | nil => rfl
    | cons c cs => exact absurd (f.bound m c (by simp [e])).2 (Nat.not_lt.2 hm)

theorem Forest.frame {h h' : KHeap T} (f : Forest h) (hn : h.next ≤ h'.next)
    (e : ∀ n, (h'.get n).parent = (h.get n).parent ∧ (h'.get n).children = (h.get n).children) :
    Forest h' where
  agree p c := by rw [(e p).2, (e c).1]; exact f.agree p c
  once p := by rw [(e p).2]; exact f.once p
  bound p c hc := by
    rw [(e p).2] at hc
    exact ⟨Nat.lt_of_lt_of_le (f.bound p c hc).1 hn, Nat.lt_of_lt_of_le (f.bound p c hc).2 hn⟩
  acyclic := by
    obtain ⟨rank, hr⟩ := f.acyclic
    exact ⟨rank, fun p c hc => hr p c (by rw [← (e c).1]; exact hc)⟩

theorem Forest.attach {h : KHeap T} (f : Forest h) {c p : NodeId} (hc : c < h.next) (hp : p < h.next)
    (root : (h.get c).parent = none) (nb : ¬ Below h c p) :
    Forest ((h.modify c fun s => { s with parent := some p }).modify p
      fun s => { s with children := s.children ++ [c] }) := by
  have gp : ∀ n, (((h.modify c fun s => { s with parent := some p }).modify p
      fun s => { s with children := s.children ++ [c] }).get n).parent =
      if n = c then some p else (h.get n).parent := by
    intro n; simp only [Heap.get_modify]; split <;> split <;> simp_all
  have gc : ∀ n, (((h.modify c fun s => { s with parent := some p }).modify p
      fun s => { s with children := s.children ++ [c] }).get n).children =
      if n = p then (h.get n).children ++ [c] else (h.get n).children := by
    intro n; simp only [Heap.get_modify]; split <;> split <;> simp_all
  have no : ∀ q, c ∉ (h.get q).children := fun q hq => by
    rw [f.agree q c, root] at hq; cases hq
  constructor
  · intro q d
    rw [gp, gc]
    by_cases hd : d = c
    · subst hd
      by_cases hq : q = p
      · simp [hq]
      · simp only [hq, if_false, if_true, Option.some.injEq]
        exact ⟨fun x => absurd x (no q), fun x => absurd x.symm hq⟩
    · simp only [hd, if_false]
      rw [← f.agree q d]
      split <;> simp [hd]
  · intro q
    rw [gc]
    split
    · exact (f.once q).append (List.nodup_singleton c) (by simpa using no q)
    · exact f.once q
  · intro q d hd
    rw [gc] at hd
    split at hd
    · rename_i e; subst e
      rcases List.mem_append.1 hd with x | x
      · exact f.bound q d x
      · rw [List.mem_singleton.1 x]; exact ⟨hc, hp⟩
    · exact f.bound q d hd
  · obtain ⟨rank, hr⟩ := f.acyclic
    refine ⟨fun m => if Below h c m then rank m + rank p + 1 else rank m, fun q d hd => ?_⟩
    rw [gp] at hd
    split at hd
    · rename_i e; subst e
      cases hd
      simp only [nb, if_false, Below.refl, if_true]
      omega
    · have h1 := hr q d hd
      have h2 : Below h c q → Below h c d := fun b => .step b ((f.agree q d).2 hd)
      by_cases b : Below h c q
      · simp only [b, h2 b, if_true]; omega
      · simp only [b, if_false]; split <;> omega

theorem Forest.detach {h : KHeap T} (f : Forest h) {c p : NodeId} (e : (h.get c).parent = some p) :
    Forest ((h.modify c fun s => { s with parent := none }).modify p
      fun s => { s with children := s.children.filter (fun x => x != c) }) := by
  have gp : ∀ n, (((h.modify c fun s => { s with parent := none }).modify p
      fun s => { s with children := s.children.filter (fun x => x != c) }).get n).parent =
      if n = c then none else (h.get n).parent := by
    intro n; simp only [Heap.get_modify]; split <;> split <;> simp_all
  have gc : ∀ n, (((h.modify c fun s => { s with parent := none }).modify p
      fun s => { s with children := s.children.filter (fun x => x != c) }).get n).children =
      if n = p then (h.get n).children.filter (fun x => x != c) else (h.get n).children := by
    intro n; simp only [Heap.get_modify]; split <;> split <;> simp_all
  constructor
  · intro q d
    rw [gp, gc]
    by_cases hd : d = c
    · subst hd
      simp only [if_true]
      split
      · simp
      · rename_i hq
        rw [f.agree q d, e]
        simp only [Option.some.injEq]
        exact ⟨fun x => absurd x.symm hq, fun x => by cases x⟩
    · simp only [hd, if_false]
      rw [← f.agree q d]
      split <;> simp [hd]
  · intro q
    rw [gc]
    split
    · exact (f.once q).filter _
    · exact f.once q
  · intro q d hd
    rw [gc] at hd
    split at hd
    · exact f.bound q d (List.mem_filter.1 hd).1
    · exact f.bound q d hd
  · obtain ⟨rank, hr⟩ := f.acyclic
    refine ⟨rank, fun q d hd => hr q d ?_⟩
    rw [gp] at hd
    split at hd
    · cases hd
    · exact hd

/-- **C40**.  After every such history the links are consistent and without cycle. -/
theorem C40_forest (h : KHeap T) (t : TreeHistory h) : Forest h := by
  induction t with
  | start e =>
    refine ⟨fun p c => ?_, fun p => ?_, fun p c hc => ?_, ⟨fun _ => 0, fun p c hc => ?_⟩⟩
    · rw [(e p).2, (e c).1]; simp
    · rw [(e p).2]; exact List.nodup_nil
    · rw [(e p).2] at hc; cases hc
    · rw [(e c).1] at hc; cases hc
  | attach t c p hc hp root nb ok ih =>
    rw [poke2_ok (n := c) (p := p) ok]
    exact ih.attach hc hp root nb
  | detach t c p e ok ih =>
    rw [poke2_ok (n := c) (p := p) ok]
    exact ih.detach e
  | clone t u fuel c c' hc ok ih =>
    obtain ⟨iv, cl⟩ := Cl.clone_ok u c ⟨fun n hn => (hc n hn).1, fun n _ p hp =>
      (ih.bound p n ((ih.agree p n).2 hp)).2, fun n hn => (hc n hn).2⟩ fuel ok
    exact iv.forest ih cl
  | other t c nt r ok ih =>
    obtain ⟨a, b⟩ := topology_frame c nt _ _ r ih.fresh ok
    exact ih.frame a b

/-- **C40** (as seen through the API).  `children(p)` lists exactly the nodes whose `parent()` is `p`,
each once; and no node is its own descendant. -/
theorem C40_links_agree (h : KHeap T) (t : TreeHistory h) (u : h.Unlocked) (p c : NodeId)
    (alive : h.dead p = false) :
    ∃ cs q, run (Node.children p) h = .ok cs h ∧ run (Node.parent c) h = .ok q h ∧ cs.Nodup ∧
      (c ∈ cs ↔ q = some p) ∧ (Below h p c → Below h c p → c = p) := by
  have f := C40_forest h t
  refine ⟨_, _, run_Node_children p h (u p), run_Node_parent c h (u c), f.once p, ?_, ?_⟩
  · rw [f.agree p c]
    unfold upgradeOpt
    cases e : (h.get c).parent with
    | none => simp
    | some q =>
      simp only [Option.some.injEq]
      constructor
      · rintro rfl; simp [alive]
      · intro x; split at x
        · cases x
        · exact Option.some.inj x
  · intro a b
    obtain ⟨rank, hr⟩ := f.acyclic
    have key : ∀ x y, Below h x y → x = y ∨ rank x < rank y := by
      intro x y hxy
      induction hxy with
      | refl => exact .inl rfl
      | step _ hc ih =>
        have := hr _ _ ((f.agree _ _).1 hc)
        rcases ih with rfl | ih
        · exact .inr this
        · exact .inr (Nat.lt_trans ih this)
    rcases key _ _ a with x | x
    · exact x.symm
    · rcases key _ _ b with y | y
      · exact y
      · exact absurd (Nat.lt_trans x y) (Nat.lt_irrefl _)

/-! ## what goes wrong outside these histories -/

/-- three unlinked nodes -/
def exBare (j : Joint T) : KHeap T :=
  { get := fun _ => NodeImpl.fresh j, next := 3, dead := fun _ => false, held := fun _ => false }

/-- **C40** (`is_end`, `is_root`).  `is_end(p)` holds exactly when no node has `p` as its `parent()`, and
`is_root(c)` exactly when `parent()` of `c` is `None`, for nodes whose parents are alive. -/
theorem C40_queries (h : KHeap T) (t : TreeHistory h) (u : h.Unlocked)
    (alive : ∀ n, h.dead n = false) (n : NodeId) :
    ∃ e r q, run (Node.isEnd n) h = .ok e h ∧ run (Node.isRoot n) h = .ok r h ∧
      run (Node.parent n) h = .ok q h ∧ (r = true ↔ q = none) ∧
      (e = true ↔ ∀ c, run (Node.parent c) h ≠ .ok (some n) h) := by
  have f := C40_forest h t
  refine ⟨_, _, _, run_Node_isEnd n h (u n), run_Node_isRoot n h (u n), run_Node_parent n h (u n),
    ?_, ?_⟩
  · unfold upgradeOpt
    cases (h.get n).parent <;> simp [alive]
  · have par : ∀ c, run (Node.parent c) h = .ok (some n) h ↔ (h.get c).parent = some n := by
      intro c
      rw [run_Node_parent c h (u c)]
      unfold upgradeOpt
      cases (h.get c).parent <;> simp [alive]
    simp only [ne_eq, par, ← f.agree, List.isEmpty_iff, List.eq_nil_iff_forall_not_mem]

/-- **C40** (`set_parent` on a node that has a parent).  The node ends up in the child lists of two
nodes. -/
theorem C40_second_parent_breaks (j : Joint T) : ∃ h' : KHeap T,
    run (do Node.setParent 2 0; Node.setParent 2 1) (exBare j) = .ok () h' ∧
    2 ∈ (h'.get 0).children ∧ 2 ∈ (h'.get 1).children ∧ (h'.get 2).parent = some 1 := by
  have u : (exBare j).Unlocked := fun _ => rfl
  rw [run_bind, run_Node_setParent 2 0 _ u, Res.bind_ok,
    run_Node_setParent 2 1 _ ((u.modify _ _).modify _ _)]
  refine ⟨_, rfl, ?_, ?_, ?_⟩ <;> simp [Heap.get_modify, exBare, NodeImpl.fresh]

/-- **C40** (`remove_parent` with a node that is not the parent).  The node loses its parent but stays
in the parent's child list. -/
theorem C40_wrong_remove_breaks (j : Joint T) : ∃ h' : KHeap T,
    run (do Node.setParent 2 0; Node.removeParent 2 1) (exBare j) = .ok () h' ∧
    2 ∈ (h'.get 0).children ∧ (h'.get 2).parent = none := by
  have u : (exBare j).Unlocked := fun _ => rfl
  rw [run_bind, run_Node_setParent 2 0 _ u, Res.bind_ok,
    run_Node_removeParent 2 1 _ ((u.modify _ _).modify _ _)]
  refine ⟨_, rfl, ?_, ?_⟩ <;> simp [Heap.get_modify, exBare, NodeImpl.fresh]

/-- **C40** (cycles).  Two nodes made parents of each other: the iteration over descendants and the one
over ancestors never end, whatever the bound on the number of steps. -/
theorem C40_cycle_diverges (j : Joint T) : ∃ h' : KHeap T,
    run (do Node.setParent 1 0; Node.setParent 0 1) (exBare j) = .ok () h' ∧
    (∀ fuel, run (descendants fuel [0]) h' = .diverged) ∧
    ∀ fuel, run (ancestors fuel (some 0)) h' = .diverged := by
  have u : (exBare j).Unlocked := fun _ => rfl
  rw [run_bind, run_Node_setParent 1 0 _ u, Res.bind_ok,
    run_Node_setParent 0 1 _ ((u.modify _ _).modify _ _)]
  refine ⟨_, rfl, ?_, ?_⟩ <;> generalize hg : Heap.modify (Heap.modify _ _ _) _ _ = g
  all_goals
    have ug : g.Unlocked := by
      subst hg; exact (((u.modify _ _).modify _ _).modify _ _).modify _ _
    have c0 : (g.get 0).children = [1] := by
      subst hg; simp [Heap.get_modify, exBare, NodeImpl.fresh]
    have c1 : (g.get 1).children = [0] := by
      subst hg; simp [Heap.get_modify, exBare, NodeImpl.fresh]
    have p0 : upgradeOpt g (g.get 0).parent = some 1 := by
      subst hg; simp [Heap.get_modify, exBare, NodeImpl.fresh, upgradeOpt]
    have p1 : upgradeOpt g (g.get 1).parent = some 0 := by
      subst hg; simp [Heap.get_modify, exBare, NodeImpl.fresh, upgradeOpt]
  · have key : ∀ fuel, run (descendants fuel [0]) g = .diverged ∧
        run (descendants fuel [1]) g = .diverged := by
      intro fuel
      induction fuel with
      | zero => exact ⟨rfl, rfl⟩
      | succ k ih =>
        simp only [descendants, run_bind, run_Node_children _ _ (ug _), Res.bind_ok, c0, c1,
          List.reverse_singleton, List.append_nil, ih.1, ih.2, Res.bind_diverged, and_self]
    exact fun fuel => (key fuel).1
  · have key : ∀ fuel, run (ancestors fuel (some 0)) g = .diverged ∧
        run (ancestors fuel (some 1)) g = .diverged := by
      intro fuel
      induction fuel with
      | zero => exact ⟨rfl, rfl⟩
      | succ k ih =>
        simp only [ancestors, run_bind, run_Node_parent _ _ (ug _), Res.bind_ok, p0, p1,
          ih.1, ih.2, Res.bind_diverged, and_self]
    exact fun fuel => (key fuel).1

/-- a history that attaches, moves a joint, detaches and re-attaches -/
example (j : Joint T) : ∃ h' : KHeap T, TreeHistory h' ∧ (h'.get 2).parent = some 1 ∧
    (h'.get 0).children = [] := by
  have u : (exBare j).Unlocked := fun _ => rfl
  have nb : ∀ a b : NodeId, a ≠ b → ∀ h : KHeap T, (h.get a).children = [] → ¬ Below h a b := by
    intro a b hab h hc hb
    rcases hb.cases_head with rfl | ⟨c, hm, -⟩
    · exact hab rfl
    · rw [hc] at hm; cases hm
  have l0 : (0 : Nat) < 3 := by decide
  have l1 : (1 : Nat) < 3 := by decide
  have l2 : (2 : Nat) < 3 := by decide
  have s1 := TreeHistory.attach (.start (h := exBare j) fun _ => ⟨rfl, rfl⟩) 2 0 l2
    l0 rfl (nb 2 0 (by decide) _ rfl) (run_Node_setParent 2 0 _ u)
  have s2 := TreeHistory.detach s1 2 0 (by simp [Heap.get_modify])
    (run_Node_removeParent 2 0 _ ((u.modify _ _).modify _ _))
  have s3 := TreeHistory.attach s2 2 1 l2 l1 (by simp [Heap.get_modify])
    (nb 2 1 (by decide) _ (by simp [Heap.get_modify, exBare, NodeImpl.fresh]))
    (run_Node_setParent 2 1 _ ((((u.modify _ _).modify _ _).modify _ _).modify _ _))
  exact ⟨_, s3, by simp [Heap.get_modify], by simp [Heap.get_modify, exBare, NodeImpl.fresh]⟩

end K
