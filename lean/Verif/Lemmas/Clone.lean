import Verif.Lemmas.Tree
/-!
# Running `Chain::clone`

The copy of the `i`-th node of the chain gets the id `h.next + i`.
-/

set_option linter.unusedSectionVars false

namespace K
open Prog
open scoped Classical
variable {T : Type} [Scalar T]

theorem upgradeOpt_mimicParent (h : KHeap T) (n : NodeId) :
    upgradeOpt h (h.get n).mimicParent = liveMimic h n := by
  unfold upgradeOpt liveMimic; cases (h.get n).mimicParent <;> rfl

theorem position_eq (p : NodeId) (ns : List NodeId) :
    position p ns = if p ∈ ns then some (ns.idxOf p) else none := by
  induction ns with
  | nil => rfl
  | cons x xs ih =>
    simp only [position, ih, List.idxOf_cons, List.mem_cons]
    by_cases e : x = p
    · simp [e]
    · have : ¬ p = x := fun h => e h.symm
      have b : (x == p) = false := by simpa using e
      by_cases m : p ∈ xs <;> simp [e, m, this, b]

namespace Cl

/-- the `i`-th node of the chain -/
def nd (ns : List NodeId) (i : Nat) : NodeId := ns.getD i 0

theorem nd_mem {ns : List NodeId} {i : Nat} (hi : i < ns.length) : nd ns i ∈ ns := by
  simp [nd, List.getD, hi]

theorem nd_idxOf {ns : List NodeId} {p : NodeId} (hp : p ∈ ns) : nd ns (ns.idxOf p) = p := by
  have : ns.idxOf p < ns.length := List.idxOf_lt_length_of_mem hp
  simp [nd, List.getD, this]

theorem idxOf_nd {ns : List NodeId} (nd' : ns.Nodup) {i : Nat} (hi : i < ns.length) :
    ns.idxOf (nd ns i) = i := by
  have e : nd ns i = ns[i] := by simp [nd, List.getD, hi]
  rw [e]; exact nd'.idxOf_getElem i hi

/-- content of the copy of node number `i` after `dp` parents and `dm` mimic parents were handled -/
def cell (h : KHeap T) (ns : List NodeId) (dp dm i : Nat) : NodeImpl T :=
  { parent := if i < dp then (liveParent h (nd ns i)).map fun p => h.next + ns.idxOf p else none
    children := ((List.range dp).filter fun j =>
      (liveParent h (nd ns j)).map ns.idxOf = some i).map (h.next + ·)
    joint := (h.get (nd ns i)).joint
    mimicParent := if i < dm then (liveMimic h (nd ns i)).map fun p => h.next + ns.idxOf p else none
    mimicChildren := ((List.range dm).filter fun j =>
      (liveMimic h (nd ns j)).map ns.idxOf = some i).map (h.next + ·)
    mimic := if i < dm ∧ (liveMimic h (nd ns i)).isSome then (h.get (nd ns i)).mimic else none
    link := (h.get (nd ns i)).link }

/-- the heap after the first `k` nodes were copied and `dp`, `dm` links were set -/
structure Inv (h : KHeap T) (ns : List NodeId) (k dp dm : Nat) (g : KHeap T) : Prop where
  copy : ∀ i < k, g.get (h.next + i) = cell h ns dp dm i
  old : ∀ m, m < h.next ∨ h.next + k ≤ m → g.get m = h.get m
  next : g.next = h.next + k
  dead : ∀ m, g.dead m = if h.next ≤ m ∧ m < h.next + k then false else h.dead m
  held : g.held = h.held

/-- handles reachable from the chain were returned by an allocation -/
structure Handles (h : KHeap T) (ns : List NodeId) : Prop where
  node : ∀ n ∈ ns, n < h.next
  parent : ∀ n ∈ ns, ∀ p, (h.get n).parent = some p → p < h.next
  mimic : ∀ n ∈ ns, ∀ p, (h.get n).mimicParent = some p → p < h.next

/-- what the loop of `clone` needs of one node -/
structure Closed (h : KHeap T) (ns : List NodeId) (n : NodeId) : Prop where
  parent : ∀ p, liveParent h n = some p → p ∈ ns
  mimic : ∀ p, liveMimic h n = some p → p ∈ ns ∧ (h.get n).mimic.isSome

variable {h g : KHeap T} {ns : List NodeId} {k dp dm : Nat}

theorem Inv.get (iv : Inv h ns k dp dm g) (hh : Handles h ns) {n : NodeId} (hn : n ∈ ns) :
    g.get n = h.get n := iv.old n (.inl (hh.node n hn))

theorem Inv.lp (iv : Inv h ns k dp dm g) (hh : Handles h ns) {n : NodeId} (hn : n ∈ ns) :
    liveParent g n = liveParent h n := by
  unfold liveParent; rw [iv.get hh hn]
  cases e : (h.get n).parent with
  | none => rfl
  | some p =>
    have := hh.parent n hn p e
    have nd : ¬ (h.next ≤ p ∧ p < h.next + k) := by omega
    simp only [iv.dead, nd, if_false]

theorem Inv.lm (iv : Inv h ns k dp dm g) (hh : Handles h ns) {n : NodeId} (hn : n ∈ ns) :
    liveMimic g n = liveMimic h n := by
  unfold liveMimic; rw [iv.get hh hn]
  cases e : (h.get n).mimicParent with
  | none => rfl
  | some p =>
    have := hh.mimic n hn p e
    have nd : ¬ (h.next ≤ p ∧ p < h.next + k) := by omega
    simp only [iv.dead, nd, if_false]

theorem Inv.unlocked (iv : Inv h ns k dp dm g) (u : h.Unlocked) : g.Unlocked := by
  intro n; rw [iv.held]; exact u n

/-! ## copying the nodes -/

theorem cell_zero (i : Nat) : cell h ns 0 0 i =
    { NodeImpl.fresh (h.get (nd ns i)).joint with link := (h.get (nd ns i)).link } := by
  simp [cell, NodeImpl.fresh]

theorem cloneNode_step (u : h.Unlocked) (hh : Handles h ns) (hk : k < ns.length)
    (iv : Inv h ns k 0 0 g) :
    ∃ g', run (Chain.cloneNode (nd ns k)) g = .ok (h.next + k) g' ∧ Inv h ns (k + 1) 0 0 g' := by
  have hn := nd_mem hk
  have lt := hh.node _ hn
  have ug := iv.unlocked u
  generalize en : nd ns k = n at *
  have gn : g.get n = h.get n := iv.get hh hn
  have ne : n ≠ g.next := by rw [iv.next]; omega
  have run1 : run (Chain.cloneNode n) g = .ok g.next ((g.push (NodeImpl.fresh (h.get n).joint)).modify
      g.next fun s => { s with link := (h.get n).link }) := by
    have e1 : ((g.setHeld n true).push (NodeImpl.fresh (h.get n).joint)).setHeld n false =
        g.push (NodeImpl.fresh (h.get n).joint) := by
      ext m
      · rfl
      · rfl
      · rfl
      · simp only [Heap.held_setHeld, Heap.push]; split
        · rename_i e; rw [e, ug n]
        · rfl
    have up : (g.push (NodeImpl.fresh (h.get n).joint)).Unlocked := ug.push _
    have gp : (g.push (NodeImpl.fresh (h.get n).joint)).get n = h.get n := by
      simp [Heap.push, ne, gn]
    have hf : ((g.push (NodeImpl.fresh (h.get n).joint)).setHeld n true).held g.next = false := by
      simp only [Heap.held_setHeld]; rw [if_neg (Ne.symm ne)]; exact up _
    simp only [Chain.cloneNode, run_bind, run_doLock_free _ _ (ug n), Res.bind_ok, run_doRead,
      Heap.get_setHeld, gn, run_Node_new, run_doUnlock, Heap.next_setHeld, e1,
      run_doLock_free _ _ (up n), gp, run_Node_setLink _ _ _ hf,
      Heap.setHeld_modify_setHeld _ _ _ _ (up n), run_pure]
  refine ⟨_, by rw [run1, iv.next], ?_, ?_, ?_, ?_, ?_⟩
  · intro i hi
    simp only [Heap.get_modify, Heap.push]
    by_cases e : i = k
    · subst e
      simp only [iv.next, if_true, cell_zero, en]
    · have : h.next + i ≠ h.next + k := by omega
      simp only [iv.next, this, if_false]
      exact iv.copy i (by omega)
  · intro m hm
    have : m ≠ h.next + k := by omega
    simp only [Heap.get_modify, Heap.push, iv.next, this, if_false]
    exact iv.old m (by omega)
  · simp [Heap.push, iv.next]; omega
  · intro m
    simp only [Heap.dead_modify, Heap.push, iv.next]
    by_cases e : m = h.next + k
    · rw [if_pos e, if_pos (by omega)]
    · rw [if_neg e, iv.dead]
      by_cases e' : h.next ≤ m ∧ m < h.next + k
      · rw [if_pos e', if_pos (by omega)]
      · rw [if_neg e', if_neg (by omega)]
  · simpa [Heap.push] using iv.held

theorem mapList_clone (u : h.Unlocked) (hh : Handles h ns) (rest : List NodeId) (pre : List NodeId)
    (e : ns = pre ++ rest) (iv : Inv h ns pre.length 0 0 g) :
    ∃ g', run (mapList rest Chain.cloneNode) g =
        .ok (List.range' (h.next + pre.length) rest.length) g' ∧ Inv h ns ns.length 0 0 g' := by
  induction rest generalizing pre g with
  | nil =>
    simp at e
    exact ⟨g, rfl, by rw [e]; rw [e] at iv; exact iv⟩
  | cons n rest ih =>
    have hn : nd ns pre.length = n := by rw [e]; simp [nd, List.getD]
    obtain ⟨g1, r1, i1⟩ := cloneNode_step u hh (by rw [e]; simp) iv
    obtain ⟨g2, r2, i2⟩ := ih (pre ++ [n]) (by simp [e]) (by simpa using i1)
    refine ⟨g2, ?_, i2⟩
    rw [hn] at r1
    simp only [run_mapList_cons, r1, Res.bind_ok, r2]
    congr 1
    simp [List.range'_succ, Nat.add_assoc]

/-! ## connecting the copies -/

theorem Inv.parent_none (iv : Inv h ns k dp dm g) (e : liveParent h (nd ns dp) = none) :
    Inv h ns k (dp + 1) dm g where
  copy i hi := by
    rw [iv.copy i hi]
    simp only [cell, List.range_succ, List.filter_append, List.map_append]
    congr 1
    · by_cases x : i < dp
      · rw [if_pos x, if_pos (by omega)]
      · rw [if_neg x]; split
        · have : i = dp := by omega
          rw [this, e]; rfl
        · rfl
    · simp [e]
  old := iv.old
  next := iv.next
  dead := iv.dead
  held := iv.held

theorem Inv.parent_some (iv : Inv h ns k dp dm g) (hk : dp < k) (kn : k = ns.length) {p : NodeId}
    (e : liveParent h (nd ns dp) = some p) (hp : p ∈ ns) :
    Inv h ns k (dp + 1) dm ((g.modify (h.next + dp) fun s =>
        { s with parent := some (h.next + ns.idxOf p) }).modify (h.next + ns.idxOf p)
      fun s => { s with children := s.children ++ [h.next + dp] }) := by
  have hi : ns.idxOf p < k := kn ▸ List.idxOf_lt_length_of_mem hp
  refine ⟨?_, ?_, iv.next, iv.dead, iv.held⟩
  · intro i hik
    have c1 : (h.next + i = h.next + dp) = (i = dp) := by simp
    have c2 : (h.next + i = h.next + ns.idxOf p) = (i = ns.idxOf p) := by simp
    have c3 : (some (ns.idxOf p) = some i) = (i = ns.idxOf p) := by
      simp only [Option.some.injEq]; exact propext eq_comm
    simp only [Heap.get_modify, c1, c2, iv.copy i hik]
    simp only [cell, List.range_succ, List.filter_append, List.map_append, List.filter_cons,
      List.filter_nil, e, Option.map_some, c3, decide_eq_true_eq]
    by_cases x : i = ns.idxOf p <;> by_cases y : i = dp
    · rw [if_pos x, if_pos y]; subst y; simp [x.symm, e]
    · rw [if_pos x, if_neg y]
      have : (i < dp) = (i < dp + 1) := by simp; omega
      simp [x.symm, this]
    · rw [if_neg x, if_pos y]; subst y; simp [x, e]
    · rw [if_neg x, if_neg y]
      have : (i < dp) = (i < dp + 1) := by simp; omega
      simp [x, this]
  · intro m hm
    have c1 : m ≠ h.next + dp := by omega
    have c2 : m ≠ h.next + ns.idxOf p := by omega
    simp only [Heap.get_modify, c1, c2, if_false]
    exact iv.old m hm

theorem Inv.mimic_none (iv : Inv h ns k dp dm g) (e : liveMimic h (nd ns dm) = none) :
    Inv h ns k dp (dm + 1) g where
  copy i hi := by
    rw [iv.copy i hi]
    simp only [cell, List.range_succ, List.filter_append, List.map_append]
    congr 1
    · by_cases x : i < dm
      · rw [if_pos x, if_pos (by omega)]
      · rw [if_neg x]; split
        · have : i = dm := by omega
          rw [this, e]; rfl
        · rfl
    · simp [e]
    · by_cases x : i < dm
      · simp [x, Nat.lt_succ_of_lt x]
      · by_cases y : i = dm
        · subst y; simp [e]
        · have : ¬ i < dm + 1 := by omega
          simp [x, this]
  old := iv.old
  next := iv.next
  dead := iv.dead
  held := iv.held

theorem Inv.mimic_some (iv : Inv h ns k dp dm g) (hk : dm < k) (kn : k = ns.length) {p : NodeId}
    (e : liveMimic h (nd ns dm) = some p) (hp : p ∈ ns) {mi : Mimic T}
    (em : (h.get (nd ns dm)).mimic = some mi) :
    Inv h ns k dp (dm + 1) (((g.modify (h.next + dm) fun s =>
        { s with mimicParent := some (h.next + ns.idxOf p) }).modify (h.next + ns.idxOf p)
      fun s => { s with mimicChildren := s.mimicChildren ++ [h.next + dm] }).modify (h.next + dm)
      fun s => { s with mimic := some mi }) := by
  have hi : ns.idxOf p < k := kn ▸ List.idxOf_lt_length_of_mem hp
  refine ⟨?_, ?_, iv.next, iv.dead, iv.held⟩
  · intro i hik
    have c1 : (h.next + i = h.next + dm) = (i = dm) := by simp
    have c2 : (h.next + i = h.next + ns.idxOf p) = (i = ns.idxOf p) := by simp
    have c3 : (some (ns.idxOf p) = some i) = (i = ns.idxOf p) := by
      simp only [Option.some.injEq]; exact propext eq_comm
    simp only [Heap.get_modify, c1, c2, iv.copy i hik]
    simp only [cell, List.range_succ, List.filter_append, List.map_append, List.filter_cons,
      List.filter_nil, e, Option.map_some, c3, decide_eq_true_eq]
    by_cases x : i = ns.idxOf p <;> by_cases y : i = dm
    · rw [if_pos y, if_pos x, if_pos y]; subst y; simp [x.symm, e, em]
    · rw [if_neg y, if_pos x, if_neg y]
      have : (i < dm) = (i < dm + 1) := by simp; omega
      simp [x.symm, this]
    · rw [if_pos y, if_neg x, if_pos y]; subst y; simp [x, e, em]
    · rw [if_neg y, if_neg x, if_neg y]
      have : (i < dm) = (i < dm + 1) := by simp; omega
      simp [x, this]
  · intro m hm
    have c1 : m ≠ h.next + dm := by omega
    have c2 : m ≠ h.next + ns.idxOf p := by omega
    simp only [Heap.get_modify, c1, c2, if_false]
    exact iv.old m hm

/-- one iteration of the loop -/
theorem connect_step (u : h.Unlocked) (hh : Handles h ns) {i : Nat} (hi : i < ns.length)
    (iv : Inv h ns ns.length i i g) :
    (Closed h ns (nd ns i) → ∃ g', run (Chain.cloneConnect ns (List.range' h.next ns.length)
      (nd ns i, h.next + i)) g = .ok () g' ∧ Inv h ns ns.length (i + 1) (i + 1) g') ∧
    (¬ Closed h ns (nd ns i) → ∃ m g', run (Chain.cloneConnect ns (List.range' h.next ns.length)
      (nd ns i, h.next + i)) g = .panic m g') := by
  have hn := nd_mem hi
  have lt := hh.node _ hn
  -- the two halves
  have first : ∃ r : Res (NodeImpl T) Unit, (∀ (f : Unit → KProg T Unit),
      run (Node.parent (nd ns i) >>= fun o => match o with
        | some p => do
          let j ← expect (position p ns) "called `Option::unwrap()` on a `None` value"
          let p' ← expect (List.range' h.next ns.length)[j]? "index out of bounds"
          Node.setParent (h.next + i) p'
          f ()
        | none => do
          pure ()
          f ()) g = r.bind fun a h' => run (f a) h') ∧
      (((∀ p, liveParent h (nd ns i) = some p → p ∈ ns) ∧ ∃ g1, r = .ok () g1 ∧
        Inv h ns ns.length (i + 1) i g1) ∨
       ((¬ ∀ p, liveParent h (nd ns i) = some p → p ∈ ns) ∧ ∃ m g1, r = .panic m g1)) := by
    simp only [run_bind, run_Node_parent _ _ (iv.unlocked u _), Res.bind_ok, upgradeOpt_parent,
      iv.lp hh hn]
    cases e : liveParent h (nd ns i) with
    | none =>
      exact ⟨.ok () g, fun f => rfl, .inl ⟨by simp, g, rfl, iv.parent_none e⟩⟩
    | some p =>
      by_cases hp : p ∈ ns
      · have hx : ns.idxOf p < ns.length := List.idxOf_lt_length_of_mem hp
        refine ⟨.ok () _, fun f => ?_, .inl ⟨by simpa using hp, _, rfl, iv.parent_some hi rfl e hp⟩⟩
        have e2 : (List.range' h.next ns.length)[ns.idxOf p]? = some (h.next + ns.idxOf p) := by
          simp [List.getElem?_range', hx]
        simp only [position_eq, hp, if_true, run_bind, run_expect_some, Res.bind_ok, e2,
          run_Node_setParent _ _ _ (iv.unlocked u)]
      · refine ⟨.panic "called `Option::unwrap()` on a `None` value" g, fun f => ?_, .inr ⟨by simpa using hp, _, _, rfl⟩⟩
        simp only [position_eq, hp, if_false, run_bind, run_expect_none, Res.bind_panic]
  have second : ∀ g1, Inv h ns ns.length (i + 1) i g1 → ∃ r : Res (NodeImpl T) Unit,
      run (Node.mimicParent (nd ns i) >>= fun o => match o with
        | some m => do
          let j ← expect (position m ns) "called `Option::unwrap()` on a `None` value"
          let m' ← expect (List.range' h.next ns.length)[j]? "index out of bounds"
          doLock (nd ns i)
          let s ← doRead (nd ns i)
          let mimic ← expect s.mimic "called `Option::unwrap()` on a `None` value"
          Node.setMimicParent (h.next + i) m' mimic
          doUnlock (nd ns i)
        | none => pure ()) g1 = r ∧
      (((∀ p, liveMimic h (nd ns i) = some p → p ∈ ns ∧ (h.get (nd ns i)).mimic.isSome) ∧
        ∃ g2, r = .ok () g2 ∧ Inv h ns ns.length (i + 1) (i + 1) g2) ∨
       ((¬ ∀ p, liveMimic h (nd ns i) = some p → p ∈ ns ∧ (h.get (nd ns i)).mimic.isSome) ∧
        ∃ m g2, r = .panic m g2)) := by
    intro g1 iv1
    have u1 := iv1.unlocked u
    refine ⟨_, rfl, ?_⟩
    simp only [run_bind, run_Node_mimicParent _ _ (u1 _), Res.bind_ok, upgradeOpt_mimicParent,
      iv1.lm hh hn]
    cases e : liveMimic h (nd ns i) with
    | none => exact .inl ⟨by simp, g1, rfl, iv1.mimic_none e⟩
    | some p =>
      by_cases hp : p ∈ ns
      · have hx : ns.idxOf p < ns.length := List.idxOf_lt_length_of_mem hp
        have e2 : (List.range' h.next ns.length)[ns.idxOf p]? = some (h.next + ns.idxOf p) := by
          simp [List.getElem?_range', hx]
        have gn : g1.get (nd ns i) = h.get (nd ns i) := iv1.get hh hn
        cases em : (h.get (nd ns i)).mimic with
        | none =>
          refine .inr ⟨by simp, ?_⟩
          simp only [position_eq, hp, if_true, run_bind, run_expect_some, Res.bind_ok, e2,
            run_doLock_free _ _ (u1 _), run_doRead, Heap.get_setHeld, gn, em, run_expect_none,
            Res.bind_panic]
          exact ⟨_, _, rfl⟩
        | some mi =>
          refine .inl ⟨by simpa using hp, _, ?_, iv1.mimic_some hi rfl e hp em⟩
          have h1 : ∀ m, m ≠ nd ns i → (g1.setHeld (nd ns i) true).held m = false := by
            intro m hm; simp only [Heap.held_setHeld, hm, if_false]; exact u1 m
          have n1 : h.next + i ≠ nd ns i := by omega
          have n2 : h.next + ns.idxOf p ≠ nd ns i := by omega
          simp only [position_eq, hp, if_true, run_bind, run_expect_some, Res.bind_ok, e2,
            run_doLock_free _ _ (u1 _), run_doRead, Heap.get_setHeld, gn, em, Node.setMimicParent,
            run_poke _ _ _ (h1 _ n1), run_poke _ _ _ ((Heap.held_modify _ _ _).symm ▸ h1 _ n2),
            run_poke _ _ _ ((Heap.held_modify _ _ _).symm ▸ (Heap.held_modify _ _ _).symm ▸ h1 _ n1),
            run_doUnlock]
          congr 1
          ext m
          · rfl
          · rfl
          · rfl
          · simp only [Heap.held_setHeld, Heap.held_modify]; split
            · rename_i e; rw [e, u1]
            · rfl
      · refine .inr ⟨by simpa using fun h => absurd h hp, ?_⟩
        simp only [position_eq, hp, if_false, run_bind, run_expect_none, Res.bind_panic]
        exact ⟨_, _, rfl⟩
  obtain ⟨r, er, hr⟩ := first
  have shape : run (Chain.cloneConnect ns (List.range' h.next ns.length) (nd ns i, h.next + i)) g =
      r.bind fun _ h' => run (Node.mimicParent (nd ns i) >>= fun o => match o with
        | some m => do
          let j ← expect (position m ns) "called `Option::unwrap()` on a `None` value"
          let m' ← expect (List.range' h.next ns.length)[j]? "index out of bounds"
          doLock (nd ns i)
          let s ← doRead (nd ns i)
          let mimic ← expect s.mimic "called `Option::unwrap()` on a `None` value"
          Node.setMimicParent (h.next + i) m' mimic
          doUnlock (nd ns i)
        | none => pure ()) h' := er fun _ => _
  rcases hr with ⟨c1, g1, rfl, iv1⟩ | ⟨c1, m, g1, rfl⟩
  · obtain ⟨r2, er2, hr2⟩ := second g1 iv1
    rw [shape, Res.bind_ok, er2]
    rcases hr2 with ⟨c2, g2, rfl, iv2⟩ | ⟨c2, m, g2, rfl⟩
    · exact ⟨fun _ => ⟨g2, rfl, iv2⟩, fun nc => absurd ⟨c1, c2⟩ nc⟩
    · exact ⟨fun c => absurd c.mimic c2, fun _ => ⟨m, g2, rfl⟩⟩
  · rw [shape, Res.bind_panic]
    exact ⟨fun c => absurd c.parent c1, fun _ => ⟨m, g1, rfl⟩⟩

theorem connect_all (u : h.Unlocked) (hh : Handles h ns) (rest pre : List NodeId)
    (e : ns = pre ++ rest) (iv : Inv h ns ns.length pre.length pre.length g) :
    ((∀ n ∈ rest, Closed h ns n) → ∃ g', run (forEach (rest.zip
        (List.range' (h.next + pre.length) rest.length))
        (Chain.cloneConnect ns (List.range' h.next ns.length))) g = .ok () g' ∧
        Inv h ns ns.length ns.length ns.length g') ∧
    ((¬ ∀ n ∈ rest, Closed h ns n) → ∃ m g', run (forEach (rest.zip
        (List.range' (h.next + pre.length) rest.length))
        (Chain.cloneConnect ns (List.range' h.next ns.length))) g = .panic m g') := by
  induction rest generalizing pre g with
  | nil =>
    simp at e
    refine ⟨fun _ => ⟨g, rfl, ?_⟩, fun x => absurd (by simp) x⟩
    rw [← e] at iv; exact iv
  | cons n rest ih =>
    have hn : nd ns pre.length = n := by rw [e]; simp [nd, List.getD]
    have hl : pre.length < ns.length := by rw [e]; simp
    obtain ⟨s1, s2⟩ := connect_step u hh hl iv
    rw [hn] at s1 s2
    simp only [List.length_cons, List.range'_succ, List.zip_cons_cons, run_forEach_cons]
    by_cases c : Closed h ns n
    · obtain ⟨g1, r1, i1⟩ := s1 c
      have i := ih (pre ++ [n]) (by simp [e]) (by simpa using i1)
      simp only [List.length_append, List.length_cons, List.length_nil, Nat.zero_add] at i
      simp only [r1, Res.bind_ok]
      refine ⟨fun a => i.1 fun m hm => a m (by simp [hm]), fun a => i.2 fun b => a ?_⟩
      intro m hm
      rcases List.mem_cons.1 hm with rfl | hm
      · exact c
      · exact b m hm
    · obtain ⟨m, g1, r1⟩ := s2 c
      simp only [r1, Res.bind_panic]
      exact ⟨fun a => absurd (a n (by simp)) c, fun _ => ⟨_, _, rfl⟩⟩

/-- `clone` up to the final traversal -/
theorem run_clone (u : h.Unlocked) (c : Chain) (hh : Handles h c.nodes) (fuel : Nat) (r : NodeId)
    (hr : c.nodes.head? = some r) :
    (((h.get r).parent = none ∧ ∀ n ∈ c.nodes, Closed h c.nodes n) →
      ∃ g, Inv h c.nodes c.nodes.length c.nodes.length c.nodes.length g ∧
        run (c.clone fuel) h = run (Chain.fromRoot fuel h.next) g) ∧
    ((¬ ((h.get r).parent = none ∧ ∀ n ∈ c.nodes, Closed h c.nodes n)) →
      ∃ m g, run (c.clone fuel) h = .panic m g) := by
  obtain ⟨ns, mv, dof⟩ := c
  simp only at *
  obtain ⟨rest, rfl⟩ : ∃ rest, ns = r :: rest := by
    cases ns with
    | nil => simp at hr
    | cons x xs => simp at hr; exact ⟨xs, by rw [hr]⟩
  have i0 : Inv h (r :: rest) ([] : List NodeId).length 0 0 h :=
    ⟨fun i hi => by simp at hi, fun _ _ => rfl, rfl, fun m => by
      rw [if_neg]; simp, rfl⟩
  obtain ⟨g1, r1, i1⟩ := mapList_clone u hh (r :: rest) [] rfl i0
  have i1' : Inv h (r :: rest) (r :: rest).length ([] : List NodeId).length
    ([] : List NodeId).length g1 := i1
  obtain ⟨a, b⟩ := connect_all u hh (r :: rest) [] rfl i1'
  simp only [List.length_nil, Nat.add_zero] at a b r1
  simp only [Chain.clone, run_bind, run_Node_isRoot _ _ (u r), Res.bind_ok]
  cases e : (h.get r).parent with
  | some p =>
    simp only [Option.isNone_some, Bool.not_false, if_true, run_panic]
    exact ⟨fun x => (nomatch x.1), fun _ => ⟨_, _, rfl⟩⟩
  | none =>
    simp only [Option.isNone_none, Bool.not_true, Bool.false_eq_true, if_false, run_bind, r1,
      Res.bind_ok, true_and]
    constructor
    · intro cl
      obtain ⟨g, rg, ig⟩ := a cl
      refine ⟨g, ig, ?_⟩
      have hp : (g.get h.next).parent = none := by
        have := ig.copy 0 (by simp)
        rw [Nat.add_zero] at this
        rw [this]
        have lp : liveParent h r = none := by simp [liveParent, e]
        simp [cell, nd, lp]
      have hd : (List.range' h.next (r :: rest).length).head? = some h.next := by
        simp [List.range'_succ]
      simp only [rg, Res.bind_ok, hd, run_expect_some, run_Node_isRoot _ _ (ig.unlocked u _), hp, Option.isNone_none,
        Bool.not_true, Bool.false_eq_true, if_false]
    · intro ncl
      obtain ⟨m, g, rg⟩ := b ncl
      exact ⟨m, g, by simp only [rg, Res.bind_panic]⟩

/-- the copies form a forest next to the originals -/
theorem Inv.forest (iv : Inv h ns ns.length ns.length ns.length g) (f : Forest h)
    (cl : ∀ n ∈ ns, Closed h ns n) : Forest g := by
  have lpb : ∀ n p, liveParent h n = some p → (h.get n).parent = some p := fun n p e =>
    (liveParent_eq_some e).1
  have bp : ∀ n p, (h.get n).parent = some p → p < h.next := fun n p e =>
    (f.bound p n ((f.agree p n).2 e)).2
  have bn : ∀ n p, (h.get n).parent = some p → n < h.next := fun n p e =>
    (f.bound p n ((f.agree p n).2 e)).1
  -- every id is a copy or old
  have cases : ∀ m, (∃ i < ns.length, m = h.next + i) ∨ (m < h.next ∨ h.next + ns.length ≤ m) := by
    intro m
    by_cases x : m < h.next ∨ h.next + ns.length ≤ m
    · exact .inr x
    · exact .inl ⟨m - h.next, by omega, by omega⟩
  have par : ∀ i < ns.length, (g.get (h.next + i)).parent =
      (liveParent h (nd ns i)).map fun p => h.next + ns.idxOf p := by
    intro i hi; rw [iv.copy i hi]; simp [cell, hi]
  have chi : ∀ i < ns.length, ∀ c, c ∈ (g.get (h.next + i)).children ↔
      ∃ j < ns.length, c = h.next + j ∧ ∃ p, liveParent h (nd ns j) = some p ∧ ns.idxOf p = i := by
    intro i hi c; rw [iv.copy i hi]
    simp only [cell, List.mem_map, List.mem_filter, List.mem_range, decide_eq_true_eq,
      Option.map_eq_some_iff]
    constructor
    · rintro ⟨j, ⟨hj, p, e1, e2⟩, rfl⟩; exact ⟨j, hj, rfl, p, e1, e2⟩
    · rintro ⟨j, hj, rfl, p, e1, e2⟩; exact ⟨j, ⟨hj, p, e1, e2⟩, rfl⟩
  refine ⟨?_, ?_, ?_, ?_⟩
  · intro p c
    rcases cases p with ⟨i, hi, rfl⟩ | hp <;> rcases cases c with ⟨j, hj, rfl⟩ | hc
    · rw [chi i hi, par j hj]
      simp only [Option.map_eq_some_iff]
      constructor
      · rintro ⟨j', hj', e, p, e1, e2⟩
        have : j = j' := by omega
        subst this
        exact ⟨p, e1, by rw [e2]⟩
      · rintro ⟨p, e1, e2⟩
        exact ⟨j, hj, rfl, p, e1, by omega⟩
    · rw [chi i hi, iv.old c hc]
      constructor
      · rintro ⟨j, hj, e, -⟩; omega
      · intro e; have := bp _ _ e; omega
    · rw [iv.old p hp, par j hj]
      constructor
      · intro e; have := (f.bound _ _ e).1; omega
      · intro e
        obtain ⟨q, e1, e2⟩ := Option.map_eq_some_iff.1 e
        have := List.idxOf_lt_length_of_mem ((cl _ (nd_mem hj)).parent q e1)
        omega
    · rw [iv.old p hp, iv.old c hc]; exact f.agree p c
  · intro p
    rcases cases p with ⟨i, hi, rfl⟩ | hp
    · rw [iv.copy i hi]
      simp only [cell]
      exact ((List.nodup_range).filter _).map fun a b e => by simpa using e
    · rw [iv.old p hp]; exact f.once p
  · intro p c hc
    rw [iv.next]
    rcases cases p with ⟨i, hi, rfl⟩ | hp
    · obtain ⟨j, hj, rfl, -⟩ := (chi i hi c).1 hc
      omega
    · rw [iv.old p hp] at hc
      have := f.bound _ _ hc; omega
  · obtain ⟨rank, hr⟩ := f.acyclic
    refine ⟨fun m => if h.next ≤ m ∧ m < h.next + ns.length then rank (nd ns (m - h.next)) else rank m,
      fun p c e => ?_⟩
    rcases cases c with ⟨j, hj, rfl⟩ | hc
    · rw [par j hj] at e
      obtain ⟨q, e1, e2⟩ := Option.map_eq_some_iff.1 e
      have hq := (cl _ (nd_mem hj)).parent q e1
      have hx := List.idxOf_lt_length_of_mem hq
      subst e2
      simp only [Nat.le_add_right, true_and, Nat.add_lt_add_left hx, Nat.add_lt_add_left hj,
        if_true, Nat.add_sub_cancel_left, nd_idxOf hq]
      exact hr _ _ (lpb _ _ e1)
    · rw [iv.old c hc] at e
      have h1 := bp _ _ e
      have h2 := bn _ _ e
      have n1 : ¬ (h.next ≤ p ∧ p < h.next + ns.length) := by omega
      have n2 : ¬ (h.next ≤ c ∧ c < h.next + ns.length) := by omega
      simp only [n1, n2, if_false]
      exact hr _ _ e

theorem descendants_same (u : h.Unlocked) : ∀ (fuel : Nat) (st : List NodeId) {ns : List NodeId}
    {g : KHeap T}, run (descendants fuel st) h = .ok ns g → g = h
  | 0, [], _, _, e => by cases e; rfl
  | fuel + 1, [], _, _, e => by cases e; rfl
  | 0, _ :: _, _, _, e => by cases e
  | fuel + 1, n :: st, ns, g, e => by
    simp only [descendants, run_bind, run_Node_children n h (u n), Res.bind_ok] at e
    obtain ⟨a, h1, e1, e2⟩ := Res.bind_eq_ok e
    cases e2
    exact descendants_same u fuel _ e1

theorem fromRoot_same (u : h.Unlocked) (fuel : Nat) (r : NodeId) {c : Chain} {g : KHeap T}
    (e : run (Chain.fromRoot fuel r) h = .ok c g) : g = h := by
  simp only [Chain.fromRoot, run_bind] at e
  obtain ⟨ns, h1, e1, e2⟩ := Res.bind_eq_ok e
  cases descendants_same u fuel _ e1
  have e : run (filterList ns fun n => do return (← Node.joint n).isMovable) h =
      .ok (ns.filter fun n => (h.get n).joint.isMovable) h :=
    run_filterList_pure fun n _ => by simp [run_Node_joint _ _ (u n)]
  simp only [Chain.fromNodes, run_bind, e, Res.bind_ok, run_pure] at e2
  cases e2; rfl

/-- the heap after a `clone` that returned -/
theorem clone_ok (u : h.Unlocked) (c : Chain) (hh : Handles h c.nodes) (fuel : Nat) {c' : Chain}
    {g : KHeap T} (e : run (c.clone fuel) h = .ok c' g) :
    Inv h c.nodes c.nodes.length c.nodes.length c.nodes.length g ∧
      ∀ n ∈ c.nodes, Closed h c.nodes n := by
  obtain ⟨ns, mv, dof⟩ := c
  cases ns with
  | nil =>
    cases e
    exact ⟨⟨fun i hi => by simp at hi, fun _ _ => rfl, rfl, fun m => by rw [if_neg]; simp, rfl⟩,
      by simp⟩
  | cons r rest =>
    obtain ⟨y, n⟩ := run_clone u ⟨r :: rest, mv, dof⟩ hh fuel r rfl
    by_cases cl : (h.get r).parent = none ∧ ∀ n ∈ r :: rest, Closed h (r :: rest) n
    · obtain ⟨g', iv, eg⟩ := y cl
      rw [eg] at e
      rw [fromRoot_same (iv.unlocked u) fuel _ e]
      exact ⟨iv, cl.2⟩
    · obtain ⟨m, g', eg⟩ := n cl
      rw [eg] at e; cases e

end Cl
end K
