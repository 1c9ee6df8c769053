import Verif.Lemmas.Ik
/-!
# C63, C64: what the node and chain setters do, exactly
-/

set_option linter.unusedSectionVars false

namespace K
open Prog
variable {T : Type} [Scalar T]

/-! ## specification -/

/-- what can be known of a node: what its getters show, and the mimic data, which has no getter -/
structure NodeView (T : Type) where
  parent : Option NodeId
  isRoot : Bool
  children : List NodeId
  mimicParent : Option NodeId
  joint : Joint T
  link : Option (Link T)
  followers : List NodeId
  mimic : Option (Mimic T)

/-- the getters of node `n` answer as in `v` and change nothing, and `v` has its mimic data -/
structure Shows (h : KHeap T) (n : NodeId) (v : NodeView T) : Prop where
  parent : run (Node.parent n) h = .ok v.parent h
  isRoot : run (Node.isRoot n) h = .ok v.isRoot h
  children : run (Node.children n) h = .ok v.children h
  isEnd : run (Node.isEnd n) h = .ok v.children.isEmpty h
  mimicParent : run (Node.mimicParent n) h = .ok v.mimicParent h
  joint : run (Node.joint n) h = .ok v.joint h
  position : run (Node.jointPosition n) h =
    .ok (match v.joint.jointType with | .fixed => none | _ => some v.joint.position) h
  origin : run (Node.origin n) h = .ok v.joint.origin h
  world : run (Node.worldTransform n) h = .ok v.joint.worldTransformCache h
  velocity : run (Node.worldVelocity n) h = .ok v.joint.worldVelocityCache h
  link : run (Node.link n) h = .ok v.link h
  followers : v.followers = (h.get n).mimicChildren
  mimic : v.mimic = (h.get n).mimic

/-- `p` succeeds and changes every node that shows `v` into one that shows `f n v`; no node is created
or dropped and no lock is kept -/
def Effect (h : KHeap T) (p : KProg T Unit) (f : NodeId → NodeView T → NodeView T) : Prop :=
  ∃ h', run p h = .ok () h' ∧ h'.Unlocked ∧ h'.next = h.next ∧ h'.dead = h.dead ∧
    ∀ n v, Shows h n v → Shows h' n (f n v)

/-- the joint with position `x` and both caches cleared -/
def NodeView.at (v : NodeView T) (x : T) : NodeView T :=
  { v with joint :=
    { v.joint with position := x, worldTransformCache := none, worldVelocityCache := none } }

/-! ## proof -/

/-- the view of a node, from its fields -/
private def viewOf (h : KHeap T) (n : NodeId) : NodeView T :=
  ⟨upgradeOpt h (h.get n).parent, (h.get n).parent.isNone, (h.get n).children,
    upgradeOpt h (h.get n).mimicParent, (h.get n).joint, (h.get n).link, (h.get n).mimicChildren,
    (h.get n).mimic⟩

private theorem shows_view (h : KHeap T) (u : h.Unlocked) (n : NodeId) : Shows h n (viewOf h n) where
  parent := run_Node_parent n h (u n)
  isRoot := run_Node_isRoot n h (u n)
  children := run_Node_children n h (u n)
  isEnd := run_Node_isEnd n h (u n)
  mimicParent := run_Node_mimicParent n h (u n)
  joint := run_Node_joint n h (u n)
  link := run_Node_link n h (u n)
  position := by
    rw [run_Node_jointPosition n h (u n)]
    simp only [viewOf, Joint.jointPosition]
    cases (h.get n).joint.jointType <;> rfl
  origin := run_Node_origin n h (u n)
  world := run_Node_worldTransform n h (u n)
  velocity := run_Node_worldVelocity n h (u n)
  followers := rfl
  mimic := rfl

private theorem ok_inj {S β : Type} {a b : β} {h k : Heap S} (e : (Res.ok a h : Res S β) = .ok b k) :
    a = b := by cases e; rfl

private theorem shows_eq (h : KHeap T) (u : h.Unlocked) (n : NodeId) (v : NodeView T)
    (s : Shows h n v) : v = viewOf h n := by
  have w := shows_view h u n
  have e1 := ok_inj (s.parent.symm.trans w.parent)
  have e2 := ok_inj (s.children.symm.trans w.children)
  have e3 := ok_inj (s.mimicParent.symm.trans w.mimicParent)
  have e4 := ok_inj (s.joint.symm.trans w.joint)
  have e5 := ok_inj (s.link.symm.trans w.link)
  have e6 := ok_inj (s.isRoot.symm.trans w.isRoot)
  have e7 := s.followers
  have e8 := s.mimic
  cases v; simp only at e1 e2 e3 e4 e5 e6 e7 e8
  subst e1 e2 e3 e4 e5 e6 e7 e8; rfl

private theorem effect_of {h h' : KHeap T} {p : KProg T Unit} {f : NodeId → NodeView T → NodeView T}
    (u : h.Unlocked) (e : run p h = .ok () h') (u' : h'.Unlocked) (hn : h'.next = h.next)
    (hd : h'.dead = h.dead) (hv : ∀ n, viewOf h' n = f n (viewOf h n)) : Effect h p f := by
  refine ⟨h', e, u', hn, hd, fun n v s => ?_⟩
  rw [shows_eq h u n v s, ← hv n]
  exact shows_view h' u' n

private theorem upgrade_dead {h h' : KHeap T} (e : h'.dead = h.dead) (o : Option NodeId) :
    upgradeOpt h' o = upgradeOpt h o := by cases o <;> simp [upgradeOpt, e]

/-- **C63** (getters).  On unlocked nodes all getters answer, change nothing, and agree with each
other. -/
theorem C63_getters (h : KHeap T) (u : h.Unlocked) (n : NodeId) : ∃! v, Shows h n v :=
  ⟨_, shows_view h u n, fun v s => shows_eq h u n v s⟩

/-- **C63** (`set_parent`).  The node gets the parent and comes last among its children; nothing else
changes - in particular a former parent goes on listing the node, and a node already listed is listed
twice. -/
theorem C63_set_parent (h : KHeap T) (u : h.Unlocked) (n p : NodeId) :
    Effect h (Node.setParent n p) fun m v =>
      { v with parent := if m = n then (if h.dead p then none else some p) else v.parent
               isRoot := if m = n then false else v.isRoot
               children := if m = p then v.children ++ [n] else v.children } := by
  refine effect_of u (run_Node_setParent n p h u) ((u.modify _ _).modify _ _) rfl rfl fun m => ?_
  simp only [viewOf, Heap.get_modify]
  simp only [upgrade_dead (h := h) (h' := ((h.modify n fun s => { s with parent := some p }).modify p
      fun s => { s with children := s.children ++ [n] })) rfl]
  by_cases a : m = n <;> by_cases b : m = p <;> simp only [a, b, if_true, if_false, upgradeOpt] <;>
    first | rfl | (subst a; subst b; simp) | (subst a; simp [b]) | (subst b; simp [a])

/-- **C63** (`remove_parent`).  The node loses its parent, whichever it was, and the given node drops
every mention of it among its children, the others keeping their order; nothing else changes. -/
theorem C63_remove_parent (h : KHeap T) (u : h.Unlocked) (n p : NodeId) :
    Effect h (Node.removeParent n p) fun m v =>
      { v with parent := if m = n then none else v.parent
               isRoot := if m = n then true else v.isRoot
               children := if m = p then v.children.filter (fun k => k ≠ n) else v.children } := by
  refine effect_of u (run_Node_removeParent n p h u) ((u.modify _ _).modify _ _) rfl rfl fun m => ?_
  simp only [viewOf, Heap.get_modify]
  simp only [upgrade_dead (h := h) (h' := ((h.modify n fun s => { s with parent := none }).modify p
      fun s => { s with children := s.children.filter (fun x => x != n) })) rfl]
  have ef : ∀ l : List NodeId, l.filter (fun x => x != n) = l.filter (fun k => decide (k ≠ n)) :=
    fun l => List.filter_congr fun k _ => by simp only [bne, ne_eq, decide_not]; congr 1
  by_cases a : m = n <;> by_cases b : m = p <;> simp only [a, b, if_true, if_false, upgradeOpt] <;>
    first | rfl | (subst a; subst b; simp [ef]) | (subst a; simp [b, ef]) | (subst b; simp [a, ef])

/-- **C63** (`set_mimic_parent`).  The node gets the master and the rule and comes last among the
followers of the master; nothing else changes, no position in particular. -/
theorem C63_set_mimic_parent (h : KHeap T) (u : h.Unlocked) (n p : NodeId) (mi : Mimic T) :
    Effect h (Node.setMimicParent n p mi) fun m v =>
      { v with mimicParent := if m = n then (if h.dead p then none else some p) else v.mimicParent
               mimic := if m = n then some mi else v.mimic
               followers := if m = p then v.followers ++ [n] else v.followers } := by
  refine effect_of u (run_Node_setMimicParent n p mi h u) (((u.modify _ _).modify _ _).modify _ _)
    rfl rfl fun m => ?_
  simp only [viewOf, Heap.get_modify]
  simp only [upgrade_dead (h := h) (h' := (((h.modify n fun s => { s with mimicParent := some p }).modify p
        fun s => { s with mimicChildren := s.mimicChildren ++ [n] }).modify n
        fun s => { s with mimic := some mi })) rfl]
  by_cases a : m = n <;> by_cases b : m = p <;> simp only [a, b, if_true, if_false, upgradeOpt] <;>
    first | rfl | (subst a; subst b; simp) | (subst a; simp [b]) | (subst b; simp [a])

private theorem effect_modify {h : KHeap T} (u : h.Unlocked) {n : NodeId} {p : KProg T Unit}
    {g : NodeImpl T → NodeImpl T} {f : NodeId → NodeView T → NodeView T}
    (e : run p h = .ok () (h.modify n g)) (hs : viewOf (h.modify n g) n = f n (viewOf h n))
    (ho : ∀ m, m ≠ n → f m (viewOf h m) = viewOf h m) : Effect h p f := by
  refine effect_of u e (u.modify _ _) rfl rfl fun m => ?_
  by_cases a : m = n
  · subst a; exact hs
  · rw [ho m a]
    simp only [viewOf, Heap.get_modify_of_ne h g a]
    simp only [upgrade_dead (h := h) (h' := h.modify n g) rfl]

/-- **C63** (`set_origin`).  The origin is stored and the world transform cleared; nothing else
changes - the velocity stays. -/
theorem C63_set_origin (h : KHeap T) (u : h.Unlocked) (n : NodeId) (t : Iso T) :
    Effect h (Node.setOrigin n t) fun m v =>
      if m = n then { v with joint := { v.joint with origin := t, worldTransformCache := none } }
      else v := by
  refine effect_modify u (run_Node_setOrigin n t h u) ?_ fun m a => by simp [a]
  simp [viewOf, Joint.setOrigin, upgrade_dead (h := h) (h' := h.modify n fun s =>
    { s with joint := { s.joint with origin := t, worldTransformCache := none } }) rfl]

/-- **C63** (`set_link`). -/
theorem C63_set_link (h : KHeap T) (u : h.Unlocked) (n : NodeId) (l : Option (Link T)) :
    Effect h (Node.setLink n l) fun m v => if m = n then { v with link := l } else v := by
  refine effect_modify u (run_Node_setLink n l h (u n)) ?_ fun m a => by simp [a]
  simp [viewOf, upgrade_dead (h := h) (h' := h.modify n fun s => { s with link := l }) rfl]

/-- **C63** (`set_joint_position_unchecked`).  The value is stored whatever the kind and limits of the
joint, and the caches of the node are cleared; nothing else changes, followers in particular. -/
theorem C63_unchecked (h : KHeap T) (u : h.Unlocked) (n : NodeId) (x : T) :
    Effect h (Node.setJointPositionUnchecked n x) fun m v => if m = n then v.at x else v := by
  refine effect_modify u (run_Node_setJointPositionUnchecked n x h u) ?_ fun m a => by simp [a]
  simp [viewOf, NodeView.at, Joint.setJointPositionUnchecked, upgrade_dead (h := h)
    (h' := h.modify n fun s => { s with joint := { s.joint with
      position := x, worldTransformCache := none, worldVelocityCache := none } }) rfl]

/-- what the clamping setter stores in a joint -/
def NodeView.clampedAt (v : NodeView T) (x : T) : NodeView T :=
  match v.joint.jointType, v.joint.limits with
  | .fixed, _ => v
  | _, none => v.at x
  | _, some r =>
    v.at (if Scalar.lt x r.min then r.min else if Scalar.lt r.max x then r.max else x)

private theorem viewOf_clamped (h : KHeap T) (n : NodeId) (x : T) :
    viewOf (h.modify n fun s => { s with joint := s.joint.setJointPositionClamped x }) n =
      (viewOf h n).clampedAt x := by
  simp only [viewOf, Heap.get_modify_self, upgrade_dead (h := h)
    (h' := h.modify n fun s => { s with joint := s.joint.setJointPositionClamped x }) rfl]
  generalize (h.get n).joint = j
  unfold NodeView.clampedAt Joint.setJointPositionClamped Joint.isMovable
  cases j.jointType <;> cases j.limits <;> rfl

/-- **C63** (`set_joint_position_clamped`).  A Fixed joint stays as it is; any other gets the value,
or the limit the value is beyond; nothing else changes, followers in particular. -/
theorem C63_clamped (h : KHeap T) (u : h.Unlocked) (n : NodeId) (x : T) :
    Effect h (Node.setJointPositionClamped n x) fun m v => if m = n then v.clampedAt x else v := by
  refine effect_modify u (run_Node_setJointPositionClamped n x h u) ?_ fun m a => by simp [a]
  simp only [if_true]
  exact viewOf_clamped h n x

/-! ## C64: chains -/

/-- the value a chain setter gives to node `m`: the one at its place among the movable nodes -/
def Chain.valueFor (c : Chain) (xs : List T) (m : NodeId) : Option T :=
  (c.movableNodes.idxOf? m).bind fun i => xs[i]?

private theorem valueFor_nil (xs : List T) (m : NodeId) (ns : List NodeId) (d : Nat) :
    Chain.valueFor ⟨ns, [], d⟩ xs m = none := by simp [Chain.valueFor]

private theorem valueFor_cons (n : NodeId) (mv : List NodeId) (x : T) (xs : List T) (m : NodeId)
    (ns : List NodeId) (d : Nat) : Chain.valueFor ⟨ns, n :: mv, d⟩ (x :: xs) m =
      if m = n then some x else Chain.valueFor ⟨ns, mv, d⟩ xs m := by
  unfold Chain.valueFor
  simp only [List.idxOf?_cons]
  by_cases e : m = n
  · subst e; simp
  · have : (n == m) = false := by simpa using fun a => e a.symm
    rw [this, if_neg e]
    simp only [Bool.false_eq_true, if_false]
    cases List.idxOf? m mv <;> simp

private theorem view_foldl (g : T → NodeImpl T → NodeImpl T) (f : NodeView T → T → NodeView T)
    (hg : ∀ (h : KHeap T) n x, viewOf (h.modify n (g x)) n = f (viewOf h n) x)
    (ns : List NodeId) (d : Nat) : ∀ (mv : List NodeId) (xs : List T) (h : KHeap T), mv.Nodup → ∀ m,
      viewOf ((mv.zip xs).foldl (fun h p => h.modify p.1 (g p.2)) h) m =
        match Chain.valueFor ⟨ns, mv, d⟩ xs m with
        | some x => f (viewOf h m) x
        | none => viewOf h m
  | [], xs, h, _, m => by simp [valueFor_nil]
  | n :: mv, [], h, _, m => by
      have : Chain.valueFor (T := T) ⟨ns, n :: mv, d⟩ [] m = none := by
        unfold Chain.valueFor; cases List.idxOf? m (n :: mv) <;> simp
      simp [this]
  | n :: mv, x :: xs, h, nd, m => by
      have ih := view_foldl g f hg ns d mv xs (h.modify n (g x)) (List.nodup_cons.1 nd).2 m
      simp only [List.zip_cons_cons, List.foldl_cons]
      rw [ih, valueFor_cons]
      by_cases e : m = n
      · subst e
        have : Chain.valueFor ⟨ns, mv, d⟩ xs m = none := by
          unfold Chain.valueFor
          rw [List.idxOf?_eq_none_iff.2 (List.nodup_cons.1 nd).1]; rfl
        simp [this, hg]
      · have : viewOf (h.modify n (g x)) m = viewOf h m := by
          simp only [viewOf, Heap.get_modify_of_ne h (g x) e]
          simp only [upgrade_dead (h := h) (h' := h.modify n (g x)) rfl]
        simp [e, this]

private theorem frame_foldl (g : T → NodeImpl T → NodeImpl T) : ∀ (ps : List (NodeId × T)) (h : KHeap T),
    h.Unlocked → let h' := ps.foldl (fun h p => h.modify p.1 (g p.2)) h
      h'.Unlocked ∧ h'.next = h.next ∧ h'.dead = h.dead
  | [], h, u => ⟨u, rfl, rfl⟩
  | p :: ps, h, u => frame_foldl g ps (h.modify p.1 (g p.2)) (u.modify _ _)

/-- **C64** (`set_joint_positions_unchecked`).  The value at place `i` is stored in the joint at place
`i` among the movable nodes; nodes beyond the end of the vector, Fixed nodes, followers and nodes
outside the chain stay as they are; values beyond the degrees of freedom are ignored. -/
theorem C64_unchecked (h : KHeap T) (u : h.Unlocked) (c : Chain) (nd : c.movableNodes.Nodup)
    (xs : List T) :
    Effect h (c.setJointPositionsUnchecked xs) fun m v =>
      match c.valueFor xs m with
      | some x => v.at x
      | none => v := by
  have e : run (c.setJointPositionsUnchecked xs) h = .ok () ((c.movableNodes.zip xs).foldl
      (fun h p => h.modify p.1 fun s => { s with joint := s.joint.setJointPositionUnchecked p.2 }) h) :=
    run_forEach_modify u fun p _ h' u' => run_Node_setJointPositionUnchecked p.1 p.2 h' u'
  have fr := frame_foldl (fun x s => { s with joint := s.joint.setJointPositionUnchecked x })
    (c.movableNodes.zip xs) h u
  refine effect_of u e fr.1 fr.2.1 fr.2.2 fun m => ?_
  exact view_foldl (fun x s => { s with joint := s.joint.setJointPositionUnchecked x })
    (fun v x => v.at x) (fun h n x => by
      simp [viewOf, NodeView.at, Joint.setJointPositionUnchecked, upgrade_dead (h := h)
        (h' := h.modify n fun s => { s with joint := { s.joint with
          position := x, worldTransformCache := none, worldVelocityCache := none } }) rfl])
    c.nodes c.dof c.movableNodes xs h nd m

/-- **C64** (`set_joint_positions_clamped`).  Likewise with each value limited to the range of its
joint. -/
theorem C64_clamped (h : KHeap T) (u : h.Unlocked) (c : Chain) (nd : c.movableNodes.Nodup)
    (xs : List T) :
    Effect h (c.setJointPositionsClamped xs) fun m v =>
      match c.valueFor xs m with
      | some x => v.clampedAt x
      | none => v := by
  have e := run_setJointPositionsClamped c xs h u
  have fr := frame_foldl (fun x s => { s with joint := s.joint.setJointPositionClamped x })
    (c.movableNodes.zip xs) h u
  refine effect_of u e fr.1 fr.2.1 fr.2.2 fun m => ?_
  exact view_foldl (fun x s => { s with joint := s.joint.setJointPositionClamped x })
    NodeView.clampedAt viewOf_clamped c.nodes c.dof c.movableNodes xs h nd m

/-- **C64** (round trip).  On a chain that lists no movable node twice, `joint_positions()` after
`set_joint_positions_unchecked` of a full vector returns that vector, limits or not. -/
theorem C64_round_trip (h : KHeap T) (u : h.Unlocked) (c : Chain) (w : c.Wf h)
    (nd : c.movableNodes.Nodup) (xs : List T) (len : xs.length = c.dof) :
    ∃ h', run (c.setJointPositionsUnchecked xs) h = .ok () h' ∧
      run c.jointPositions h' = .ok xs h' := by
  obtain ⟨h', e, u', -, -, s⟩ := C64_unchecked h u c nd xs
  refine ⟨h', e, ?_⟩
  have key : ∀ n, viewOf h' n = match c.valueFor xs n with
      | some x => (viewOf h n).at x
      | none => viewOf h n := fun n => (shows_eq h' u' n _ (s n _ (shows_view h u n))).symm
  have jt : ∀ n, (h'.get n).joint.jointType = (h.get n).joint.jointType := fun n => by
    have := congrArg (fun v => v.joint.jointType) (key n)
    revert this
    cases c.valueFor xs n <;> exact id
  have w' : c.Wf h' := ⟨by
    rw [w.movable]; exact List.filter_congr fun n _ => by
      rw [decide_eq_decide]; unfold Movable; rw [jt], w.dof⟩
  rw [run_jointPositions h' u' c w']
  congr 1
  refine List.ext_getElem (by simp [len, w.dof]) fun i h1 h2 => ?_
  simp only [List.length_map] at h1
  have vf : c.valueFor xs c.movableNodes[i] = some xs[i] := by
    unfold Chain.valueFor
    have : List.idxOf? c.movableNodes[i] c.movableNodes = some i := by
      refine List.idxOf?_eq_some_iff.2 ⟨h1, rfl, fun j hj e => ?_⟩
      exact absurd ((List.Nodup.getElem_inj_iff nd).1 e) (by omega)
    rw [this]; simp
  have := congrArg (fun v => v.joint.position) (key c.movableNodes[i])
  rw [vf] at this
  simp only [List.getElem_map]
  exact this

/-! ## witnesses -/

section examples

/-- C63 and C64 apply to `exArm`, whose chain has a Fixed node and two movable ones -/
example : exArm.Unlocked ∧ Chain.Wf exArm ⟨[0, 2, 1], [0, 1], 2⟩ ∧ [0, 1].Nodup ∧
    Chain.valueFor ⟨[0, 2, 1], [0, 1], 2⟩ [(5 : ℝ), 7, 9] 1 = some 7 ∧
    Chain.valueFor ⟨[0, 2, 1], [0, 1], 2⟩ [(5 : ℝ)] 1 = none ∧
    Chain.valueFor ⟨[0, 2, 1], [0, 1], 2⟩ [(5 : ℝ), 7] 2 = none :=
  ⟨fun _ => rfl, exArm_wf, by simp, rfl, rfl, rfl⟩

/-- **C64** (no size check).  Unlike `set_joint_positions`, the two setters accept a vector of the wrong
length: one value moves the first joint only. -/
theorem C64_short : ∃ h', run (Chain.setJointPositionsUnchecked ⟨[0, 2, 1], [0, 1], 2⟩ [(5 : ℝ)]) exArm =
      .ok () h' ∧ posOf h' 0 = some 5 ∧ posOf h' 1 = some 0 := by
  refine ⟨_, run_forEach_modify (node := fun p => p.1)
    (g := fun p s => { s with joint := s.joint.setJointPositionUnchecked p.2 }) (fun _ => rfl)
    fun p _ h' u' => run_Node_setJointPositionUnchecked p.1 p.2 h' u', ?_, ?_⟩ <;>
  simp [posOf, exArm, NodeImpl.fresh, Joint.new, Joint.jointPosition, Heap.get_modify,
    Joint.setJointPositionUnchecked]

/-- **C64** (followers are not moved).  The chain setters without checks move the master of a mimic
joint and leave its follower where it is, so the mimic relation does not survive them. -/
theorem C64_followers_stay (h : KHeap T) (u : h.Unlocked) (c : Chain) (nd : c.movableNodes.Nodup)
    (xs : List T) (m : NodeId) (out : m ∉ c.movableNodes) :
    ∃ h', run (c.setJointPositionsUnchecked xs) h = .ok () h' ∧ posOf h' m = posOf h m := by
  obtain ⟨h', e, u', -, -, s⟩ := C64_unchecked h u c nd xs
  refine ⟨h', e, ?_⟩
  have vf : c.valueFor xs m = none := by
    unfold Chain.valueFor; rw [List.idxOf?_eq_none_iff.2 out]; rfl
  have k := s m _ (shows_view h u m)
  beta_reduce at k
  rw [vf] at k
  have a := ok_inj (k.joint.symm.trans (run_Node_joint m h' (u' m)))
  unfold posOf
  rw [← a]; rfl

end examples

end K
