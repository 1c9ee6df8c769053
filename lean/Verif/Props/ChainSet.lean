import Verif.Lemmas.SetAll
import Verif.Spec.Chain
/-!
# C07, C08, C44: positions of a chain, find
-/

set_option linter.unusedSectionVars false

namespace K
open Prog
variable {T : Type} [Scalar T]

theorem isMovable_iff (j : Joint T) : j.isMovable = true ↔ j.jointType ≠ .fixed := by
  unfold Joint.isMovable; cases j.jointType <;> simp

theorem jointPosition_of_movable (j : Joint T) (m : j.jointType ≠ .fixed) :
    j.jointPosition = some j.position := by
  unfold Joint.jointPosition; cases h : j.jointType <;> simp_all

theorem SameBut.movable {h h' : KHeap T} (s : SameBut h h') (n : NodeId) :
    Movable h' n ↔ Movable h n := by unfold Movable; rw [s.jointType]

theorem SameBut.chainWf {h h' : KHeap T} (s : SameBut h h') {c : Chain} (w : c.Wf h) : c.Wf h' := by
  refine ⟨?_, w.dof⟩
  rw [w.movable]; exact List.filter_congr fun n _ => by rw [decide_eq_decide, s.movable]

/-- **C07** (construction).  `from_nodes` changes nothing and builds a well-formed chain over exactly
the given nodes. -/
theorem C07_from_nodes (h : KHeap T) (u : h.Unlocked) (ns : List NodeId) :
    ∃ c : Chain, run (Chain.fromNodes ns) h = .ok c h ∧ c.nodes = ns ∧ c.Wf h := by
  have e : run (filterList ns fun n => do return (← Node.joint n).isMovable) h =
      .ok (ns.filter fun n => (h.get n).joint.isMovable) h :=
    run_filterList_pure fun n _ => by simp [run_Node_joint _ _ (u n)]
  refine ⟨_, by simp only [Chain.fromNodes, run_bind, e, Res.bind_ok, run_pure]; rfl, rfl, ?_, rfl⟩
  refine List.filter_congr fun n _ => ?_
  rw [Bool.eq_iff_iff, isMovable_iff, decide_eq_true_iff]; rfl

theorem run_jointPositions (h : KHeap T) (u : h.Unlocked) (c : Chain) (w : c.Wf h) :
    run c.jointPositions h = .ok (c.movableNodes.map fun n => (h.get n).joint.position) h := by
  refine run_mapList_pure fun n hn => ?_
  have mv : Movable h n := by
    rw [w.movable, List.mem_filter] at hn; simpa using hn.2
  simp [run_doLock_free _ _ (u n), jointPosition_of_movable _ mv,
    Heap.setHeld_setHeld_false _ _ (u n)]

/-- **C07** (reading).  `joint_positions()` returns one value per degree of freedom: the positions of
the movable joints in the order of the chain; it changes nothing. -/
theorem C07_joint_positions (h : KHeap T) (u : h.Unlocked) (c : Chain) (w : c.Wf h) :
    ∃ xs, run c.jointPositions h = .ok xs h ∧ xs.length = c.dof ∧
      xs.map some = c.movableNodes.map (posOf h) := by
  refine ⟨_, run_jointPositions h u c w, by simp [w.dof], ?_⟩
  rw [List.map_map]
  refine List.map_congr_left fun n hn => ?_
  have mv : Movable h n := by
    rw [w.movable, List.mem_filter] at hn; simpa using hn.2
  exact (jointPosition_of_movable _ mv).symm

/-- **C07** (size check). -/
theorem C07_size_mismatch (h : KHeap T) (c : Chain) (xs : List T) (ne : xs.length ≠ c.dof) :
    run (c.setJointPositions xs) h = .ok (.error (.sizeMismatch xs.length c.dof)) h := by
  unfold Chain.setJointPositions; rw [if_pos ne]; rfl

private theorem mem_zip_left {α β : Type} {xs : List α} {ys : List β} {p : α × β}
    (h : p ∈ xs.zip ys) : p.1 ∈ xs := (List.of_mem_zip h).1

private theorem zip_fst {α β : Type} {xs : List α} {ys : List β} (h : ys.length = xs.length) :
    (xs.zip ys).map Prod.fst = xs := by
  rw [List.map_fst_zip]; omega

/-- **C07** (effect, mimics included).  Let mimicry be one level deep.  After a successful
`set_joint_positions(xs)`: a joint that mimics nothing has the value given for it; a joint that mimics
a joint of the chain follows the value given for its master (the value given for itself is ignored);
every node that is neither is unchanged. -/
theorem C07_set_effect (h h' : KHeap T) (u : h.Unlocked) (o : OneLevel h) (c : Chain) (w : c.Wf h)
    (nd : c.nodes.Nodup) (xs : List T)
    (ok : run (c.setJointPositions xs) h = .ok (.ok ()) h') :
    xs.length = c.dof ∧
    (∀ n x, (n, x) ∈ c.movableNodes.zip xs → (h.get n).mimicParent = none →
      posOf h' n = some x ∧
      ∀ k ∈ (h.get n).mimicChildren, ∃ m, (h.get k).mimic = some m ∧
        posOf h' k = some (x * m.multiplier + m.origin)) ∧
    (∀ k, (∀ n ∈ c.movableNodes, (h.get n).mimicParent = none →
        k ≠ n ∧ k ∉ (h.get n).mimicChildren) → h'.get k = h.get k) ∧
    SameBut h h' := by
  by_cases len : xs.length = c.dof
  · refine ⟨len, ?_⟩
    rw [run_setJointPositions c xs h u o.mimicWF len] at ok
    injection ok with a b
    subst b
    have nd' : ((c.movableNodes.zip xs).map Prod.fst).Nodup := by
      rw [zip_fst (by rw [len, w.dof]), w.movable]; exact nd.filter _
    obtain ⟨r1, r2⟩ := setAll_ok _ h u o nd' a
    refine ⟨fun n x hn hm => r1 (n, x) hn hm, fun k hk => r2 k fun p hp => ?_, sameBut_setAll _ _⟩
    exact hk p.1 (mem_zip_left hp)
  · rw [C07_size_mismatch h c xs len] at ok
    injection ok with a _; cases a

/-- **C07** (round trip).  If no joint of the chain mimics another one and the call succeeds, then
`joint_positions()` returns what was set, and only joints of the chain and their mimics changed. -/
theorem C07_round_trip (h h' : KHeap T) (u : h.Unlocked) (o : OneLevel h) (c : Chain) (w : c.Wf h)
    (nd : c.nodes.Nodup) (nm : ∀ n ∈ c.nodes, (h.get n).mimicParent = none) (xs : List T)
    (ok : run (c.setJointPositions xs) h = .ok (.ok ()) h') :
    run c.jointPositions h' = .ok xs h' ∧
    ∀ k, k ∉ c.movableNodes → (∀ n ∈ c.movableNodes, k ∉ (h.get n).mimicChildren) →
      h'.get k = h.get k := by
  obtain ⟨len, a, b, s⟩ := C07_set_effect h h' u o c w nd xs ok
  refine ⟨?_, fun k hk hc => b k fun n hn _ => ⟨fun e => hk (e ▸ hn), hc n hn⟩⟩
  rw [run_jointPositions h' (s.unlocked u) c (s.chainWf w)]
  congr 1
  have lenm : c.movableNodes.length = xs.length := by rw [len, w.dof]
  refine List.ext_getElem (by simp [lenm]) fun i h1 h2 => ?_
  rw [List.getElem_map]
  have hi : i < c.movableNodes.length := by simpa using h1
  have hz : (c.movableNodes[i], xs[i]) ∈ c.movableNodes.zip xs := by
    rw [List.mem_iff_getElem]
    exact ⟨i, by simp [hi, h2], by simp⟩
  have hn : c.movableNodes[i] ∈ c.nodes := by
    have hm : ∀ n ∈ c.movableNodes, n ∈ c.nodes := fun n hn => by
      rw [w.movable] at hn; exact (List.mem_filter.1 hn).1
    exact hm _ (List.getElem_mem _)
  have p := (a _ _ hz (nm _ hn)).1
  unfold posOf Joint.jointPosition at p
  split at p
  · cases p
  · exact Option.some.inj p

/-! ## C08 -/

/-- **C08** (when it succeeds).  With a vector of the right length, `set_joint_positions` succeeds iff
every single `set_joint_position` would succeed from the state before the call. -/
theorem C08_ok_iff (h : KHeap T) (u : h.Unlocked) (wf : MimicWF h) (c : Chain) (xs : List T)
    (len : xs.length = c.dof) :
    (∃ h', run (c.setJointPositions xs) h = .ok (.ok ()) h') ↔
      ∀ n x, (n, x) ∈ c.movableNodes.zip xs →
        ∃ h', run (Node.setJointPosition n x) h = .ok (.ok ()) h' := by
  rw [run_setJointPositions c xs h u wf len]
  simp only [run_setJointPosition _ _ h u wf, Res.ok.injEq, exists_and_left, exists_eq', and_true]
  rw [setAll_ok_iff]
  exact ⟨fun a n x hn => a (n, x) hn, fun a p hp => a p.1 p.2 hp⟩

/-- **C08** (what a failure leaves behind).  If no joint of the chain mimics another one and the call
fails with a vector of the right length, there is an index `k` such that: the joints before `k` would
each accept their value and hold it now; the error is the one joint `k` gives for its value; all joints
after `k` are as before; so is joint `k` itself if it has no mimic children. -/
theorem C08_failure_prefix (h h' : KHeap T) (u : h.Unlocked) (o : OneLevel h) (c : Chain)
    (w : c.Wf h) (nd : c.nodes.Nodup) (nm : ∀ n ∈ c.nodes, (h.get n).mimicParent = none)
    (xs : List T) (e : KError T) (len : xs.length = c.dof)
    (err : run (c.setJointPositions xs) h = .ok (.error e) h') :
    ∃ pre n x post, c.movableNodes.zip xs = pre ++ (n, x) :: post ∧
      (∃ h2, run (Node.setJointPosition n x) h = .ok (.error e) h2) ∧
      (∀ m y, (m, y) ∈ pre → posOf h' m = some y ∧
        ∃ h2, run (Node.setJointPosition m y) h = .ok (.ok ()) h2) ∧
      (∀ m y, (m, y) ∈ post → h'.get m = h.get m) ∧
      ((h.get n).mimicChildren = [] → h'.get n = h.get n) := by
  rw [run_setJointPositions c xs h u o.mimicWF len] at err
  injection err with a b
  subst b
  obtain ⟨pre, p, post, h1, h2, h3, h4⟩ := setAll_err _ h e a
  have nd' : ((c.movableNodes.zip xs).map Prod.fst).Nodup := by
    rw [zip_fst (by rw [len, w.dof]), w.movable]; exact nd.filter _
  have mem : ∀ q ∈ c.movableNodes.zip xs, (h.get q.1).mimicParent = none := fun q hq => by
    have := mem_zip_left hq
    rw [w.movable] at this
    exact nm _ (List.mem_filter.1 this).1
  have sp := sameBut_setAll pre h
  rw [h1, List.map_append, List.map_cons] at nd'
  have nd1 := (List.nodup_append.1 nd').1
  obtain ⟨r1, r2⟩ := setAll_ok pre h u o nd1 h2
  have disj := (List.nodup_append.1 nd').2.2
  have nd2 := (List.nodup_append.1 nd').2.1
  have nchild : ∀ q ∈ c.movableNodes.zip xs, ∀ m, q.1 ∉ (h.get m).mimicChildren :=
    fun q hq m hm => by have := (o _ _ hm).1; rw [mem q hq] at this; cases this
  have memp : p ∈ c.movableNodes.zip xs := by simp [h1]
  refine ⟨pre, p.1, p.2, post, h1, ?_, ?_, ?_, ?_⟩
  · rw [run_setJointPosition _ _ h u o.mimicWF]
    exact ⟨_, by rw [← h3, setPos_result_congr _ _ _ _ sp]⟩
  · intro m y hm
    have mz : (m, y) ∈ c.movableNodes.zip xs := by simp [h1, hm]
    have mp : m ≠ p.1 := disj m (List.mem_map.2 ⟨_, hm, rfl⟩) p.1 (by simp)
    constructor
    · unfold posOf
      rw [h4, setPos_frame _ _ _ _ mp (by rw [sp.mimicChildren]; exact nchild _ mz _)]
      exact (r1 (m, y) hm (mem _ mz)).1
    · rw [run_setJointPosition _ _ h u o.mimicWF]
      exact ⟨_, by rw [(setAll_ok_iff pre h).1 h2 (m, y) hm]⟩
  · intro m y hm
    have mz : (m, y) ∈ c.movableNodes.zip xs := by simp [h1, hm]
    have mp : m ≠ p.1 := fun e => by
      refine (List.nodup_cons.1 nd2).1 (e ▸ List.mem_map.2 ⟨_, hm, rfl⟩)
    rw [h4, setPos_frame _ _ _ _ mp (by rw [sp.mimicChildren]; exact nchild _ mz _)]
    refine r2 m fun q hq _ => ⟨fun e => ?_, nchild (m, y) mz _⟩
    exact disj q.1 (List.mem_map.2 ⟨_, hq, rfl⟩) m (by simp [List.mem_map]; right; exact ⟨_, hm⟩)
      e.symm
  · intro hc
    have hpc : (setPos p.1 p.2 (setAll pre h).2).2 = (setAll pre h).2 := by
      unfold setPos at h3 ⊢
      rw [sp.mimicParent, mem p memp, sp.mimicChildren, hc] at h3 ⊢
      simp only [Option.isSome_none, Bool.false_eq_true, if_false] at h3 ⊢
      cases e1 : (((setAll pre h).2.get p.1).joint.setJointPosition p.2).2 with
      | error _ => rfl
      | ok _ => simp [e1, mimicLoop] at h3
    rw [h4, hpc]
    refine r2 _ fun q hq _ => ⟨fun e => ?_, nchild p memp _⟩
    exact disj q.1 (List.mem_map.2 ⟨_, hq, rfl⟩) p.1 (by simp) e.symm

/-! ## C44 -/

/-- **C44**.  `find(name)` changes nothing; it returns a node exactly when some node of the chain has
that joint name, and then the first such node in iteration order. -/
theorem C44_find (h : KHeap T) (u : h.Unlocked) (c : Chain) (name : String) :
    ∃ r, run (c.find name) h = .ok r h ∧
      (r = none ↔ ∀ n ∈ c.nodes, (h.get n).joint.name ≠ name) ∧
      (∀ n, r = some n ↔ ∃ pre post, c.nodes = pre ++ n :: post ∧ (h.get n).joint.name = name ∧
        ∀ m ∈ pre, (h.get m).joint.name ≠ name) := by
  have e : run (c.find name) h = .ok (c.nodes.find? fun n => (h.get n).joint.name == name) h := by
    refine run_findFirst_pure fun n _ => ?_
    simp [run_Node_joint _ _ (u n)]
  refine ⟨_, e, by simp, fun n => ?_⟩
  rw [List.find?_eq_some_iff_append]
  constructor
  · rintro ⟨a, as, bs, b, d⟩
    exact ⟨as, bs, b, by simpa using a, by simpa using d⟩
  · rintro ⟨as, bs, b, a, d⟩
    exact ⟨by simpa using a, as, bs, b, by simpa using d⟩

/-! ## examples -/

/-- two limited joints (0 and 1) and a Fixed one (2) -/
noncomputable def exArm : KHeap ℝ :=
  { get := fun n =>
      let j : Joint ℝ := { Joint.new "j" (.rotational ⟨0, 1, 0⟩) with limits := some ⟨-1, 1⟩ }
      if n = 2 then NodeImpl.fresh (Joint.new "f" .fixed) else NodeImpl.fresh j
    next := 3, dead := fun _ => false, held := fun _ => false }

theorem exArm_oneLevel : OneLevel exArm := by
  intro m c hc; simp only [exArm] at hc; split at hc <;> simp [NodeImpl.fresh] at hc

theorem exArm_wf : Chain.Wf exArm ⟨[0, 2, 1], [0, 1], 2⟩ := by
  refine ⟨?_, rfl⟩
  simp [Movable, exArm, NodeImpl.fresh, Joint.new]

/-- the hypotheses of C07/C08 hold, and both the success and the failure case occur -/
example : exArm.Unlocked ∧ OneLevel exArm ∧ Chain.Wf exArm ⟨[0, 2, 1], [0, 1], 2⟩ ∧
    (∀ n ∈ [0, 2, 1], (exArm.get n).mimicParent = none) ∧
    (∃ h', run (Chain.setJointPositions ⟨[0, 2, 1], [0, 1], 2⟩ [1, -1]) exArm
      = .ok (.ok ()) h') ∧
    (∃ h' e, run (Chain.setJointPositions ⟨[0, 2, 1], [0, 1], 2⟩ [1, 5]) exArm
      = .ok (.error e) h') := by
  refine ⟨fun _ => rfl, exArm_oneLevel, exArm_wf, by simp [exArm, NodeImpl.fresh], ?_, ?_⟩
  · rw [run_setJointPositions _ _ exArm (fun _ => rfl) exArm_oneLevel.mimicWF rfl]
    refine ⟨_, congrArg (fun r => Res.ok r _) ?_⟩
    have h0 : ¬ (1 : ℝ) < 0 := by norm_num
    simp [setAll, setPos, exArm, NodeImpl.fresh, Joint.setJointPosition, Joint.isMovable, Joint.new,
      mimicLoop, Heap.setJoint, Heap.get_modify, Range.isValid, h0]
  · rw [run_setJointPositions _ _ exArm (fun _ => rfl) exArm_oneLevel.mimicWF rfl]
    refine ⟨_, .outOfLimit "j" 5 1 (-1), congrArg (fun r => Res.ok r _) ?_⟩
    have h5 : ¬ (5 : ℝ) ≤ 1 := by norm_num
    have h0 : ¬ (1 : ℝ) < 0 := by norm_num
    simp [setAll, setPos, exArm, NodeImpl.fresh, Joint.setJointPosition, Joint.isMovable, Joint.new,
      mimicLoop, Heap.setJoint, Heap.get_modify, Range.isValid, h5, h0]

/-- **C08**, not all-or-nothing: a concrete call that fails and has moved the first joint -/
theorem C08_not_atomic : ∃ (h h' : KHeap ℝ) (c : Chain) (e : KError ℝ), c.Wf h ∧
    run (c.setJointPositions [1, 5]) h = .ok (.error e) h' ∧ posOf h 0 = some 0 ∧
    posOf h' 0 = some 1 := by
  have h5 : ¬ (5 : ℝ) ≤ 1 := by norm_num
  have h0 : ¬ (1 : ℝ) < 0 := by norm_num
  refine ⟨exArm, (setAll [(0, 1), (1, 5)] exArm).2, ⟨[0, 2, 1], [0, 1], 2⟩,
    .outOfLimit "j" 5 1 (-1), exArm_wf, ?_, ?_, ?_⟩
  · rw [run_setJointPositions _ _ exArm (fun _ => rfl) exArm_oneLevel.mimicWF rfl]
    refine congrArg (fun r => Res.ok r _) ?_
    simp [setAll, setPos, exArm, NodeImpl.fresh, Joint.setJointPosition, Joint.isMovable, Joint.new,
      mimicLoop, Heap.setJoint, Heap.get_modify, Range.isValid, h5, h0]
  · simp [posOf, exArm, NodeImpl.fresh, Joint.new, Joint.jointPosition]
  · simp [posOf, setAll, setPos, exArm, NodeImpl.fresh, Joint.setJointPosition, Joint.isMovable,
      Joint.new, mimicLoop, Heap.setJoint, Heap.get_modify, Range.isValid, h5, h0,
      Joint.jointPosition]

end K
