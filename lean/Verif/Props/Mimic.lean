import Verif.Lemmas.SetPos
import Verif.Props.JointSet
/-!
# C05, C06: mimic joints
-/

set_option linter.unusedSectionVars false

namespace K
open Prog
variable {T : Type} [Scalar T]

/-! ## lemmas about the loop -/

theorem setJoint_position_ok (h : KHeap T) (c : NodeId) (y : T)
    (ok : ((h.get c).joint.setJointPosition y).2 = .ok ()) :
    ((h.setJoint c y).get c).joint.jointPosition = some y ∧
      ((h.setJoint c y).get c).joint.position = y := by
  rw [setJoint_get_joint]
  have e := C01_ok_effect _ _ ok
  exact ⟨e.2.1, by rw [e.1]⟩

/-- the result of the checked setter depends on name, type and limits only -/
theorem setJointPosition_result_congr (j j' : Joint T) (x : T) (a : j'.name = j.name)
    (b : j'.jointType = j.jointType) (c : j'.limits = j.limits) :
    (j'.setJointPosition x).2 = (j.setJointPosition x).2 := by
  unfold Joint.setJointPosition Joint.isMovable
  rw [a, b, c]
  repeat' split
  all_goals rfl

theorem mimicLoop_ok (x : T) (cs : List NodeId) (h : KHeap T)
    (wf : ∀ c ∈ cs, (h.get c).mimic.isSome) (ok : (mimicLoop x cs h).1 = .ok ()) :
    ∀ c ∈ cs, ∀ m, (h.get c).mimic = some m →
      ((mimicLoop x cs h).2.get c).joint.jointPosition = some (m.mimicPosition x) ∧
      ((mimicLoop x cs h).2.get c).joint.position = m.mimicPosition x := by
  induction cs generalizing h with
  | nil => simp
  | cons d cs ih =>
    intro c hc m hm
    obtain ⟨md, hmd⟩ := Option.isSome_iff_exists.1 (wf d (by simp))
    simp only [mimicLoop, hmd] at ok ⊢
    cases e : ((h.get d).joint.setJointPosition (md.mimicPosition x)).2 with
    | error e' => simp [e] at ok
    | ok u =>
      simp only [e] at ok ⊢
      have wf' : ∀ c ∈ cs, ((h.setJoint d (md.mimicPosition x)).get c).mimic.isSome :=
        fun c hc => by rw [setJoint_get_mimic]; exact wf c (by simp [hc])
      by_cases hcs : c ∈ cs
      · exact ih _ wf' ok c hcs m (by rw [setJoint_get_mimic]; exact hm)
      · have cd : c = d := by simpa [hcs] using hc
        subst cd
        rw [mimicLoop_frame _ _ _ _ hcs]
        have : md = m := by rw [hmd] at hm; exact Option.some.inj hm
        subst this
        exact setJoint_position_ok h c _ e

/-- inversion of a failing loop -/
theorem mimicLoop_err (x : T) (cs : List NodeId) (h : KHeap T) (e : KError T)
    (wf : ∀ c ∈ cs, (h.get c).mimic.isSome) (err : (mimicLoop x cs h).1 = .error e) :
    ∃ pre c post m, cs = pre ++ c :: post ∧ (h.get c).mimic = some m ∧
      ((h.get c).joint.setJointPosition (m.mimicPosition x)).2 = .error e ∧
      (mimicLoop x pre h).1 = .ok () ∧ (mimicLoop x cs h).2 = (mimicLoop x pre h).2 := by
  induction cs generalizing h with
  | nil => simp [mimicLoop] at err
  | cons d cs ih =>
    obtain ⟨md, hmd⟩ := Option.isSome_iff_exists.1 (wf d (by simp))
    simp only [mimicLoop, hmd] at err
    cases e1 : ((h.get d).joint.setJointPosition (md.mimicPosition x)).2 with
    | error e' =>
      simp only [e1] at err
      cases err
      exact ⟨[], d, cs, md, rfl, hmd, e1, rfl, by
        simp only [mimicLoop, hmd, e1]; exact setJoint_error _ _ _ _ e1⟩
    | ok u =>
      simp only [e1] at err
      have wf' : ∀ c ∈ cs, ((h.setJoint d (md.mimicPosition x)).get c).mimic.isSome :=
        fun c hc => by rw [setJoint_get_mimic]; exact wf c (by simp [hc])
      obtain ⟨pre, c, post, m, a1, a2, a3, a4, a5⟩ := ih _ wf' err
      have s := sameBut_setJoint h d (md.mimicPosition x)
      refine ⟨d :: pre, c, post, m, by simp [a1], by rw [← a2, s.mimic], ?_, ?_, ?_⟩
      · rw [← a3]; exact (setJointPosition_result_congr _ _ _ (s.name _) (s.jointType _)
          (s.limits _)).symm
      · simp only [mimicLoop, hmd, e1]; exact a4
      · simp only [mimicLoop, hmd, e1]; exact a5

/-! ## C05 -/

/-- **C05** (termination).  `set_joint_position` run alone always returns: no panic, no blocking. -/
theorem C05_returns (h : KHeap T) (u : h.Unlocked) (wf : MimicWF h) (n : NodeId) (x : T) :
    ∃ r h', run (Node.setJointPosition n x) h = .ok r h' :=
  ⟨_, _, run_setJointPosition n x h u wf⟩

/-- **C05** (main).  When node `n` has no mimic parent and `n.set_joint_position(x)` returns `Ok`, the
position of `n` is `x`, every registered mimic child has position `x * multiplier + origin` of its own
`Mimic`, every other node is exactly as before, and of the written nodes only the joint position and
the two caches changed. -/
theorem C05_children_follow (h h' : KHeap T) (u : h.Unlocked) (wf : MimicWF h) (n : NodeId) (x : T)
    (nm : (h.get n).mimicParent = none)
    (ok : run (Node.setJointPosition n x) h = .ok (.ok ()) h') :
    (h'.get n).joint.jointPosition = some x ∧
    (∀ c ∈ (h.get n).mimicChildren, ∃ m, (h.get c).mimic = some m ∧
      (h'.get c).joint.jointPosition = some (x * m.multiplier + m.origin)) ∧
    (∀ k, k ≠ n → k ∉ (h.get n).mimicChildren → h'.get k = h.get k) ∧
    SameBut h h' := by
  rw [run_setJointPosition n x h u wf] at ok
  obtain ⟨o1, o2⟩ : (setPos n x h).1 = .ok () ∧ (setPos n x h).2 = h' := by
    injection ok with a b; exact ⟨a, b⟩
  subst o2
  refine ⟨?_, ?_, fun k a b => setPos_frame n x h k a b, sameBut_setPos n x h⟩
  all_goals
    simp only [setPos, nm, Option.isSome_none, Bool.false_eq_true, if_false] at o1 ⊢
    cases e : ((h.get n).joint.setJointPosition x).2 with
    | error e' => simp [e] at o1
    | ok v => ?_
  all_goals simp only [e] at o1 ⊢
  · have nc : n ∉ (h.get n).mimicChildren := fun hin => by
      have := (wf n n hin).1; rw [nm] at this; cases this
    rw [mimicLoop_frame _ _ _ _ nc]
    exact (setJoint_position_ok h n x e).1
  · intro c hc
    obtain ⟨m, hm⟩ := Option.isSome_iff_exists.1 (wf n c hc).2
    refine ⟨m, hm, ?_⟩
    exact (mimicLoop_ok x _ _ (fun d hd => by rw [setJoint_get_mimic]; exact (wf n d hd).2) o1 c hc
      m (by rw [setJoint_get_mimic]; exact hm)).1

/-- **C05** (mimic nodes).  `set_joint_position` on a node with a mimic parent answers `Ok` and changes
nothing, whatever the value. -/
theorem C05_mimic_child_ignores (h : KHeap T) (u : h.Unlocked) (n : NodeId) (x : T)
    (pm : (h.get n).mimicParent.isSome) :
    run (Node.setJointPosition n x) h = .ok (.ok ()) h := by
  simp only [Node.setJointPosition, run_bind, run_doLock_free _ _ (u n), Res.bind_ok, run_doRead,
    Heap.get_setHeld, pm, if_true, run_doUnlock, run_pure, Heap.setHeld_setHeld_false _ _ (u n)]

/-- **C05** (failure).  When it answers `Err e`, then either the own joint refused and nothing
changed, or the own joint moved to `x`, and `e` is the refusal of the first mimic child (in
registration order) that refuses; the children before it already follow, everything else is as before, and
of the written nodes only the joint position and the two caches changed. -/
theorem C05_failure (h h' : KHeap T) (u : h.Unlocked) (wf : MimicWF h) (n : NodeId) (x : T)
    (e : KError T) (err : run (Node.setJointPosition n x) h = .ok (.error e) h') :
    (((h.get n).joint.setJointPosition x).2 = .error e ∧ h' = h) ∨
    (∃ pre c post m, (h.get n).mimicChildren = pre ++ c :: post ∧ (h.get c).mimic = some m ∧
      ((h.get c).joint.setJointPosition (x * m.multiplier + m.origin)).2 = .error e ∧
      (h'.get n).joint.jointPosition = some x ∧
      (∀ d ∈ pre, ∃ md, (h.get d).mimic = some md ∧
        (h'.get d).joint.jointPosition = some (x * md.multiplier + md.origin)) ∧
      (∀ k, k ≠ n → k ∉ pre → h'.get k = h.get k) ∧ SameBut h h') := by
  rw [run_setJointPosition n x h u wf] at err
  obtain ⟨o1, o2⟩ : (setPos n x h).1 = .error e ∧ (setPos n x h).2 = h' := by
    injection err with a b; exact ⟨a, b⟩
  subst o2
  cases pm : (h.get n).mimicParent with
  | some p => simp [setPos, pm] at o1
  | none =>
    simp only [setPos, pm, Option.isSome_none, Bool.false_eq_true, if_false] at o1 ⊢
    cases e1 : ((h.get n).joint.setJointPosition x).2 with
    | error e' => simp only [e1] at o1 ⊢; cases o1; exact .inl ⟨rfl, trivial⟩
    | ok v =>
      right
      simp only [e1] at o1 ⊢
      have s := sameBut_setJoint h n x
      have wf' : ∀ c ∈ (h.get n).mimicChildren, ((h.setJoint n x).get c).mimic.isSome :=
        fun c hc => by rw [setJoint_get_mimic]; exact (wf n c hc).2
      have nc : n ∉ (h.get n).mimicChildren := fun hin => by
        have := (wf n n hin).1; rw [pm] at this; cases this
      obtain ⟨pre, c, post, m, a1, a2, a3, a4, a5⟩ := mimicLoop_err x _ _ e wf' o1
      have hpre : ∀ d ∈ pre, d ∈ (h.get n).mimicChildren := fun d hd => by simp [a1, hd]
      refine ⟨pre, c, post, m, a1, by rw [← a2, s.mimic], ?_, ?_, ?_, ?_, s.trans (sameBut_mimicLoop _ _ _)⟩
      · rw [← a3]; exact (setJointPosition_result_congr _ _ _ (s.name _) (s.jointType _)
          (s.limits _)).symm
      · rw [mimicLoop_frame _ _ _ _ nc]; exact (setJoint_position_ok h n x e1).1
      · intro d hd
        obtain ⟨md, hm⟩ := Option.isSome_iff_exists.1 (wf n d (hpre d hd)).2
        refine ⟨md, hm, ?_⟩
        rw [a5]
        exact (mimicLoop_ok x _ _ (fun d hd => wf' d (hpre d hd)) a4 d hd md
          (by rw [setJoint_get_mimic]; exact hm)).1
      · intro k kn kp
        rw [a5, mimicLoop_frame _ _ _ _ kp]
        exact setJoint_get_of_ne _ _ kn

/-! ## C06 -/

/-- One level of mimicry, every mimic joint registered with one master only. -/
def OneLevel (h : KHeap T) : Prop :=
  ∀ m c, c ∈ (h.get m).mimicChildren →
    (h.get c).mimicParent = some m ∧ (h.get c).mimic.isSome ∧ (h.get m).mimicParent = none

/-- Every mimic joint is where its master puts it. -/
def MimicRelation (h : KHeap T) : Prop :=
  ∀ m c mi, c ∈ (h.get m).mimicChildren → (h.get c).mimic = some mi →
    (h.get c).joint.position = (h.get m).joint.position * mi.multiplier + mi.origin

/-- Histories of successful checked sets of single nodes and of whole chains. -/
inductive CheckedSets : KHeap T → KHeap T → Prop
  | start (h) : CheckedSets h h
  | node {h h1 h2} (r : CheckedSets h h1) (n : NodeId) (x : T)
      (ok : run (Node.setJointPosition n x) h1 = .ok (.ok ()) h2) : CheckedSets h h2
  | chain {h h1 h2} (r : CheckedSets h h1) (c : Chain) (xs : List T)
      (ok : run (c.setJointPositions xs) h1 = .ok (.ok ()) h2) : CheckedSets h h2

theorem OneLevel.mimicWF {h : KHeap T} (o : OneLevel h) : MimicWF h := fun m c hc =>
  ⟨by rw [(o m c hc).1]; rfl, (o m c hc).2.1⟩

theorem SameBut.oneLevel {h h' : KHeap T} (s : SameBut h h') (o : OneLevel h) : OneLevel h' := by
  intro m c hc
  rw [s.mimicChildren] at hc
  rw [s.mimicParent, s.mimicParent, s.mimic]; exact o m c hc

private theorem rel_node (h h' : KHeap T) (u : h.Unlocked) (o : OneLevel h) (r : MimicRelation h)
    (n : NodeId) (x : T) (ok : run (Node.setJointPosition n x) h = .ok (.ok ()) h') :
    MimicRelation h' ∧ SameBut h h' := by
  cases pm : (h.get n).mimicParent with
  | some p =>
    rw [C05_mimic_child_ignores h u n x (by rw [pm]; rfl)] at ok
    injection ok with _ e
    subst e; exact ⟨r, .refl _⟩
  | none =>
    obtain ⟨a, b, c, s⟩ := C05_children_follow h h' u o.mimicWF n x pm ok
    refine ⟨fun m k mi hk hmi => ?_, s⟩
    rw [s.mimicChildren] at hk
    rw [s.mimic] at hmi
    have pos : ∀ {j : Joint T} {y : T}, j.jointPosition = some y → j.position = y := by
      intro j y hj; unfold Joint.jointPosition at hj; split at hj <;> simp_all
    by_cases mn : m = n
    · subst mn
      obtain ⟨mi', h1, h2⟩ := b k hk
      rw [hmi] at h1; cases h1
      rw [pos h2, pos a]
    · have mk : m ∉ (h.get n).mimicChildren := fun hm => by
        have h1 := (o n m hm).1
        have h2 := (o m k hk).2.2
        rw [h1] at h2; cases h2
      have kn : k ≠ n := fun e => by
        have h1 := (o m k hk).1
        rw [e, pm] at h1; cases h1
      have kk : k ∉ (h.get n).mimicChildren := fun hm => by
        have h1 := (o n k hm).1
        have h2 := (o m k hk).1
        rw [h1] at h2; exact mn (Option.some.inj h2).symm
      rw [c m mn mk, c k kn kk]; exact r m k mi hk hmi

private theorem rel_each (ps : List (NodeId × T)) (h h' : KHeap T) (u : h.Unlocked) (o : OneLevel h)
    (r : MimicRelation h)
    (ok : run (tryEach ps fun jp => Node.setJointPosition jp.1 jp.2) h = .ok (.ok ()) h') :
    MimicRelation h' ∧ SameBut h h' := by
  induction ps generalizing h with
  | nil => injection ok with _ e; subst e; exact ⟨r, .refl _⟩
  | cons p ps ih =>
    rw [run_tryEach_cons] at ok
    obtain ⟨v, h1, e1, e2⟩ := Res.bind_eq_ok ok
    cases v with
    | error e => simp at e2
    | ok w =>
      obtain ⟨r1, s1⟩ := rel_node h h1 u o r p.1 p.2 e1
      obtain ⟨r2, s2⟩ := ih h1 (s1.unlocked u) (s1.oneLevel o) r1 e2
      exact ⟨r2, s1.trans s2⟩

/-- **C06**.  With one level of mimicry and a single master for each mimic joint, the relation
`child = master * multiplier + origin` survives every sequence of successful `set_joint_position` and
`set_joint_positions` calls, on whatever nodes and chains. -/
theorem C06_relation_preserved (h h' : KHeap T) (u : h.Unlocked) (o : OneLevel h)
    (r : MimicRelation h) (hist : CheckedSets h h') : MimicRelation h' := by
  suffices MimicRelation h' ∧ SameBut h h' from this.1
  induction hist with
  | start => exact ⟨r, .refl _⟩
  | node _ n x ok ih =>
    obtain ⟨r1, s1⟩ := ih
    obtain ⟨r2, s2⟩ := rel_node _ _ (s1.unlocked u) (s1.oneLevel o) r1 n x ok
    exact ⟨r2, s1.trans s2⟩
  | chain _ c xs ok ih =>
    obtain ⟨r1, s1⟩ := ih
    unfold Chain.setJointPositions at ok
    split at ok
    · injection ok with a b; cases a
    · obtain ⟨r2, s2⟩ := rel_each _ _ _ (s1.unlocked u) (s1.oneLevel o) r1 ok
      exact ⟨r2, s1.trans s2⟩

/-- **C06**, how the situation arises: on fresh nodes, registering `c` with `m` when `m` mimics nothing
and `c` neither mimics nor is mimicked keeps one-levelness. -/
theorem C06_set_mimic_parent (h h' : KHeap T) (u : h.Unlocked) (o : OneLevel h) (c m : NodeId)
    (mi : Mimic T) (ne : c ≠ m) (mm : (h.get m).mimicParent = none)
    (cm : (h.get c).mimicParent = none) (cc : (h.get c).mimicChildren = [])
    (ok : run (Node.setMimicParent c m mi) h = .ok () h') :
    OneLevel h' ∧ c ∈ (h'.get m).mimicChildren ∧ (h'.get c).mimic = some mi := by
  rw [run_Node_setMimicParent c m mi h u] at ok
  injection ok with _ e
  subst e
  refine ⟨?_, ?_, ?_⟩
  · intro a b hb
    simp only [Heap.get_modify] at hb ⊢
    by_cases ac : a = c
    · subst ac; simp [ne, cc] at hb
    · by_cases am : a = m
      · subst am
        by_cases bc : b = c
        · subst bc; simp [ne, mm, Ne.symm ne]
        · simp only [ac, if_false, if_true, List.mem_append, List.mem_singleton, bc,
            or_false] at hb
          have := o a b hb
          by_cases bm : b = a
          · subst bm; simp_all
          · simpa [bc, bm, ac] using this
      · simp only [ac, am, if_false] at hb
        have ob := o a b hb
        have bc : b ≠ c := fun e => by rw [e, cm] at ob; cases ob.1
        by_cases bm : b = m
        · rw [bm, mm] at ob; cases ob.1
        · simpa [bc, bm, ac, am] using ob
  · simp [Heap.get_modify, Ne.symm ne]
  · simp [Heap.get_modify]

/-! ## examples and refutations -/

/-- master 0, mimic children 1 (factor -1, offset 0.5) and 2 (factor 2) -/
noncomputable def exMimic : KHeap ℝ :=
  { get := fun n =>
      let j : Joint ℝ := Joint.new "j" (.rotational ⟨0, 1, 0⟩)
      if n = 0 then { NodeImpl.fresh j with mimicChildren := [1, 2] }
      else if n = 1 then { NodeImpl.fresh { j with position := 1/2 } with
        mimicParent := some 0, mimic := some ⟨-1, 1/2⟩ }
      else if n = 2 then { NodeImpl.fresh j with mimicParent := some 0, mimic := some ⟨2, 0⟩ }
      else NodeImpl.fresh j
    next := 3, dead := fun _ => false, held := fun _ => false }

theorem exMimic_oneLevel : OneLevel exMimic := by
  intro m c hc
  by_cases m0 : m = 0
  · subst m0
    have : c = 1 ∨ c = 2 := by simpa [exMimic] using hc
    rcases this with rfl | rfl <;> simp [exMimic, NodeImpl.fresh]
  · simp [exMimic, m0] at hc
    split at hc
    · simp [NodeImpl.fresh] at hc
    · split at hc <;> simp [NodeImpl.fresh] at hc

theorem exMimic_relation : MimicRelation exMimic := by
  intro m c mi hc hmi
  by_cases m0 : m = 0
  · subst m0
    have : c = 1 ∨ c = 2 := by simpa [exMimic] using hc
    rcases this with rfl | rfl <;> simp [exMimic, NodeImpl.fresh, Joint.new] at hmi ⊢ <;>
      subst hmi <;> norm_num
  · simp [exMimic, m0] at hc
    split at hc
    · simp [NodeImpl.fresh] at hc
    · split at hc <;> simp [NodeImpl.fresh] at hc

/-- in `exMimic` setting the master to 3 succeeds and both children move (to -2.5 and 6) -/
example : ∃ h', run (Node.setJointPosition 0 (3 : ℝ)) exMimic = .ok (.ok ()) h' ∧
    (h'.get 1).joint.jointPosition = some (3 * (-1) + 1/2) ∧
    (h'.get 2).joint.jointPosition = some (3 * 2 + 0) := by
  have e : run (Node.setJointPosition 0 (3 : ℝ)) exMimic =
      .ok (.ok ()) (setPos 0 (3 : ℝ) exMimic).2 := by
    rw [run_setJointPosition 0 3 exMimic (fun _ => rfl) exMimic_oneLevel.mimicWF]
    congr 1
  obtain ⟨_, b, _⟩ := C05_children_follow exMimic _ (fun _ => rfl) exMimic_oneLevel.mimicWF 0 3
    (by simp [exMimic, NodeImpl.fresh]) e
  refine ⟨_, e, ?_, ?_⟩
  · obtain ⟨m, h1, h2⟩ := b 1 (by simp [exMimic])
    simp [exMimic] at h1; subst h1; simpa using h2
  · obtain ⟨m, h1, h2⟩ := b 2 (by simp [exMimic])
    simp [exMimic] at h1; subst h1; simpa using h2

/-- chain of mimics: 0 is mimicked by 1, which is mimicked by 2 -/
noncomputable def exMimicChain : KHeap ℝ :=
  { get := fun n =>
      let j : Joint ℝ := Joint.new "j" (.rotational ⟨0, 1, 0⟩)
      if n = 0 then { NodeImpl.fresh j with mimicChildren := [1] }
      else if n = 1 then { NodeImpl.fresh j with
        mimicParent := some 0, mimic := some ⟨1, 0⟩, mimicChildren := [2] }
      else if n = 2 then { NodeImpl.fresh j with mimicParent := some 1, mimic := some ⟨1, 0⟩ }
      else NodeImpl.fresh j
    next := 3, dead := fun _ => false, held := fun _ => false }

theorem exMimicChain_wf : MimicWF exMimicChain := by
  intro m c hc
  by_cases m0 : m = 0
  · subst m0
    have : c = 1 := by simpa [exMimicChain] using hc
    subst this; simp [exMimicChain]
  · by_cases m1 : m = 1
    · subst m1
      have : c = 2 := by simpa [exMimicChain] using hc
      subst this; simp [exMimicChain]
    · simp [exMimicChain, m0, m1] at hc
      split at hc <;> simp [NodeImpl.fresh] at hc

/-- **C06**, the one-level hypothesis is needed: with a chain of mimics the relation holds before and
fails after one successful set of the first master. -/
theorem C06_chained_mimics_diverge : ∃ (h h' : KHeap ℝ), h.Unlocked ∧ MimicWF h ∧ MimicRelation h ∧
    run (Node.setJointPosition 0 1) h = .ok (.ok ()) h' ∧ ¬ MimicRelation h' := by
  refine ⟨exMimicChain, (setPos 0 1 exMimicChain).2, fun _ => rfl, exMimicChain_wf, ?_, ?_, ?_⟩
  · intro m c mi hc hmi
    by_cases m0 : m = 0
    · subst m0
      have : c = 1 := by simpa [exMimicChain] using hc
      subst this
      simp [exMimicChain, NodeImpl.fresh, Joint.new] at hmi ⊢; subst hmi; rfl
    · by_cases m1 : m = 1
      · subst m1
        have : c = 2 := by simpa [exMimicChain] using hc
        subst this
        simp [exMimicChain, NodeImpl.fresh, Joint.new] at hmi ⊢; subst hmi; rfl
      · simp [exMimicChain, m0, m1] at hc
        split at hc <;> simp [NodeImpl.fresh] at hc
  · rw [run_setJointPosition 0 1 exMimicChain (fun _ => rfl) exMimicChain_wf]
    congr 1
  · intro r
    have := r 1 2 ⟨1, 0⟩
    simp [setPos, exMimicChain, NodeImpl.fresh, Joint.setJointPosition, Joint.isMovable, Joint.new,
      mimicLoop, Heap.setJoint, Heap.get_modify, Mimic.mimicPosition] at this

/-- **C06**, checked sets are needed: the clamped setter of the master leaves the children behind. -/
theorem C06_clamped_breaks_relation : ∃ (h h' : KHeap ℝ), h.Unlocked ∧ OneLevel h ∧
    MimicRelation h ∧ run (Node.setJointPositionClamped 0 1) h = .ok () h' ∧ ¬ MimicRelation h' := by
  refine ⟨exMimic, _, fun _ => rfl, exMimic_oneLevel, ?_,
    run_Node_setJointPositionClamped 0 1 exMimic (fun _ => rfl), ?_⟩
  · intro m c mi hc hmi
    by_cases m0 : m = 0
    · subst m0
      have : c = 1 ∨ c = 2 := by simpa [exMimic] using hc
      rcases this with rfl | rfl <;> simp [exMimic, NodeImpl.fresh, Joint.new] at hmi ⊢ <;>
        subst hmi <;> norm_num
    · simp [exMimic, m0] at hc
      split at hc
      · simp [NodeImpl.fresh] at hc
      · split at hc <;> simp [NodeImpl.fresh] at hc
  · intro r
    have := r 0 2 ⟨2, 0⟩
    simp [exMimic, NodeImpl.fresh, Joint.setJointPositionClamped, Joint.setJointPositionUnchecked,
      Joint.isMovable, Joint.new, Heap.get_modify] at this

end K
