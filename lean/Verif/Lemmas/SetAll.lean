import Verif.Props.Mimic
/-!
# The sequential effect of `set_joint_positions`
-/

set_option linter.unusedSectionVars false

namespace K
open Prog
variable {T : Type} [Scalar T]

/-- effect of the loop of `set_joint_positions` -/
def setAll : List (NodeId × T) → KHeap T → Except (KError T) Unit × KHeap T
  | [], h => (.ok (), h)
  | p :: ps, h =>
    match (setPos p.1 p.2 h).1 with
    | .error e => (.error e, (setPos p.1 p.2 h).2)
    | .ok () => setAll ps (setPos p.1 p.2 h).2

theorem run_setAll (ps : List (NodeId × T)) (h : KHeap T) (u : h.Unlocked) (wf : MimicWF h) :
    run (tryEach ps fun jp => Node.setJointPosition jp.1 jp.2) h =
      .ok (setAll ps h).1 (setAll ps h).2 := by
  induction ps generalizing h with
  | nil => rfl
  | cons p ps ih =>
    rw [run_tryEach_cons, run_setJointPosition _ _ h u wf]
    simp only [Res.bind_ok, setAll]
    have s := sameBut_setPos p.1 p.2 h
    cases e : (setPos p.1 p.2 h).1 with
    | error e' => rfl
    | ok v => exact ih _ (s.unlocked u) (s.mimicWF wf)

theorem run_setJointPositions (c : Chain) (xs : List T) (h : KHeap T) (u : h.Unlocked)
    (wf : MimicWF h) (len : xs.length = c.dof) :
    run (c.setJointPositions xs) h = .ok (setAll (c.movableNodes.zip xs) h).1
      (setAll (c.movableNodes.zip xs) h).2 := by
  unfold Chain.setJointPositions
  rw [if_neg (by simp [len])]
  exact run_setAll _ h u wf

theorem sameBut_setAll (ps : List (NodeId × T)) (h : KHeap T) : SameBut h (setAll ps h).2 := by
  induction ps generalizing h with
  | nil => exact .refl _
  | cons p ps ih =>
    simp only [setAll]
    split
    · exact sameBut_setPos _ _ _
    · exact (sameBut_setPos _ _ _).trans (ih _)

theorem mimicLoop_result_congr (x : T) (cs : List NodeId) (h h1 : KHeap T) (s : SameBut h h1) :
    (mimicLoop x cs h1).1 = (mimicLoop x cs h).1 := by
  induction cs generalizing h h1 with
  | nil => rfl
  | cons c cs ih =>
    simp only [mimicLoop, s.mimic]
    cases (h.get c).mimic with
    | none => rfl
    | some m =>
      have e := setJointPosition_result_congr _ _ (m.mimicPosition x) (s.name c) (s.jointType c)
        (s.limits c)
      simp only [e]
      have s' : SameBut (h.setJoint c (m.mimicPosition x)) (h1.setJoint c (m.mimicPosition x)) := by
        refine ⟨s.next, s.dead, s.held, fun k => ?_⟩
        obtain ⟨p, t, v, e⟩ := s.node k
        simp only [Heap.setJoint, Heap.get_modify]
        split
        · obtain ⟨p1, t1, v1, e1⟩ := setJointPosition_shape (h1.get k).joint (m.mimicPosition x)
          obtain ⟨p2, t2, v2, e2⟩ := setJointPosition_shape (h.get k).joint (m.mimicPosition x)
          refine ⟨p1, t1, v1, ?_⟩
          rw [e1, e2, e]
        · exact ⟨p, t, v, e⟩
      cases ((h.get c).joint.setJointPosition (m.mimicPosition x)).2 with
      | error e' => rfl
      | ok _ => exact ih _ _ s'

theorem setPos_result_congr (n : NodeId) (x : T) (h h1 : KHeap T) (s : SameBut h h1) :
    (setPos n x h1).1 = (setPos n x h).1 := by
  unfold setPos
  rw [s.mimicParent, s.mimicChildren]
  have e := setJointPosition_result_congr _ _ x (s.name n) (s.jointType n) (s.limits n)
  rw [e]
  split
  · rfl
  · cases ((h.get n).joint.setJointPosition x).2 with
    | error e' => rfl
    | ok _ =>
      have s1 := sameBut_setJoint h n x
      have s2 := s.trans (sameBut_setJoint h1 n x)
      show (mimicLoop x _ (h1.setJoint n x)).1 = (mimicLoop x _ (h.setJoint n x)).1
      rw [mimicLoop_result_congr x _ h _ s2, mimicLoop_result_congr x _ h _ s1]

/-- what a successful loop does -/
theorem setAll_ok (ps : List (NodeId × T)) (h : KHeap T) (u : h.Unlocked) (o : OneLevel h)
    (nd : (ps.map Prod.fst).Nodup) (ok : (setAll ps h).1 = .ok ()) :
    (∀ p ∈ ps, (h.get p.1).mimicParent = none →
      ((setAll ps h).2.get p.1).joint.jointPosition = some p.2 ∧
      ∀ c ∈ (h.get p.1).mimicChildren, ∃ m, (h.get c).mimic = some m ∧
        ((setAll ps h).2.get c).joint.jointPosition = some (p.2 * m.multiplier + m.origin)) ∧
    (∀ k, (∀ p ∈ ps, (h.get p.1).mimicParent = none →
        k ≠ p.1 ∧ k ∉ (h.get p.1).mimicChildren) → (setAll ps h).2.get k = h.get k) := by
  induction ps generalizing h with
  | nil => exact ⟨by simp, fun _ _ => rfl⟩
  | cons p ps ih =>
    simp only [setAll] at ok ⊢
    cases e : (setPos p.1 p.2 h).1 with
    | error e' => simp [e] at ok
    | ok v =>
      simp only [e] at ok ⊢
      have s := sameBut_setPos p.1 p.2 h
      simp only [List.map_cons, List.nodup_cons] at nd
      obtain ⟨i1, i2⟩ := ih _ (s.unlocked u) (s.oneLevel o) nd.2 ok
      have r := run_setJointPosition p.1 p.2 h u o.mimicWF
      rw [e] at r
      simp only [s.mimicParent, s.mimicChildren, s.mimic] at i1 i2
      constructor
      · intro q hq hqm
        rcases List.mem_cons.1 hq with rfl | hq
        · obtain ⟨a, b, c, -⟩ := C05_children_follow h _ u o.mimicWF q.1 q.2 hqm r
          constructor
          · rw [i2 q.1, a]
            intro p' hp' hpm'
            refine ⟨fun e => nd.1 (List.mem_map.2 ⟨p', hp', e.symm⟩), fun hc => ?_⟩
            have := (o _ _ hc).1; rw [hqm] at this; cases this
          · intro c' hc'
            obtain ⟨m, hm, hp⟩ := b c' hc'
            refine ⟨m, hm, ?_⟩
            rw [i2 c', hp]
            intro p' hp' hpm'
            have oc := (o _ _ hc').1
            refine ⟨fun e => ?_, fun hc => ?_⟩
            · rw [e, hpm'] at oc; cases oc
            · have := (o _ _ hc).1; rw [oc] at this
              exact nd.1 (List.mem_map.2 ⟨p', hp', (Option.some.inj this).symm⟩)
        · exact i1 q hq hqm
      · intro k hk
        rw [i2 k fun p' hp' => hk p' (by simp [hp'])]
        cases pm : (h.get p.1).mimicParent with
        | none =>
          obtain ⟨a, b⟩ := hk p (by simp) pm
          exact setPos_frame _ _ _ _ a b
        | some w =>
          have : (setPos p.1 p.2 h).2 = h := by simp [setPos, pm]
          rw [this]

/-- inversion of a failing loop -/
theorem setAll_err (ps : List (NodeId × T)) (h : KHeap T) (e : KError T)
    (err : (setAll ps h).1 = .error e) :
    ∃ pre p post, ps = pre ++ p :: post ∧ (setAll pre h).1 = .ok () ∧
      (setPos p.1 p.2 (setAll pre h).2).1 = .error e ∧
      (setAll ps h).2 = (setPos p.1 p.2 (setAll pre h).2).2 := by
  induction ps generalizing h with
  | nil => simp [setAll] at err
  | cons p ps ih =>
    simp only [setAll] at err
    cases e1 : (setPos p.1 p.2 h).1 with
    | error e' =>
      simp only [e1] at err; cases err
      exact ⟨[], p, ps, rfl, rfl, e1, by simp [setAll, e1]⟩
    | ok v =>
      simp only [e1] at err
      obtain ⟨pre, q, post, a1, a2, a3, a4⟩ := ih _ err
      refine ⟨p :: pre, q, post, by simp [a1], ?_, ?_, ?_⟩ <;> simp only [setAll, e1]
      · exact a2
      · exact a3
      · exact a4

/-- the loop succeeds iff every single call would succeed from the original state -/
theorem setAll_ok_iff (ps : List (NodeId × T)) (h : KHeap T) :
    (setAll ps h).1 = .ok () ↔ ∀ p ∈ ps, (setPos p.1 p.2 h).1 = .ok () := by
  suffices ∀ h1, SameBut h h1 →
      ((setAll ps h1).1 = .ok () ↔ ∀ p ∈ ps, (setPos p.1 p.2 h).1 = .ok ()) from
    this h (.refl h)
  induction ps with
  | nil => intro h1 _; simp [setAll]
  | cons p ps ih =>
    intro h1 s
    simp only [setAll, List.forall_mem_cons, ← ih _ (s.trans (sameBut_setPos p.1 p.2 h1)),
      setPos_result_congr p.1 p.2 h h1 s]
    cases e : (setPos p.1 p.2 h).1 <;> simp

end K
