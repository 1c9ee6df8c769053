import Verif.Lemmas.Ik
import Verif.Lemmas.Calls
import Verif.Lemmas.Idx
import Verif.Spec.Ik
/-!
# C24 - C30: inverse kinematics
-/

set_option linter.unusedSectionVars false

namespace K
open Prog
variable {T : Type} [Scalar T]

/-! ## C30 -/

/-- **C30** (order).  The error vector consists of the entries of the pose difference whose flag is
set, in the order x, y, z, rx, ry, rz. -/
theorem C30_selected (a b : Iso T) (c : Constraints) :
    calcPoseDiffWithConstraints a b (defineOperationalSpace c) =
      (if c.positionX then [a.trans.x - b.trans.x] else []) ++
      (if c.positionY then [a.trans.y - b.trans.y] else []) ++
      (if c.positionZ then [a.trans.z - b.trans.z] else []) ++
      (if c.rotationX then [(b.rot.rotationTo a.rot).scaledAxis.x] else []) ++
      (if c.rotationY then [(b.rot.rotationTo a.rot).scaledAxis.y] else []) ++
      (if c.rotationZ then [(b.rot.rotationTo a.rot).scaledAxis.z] else []) := by
  obtain ⟨px, py, pz, rx, ry, rz, ig⟩ := c
  cases px <;> cases py <;> cases pz <;> cases rx <;> cases ry <;> cases rz <;> rfl

/-- **C30** (splitting).  Splitting the error vector gives back the differences with the unconstrained
coordinates set to zero. -/
theorem C30_split (a b : Iso T) (c : Constraints) :
    targetDiffToLenRotDiff (calcPoseDiffWithConstraints a b (defineOperationalSpace c))
      (defineOperationalSpace c) = (posError c a b, rotError c a b) := by
  obtain ⟨px, py, pz, rx, ry, rz, ig⟩ := c
  cases px <;> cases py <;> cases pz <;> cases rx <;> cases ry <;> cases rz <;> rfl

/-- **C30** (count). -/
theorem C30_count (c : Constraints) : countTrue (defineOperationalSpace c) = numConstrained c ∧
    ∀ a b : Iso T,
      (calcPoseDiffWithConstraints a b (defineOperationalSpace c)).length = numConstrained c := by
  obtain ⟨px, py, pz, rx, ry, rz, ig⟩ := c
  cases px <;> cases py <;> cases pz <;> cases rx <;> cases ry <;> cases rz <;> exact ⟨rfl, fun _ _ => rfl⟩

/-- with all flags set nothing is masked -/
example (a b : Iso T) : posError Constraints.default a b = a.trans.sub b.trans ∧
    numConstrained Constraints.default = 6 := ⟨rfl, rfl⟩

/-! ## C24 -/

variable {s : IkSolver T} {arm : Chain} {target : Iso T} {c : Constraints}

theorem clamp_notOutside [LawfulOrd T] (r : Range T) (x : T) (p : Scalar.le r.min r.max = true) :
    Scalar.lt (r.clamp x) r.min = false ∧ Scalar.lt r.max (r.clamp x) = false := by
  unfold Range.clamp
  split
  · exact ⟨LawfulOrd.lt_irrefl _, LawfulOrd.not_lt_of_le _ _ p⟩
  · split
    · exact ⟨LawfulOrd.not_lt_of_le _ _ p, LawfulOrd.lt_irrefl _⟩
    · rename_i a b
      exact ⟨by simpa using a, by simpa using b⟩

theorem clamped_notOutside [LawfulOrd T] (j : Joint T) (x : T)
    (p : ∀ r, j.limits = some r → Scalar.le r.min r.max = true)
    (o : NotOutside j.limits j.position) :
    NotOutside j.limits (j.setJointPositionClamped x).position := by
  intro r hr
  unfold Joint.setJointPositionClamped
  split
  · exact o r hr
  · simp only [hr, Joint.setJointPositionUnchecked]
    exact clamp_notOutside r x (p r hr)

theorem clamped_same (j : Joint T) (o : NotOutside j.limits j.position) :
    (j.setJointPositionClamped j.position).position = j.position := by
  unfold Joint.setJointPositionClamped
  split
  · rfl
  · cases hl : j.limits with
    | none => rfl
    | some r =>
      obtain ⟨a, b⟩ := o r hl
      simp [Joint.setJointPositionUnchecked, Range.clamp, a, b]

/-- no joint of the list is outside its limits -/
def NoneOutside (h : KHeap T) (ns : List NodeId) : Prop :=
  ∀ n ∈ ns, NotOutside (h.get n).joint.limits (h.get n).joint.position

theorem properLimits_sameBut {h h' : KHeap T} (m : SameBut h h') (p : ProperLimits h) :
    ProperLimits h' := fun n r hr => p n r (by rw [← m.limits]; exact hr)

theorem noneOutside_clampAll [LawfulOrd T] (ps : List (NodeId × T)) (ns : List NodeId) (h : KHeap T)
    (p : ProperLimits h) (o : NoneOutside h ns) : NoneOutside (clampAll ps h) ns := by
  induction ps generalizing h with
  | nil => exact o
  | cons q ps ih =>
    refine ih _ (properLimits_sameBut (sameBut_modify h q.1 (fun j => j.setJointPositionClamped q.2)
      (setJointPositionClamped_shape _ _)) p) ?_
    intro n hn
    rw [Heap.get_modify]
    split
    · obtain ⟨a, b, d, e⟩ := setJointPositionClamped_shape (h.get n).joint q.2
      have l : ((h.get n).joint.setJointPositionClamped q.2).limits = (h.get n).joint.limits := by
        rw [e]
      show NotOutside ((h.get n).joint.setJointPositionClamped q.2).limits _
      rw [l]
      exact clamped_notOutside _ _ (p n) (o n hn)
    · exact o n hn

theorem position_clampAll_same (ps : List (NodeId × T)) (h : KHeap T)
    (e : ∀ p ∈ ps, (h.get p.1).joint.position = p.2)
    (o : ∀ p ∈ ps, NotOutside (h.get p.1).joint.limits (h.get p.1).joint.position) (k : NodeId) :
    ((clampAll ps h).get k).joint.position = (h.get k).joint.position := by
  induction ps generalizing h with
  | nil => rfl
  | cons q ps ih =>
    let h1 := h.modify q.1 fun s => { s with joint := s.joint.setJointPositionClamped q.2 }
    have sb : SameBut h h1 := sameBut_modify h q.1 (fun j => j.setJointPositionClamped q.2)
      (setJointPositionClamped_shape _ _)
    have same : ∀ k, (h1.get k).joint.position = (h.get k).joint.position := by
      intro k
      simp only [h1, Heap.get_modify]
      split
      · subst_vars
        have := clamped_same (h.get q.1).joint (o q (by simp))
        rw [e q (by simp)] at this
        rw [this, e q (by simp)]
      · rfl
    have := ih h1 (fun p hp => by rw [same]; exact e p (by simp [hp]))
      (fun p hp => by rw [same, sb.limits]; exact o p (by simp [hp]))
    exact this.trans (same k)

theorem localTransform_congr {h h' : KHeap T} (m : SameBut h h') (n : NodeId)
    (e : (h'.get n).joint.position = (h.get n).joint.position) :
    (h'.get n).joint.localTransform = (h.get n).joint.localTransform := by
  unfold Joint.localTransform Joint.jointTransform
  rw [m.origin, m.jointType, e]

theorem endPose_congr {h h' : KHeap T} (m : SameBut h h') (ns : List NodeId)
    (e : ∀ n ∈ ns, (h'.get n).joint.position = (h.get n).joint.position) :
    endPose h' ns = endPose h ns := by
  unfold endPose
  refine List.foldl_ext _ _ _ fun t n hn => ?_
  rw [localTransform_congr m n (e n hn)]

theorem zip_map_self {α β : Type} (f : α → β) (ns : List α) :
    ns.zip (ns.map f) = ns.map fun n => (n, f n) := by
  induction ns with
  | nil => rfl
  | cons n ns ih => simp [ih]

theorem zip_posList {h : KHeap T} (ns : List NodeId) :
    ∀ p ∈ ns.zip (posList h ns), p.1 ∈ ns ∧ (h.get p.1).joint.position = p.2 := by
  intro p hp
  unfold posList at hp
  rw [zip_map_self] at hp
  obtain ⟨n, hn, rfl⟩ := List.mem_map.1 hp
  exact ⟨hn, rfl⟩

theorem OnlyWorld.position {ns : List NodeId} {h h' : KHeap T} (o : OnlyWorld ns h h') (n : NodeId) :
    (h'.get n).joint.position = (h.get n).joint.position := (o.same n).position

theorem noneOutside_congr {ns : List NodeId} {h h' : KHeap T} (m : SameBut h h')
    (e : ∀ n, (h'.get n).joint.position = (h.get n).joint.position) (o : NoneOutside h ns) :
    NoneOutside h' ns := fun n hn => by rw [e, m.limits]; exact o n hn

theorem solveOneLoop_noneOutside [LawfulOrd T] {ops : List Bool} {ign : List Nat} {h h' : KHeap T}
    (u : h.Unlocked) (w : arm.Wf h) (p : ProperLimits h) (o : NoneOutside h arm.movableNodes)
    {r : Except (KError T) (List T)} (e : run (solveOneLoop s arm target ops ign) h = .ok r h') :
    NoneOutside h' arm.movableNodes := by
  obtain ⟨h1, jac, x, ow, -, -, ⟨e', -, -, rfl⟩ | ⟨ps, -, rfl, -⟩⟩ :=
    solveOneLoop_ok s arm target ops ign h h' u w r e
  · exact noneOutside_congr ow.moved.sameBut ow.position o
  · exact noneOutside_clampAll _ _ _ (properLimits_sameBut ow.moved.sameBut p)
      (noneOutside_congr ow.moved.sameBut ow.position o)

theorem Unreached.noneOutside [LawfulOrd T] {ops : List Bool} {ign : List Nat} {k : Nat}
    {h h' : KHeap T} {last last' : Option (V3 T × V3 T)}
    (i : Unreached s arm target ops ign k h last h' last') (u : h.Unlocked) (w : arm.Wf h)
    (p : ProperLimits h) (o : NoneOutside h arm.movableNodes) : NoneOutside h' arm.movableNodes := by
  induction i with
  | nil => exact o
  | cons diff e nr rest ih =>
    have m := solveOneLoop_moved s arm target ops ign _ _ u w _ e
    exact ih (m.unlocked u) (m.sameBut.chainWf w) (properLimits_sameBut m.sameBut p)
      (solveOneLoop_noneOutside u w p o e)

/-- **C24**.  When a solve returns `Ok`, `end_transform()` is within the tolerances of the target in the
constrained coordinates, and no joint of the arm is outside its limits; whatever the linear solver, the
nullspace function and the number of tries.  The joints must not be outside their limits before the
call (`C24_needs_limits`). -/
theorem C24_success [LawfulOrd T] (h h' : KHeap T) (u : h.Unlocked) (w : arm.Wf h)
    (p : ProperLimits h) (o : NoneOutside h arm.movableNodes)
    (e : run (solveWithConstraints s arm target c) h = .ok (.ok ()) h') :
    (∃ X, run arm.endTransform h' = .ok X h' ∧
      Scalar.lt (posError c target X).norm s.allowableTargetDistance = true ∧
      Scalar.lt (rotError c target X).norm s.allowableTargetAngle = true) ∧
    NoneOutside h' arm.movableNodes := by
  obtain ⟨-, r1, h1, a, b⟩ := solve_ok c h h' u w _ e
  rcases a with ⟨rfl, -, rfl⟩ | ⟨e1, rr, -, -, ⟨e2, -, x⟩ | ⟨-, x⟩⟩
  rotate_left
  · cases x
  · cases x
  rcases b with ⟨-, -, x⟩ | ⟨-, ⟨_, -, -, x⟩ | ⟨is, -, t⟩⟩
  · cases x
  · cases x
  obtain ⟨k, h2, last, i, cases3⟩ := tryLoop_ok _ _ _ h h' u w _ t
  rcases cases3 with ⟨-, rr, -, ⟨_, -, x⟩ | ⟨-, d, -, x⟩⟩ | ⟨-, e', -, x⟩ | ⟨-, diff, h3, e3, re, rfl, -⟩
  · cases x
  · cases x
  · cases x
  have m2 := i.moved u w
  have u2 := m2.unlocked u
  have w2 := m2.sameBut.chainWf w
  have o2 := i.noneOutside u w p o
  have p2 := properLimits_sameBut m2.sameBut p
  have m3 := solveOneLoop_moved _ _ _ _ _ _ _ u2 w2 _ e3
  have o3 := solveOneLoop_noneOutside u2 w2 p2 o2 e3
  have u3 := m3.unlocked u2
  have m4 := moved_clamp_chain (h' := h3) (m3.sameBut.chainWf w2) (posList h3 arm.movableNodes)
  have same := position_clampAll_same (arm.movableNodes.zip (posList h3 arm.movableNodes)) h3
    (fun p hp => (zip_posList _ p hp).2) (fun p hp => o3 _ (zip_posList _ p hp).1)
  refine ⟨⟨_, run_endTransform arm _ (m4.unlocked u3), ?_⟩, noneOutside_congr m4.sameBut same o3⟩
  rw [endPose_congr m4.sameBut arm.nodes fun n _ => same n]
  obtain ⟨h4, jac, x, -, -, -, ⟨_, -, x, -⟩ | ⟨ps, -, -, x⟩⟩ :=
    solveOneLoop_ok _ _ _ _ _ _ _ u2 w2 _ e3
  · cases x
  · cases x
    rw [C30_split] at re
    simpa [reached] using re

/-! ## C25 -/

/-- the joint accepts the value -/
def Accepts (h : KHeap T) (n : NodeId) (x : T) : Prop :=
  Movable h n ∧ Within (h.get n).joint.limits x

theorem Accepts.ok {h : KHeap T} {n : NodeId} {x : T} (a : Accepts h n x) :
    ((h.get n).joint.setJointPosition x).2 = .ok () := by
  obtain ⟨m, wi⟩ := a
  unfold Joint.setJointPosition
  rw [if_neg (by rw [Bool.not_eq_true', Bool.not_eq_false]; exact (isMovable_iff _).2 m)]
  cases hl : (h.get n).joint.limits with
  | none => rfl
  | some r =>
    obtain ⟨a, b⟩ := wi r hl
    simp [Range.isValid, a, b]

/-- The state of an arm to which `set_joint_positions` can return: the joints that follow no other joint
are within their limits; the mimic children of such a joint are movable, where their master puts them and
within their limits; and the master of an arm joint is in the arm. -/
structure Restorable (h : KHeap T) (arm : Chain) : Prop where
  own : ∀ n ∈ arm.movableNodes, (h.get n).mimicParent = none →
    Within (h.get n).joint.limits (h.get n).joint.position
  children : ∀ n ∈ arm.movableNodes, (h.get n).mimicParent = none → ∀ k ∈ (h.get n).mimicChildren,
    Accepts h k (h.get k).joint.position ∧ ∀ mi, (h.get k).mimic = some mi →
      (h.get k).joint.position = (h.get n).joint.position * mi.multiplier + mi.origin
  masters : ∀ n ∈ arm.movableNodes, ∀ m, (h.get n).mimicParent = some m →
    m ∈ arm.movableNodes ∧ n ∈ (h.get m).mimicChildren

theorem mimicLoop_all_ok (x : T) (cs : List NodeId) (h : KHeap T)
    (a : ∀ k ∈ cs, ∀ mi, (h.get k).mimic = some mi →
      ((h.get k).joint.setJointPosition (mi.mimicPosition x)).2 = .ok ()) :
    (mimicLoop x cs h).1 = .ok () := by
  induction cs generalizing h with
  | nil => rfl
  | cons d cs ih =>
    simp only [mimicLoop]
    cases hm : (h.get d).mimic with
    | none => rfl
    | some mi =>
      simp only [a d (by simp) mi hm]
      have sb := sameBut_setJoint h d (mi.mimicPosition x)
      refine ih _ fun k hk mi' hmi => ?_
      rw [sb.mimic] at hmi
      rw [setJointPosition_result_congr _ _ _ (sb.name k) (sb.jointType k) (sb.limits k)]
      exact a k (by simp [hk]) mi' hmi

/-- what a solve can have changed before it restores the positions -/
structure Disturbed (arm : Chain) (h h' : KHeap T) : Prop where
  sameBut : SameBut h h'
  outside : ∀ k, k ∉ arm.nodes → posOf h' k = posOf h k

theorem Moved.disturbed {h h' : KHeap T} (m : Moved arm.nodes h h') : Disturbed arm h h' :=
  ⟨m.sameBut, fun k hk => by rw [posOf, m.outside k hk]; rfl⟩

theorem restore {h h1 : KHeap T} (u : h.Unlocked) (ol : OneLevel h) (w : arm.Wf h)
    (nd : arm.nodes.Nodup) (re : Restorable h arm) (d : Disturbed arm h h1) :
    ∃ h2, run (arm.setJointPositions (posList h arm.movableNodes)) h1 = .ok (.ok ()) h2 ∧
      SameBut h h2 ∧ ∀ k, posOf h2 k = posOf h k := by
  have sb := d.sameBut
  have mvn : arm.movableNodes.Nodup := by rw [w.movable]; exact nd.filter _
  let ps := arm.movableNodes.zip (posList h arm.movableNodes)
  have hfst : ps.map Prod.fst = arm.movableNodes := by
    simp only [ps, posList]
    rw [List.map_fst_zip]; simp
  have memps : ∀ n ∈ arm.movableNodes, (n, (h.get n).joint.position) ∈ ps := by
    intro n hn
    simp only [ps, posList]
    rw [zip_map_self]
    exact List.mem_map.2 ⟨n, hn, rfl⟩
  have mvb : ∀ n ∈ arm.movableNodes, Movable h n := by
    intro n hn; rw [w.movable, List.mem_filter] at hn; simpa using hn.2
  have ok : (setAll ps h1).1 = .ok () := by
    rw [setAll_ok_iff]
    intro q hq
    obtain ⟨hn, hx⟩ := zip_posList (h := h) _ q hq
    rw [setPos_result_congr _ _ h h1 sb]
    unfold setPos
    split
    · rfl
    · rename_i nm
      have nm : (h.get q.1).mimicParent = none := by simpa using nm
      have acc : Accepts h q.1 q.2 := ⟨mvb _ hn, by rw [← hx]; exact re.own _ hn nm⟩
      rw [acc.ok]
      have sj := sameBut_setJoint h q.1 q.2
      refine mimicLoop_all_ok _ _ _ fun k hk mi hmi => ?_
      rw [sj.mimic] at hmi
      rw [setJointPosition_result_congr _ _ _ (sj.name k) (sj.jointType k) (sj.limits k)]
      obtain ⟨a, b⟩ := re.children _ hn nm k hk
      have := b mi hmi
      rw [hx] at this
      unfold Mimic.mimicPosition
      rw [← this]; exact a.ok
  have u1 := sb.unlocked u
  have o1 := sb.oneLevel ol
  obtain ⟨s1, s2⟩ := setAll_ok ps h1 u1 o1 (by rw [hfst]; exact mvn) ok
  have sb2 := sb.trans (sameBut_setAll ps h1)
  refine ⟨(setAll ps h1).2, ?_, sb2, ?_⟩
  · have := run_setJointPositions arm (posList h arm.movableNodes) h1 u1 o1.mimicWF
      (by simp [posList, w.dof])
    rw [this]
    show Res.ok (setAll ps h1).1 _ = _
    rw [ok]
  have movpos : ∀ n, Movable h n → posOf h n = some (h.get n).joint.position := fun n m =>
    jointPosition_of_movable _ m
  intro k
  by_cases c1 : ∃ n ∈ arm.movableNodes, (h.get n).mimicParent = none ∧
      (k = n ∨ k ∈ (h.get n).mimicChildren)
  · obtain ⟨n, hn, nm, hk⟩ := c1
    obtain ⟨a, b⟩ := s1 _ (memps n hn) (by rw [sb.mimicParent]; exact nm)
    rcases hk with rfl | hk
    · rw [movpos _ (mvb _ hn)]; exact a
    · obtain ⟨mi, hmi, e⟩ := b k (by rw [sb.mimicChildren]; exact hk)
      rw [sb.mimic] at hmi
      obtain ⟨acc, e2⟩ := re.children n hn nm k hk
      rw [movpos _ acc.1, e2 mi hmi]
      exact e
  · have fr := s2 k fun q hq hqm => by
      have hn := (zip_posList (h := h) _ q hq).1
      rw [sb.mimicParent] at hqm
      refine ⟨fun e => c1 ⟨q.1, hn, hqm, .inl e⟩, fun hc => c1 ⟨q.1, hn, hqm, .inr ?_⟩⟩
      rw [sb.mimicChildren] at hc; exact hc
    have : posOf (setAll ps h1).2 k = posOf h1 k := by rw [posOf, fr]; rfl
    rw [this]
    by_cases hk : k ∈ arm.nodes
    · by_cases mk : Movable h k
      · have km : k ∈ arm.movableNodes := by
          rw [w.movable, List.mem_filter]; exact ⟨hk, by simpa using mk⟩
        exfalso
        cases pm : (h.get k).mimicParent with
        | none => exact c1 ⟨k, km, pm, .inl rfl⟩
        | some m =>
          obtain ⟨a, b⟩ := re.masters k km m pm
          exact c1 ⟨m, a, (ol m k b).2.2, .inr b⟩
      · have f : (h.get k).joint.jointType = .fixed := by simpa [Movable] using mk
        have f1 : (h1.get k).joint.jointType = .fixed := by rw [sb.jointType]; exact f
        simp [posOf, Joint.jointPosition, f, f1]
    · exact d.outside k hk

/-- **C25**.  When a solve returns `Err`, every joint of the world is where it was before the call,
and nothing but caches has changed: if the arm was in a `Restorable` state.  (Without that it is false:
`C25_refuted_limits`, `C25_refuted_mimic`.) -/
theorem C25_restores (h h' : KHeap T) (u : h.Unlocked) (ol : OneLevel h) (w : arm.Wf h)
    (nd : arm.nodes.Nodup) (re : Restorable h arm) (er : KError T)
    (e : run (solveWithConstraints s arm target c) h = .ok (.error er) h') :
    SameBut h h' ∧ ∀ k, posOf h' k = posOf h k := by
  obtain ⟨-, r1, h1, a, b⟩ := solve_ok c h h' u w _ e
  have d1 : Disturbed arm h h1 := by
    rcases b with ⟨-, rfl, -⟩ | ⟨-, ⟨_, -, rfl, -⟩ | ⟨is, -, t⟩⟩
    · exact (Moved.refl _ _).disturbed
    · exact (Moved.refl _ _).disturbed
    · obtain ⟨k, h2, last, i, cases3⟩ := tryLoop_ok _ _ _ h h1 u w _ t
      have m2 := i.moved u w
      have u2 := m2.unlocked u
      have w2 := m2.sameBut.chainWf w
      rcases cases3 with ⟨-, rr, x, -⟩ | ⟨-, e', x, -⟩ | ⟨-, diff, h3, x, -, rfl, -⟩
      · obtain ⟨h4, y, sb, pos⟩ := restore u ol w nd re m2.disturbed
        rw [x] at y; cases y
        exact ⟨sb, fun k _ => pos k⟩
      · exact (m2.trans (solveOneLoop_moved _ _ _ _ _ _ _ u2 w2 _ x)).disturbed
      · exact ((m2.trans (solveOneLoop_moved _ _ _ _ _ _ _ u2 w2 _ x)).trans
          (moved_clamp_chain w _)).disturbed
  rcases a with ⟨-, x, -⟩ | ⟨e1, rr, -, x, -⟩
  · cases x
  · obtain ⟨h4, y, sb, pos⟩ := restore u ol w nd re d1
    rw [x] at y; cases y
    exact ⟨sb, pos⟩

/-! ## C31 -/

/-- **C31** (removal).  Deleting the ignored columns, or entries, at increasing indices leaves exactly
the others. -/
theorem C31_remove {α : Type} (is : List Nat) (xs : List α) (srt : is.Pairwise (· < ·))
    (lt : ∀ j ∈ is, j < xs.length) : removeIndices is 0 xs = .ok (dropIdx is xs) := by
  rw [removeIndices_ok is 0 xs srt (fun _ _ => Nat.zero_le _) (by simpa using lt), dropIdx_eq]
  simp

/-- **C31** (re-insertion).  Inserting zeros at the same indices puts zero there and every increment at
the index it belongs to: dropping the indices again gives the increments back. -/
theorem C31_insert (is : List Nat) (ys : List T) (srt : is.Pairwise (· < ·))
    (lt : ∀ j ∈ is, j < ys.length + is.length) :
    ∃ zs, insertZeros is ys = .ok zs ∧ zs.length = ys.length + is.length ∧
      (∀ j ∈ is, zs[j]? = some 0) ∧ dropIdx is zs = ys := by
  obtain ⟨zs, e, d, l, z, -⟩ := insertZeros_ok is ys srt lt
  exact ⟨zs, e, l, z, d⟩

example : dropIdx [1, 3] [10, 11, 12, 13, 14] = [10, 12, 14] := by decide

/-- **C31** (a name given twice).  Index `0` twice panics; index `i + 1` twice deletes the column of
joint `i` as well, which is not ignored. -/
theorem C31_duplicate {α : Type} (xs : List α) (i : Nat) (hi : i + 1 < xs.length) :
    (∃ m, removeIndices [0, 0] 0 xs = .error m) ∧
      removeIndices [i + 1, i + 1] 0 xs = .ok (dropIdx [i, i + 1] xs) := by
  constructor
  · have h0 : 0 < xs.length := Nat.lt_of_le_of_lt (Nat.zero_le _) hi
    exact ⟨"attempt to subtract with overflow", by simp [removeIndices, h0]⟩
  · have : removeIndices [i + 1, i + 1] 0 xs = .ok ((xs.eraseIdx (i + 1)).eraseIdx i) := by
      simp only [removeIndices, Nat.not_lt_zero, if_false, Nat.sub_zero, hi, if_true]
      rw [if_neg (by omega), if_pos (by rw [List.length_eraseIdx_of_lt hi]; simp; omega)]
      simp
    rw [this, dropIdx_eq, dropFrom_erase_after 0 i [i + 1] xs (Nat.zero_le _) (by simp),
      dropFrom_erase_after 0 (i + 1) [] xs (Nat.zero_le _) (by simp), dropFrom_empty]
    simp

/-! ## C26 -/

theorem clampAll_get (ps : List (NodeId × T)) (h : KHeap T) (nd : (ps.map Prod.fst).Nodup)
    (p : NodeId × T) (hp : p ∈ ps) : ((clampAll ps h).get p.1).joint =
      (h.get p.1).joint.setJointPositionClamped p.2 := by
  induction ps generalizing h with
  | nil => cases hp
  | cons q ps ih =>
    rw [List.map_cons, List.nodup_cons] at nd
    rcases List.mem_cons.1 hp with rfl | hp
    · have := (moved_clampAll ps (ps.map Prod.fst) (fun x hx => List.mem_map.2 ⟨x, hx, rfl⟩)
        (h.modify p.1 fun s => { s with joint := s.joint.setJointPositionClamped p.2 })).outside
        p.1 nd.1
      show ((clampAll ps (h.modify p.1 fun s =>
        { s with joint := s.joint.setJointPositionClamped p.2 })).get p.1).joint = _
      rw [this]; simp
    · have ne : p.1 ≠ q.1 := fun e => nd.1 (e ▸ List.mem_map.2 ⟨p, hp, rfl⟩)
      have := ih (h.modify q.1 fun s => { s with joint := s.joint.setJointPositionClamped q.2 }) nd.2 hp
      show ((clampAll ps (h.modify q.1 fun s =>
        { s with joint := s.joint.setJointPositionClamped q.2 })).get p.1).joint = _
      rw [this, Heap.get_modify_of_ne _ _ ne]

theorem zip_fst_sublist {α β : Type} (xs : List α) (ys : List β) :
    ((xs.zip ys).map Prod.fst).Sublist xs := by
  induction xs generalizing ys with
  | nil => simp
  | cons x xs ih =>
    cases ys with
    | nil => simp
    | cons y ys => simpa using ih ys

/-- in the redundant case the next positions are the old ones plus increments with zeros inserted -/
theorem nextPositions_redundant {ops : List Bool} {ign : List Nat} {dof : Nat} {jac : Mat T}
    {err orig ps : List T} (gt : countTrue ops < dof - ign.length)
    (e : nextPositions s ops ign dof jac err orig = .ok (.ok ps)) :
    ∃ dq zs, insertZeros ign dq = .ok zs ∧
      ps = addPositionsWithMultiplier s.jacobianMultiplier orig zs := by
  unfold nextPositions at e
  simp only [Bind.bind, Except.bind] at e
  split at e
  · cases e
  · split at e
    · cases e
    · rw [if_pos gt] at e
      split at e
      · cases e
      · split at e
        · split at e
          · cases e
          · split at e
            · cases e
            · split at e
              · cases e
              · split at e
                · cases e
                · rename_i zs hz
                  cases e; exact ⟨_, zs, hz, rfl⟩
        · split at e
          · cases e
          · rename_i zs hz
            cases e; exact ⟨_, zs, hz, rfl⟩

theorem solveOneLoop_ignored {ops : List Bool} {ign : List Nat} {h h' : KHeap T} (u : h.Unlocked)
    (w : arm.Wf h) (nd : arm.nodes.Nodup) (o : NoneOutside h arm.movableNodes)
    (zero : ∀ x : T, x + s.jacobianMultiplier * 0 = x) (srt : ign.Pairwise (· < ·))
    (gt : countTrue ops < arm.dof - ign.length)
    {r : Except (KError T) (List T)} (e : run (solveOneLoop s arm target ops ign) h = .ok r h')
    (i : Nat) (hi : i ∈ ign) (n : NodeId) (hn : arm.movableNodes[i]? = some n) :
    (h'.get n).joint.position = (h.get n).joint.position := by
  obtain ⟨h1, jac, x, ow, -, np, ⟨e', -, -, rfl⟩ | ⟨ps, rfl, rfl, -⟩⟩ :=
    solveOneLoop_ok s arm target ops ign h h' u w r e
  · exact ow.position n
  · obtain ⟨dq, zs, iz, rfl⟩ := nextPositions_redundant gt np
    have z := (insertZeros_zero ign dq zs srt iz).1 i hi
    have mvn : arm.movableNodes.Nodup := by rw [w.movable]; exact nd.filter _
    have pl : (posList h arm.movableNodes)[i]? = some (h.get n).joint.position := by
      simp [posList, hn]
    have pe : (addPositionsWithMultiplier s.jacobianMultiplier (posList h arm.movableNodes) zs)[i]? =
        some (h.get n).joint.position := by
      simp [addPositionsWithMultiplier, List.getElem?_zipWith, pl, z, zero]
    have mem : (n, (h.get n).joint.position) ∈ arm.movableNodes.zip
        (addPositionsWithMultiplier s.jacobianMultiplier (posList h arm.movableNodes) zs) := by
      refine List.mem_of_getElem? (i := i) ?_
      rw [List.getElem?_zip_eq_some]; exact ⟨hn, pe⟩
    have nd' : ((arm.movableNodes.zip (addPositionsWithMultiplier s.jacobianMultiplier
        (posList h arm.movableNodes) zs)).map Prod.fst).Nodup := mvn.sublist (zip_fst_sublist _ _)
    have o1 : NotOutside (h1.get n).joint.limits (h1.get n).joint.position := by
      rw [ow.position, ow.moved.sameBut.limits]
      exact o n (List.mem_of_getElem? hn)
    rw [clampAll_get _ h1 nd' _ mem]
    have := clamped_same (h1.get n).joint o1
    rw [ow.position n] at this
    exact this

theorem Unreached.ignored [LawfulOrd T] {ops : List Bool} {ign : List Nat} {k : Nat}
    {h h' : KHeap T} {last last' : Option (V3 T × V3 T)}
    (it : Unreached s arm target ops ign k h last h' last') (u : h.Unlocked)
    (w : arm.Wf h) (nd : arm.nodes.Nodup) (p : ProperLimits h) (o : NoneOutside h arm.movableNodes)
    (zero : ∀ x : T, x + s.jacobianMultiplier * 0 = x) (srt : ign.Pairwise (· < ·))
    (gt : countTrue ops < arm.dof - ign.length)
    (i : Nat) (hi : i ∈ ign) (n : NodeId) (hn : arm.movableNodes[i]? = some n) :
    (h'.get n).joint.position = (h.get n).joint.position := by
  induction it with
  | nil => rfl
  | cons diff e nr rest ih =>
    have m := solveOneLoop_moved s arm target ops ign _ _ u w _ e
    rw [ih (m.unlocked u) (m.sameBut.chainWf w) (properLimits_sameBut m.sameBut p)
      (solveOneLoop_noneOutside u w p o e)]
    exact solveOneLoop_ignored u w nd o zero srt gt e i hi n hn

theorem nameIndices_mem {h : KHeap T} {ns : List NodeId} {names : List String} {is : List Nat}
    (e : nameIndices h ns names = .ok is) : is.length = names.length ∧
      ∀ a ∈ names, ∃ i ∈ is, ns.findIdx? (fun n => (h.get n).joint.name == a) = some i := by
  induction names generalizing is with
  | nil => cases e; simp
  | cons a as ih =>
    rw [nameIndices] at e
    cases f : ns.findIdx? fun n => (h.get n).joint.name == a with
    | none => simp [f] at e
    | some i =>
      simp only [f] at e
      cases g : nameIndices h ns as with
      | error b => simp [g] at e
      | ok js =>
        simp only [g] at e; cases e
        obtain ⟨l, m⟩ := ih g
        refine ⟨by simp [l], fun b hb => ?_⟩
        rcases List.mem_cons.1 hb with rfl | hb
        · exact ⟨i, by simp, f⟩
        · obtain ⟨j, hj, x⟩ := m b hb
          exact ⟨j, by simp [hj], x⟩

theorem sortedIndices_spec {h : KHeap T} {ns : List NodeId} {names : List String} {is : List Nat}
    (e : nameIndices h ns names = .ok is) (nn : names.Nodup) :
    (sortedIndices is).Pairwise (· < ·) ∧ (sortedIndices is).length = names.length ∧
      ∀ a ∈ names, ∀ n, ns.find? (fun n => (h.get n).joint.name == a) = some n →
        ∃ i ∈ sortedIndices is, ns[i]? = some n := by
  have nd : is.Nodup := by
    induction names generalizing is with
    | nil => cases e; simp
    | cons a as ih =>
      rw [List.nodup_cons] at nn
      rw [nameIndices] at e
      cases f : ns.findIdx? fun n => (h.get n).joint.name == a with
      | none => simp [f] at e
      | some i =>
        simp only [f] at e
        cases g : nameIndices h ns as with
        | error b => simp [g] at e
        | ok js =>
          simp only [g] at e; cases e
          refine List.nodup_cons.2 ⟨fun hij => ?_, ih g nn.2⟩
          -- some later name has the same index, hence is the same name
          have key : ∀ (as : List String) (js : List Nat), nameIndices h ns as = .ok js → i ∈ js →
              a ∈ as := by
            intro as
            induction as with
            | nil => intro js e hi; cases e; cases hi
            | cons b bs ihb =>
              intro js e hi
              rw [nameIndices] at e
              cases f2 : ns.findIdx? fun n => (h.get n).joint.name == b with
              | none => simp [f2] at e
              | some i2 =>
                simp only [f2] at e
                cases g2 : nameIndices h ns bs with
                | error b => simp [g2] at e
                | ok ks =>
                  simp only [g2] at e; cases e
                  rcases List.mem_cons.1 hi with rfl | hi
                  · rw [List.findIdx?_eq_some_iff_getElem] at f f2
                    obtain ⟨x, y, -⟩ := f
                    obtain ⟨x', y', -⟩ := f2
                    have e1 : (h.get ns[i]).joint.name = a := by simpa using y
                    have e2 : (h.get ns[i]).joint.name = b := by simpa using y'
                    rw [← e1, e2]; simp
                  · exact List.mem_cons_of_mem _ (ihb _ g2 hi)
          exact nn.1 (key as js g hij)
  have perm : (sortedIndices is).Perm is := List.mergeSort_perm _ _
  have srt : (sortedIndices is).Pairwise (· ≤ ·) := by
    have := List.pairwise_mergeSort (le := fun a b : Nat => decide (a ≤ b))
      (by intro a b c; simp; omega) (by intro a b; simp; omega) is
    exact this.imp fun h => by simpa using h
  refine ⟨?_, by rw [perm.length_eq, (nameIndices_mem e).1], fun a ha n hn => ?_⟩
  · have nds : (sortedIndices is).Pairwise (· ≠ ·) := perm.nodup_iff.2 nd
    exact (srt.and nds).imp fun h => Nat.lt_of_le_of_ne h.1 h.2
  · obtain ⟨i, hi, x⟩ := (nameIndices_mem e).2 a ha
    refine ⟨i, perm.mem_iff.2 hi, ?_⟩
    rw [List.findIdx?_eq_some_iff_getElem] at x
    obtain ⟨hl, y, z⟩ := x
    rw [List.find?_eq_some_iff_getElem] at hn
    obtain ⟨p, j, hj, rfl, q⟩ := hn
    have : i = j := by
      rcases Nat.lt_trichotomy i j with l | l | l
      · have := q i l; simp [y] at this
      · exact l
      · have := z j l; simp [p] at this
    subst this
    exact List.getElem?_eq_getElem hj

/-- **C26**.  When more degrees of freedom remain than coordinates are constrained, a successful solve
leaves the joints in `ignored_joint_names` where they were.  (`zero` holds over the reals; for floats it
says that the multiplier is finite.)  When as many remain as are constrained it is false:
`C26_refuted`. -/
theorem C26_ignored [LawfulOrd T] (h h' : KHeap T) (u : h.Unlocked) (w : arm.Wf h)
    (nd : arm.nodes.Nodup) (p : ProperLimits h) (o : NoneOutside h arm.movableNodes)
    (zero : ∀ x : T, x + s.jacobianMultiplier * 0 = x) (nn : c.ignoredJointNames.Nodup)
    (gt : numConstrained c < arm.dof - c.ignoredJointNames.length)
    (e : run (solveWithConstraints s arm target c) h = .ok (.ok ()) h')
    (a : String) (ha : a ∈ c.ignoredJointNames) (n : NodeId)
    (hn : arm.movableNodes.find? (fun n => (h.get n).joint.name == a) = some n) :
    posOf h' n = posOf h n := by
  obtain ⟨-, r1, h1, x, b⟩ := solve_ok c h h' u w _ e
  rcases x with ⟨rfl, -, rfl⟩ | ⟨e1, rr, -, -, ⟨e2, -, x⟩ | ⟨-, x⟩⟩
  rotate_left
  · cases x
  · cases x
  rcases b with ⟨-, -, x⟩ | ⟨-, ⟨_, -, -, x⟩ | ⟨is, ni, t⟩⟩
  · cases x
  · cases x
  obtain ⟨srt, len, mem⟩ := sortedIndices_spec ni nn
  obtain ⟨i, hi, hni⟩ := mem a ha n hn
  rw [← (C30_count (T := T) c).1, ← len] at gt
  obtain ⟨k, h2, last, it, cases3⟩ := tryLoop_ok _ _ _ h h' u w _ t
  rcases cases3 with ⟨-, rr, -, ⟨_, -, x⟩ | ⟨-, d, -, x⟩⟩ | ⟨-, e', -, x⟩ | ⟨-, diff, h3, e3, re, rfl, -⟩
  · cases x
  · cases x
  · cases x
  have m2 := it.moved u w
  have u2 := m2.unlocked u
  have w2 := m2.sameBut.chainWf w
  have o2 := it.noneOutside u w p o
  have p2 := properLimits_sameBut m2.sameBut p
  have m3 := solveOneLoop_moved _ _ _ _ _ _ _ u2 w2 _ e3
  have o3 := solveOneLoop_noneOutside u2 w2 p2 o2 e3
  have m4 := moved_clamp_chain (h' := h3) (m3.sameBut.chainWf w2) (posList h3 arm.movableNodes)
  have same := position_clampAll_same (arm.movableNodes.zip (posList h3 arm.movableNodes)) h3
    (fun p hp => (zip_posList _ p hp).2) (fun p hp => o3 _ (zip_posList _ p hp).1)
  have p1 := it.ignored u w nd p o zero srt gt i hi n hni
  have p3 := solveOneLoop_ignored u2 w2 nd o2 zero srt gt e3 i hi n hni
  have sb := (m2.trans m3).trans m4
  simp only [posOf, Joint.jointPosition, sb.sameBut.jointType n, same n, p3, p1]

/-! ## C27 -/

/-- **C27**.  If no joint of the arm has mimic children outside the arm, a solve leaves every node
outside the arm exactly as it was, in whatever way the call ends, and of the nodes of the arm it changes
only positions and caches. -/
theorem C27_only_arm (h : KHeap T) (w : arm.Wf h)
    (cl : ∀ n ∈ arm.movableNodes, ∀ k ∈ (h.get n).mimicChildren, k ∈ arm.nodes) :
    let Good := fun g : KHeap T => (∀ n, n ∉ arm.nodes → g.get n = h.get n) ∧
      ∀ n, ∃ p wt wv, g.get n = { h.get n with joint := { (h.get n).joint with
        position := p, worldTransformCache := wt, worldVelocityCache := wv } }
    match run (solveWithConstraints s arm target c) h with
    | .ok _ g => Good g
    | .panic _ g => Good g
    | .blocked _ g => Good g
    | .diverged => True := by
  intro Good
  let P : NodeId → NodeImpl T → Prop := fun n st => (n ∉ arm.nodes → st = h.get n) ∧
    ∃ p wt wv, st = { h.get n with joint := { (h.get n).joint with
        position := p, worldTransformCache := wt, worldVelocityCache := wv } }
  have set : ∀ (n : NodeId) (f : Joint T → Joint T), n ∈ arm.nodes →
      (∀ j : Joint T, ∃ p wt wv, f j = { j with
        position := p, worldTransformCache := wt, worldVelocityCache := wv }) →
      ∀ st, P n st → P n { st with joint := f st.joint } := by
    intro n f hn hf st hst
    obtain ⟨-, p, t, v, e⟩ := hst
    refine ⟨fun x => absurd hn x, ?_⟩
    obtain ⟨p', t', v', e'⟩ := hf st.joint
    exact ⟨p', t', v', by rw [e', e]⟩
  have wt : ∀ (n : NodeId) (t : Iso T), n ∈ arm.nodes → ∀ st, P n st →
      P n { st with joint := st.joint.setWorldTransform t } := fun n t hn =>
    set n (fun j => j.setWorldTransform t) hn fun j => ⟨_, _, _, rfl⟩
  have safe : Safe h.next P (fun _ => True) (Call.solve s arm target c).prog := by
    refine safe_call _ ?_ ?_ trivial
    · intro n f hf st hst
      rcases hf with ⟨hm, t, rfl⟩ | ⟨hm, t, rfl⟩
      · exact wt n t hm st hst
      · exact set n (fun j => j.setJointPositionClamped t) (w.sub n hm)
          (fun j => setJointPositionClamped_shape j t) st hst
    · intro n hn
      refine ⟨fun y st hst => set n (fun j => (j.setJointPosition y).1) (w.sub n hn)
        (fun j => setJointPosition_shape j y) st hst, fun st hst k hk y st' hst' => ?_⟩
      obtain ⟨-, p, t, v, e⟩ := hst
      rw [e] at hk
      exact set k (fun j => (j.setJointPosition y).1) (cl n hn k hk)
        (fun j => setJointPosition_shape j y) st' hst'
  have := run_safe safe (h := h) ⟨Nat.le_refl _, fun n => ⟨fun _ => rfl, _, _, _, rfl⟩⟩
  have good : ∀ g : KHeap T, HeapInv h.next P g → Good g := fun g hg =>
    ⟨fun n hn => (hg.2 n).1 hn, fun n => (hg.2 n).2⟩
  show match run (Call.solve s arm target c).prog h with
    | .ok _ g => Good g
    | .panic _ g => Good g
    | .blocked _ g => Good g
    | .diverged => True
  cases e : run (Call.solve s arm target c).prog h with
  | ok x g => rw [e] at this; exact good g this.2
  | panic m g => rw [e] at this; exact good g this
  | blocked m g => rw [e] at this; exact good g this
  | diverged => trivial

/-! ## C28 -/

theorem run_solve_restore (h h1 h2 : KHeap T) (u : h.Unlocked) (w : arm.Wf h) (er : KError T)
    (e1 : run (solveInternal s arm target c) h = .ok (.error er) h1)
    (e2 : run (arm.setJointPositions (posList h arm.movableNodes)) h1 = .ok (.ok ()) h2) :
    run (solveWithConstraints s arm target c) h = .ok (.error er) h2 := by
  unfold posList at e2
  simp only [solveWithConstraints, run_bind, run_jointPositions h u arm w, Res.bind_ok, e1, e2]
  rfl

/-- **C28** (too many names).  More ignored names than degrees of freedom: panic. -/
theorem C28_too_many (h : KHeap T) (u : h.Unlocked) (w : arm.Wf h)
    (lt : arm.dof < c.ignoredJointNames.length) :
    run (solveWithConstraints s arm target c) h = .panic "attempt to subtract with overflow" h := by
  simp only [solveWithConstraints, solveInternal, run_bind, run_jointPositions h u arm w, Res.bind_ok,
    if_pos lt, run_panic, Res.bind_panic]

/-- **C28** (degrees of freedom).  With fewer remaining degrees of freedom than constrained coordinates
the answer is `PreconditionError` with both numbers, and no joint has moved. -/
theorem C28_precondition (h : KHeap T) (u : h.Unlocked) (ol : OneLevel h) (w : arm.Wf h)
    (nd : arm.nodes.Nodup) (re : Restorable h arm) (le : c.ignoredJointNames.length ≤ arm.dof)
    (lt : arm.dof - c.ignoredJointNames.length < numConstrained c) :
    ∃ h', run (solveWithConstraints s arm target c) h =
        .ok (.error (.precondition (arm.dof - c.ignoredJointNames.length) (numConstrained c))) h' ∧
      SameBut h h' ∧ ∀ k, posOf h' k = posOf h k := by
  obtain ⟨h2, e2, sb, pos⟩ := restore u ol w nd re (Moved.refl _ _).disturbed
  refine ⟨h2, run_solve_restore h h h2 u w _ ?_ e2, sb, pos⟩
  rw [← (C30_count (T := T) c).1] at lt ⊢
  simp only [solveInternal, run_bind, run_jointPositions h u arm w, Res.bind_ok,
    if_neg (Nat.not_lt.2 le), if_pos lt, run_pure]

theorem nameIndices_error {h : KHeap T} {ns : List NodeId} {pre post : List String} {a : String}
    (ok : ∀ b ∈ pre, ∃ n ∈ ns, (h.get n).joint.name = b) (na : ∀ n ∈ ns, (h.get n).joint.name ≠ a) :
    nameIndices h ns (pre ++ a :: post) = .error a := by
  induction pre with
  | nil =>
    have : ns.findIdx? (fun n => (h.get n).joint.name == a) = none := by
      rw [List.findIdx?_eq_none_iff]
      intro n hn; simpa using na n hn
    simp [nameIndices, this]
  | cons b pre ih =>
    obtain ⟨n, hn, e⟩ := ok b (by simp)
    rw [List.cons_append, nameIndices, ih fun b hb => ok b (by simp [hb])]
    cases f : ns.findIdx? fun n => (h.get n).joint.name == b with
    | none =>
      rw [List.findIdx?_eq_none_iff] at f
      have := f n hn; simp [e] at this
    | some i => rfl

/-- **C28** (names).  Otherwise the first name that is not the name of a movable joint of the arm is
reported with `InvalidJointNameError`, and no joint has moved. -/
theorem C28_invalid_name (h : KHeap T) (u : h.Unlocked) (ol : OneLevel h) (w : arm.Wf h)
    (nd : arm.nodes.Nodup) (re : Restorable h arm) (le : c.ignoredJointNames.length ≤ arm.dof)
    (ge : numConstrained c ≤ arm.dof - c.ignoredJointNames.length)
    (pre post : List String) (a : String) (en : c.ignoredJointNames = pre ++ a :: post)
    (ok : ∀ b ∈ pre, ∃ n ∈ arm.movableNodes, (h.get n).joint.name = b)
    (na : ∀ n ∈ arm.movableNodes, (h.get n).joint.name ≠ a) :
    ∃ h', run (solveWithConstraints s arm target c) h = .ok (.error (.invalidJointName a)) h' ∧
      SameBut h h' ∧ ∀ k, posOf h' k = posOf h k := by
  obtain ⟨h2, e2, sb, pos⟩ := restore u ol w nd re (Moved.refl _ _).disturbed
  refine ⟨h2, run_solve_restore h h h2 u w _ ?_ e2, sb, pos⟩
  rw [← (C30_count (T := T) c).1] at ge
  have ni := nameIndices_error (post := post) ok na
  rw [← en] at ni
  simp only [solveInternal, run_bind, run_jointPositions h u arm w, Res.bind_ok,
    if_neg (Nat.not_lt.2 le), if_neg (Nat.not_lt.2 ge), run_ignoredIndices _ _ _ u, ni, run_pure]

/-! ## C29 -/

/-- **C29** (bound).  A solve that returned has made at most `num_max_try` calls of the solver step, each
from the state the previous one left; all but the last left the target unreached. -/
theorem C29_bound (h h' : KHeap T) (u : h.Unlocked) (w : arm.Wf h) (r : Except (KError T) Unit)
    (e : run (solveWithConstraints s arm target c) h = .ok r h') :
    (∃ er, r = .error er) ∨ r = .ok () ∧ ∃ is k h1 last diff h2, k < s.numMaxTry ∧
      Unreached s arm target (defineOperationalSpace c) (sortedIndices is) k h none h1 last ∧
      run (solveOneLoop s arm target (defineOperationalSpace c) (sortedIndices is)) h1 =
        .ok (.ok diff) h2 ∧
      h' = clampAll (arm.movableNodes.zip (posList h2 arm.movableNodes)) h2 := by
  obtain ⟨-, r1, h1, x, b⟩ := solve_ok c h h' u w _ e
  rcases x with ⟨rfl, rfl, rfl⟩ | ⟨e1, rr, -, -, ⟨e2, -, x⟩ | ⟨-, x⟩⟩
  · rcases b with ⟨-, -, x⟩ | ⟨-, ⟨_, -, -, x⟩ | ⟨is, ni, t⟩⟩
    · cases x
    · cases x
    obtain ⟨k, h2, last, it, cases3⟩ := tryLoop_ok _ _ _ h h' u w _ t
    rcases cases3 with ⟨-, rr, -, ⟨_, -, x⟩ | ⟨-, d, -, x⟩⟩ | ⟨-, e', -, x⟩ | ⟨lt, diff, h3, e3, re, rfl, -⟩
    · cases x
    · cases x
    · cases x
    · exact .inr ⟨rfl, is, k, h2, last, diff, h3, lt, it, e3, rfl⟩
  · exact .inl ⟨_, x⟩
  · exact .inl ⟨_, x⟩

/-- The only error a solver step can return is `InverseMatrixError`. -/
theorem solveOneLoop_error {ign : List Nat} {g g' : KHeap T} {er : KError T} (ug : g.Unlocked) (wg : arm.Wf g)
    (e1 : run (solveOneLoop s arm target (defineOperationalSpace c) ign) g = .ok (.error er) g') :
    er = .inverseMatrix := by
  obtain ⟨_, _, x, -, -, np, ⟨e', rfl, y, -⟩ | ⟨ps, -, -, x⟩⟩ :=
      solveOneLoop_ok _ _ _ _ _ _ _ ug wg _ e1
  · cases y
    unfold nextPositions at np
    simp only [Bind.bind, Except.bind] at np
    split at np
    · cases np
    · split at np
      · cases np
      · split at np
        · split at np
          · cases np
          · split at np
            · split at np
              · cases np
              · split at np
                · cases np
                · split at np
                  · cases np
                  · split at np <;> cases np
            · split at np <;> cases np
        · split at np
          · cases np
          · cases np; rfl
  · cases x

/-- **C29** (`NotConvergedError`).  It is reported after exactly `num_max_try` steps, `num_tried` is
`num_max_try`, and the reported differences are the constrained differences between the target and the
pose the last step reached. -/
theorem C29_not_converged (h h' : KHeap T) (u : h.Unlocked) (w : arm.Wf h) (n : Nat) (dp dr : V3 T)
    (e : run (solveWithConstraints s arm target c) h = .ok (.error (.notConverged n dp dr)) h')
    (ol : OneLevel h) (nd : arm.nodes.Nodup) (re : Restorable h arm) :
    n = s.numMaxTry ∧ ∃ is h1 X, Unreached s arm target (defineOperationalSpace c) (sortedIndices is)
        s.numMaxTry h none h1 (some (dp, dr)) ∧
      run arm.endTransform h1 = .ok X h1 ∧ dp = posError c target X ∧ dr = rotError c target X := by
  have lastPose : ∀ {ign : List Nat} {k : Nat} {g g' : KHeap T} {l l' : Option (V3 T × V3 T)},
      Unreached s arm target (defineOperationalSpace c) ign k g l g' l' → g.Unlocked → arm.Wf g →
      (k = 0 ∧ l = l') ∨ l' = some (posError c target (endPose g' arm.nodes),
        rotError c target (endPose g' arm.nodes)) := by
    intro ign k g g' l l' it
    induction it with
    | nil => exact fun _ _ => .inl ⟨rfl, rfl⟩
    | @cons k g g1 g' l l' diff e1 nr rest ih =>
      intro ug wg
      right
      have m := solveOneLoop_moved s arm target _ ign _ _ ug wg _ e1
      obtain ⟨_, _, _, -, -, -, ⟨_, -, x, -⟩ | ⟨ps, -, -, x⟩⟩ :=
        solveOneLoop_ok _ _ _ _ _ _ _ ug wg _ e1
      · cases x
      cases x
      rcases ih (m.unlocked ug) (m.sameBut.chainWf wg) with ⟨rfl, y⟩ | y
      · cases rest
        rw [C30_split]
      · exact y
  obtain ⟨-, r1, h1, x, b⟩ := solve_ok c h h' u w _ e
  have d1 : Disturbed arm h h1 ∧ (r1 = .error (.notConverged n dp dr) → n = s.numMaxTry ∧
      ∃ is h1 X, Unreached s arm target (defineOperationalSpace c) (sortedIndices is)
        s.numMaxTry h none h1 (some (dp, dr)) ∧
      run arm.endTransform h1 = .ok X h1 ∧ dp = posError c target X ∧ dr = rotError c target X) := by
    rcases b with ⟨-, rfl, rfl⟩ | ⟨-, ⟨_, -, rfl, rfl⟩ | ⟨is, -, t⟩⟩
    · exact ⟨(Moved.refl _ _).disturbed, fun x => by cases x⟩
    · exact ⟨(Moved.refl _ _).disturbed, fun x => by cases x⟩
    · obtain ⟨k, h2, last, i, cases3⟩ := tryLoop_ok _ _ _ h h1 u w _ t
      have m2 := i.moved u w
      have u2 := m2.unlocked u
      have w2 := m2.sameBut.chainWf w
      rcases cases3 with ⟨rfl, rr, x1, y⟩ | ⟨-, e', x1, rfl⟩ | ⟨-, diff, h3, x1, -, rfl, rfl⟩
      · obtain ⟨h4, z, sb, pos⟩ := restore u ol w nd re m2.disturbed
        rw [x1] at z; cases z
        refine ⟨⟨sb, fun k _ => pos k⟩, fun hr => ?_⟩
        rcases y with ⟨_, y, -⟩ | ⟨-, d, rfl, rfl⟩
        · cases y
        · cases hr
          refine ⟨rfl, is, h2, _, i, run_endTransform arm h2 u2, ?_⟩
          rcases lastPose i u w with ⟨-, y⟩ | y
          · cases y
          · cases y; exact ⟨rfl, rfl⟩
      · refine ⟨(m2.trans (solveOneLoop_moved _ _ _ _ _ _ _ u2 w2 _ x1)).disturbed, fun hr => ?_⟩
        have := solveOneLoop_error u2 w2 x1
        subst this; cases hr
      · exact ⟨((m2.trans (solveOneLoop_moved _ _ _ _ _ _ _ u2 w2 _ x1)).trans
          (moved_clamp_chain w _)).disturbed, fun hr => by cases hr⟩
  rcases x with ⟨-, x, -⟩ | ⟨e1, rr, rfl, x, y⟩
  · cases x
  · obtain ⟨h4, z, sb, pos⟩ := restore u ol w nd re d1.1
    rw [x] at z; cases z
    rcases y with ⟨_, y, -⟩ | ⟨-, y⟩
    · cases y
    · cases y; exact d1.2 rfl

theorem nameIndices_unknown {h : KHeap T} {ns : List NodeId} {names : List String} {a : String}
    (e : nameIndices h ns names = .error a) : a ∈ names ∧ ∀ n ∈ ns, (h.get n).joint.name ≠ a := by
  induction names with
  | nil => cases e
  | cons b bs ih =>
    rw [nameIndices] at e
    cases f : ns.findIdx? fun n => (h.get n).joint.name == b with
    | none =>
      rw [f] at e; cases e
      rw [List.findIdx?_eq_none_iff] at f
      exact ⟨by simp, fun n hn => by simpa using f n hn⟩
    | some i =>
      rw [f] at e
      simp only at e
      split at e
      · cases e
      · rename_i b' eb; cases e
        exact ⟨by simp [(ih eb).1], (ih eb).2⟩

/-- **C29** (errors).  A solve that returned an error (arm restorable as in C25) did so at once, because too few
joints are left or a name is unknown, or after at most `num_max_try` steps that left the target unreached: either
`num_max_try` of them, with `NotConvergedError`, or fewer, with `InverseMatrixError` from the step after them. -/
theorem C29_error (h h' : KHeap T) (u : h.Unlocked) (w : arm.Wf h) (er : KError T)
    (e : run (solveWithConstraints s arm target c) h = .ok (.error er) h')
    (ol : OneLevel h) (nd : arm.nodes.Nodup) (re : Restorable h arm) :
    (arm.dof - c.ignoredJointNames.length < numConstrained c ∧
      er = .precondition (arm.dof - c.ignoredJointNames.length) (numConstrained c)) ∨
    (∃ a ∈ c.ignoredJointNames, (∀ n ∈ arm.movableNodes, (h.get n).joint.name ≠ a) ∧
      er = .invalidJointName a) ∨
    ∃ is k h1 last, Unreached s arm target (defineOperationalSpace c) (sortedIndices is) k h none h1 last ∧
      ((k = s.numMaxTry ∧ ∃ d, last = some d ∧ er = .notConverged s.numMaxTry d.1 d.2) ∨
        k < s.numMaxTry ∧ er = .inverseMatrix ∧
          ∃ h2, run (solveOneLoop s arm target (defineOperationalSpace c) (sortedIndices is)) h1 =
            .ok (.error .inverseMatrix) h2) := by
  obtain ⟨-, r1, h1, x, b⟩ := solve_ok c h h' u w _ e
  rw [(C30_count (T := T) c).1] at b
  rcases x with ⟨-, x, -⟩ | ⟨e1, rr, rfl, x, y⟩
  · cases x
  have d1 : Disturbed arm h h1 ∧ ((arm.dof - c.ignoredJointNames.length < numConstrained c ∧
      e1 = .precondition (arm.dof - c.ignoredJointNames.length) (numConstrained c)) ∨
    (∃ a ∈ c.ignoredJointNames, (∀ n ∈ arm.movableNodes, (h.get n).joint.name ≠ a) ∧
      e1 = .invalidJointName a) ∨
    ∃ is k h1 last, Unreached s arm target (defineOperationalSpace c) (sortedIndices is) k h none h1 last ∧
      ((k = s.numMaxTry ∧ ∃ d, last = some d ∧ e1 = .notConverged s.numMaxTry d.1 d.2) ∨
        k < s.numMaxTry ∧ e1 = .inverseMatrix ∧
          ∃ h2, run (solveOneLoop s arm target (defineOperationalSpace c) (sortedIndices is)) h1 =
            .ok (.error .inverseMatrix) h2)) := by
    rcases b with ⟨lt, rfl, z⟩ | ⟨-, ⟨a, na, rfl, z⟩ | ⟨is, -, t⟩⟩
    · cases z; exact ⟨(Moved.refl _ _).disturbed, .inl ⟨lt, rfl⟩⟩
    · cases z
      obtain ⟨ha, hn⟩ := nameIndices_unknown na
      exact ⟨(Moved.refl _ _).disturbed, .inr (.inl ⟨a, ha, hn, rfl⟩)⟩
    · obtain ⟨k, h2, last, i, cases3⟩ := tryLoop_ok _ _ _ h h1 u w _ t
      have m2 := i.moved u w
      have u2 := m2.unlocked u
      have w2 := m2.sameBut.chainWf w
      rcases cases3 with ⟨rfl, rr, x1, y⟩ | ⟨lt, e', x1, z⟩ | ⟨-, diff, h3, x1, -, rfl, z⟩
      · obtain ⟨h4, z, sb, pos⟩ := restore u ol w nd re m2.disturbed
        rw [x1] at z; cases z
        refine ⟨⟨sb, fun k _ => pos k⟩, .inr (.inr ⟨is, _, h2, last, i, .inl ⟨rfl, ?_⟩⟩)⟩
        rcases y with ⟨_, y, -⟩ | ⟨-, d, rfl, z⟩
        · cases y
        · cases z; exact ⟨d, rfl, rfl⟩
      · cases z
        have := solveOneLoop_error u2 w2 x1
        subst this
        exact ⟨(m2.trans (solveOneLoop_moved _ _ _ _ _ _ _ u2 w2 _ x1)).disturbed,
          .inr (.inr ⟨is, k, h2, last, i, .inr ⟨lt, rfl, _, x1⟩⟩)⟩
      · cases z
  obtain ⟨h4, z, sb, pos⟩ := restore u ol w nd re d1.1
  rw [x] at z; cases z
  rcases y with ⟨_, y, -⟩ | ⟨-, y⟩
  · cases y
  · cases y; exact d1.2

/-- **C29** (no tries).  With `num_max_try = 0` and valid preconditions a solve panics. -/
theorem C29_zero_panics (h : KHeap T) (u : h.Unlocked) (ol : OneLevel h) (w : arm.Wf h)
    (nd : arm.nodes.Nodup) (re : Restorable h arm) (z : s.numMaxTry = 0)
    (le : c.ignoredJointNames.length ≤ arm.dof)
    (ge : numConstrained c ≤ arm.dof - c.ignoredJointNames.length)
    (ok : ∀ b ∈ c.ignoredJointNames, ∃ n ∈ arm.movableNodes, (h.get n).joint.name = b) :
    ∃ m h', run (solveWithConstraints s arm target c) h = .panic m h' := by
  obtain ⟨h2, e2, sb, pos⟩ := restore u ol w nd re (Moved.refl _ _).disturbed
  rw [← (C30_count (T := T) c).1] at ge
  have ni : ∃ is, nameIndices h arm.movableNodes c.ignoredJointNames = .ok is := by
    generalize c.ignoredJointNames = names at ok
    induction names with
    | nil => exact ⟨[], rfl⟩
    | cons b bs ih =>
      obtain ⟨is, e⟩ := ih fun b hb => ok b (by simp [hb])
      obtain ⟨n, hn, eb⟩ := ok b (by simp)
      rw [nameIndices]
      cases f : arm.movableNodes.findIdx? fun n => (h.get n).joint.name == b with
      | none =>
        rw [List.findIdx?_eq_none_iff] at f
        have := f n hn; simp [eb] at this
      | some i => exact ⟨i :: is, by simp [e]⟩
  obtain ⟨is, ni⟩ := ni
  unfold posList at e2
  refine ⟨"called `Option::unwrap()` on a `None` value", h2, ?_⟩
  simp only [solveWithConstraints, solveInternal, run_bind, run_jointPositions h u arm w, Res.bind_ok,
    if_neg (Nat.not_lt.2 le), if_neg (Nat.not_lt.2 ge), run_ignoredIndices _ _ _ u, ni, z, tryLoop,
    e2, run_expect_none, Res.bind_panic]

end K
