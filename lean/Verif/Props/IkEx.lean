import Verif.Props.Ik
import Verif.Lemmas.RealGeom
import Mathlib.Tactic.NormNum
/-!
# C24 - C29: concrete solves

Sliding joints "a" (node 0) and "b" (node 1, below node 0) along x; the solver is exact for them: the
Jacobian of a sliding joint along x has the single constrained entry 1, so `J d = e` has the solution
`d = e`.
-/

set_option linter.unusedSectionVars false

namespace K
open Prog

noncomputable section

/-- joint sliding along x -/
def slider (name : String) (l : Option (Range ℝ)) (p : ℝ) : Joint ℝ :=
  { Joint.new name (.linear ⟨1, 0, 0⟩) with position := p, limits := l }

/-- two sliders, the second below the first -/
def rail (l0 l1 : Option (Range ℝ)) (p0 p1 : ℝ) : KHeap ℝ :=
  { get := fun n =>
      if n = 0 then { NodeImpl.fresh (slider "a" l0 p0) with children := [1] }
      else if n = 1 then { NodeImpl.fresh (slider "b" l1 p1) with parent := some 0 }
      else NodeImpl.fresh (Joint.new "c" .fixed)
    next := 2, dead := fun _ => false, held := fun _ => false }

/-- two sliders without parents, node 0 mimics node 1 -/
def railMimic (l0 l1 : Option (Range ℝ)) (p0 p1 : ℝ) : KHeap ℝ :=
  { get := fun n =>
      if n = 0 then { NodeImpl.fresh (slider "a" l0 p0) with
        mimicParent := some 1, mimic := some ⟨1, 0⟩ }
      else if n = 1 then { NodeImpl.fresh (slider "b" l1 p1) with mimicChildren := [0] }
      else NodeImpl.fresh (Joint.new "c" .fixed)
    next := 2, dead := fun _ => false, held := fun _ => false }

/-- the first slider -/
def arm1 : Chain := ⟨[0], [0], 1⟩
/-- both sliders -/
def arm2 : Chain := ⟨[0, 1], [0, 1], 2⟩

/-- only x is constrained -/
def onlyX (names : List String) : Constraints := ⟨true, false, false, false, false, false, names⟩

/-- target with coordinate x -/
def atX (x : ℝ) : Iso ℝ := ⟨⟨x, 0, 0⟩, Quat.one⟩

/-- one full step, tolerances 1 -/
def railSolver (tries : Nat) : IkSolver ℝ :=
  ⟨1, 1, 1, tries, none, ⟨fun _ b => some b, fun _ b => b, id⟩⟩

theorem rail_unlocked (l0 l1 p0 p1) : (rail l0 l1 p0 p1).Unlocked := fun _ => rfl
theorem railMimic_unlocked (l0 l1 p0 p1) : (railMimic l0 l1 p0 p1).Unlocked := fun _ => rfl

/-- nodes 0 and 1 are sliders -/
def Sliders (h : KHeap ℝ) : Prop := ∀ n, n = 0 ∨ n = 1 →
  (h.get n).joint.jointType = .linear ⟨1, 0, 0⟩ ∧ (h.get n).joint.origin = Iso.one

theorem rail_sliders (l0 l1 p0 p1) : Sliders (rail l0 l1 p0 p1) := by
  rintro n (rfl | rfl) <;> simp [rail, slider, Joint.new, NodeImpl.fresh]
theorem railMimic_sliders (l0 l1 p0 p1) : Sliders (railMimic l0 l1 p0 p1) := by
  rintro n (rfl | rfl) <;> simp [railMimic, slider, Joint.new, NodeImpl.fresh]

theorem Sliders.same {h h' : KHeap ℝ} (s : Sliders h) (m : SameBut h h') : Sliders h' := fun n hn => by
  rw [m.jointType, m.origin]; exact s n hn

theorem Sliders.movable {h : KHeap ℝ} (s : Sliders h) (n : NodeId) (hn : n = 0 ∨ n = 1) :
    Movable h n := by
  rw [Movable, (s n hn).1]; simp

theorem Sliders.wf1 {h : KHeap ℝ} (s : Sliders h) : arm1.Wf h := by
  refine ⟨?_, rfl⟩
  simp [K.arm1, s.movable 0 (.inl rfl)]
theorem Sliders.wf2 {h : KHeap ℝ} (s : Sliders h) : arm2.Wf h := by
  refine ⟨?_, rfl⟩
  simp [K.arm2, s.movable 0 (.inl rfl), s.movable 1 (.inr rfl)]

theorem Sliders.pose1 {h : KHeap ℝ} (s : Sliders h) :
    endPose h arm1.nodes = atX (h.get 0).joint.position := by
  obtain ⟨a, b⟩ := s 0 (.inl rfl)
  simp [endPose, K.arm1, Joint.localTransform, Joint.jointTransform, a, b, Iso.one_mul', atX, V3.scale]
theorem Sliders.pose2 {h : KHeap ℝ} (s : Sliders h) :
    endPose h arm2.nodes = atX ((h.get 0).joint.position + (h.get 1).joint.position) := by
  obtain ⟨a, b⟩ := s 0 (.inl rfl)
  obtain ⟨a1, b1⟩ := s 1 (.inr rfl)
  simp only [endPose, K.arm2, List.foldl_cons, List.foldl_nil, Joint.localTransform,
    Joint.jointTransform, a, b, a1, b1, Iso.one_mul', atX]
  simp [V3.scale, Iso.mul, Quat.rotate_one, Quat.mul_one', V3.add]

theorem onlyX_diff (x y : ℝ) (names : List String) :
    calcPoseDiffWithConstraints (atX x) (atX y) (defineOperationalSpace (onlyX names)) = [x - y] := rfl

theorem onlyX_reached (x y : ℝ) (tries : Nat) (names : List String) :
    reached (railSolver tries)
      (targetDiffToLenRotDiff [x - y] (defineOperationalSpace (onlyX names))).1
      (targetDiffToLenRotDiff [x - y] (defineOperationalSpace (onlyX names))).2 =
      decide (|x - y| < 1) := by
  have a : targetDiffToLenRotDiff [x - y] (defineOperationalSpace (onlyX names)) =
    (⟨x - y, 0, 0⟩, ⟨0, 0, 0⟩) := rfl
  rw [a]
  simp [reached, V3.norm, railSolver, Scalar.sqrt, Scalar.lt, Real.sqrt_mul_self_eq_abs]

theorem onlyX_count (names : List String) : countTrue (defineOperationalSpace (onlyX names)) = 1 := rfl

/-- keeping the first row -/
theorem removeRows_onlyX {T : Type} (names : List String) (jac : Mat T) (hj : ∀ col ∈ jac, col.length = 6) :
    removeRows (defineOperationalSpace (onlyX names)) 0 0 jac = .ok (jac.map (·.take 1)) := by
  have ge : ∀ (k : Nat) (m : Mat T), (∀ col ∈ m, col.length = k + 2) →
      removeRow m 1 = .ok (m.map fun col => col.eraseIdx 1) := by
    intro k m hm
    rw [removeRow, if_pos]
    simp only [List.all_eq_true, decide_eq_true_eq]
    intro col hc; rw [hm col hc]; omega
  have key : ∀ (m : Mat T), (∀ col ∈ m, col.length = 6) →
      (do let m ← removeRow m 1; let m ← removeRow m 1; let m ← removeRow m 1
          let m ← removeRow m 1; removeRow m 1) = .ok (m.map (·.take 1)) := by
    intro m hm
    have l : ∀ (k : Nat) (m : Mat T), (∀ col ∈ m, col.length = k + 3) →
        ∀ col ∈ m.map (fun col => col.eraseIdx 1), col.length = k + 2 := by
      intro k m hm col hc
      obtain ⟨c, hc', rfl⟩ := List.mem_map.1 hc
      have := hm c hc'
      rw [List.length_eraseIdx_of_lt (by omega)]; omega
    have l1 := l 3 m hm
    have l2 := l 2 _ l1
    have l3 := l 1 _ l2
    have l4 := l 0 _ l3
    rw [ge 4 m hm]
    show (do let m ← removeRow _ 1; let m ← removeRow m 1; let m ← removeRow m 1; removeRow m 1) = _
    rw [ge 3 _ l1]
    show (do let m ← removeRow _ 1; let m ← removeRow m 1; removeRow m 1) = _
    rw [ge 2 _ l2]
    show (do let m ← removeRow _ 1; removeRow m 1) = _
    rw [ge 1 _ l3]
    show removeRow _ 1 = _
    rw [ge 0 _ l4]
    simp only [List.map_map]
    congr 1
    refine List.map_congr_left fun col hc => ?_
    have := hm col hc
    match col, this with
    | [a, b, c, d, e, f], _ => rfl
  have := key jac hj
  simp only [defineOperationalSpace, onlyX, removeRows]
  show (do let m ← removeRow jac 1; let m ← removeRow m 1; let m ← removeRow m 1
           let m ← removeRow m 1; let m ← removeRow m 1; Except.ok m) = _
  have bp : ∀ (m : Mat T), (do let m ← removeRow m 1; Except.ok m) = removeRow m 1 := fun m => by
    cases removeRow m 1 <;> rfl
  simp only [bp]
  exact this

section once
variable {T : Type} [Scalar T] {s : IkSolver T} {arm : Chain} {target : Iso T} {c : Constraints}
    {h h1 h2 h3 : KHeap T} (u : h.Unlocked) (w : arm.Wf h) (one : s.numMaxTry = 1)
    (le : c.ignoredJointNames.length ≤ arm.dof)
    (ge : countTrue (defineOperationalSpace c) ≤ arm.dof - c.ignoredJointNames.length)
    {is : List Nat} (ni : nameIndices h arm.movableNodes c.ignoredJointNames = .ok is)
    {diff : List T} (e : run (solveOneLoop s arm target (defineOperationalSpace c) (sortedIndices is))
      h = .ok (.ok diff) h1)

include u w one le ge ni e

/-- the solve with one try that reaches the target -/
theorem run_solve_reached
    (re : reached s (targetDiffToLenRotDiff diff (defineOperationalSpace c)).1
      (targetDiffToLenRotDiff diff (defineOperationalSpace c)).2 = true) :
    run (solveWithConstraints s arm target c) h =
        .ok (.ok ()) (clampAll (arm.movableNodes.zip (posList h1 arm.movableNodes)) h1) := by
  have m := solveOneLoop_moved _ _ _ _ _ _ _ u w _ e
  have e2 : ∀ orig, run (tryLoop s arm target (defineOperationalSpace c) (sortedIndices is)
      orig 1 none) h =
        .ok (.ok ()) (clampAll (arm.movableNodes.zip (posList h1 arm.movableNodes)) h1) := by
    intro orig
    simp only [tryLoop, run_bind, e, Res.bind_ok, re, if_true,
      run_jointPositions h1 (m.unlocked u) arm (m.sameBut.chainWf w),
        run_setJointPositionsClamped _ _ _ (m.unlocked u), run_pure]
    rfl
  unfold sortedIndices at e2
  simp only [solveWithConstraints, solveInternal, run_bind, run_jointPositions h u arm w, Res.bind_ok,
    if_neg (Nat.not_lt.2 le), if_neg (Nat.not_lt.2 ge), run_ignoredIndices _ _ _ u, ni, one, e2,
    run_pure]

/-- the solve with one try that does not reach the target -/
theorem run_solve_unreached
    (re : reached s (targetDiffToLenRotDiff diff (defineOperationalSpace c)).1
      (targetDiffToLenRotDiff diff (defineOperationalSpace c)).2 = false)
    (r2 : run (arm.setJointPositions (posList h arm.movableNodes)) h1 = .ok (.ok ()) h2)
    (r3 : run (arm.setJointPositions (posList h arm.movableNodes)) h2 = .ok (.ok ()) h3) :
    run (solveWithConstraints s arm target c) h =
        .ok (.error (.notConverged 1 (targetDiffToLenRotDiff diff (defineOperationalSpace c)).1
      (targetDiffToLenRotDiff diff (defineOperationalSpace c)).2)) h3 := by
  have m := solveOneLoop_moved _ _ _ _ _ _ _ u w _ e
  have e2 : run (tryLoop s arm target (defineOperationalSpace c) (sortedIndices is)
      (posList h arm.movableNodes) 1 none) h =
        .ok (.error (.notConverged 1 (targetDiffToLenRotDiff diff (defineOperationalSpace c)).1
      (targetDiffToLenRotDiff diff (defineOperationalSpace c)).2)) h2 := by
    simp only [tryLoop, run_bind, e, Res.bind_ok, re, Bool.false_eq_true, if_false, r2,
      run_expect_some, one, run_pure]
  unfold posList at r3
  unfold sortedIndices posList at e2
  simp only [solveWithConstraints, solveInternal, run_bind, run_jointPositions h u arm w, Res.bind_ok,
    if_neg (Nat.not_lt.2 le), if_neg (Nat.not_lt.2 ge), run_ignoredIndices _ _ _ u, ni, one, e2, r3,
    run_pure]

/-- the solve with one try that does not reach the target and cannot restore -/
theorem run_solve_stuck
    (re : reached s (targetDiffToLenRotDiff diff (defineOperationalSpace c)).1
      (targetDiffToLenRotDiff diff (defineOperationalSpace c)).2 = false) {e1 e2 : KError T}
    (r2 : run (arm.setJointPositions (posList h arm.movableNodes)) h1 = .ok (.error e1) h2)
    (r3 : run (arm.setJointPositions (posList h arm.movableNodes)) h2 = .ok (.error e2) h3) :
    run (solveWithConstraints s arm target c) h = .ok (.error e2) h3 := by
  have m := solveOneLoop_moved _ _ _ _ _ _ _ u w _ e
  have e2 : run (tryLoop s arm target (defineOperationalSpace c) (sortedIndices is)
      (posList h arm.movableNodes) 1 none) h = .ok (.error e1) h2 := by
    simp only [tryLoop, run_bind, e, Res.bind_ok, re, Bool.false_eq_true, if_false, r2, one, run_pure]
  unfold posList at r3
  unfold sortedIndices posList at e2
  simp only [solveWithConstraints, solveInternal, run_bind, run_jointPositions h u arm w, Res.bind_ok,
    if_neg (Nat.not_lt.2 le), if_neg (Nat.not_lt.2 ge), run_ignoredIndices _ _ _ u, ni, one, e2, r3,
    run_pure]

end once

theorem sortedIndices_nil : sortedIndices [] = [] := by simp [sortedIndices]
theorem sortedIndices_single (i : Nat) : sortedIndices [i] = [i] := by simp [sortedIndices]

/-- the step of the one-joint arm -/
theorem loop1 {h : KHeap ℝ} (u : h.Unlocked) (s : Sliders h) (pr : ParentsReady h arm1.nodes)
    (x : ℝ) (tries : Nat) :
    ∃ h1, OnlyWorld [0] h h1 ∧
      run (solveOneLoop (railSolver tries) arm1 (atX x) (defineOperationalSpace (onlyX []))
        (sortedIndices [])) h =
        .ok (.ok [x - ((clampAll [(0, x)] h1).get 0).joint.position]) (clampAll [(0, x)] h1) := by
  rw [sortedIndices_nil]
  have p : posList h arm1.movableNodes = [(h.get 0).joint.position] := rfl
  obtain ⟨h1, o, e⟩ := run_solveOneLoop (s := railSolver tries) (arm := arm1) (target := atX x)
    (ops := defineOperationalSpace (onlyX [])) (ign := []) h u s.wf1 pr [x] (by
      intro jac _ hl
      rw [s.pose1, onlyX_diff, p]
      simp only [nextPositions, removeRows_onlyX [] jac hl, onlyX_count]
      simp [Bind.bind, Except.bind, removeIndices, arm1, railSolver, addPositionsWithMultiplier])
  refine ⟨h1, o, ?_⟩
  rw [e]
  have sl := s.same (o.moved.sameBut.trans (moved_clampAll [(0, x)] [0] (by simp) h1).sameBut)
  have : arm1.movableNodes.zip [x] = [(0, x)] := rfl
  rw [this, sl.pose1, onlyX_diff]

/-- the step of the two-joint arm with one ignored joint: as many joints remain as coordinates are
constrained, and the increment goes to the first joint, whichever is ignored -/
theorem loop2 {h : KHeap ℝ} (u : h.Unlocked) (s : Sliders h) (pr : ParentsReady h arm2.nodes)
    (x : ℝ) (tries i : Nat) (hi : i < 2) (a : String) :
    ∃ h1, OnlyWorld [0, 1] h h1 ∧
      run (solveOneLoop (railSolver tries) arm2 (atX x) (defineOperationalSpace (onlyX [a]))
        (sortedIndices [i])) h =
        .ok (.ok [x - (((clampAll [(0, x - (h.get 1).joint.position)] h1).get 0).joint.position +
          ((clampAll [(0, x - (h.get 1).joint.position)] h1).get 1).joint.position)])
          (clampAll [(0, x - (h.get 1).joint.position)] h1) := by
  rw [sortedIndices_single]
  have p : posList h arm2.movableNodes = [(h.get 0).joint.position, (h.get 1).joint.position] := rfl
  obtain ⟨h1, o, e⟩ := run_solveOneLoop (s := railSolver tries) (arm := arm2) (target := atX x)
    (ops := defineOperationalSpace (onlyX [a])) (ign := [i]) h u s.wf2 pr
    [x - (h.get 1).joint.position] (by
      intro jac l hl
      have l : jac.length = 2 := l
      rw [s.pose2, onlyX_diff, p]
      simp only [nextPositions, removeRows_onlyX [a] jac hl, onlyX_count]
      have r : removeIndices [i] 0 (jac.map (·.take 1)) = .ok ((jac.map (·.take 1)).eraseIdx i) := by
        simp [removeIndices, l, hi]
      simp only [Bind.bind, Except.bind, r]
      simp [arm2, railSolver, addPositionsWithMultiplier]
      ring)
  refine ⟨h1, o, ?_⟩
  rw [e]
  have sl := s.same (o.moved.sameBut.trans
    (moved_clampAll [(0, x - (h.get 1).joint.position)] [0, 1] (by simp) h1).sameBut)
  have : arm2.movableNodes.zip [x - (h.get 1).joint.position] =
    [(0, x - (h.get 1).joint.position)] := rfl
  rw [this, sl.pose2, onlyX_diff]

/-- position after the clamped setter -/
theorem clamp0 {h h1 : KHeap ℝ} (s : Sliders h) (o : SameBut h h1) (x : ℝ) :
    ((clampAll [(0, x)] h1).get 0).joint.position =
      (match (h.get 0).joint.limits with | some r => r.clamp x | none => x) := by
  have := clampAll_get [(0, x)] h1 (by simp) (0, x) (by simp)
  rw [this]
  have mv : (h1.get 0).joint.isMovable = true := (isMovable_iff _).2 ((s.same o).movable 0 (.inl rfl))
  simp only [Joint.setJointPositionClamped, mv, Bool.not_true, if_false, Joint.setJointPositionUnchecked,
    o.limits, Bool.false_eq_true]
  cases (h.get 0).joint.limits <;> rfl

theorem rail_ready1 (l0 l1 p0 p1) : ParentsReady (rail l0 l1 p0 p1) arm1.nodes := by
  intro pre n post e p hp
  have : n = 0 := by
    have : n ∈ arm1.nodes := by rw [e]; simp
    simpa [arm1] using this
  subst this
  simp [liveParent, rail, NodeImpl.fresh] at hp
theorem railMimic_ready1 (l0 l1 p0 p1) : ParentsReady (railMimic l0 l1 p0 p1) arm1.nodes := by
  intro pre n post e p hp
  have : n = 0 := by
    have : n ∈ arm1.nodes := by rw [e]; simp
    simpa [arm1] using this
  subst this
  simp [liveParent, railMimic, NodeImpl.fresh] at hp
theorem rail_ready2 (l0 l1 p0 p1) : ParentsReady (rail l0 l1 p0 p1) arm2.nodes := by
  intro pre n post e p hp
  match pre, e with
  | [], e =>
    simp only [arm2, List.nil_append, List.cons.injEq] at e
    rw [← e.1] at hp
    simp [liveParent, rail, NodeImpl.fresh] at hp
  | [a], e =>
    simp only [arm2, List.cons_append, List.nil_append, List.cons.injEq] at e
    rw [← e.2.1] at hp
    simp [liveParent, rail] at hp
    simp [← hp, ← e.1]
  | a :: b :: c, e =>
    have := congrArg List.length e
    simp [arm2] at this

theorem clamp_low (lo hi x : ℝ) (h : x < lo) : (Range.mk lo hi).clamp x = lo := by
  simp [Range.clamp, Scalar.lt, h]
theorem clamp_high (lo hi x : ℝ) (h : hi < x) (le : lo ≤ hi) : (Range.mk lo hi).clamp x = hi := by
  have : ¬ x < lo := by linarith
  simp [Range.clamp, Scalar.lt, h, this]
theorem clamp_in (lo hi x : ℝ) (h : lo ≤ x) (le : x ≤ hi) : (Range.mk lo hi).clamp x = x := by
  simp [Range.clamp, Scalar.lt, h.not_gt, le.not_gt]

/-- restoring fails when the first joint was outside its limits -/
theorem rail_stuck {l1 : Option (Range ℝ)} {lo hi p0 p1 : ℝ} {h1 : KHeap ℝ}
    (sb : SameBut (rail (some ⟨lo, hi⟩) l1 p0 p1) h1) (out : p0 < lo ∨ hi < p0) :
    run (arm1.setJointPositions (posList (rail (some ⟨lo, hi⟩) l1 p0 p1) arm1.movableNodes)) h1 =
      .ok (.error (.outOfLimit "a" p0 hi lo)) h1 := by
  have u1 := sb.unlocked (rail_unlocked (some ⟨lo, hi⟩) l1 p0 p1)
  have wf : MimicWF h1 := by
    intro m c hc
    rw [sb.mimicChildren] at hc
    exfalso
    simp only [rail] at hc
    split at hc
    · cases hc
    · split at hc <;> cases hc
  rw [run_setJointPositions arm1 _ h1 u1 wf rfl]
  have z : arm1.movableNodes.zip (posList (rail (some ⟨lo, hi⟩) l1 p0 p1) arm1.movableNodes) =
    [(0, p0)] := rfl
  have j := setJointPosition_result_congr _ _ p0 (sb.name 0) (sb.jointType 0) (sb.limits 0)
  have bad : (((rail (some ⟨lo, hi⟩) l1 p0 p1).get 0).joint.setJointPosition p0).2 =
      .error (.outOfLimit "a" p0 hi lo) := by
    have : ((Range.mk lo hi).isValid p0) = false := by
      simp only [Range.isValid, Scalar.le, Bool.and_eq_false_iff, decide_eq_false_iff_not, not_le]
      exact out.symm
    simp [rail, slider, Joint.new, NodeImpl.fresh, Joint.setJointPosition, Joint.isMovable, this]
  rw [bad] at j
  have mp : (h1.get 0).mimicParent = none := by rw [sb.mimicParent]; rfl
  have : setPos 0 p0 h1 = (.error (.outOfLimit "a" p0 hi lo), h1) := by
    unfold setPos
    rw [mp]
    simp [j]
  rw [z]
  simp [setAll, this]

/-! ## witnesses -/

/-- **C24** needs the joints to start within their limits: with joint "b" ignored and out of its limits
`[0, 1]` at 5, the solver finds the target x = 5 reached (tolerance 1), and then clamps "b" to 1: the
call returns `Ok` with the end at x = 1. -/
theorem C24_needs_limits : ∃ h', run (solveWithConstraints (railSolver 1) arm2 (atX 5) (onlyX ["b"]))
      (rail none (some ⟨0, 1⟩) 0 5) = .ok (.ok ()) h' ∧
    run arm2.endTransform h' = .ok (atX 1) h' ∧
    ¬ (posError (onlyX ["b"]) (atX 5) (atX 1)).norm < (railSolver 1).allowableTargetDistance := by
  have s := rail_sliders none (some ⟨0, 1⟩) 0 5
  have u := rail_unlocked none (some ⟨0, 1⟩) 0 5
  obtain ⟨h1, o, e⟩ := loop2 u s (rail_ready2 _ _ _ _) 5 1 1 (by norm_num) "b"
  have q : ((rail none (some ⟨0, 1⟩) 0 5).get 1).joint.position = 5 := rfl
  rw [q] at e
  have m := moved_clampAll [(0, (5 - 5 : ℝ))] [0] (by simp) h1
  have sb := o.moved.sameBut.trans m.sameBut
  have p0 := clamp0 s o.moved.sameBut (5 - 5)
  have l0 : ((rail none (some ⟨0, 1⟩) 0 5).get 0).joint.limits = none := rfl
  have l1 : ((rail none (some ⟨0, 1⟩) 0 5).get 1).joint.limits = some ⟨0, 1⟩ := rfl
  simp only [l0] at p0
  have p1 : ((clampAll [(0, (5 - 5 : ℝ))] h1).get 1).joint.position = 5 := by
    rw [m.outside 1 (by simp), o.position 1, q]
  rw [p0, p1] at e
  have r := run_solve_reached u s.wf2 rfl (c := onlyX ["b"]) (is := [1]) (by simp [onlyX, arm2])
    (by simp [onlyX_count]; simp [onlyX, arm2]) rfl e
    (by rw [onlyX_reached]; simp)
  refine ⟨_, r, ?_, ?_⟩
  · have m2 := moved_clamp_chain (h' := clampAll [(0, (5 - 5 : ℝ))] h1) (sb.chainWf s.wf2)
      (posList (clampAll [(0, (5 - 5 : ℝ))] h1) arm2.movableNodes)
    rw [run_endTransform _ _ (m2.unlocked (sb.unlocked u)), (s.same (sb.trans m2.sameBut)).pose2]
    have z : arm2.movableNodes.zip (posList (clampAll [(0, (5 - 5 : ℝ))] h1) arm2.movableNodes) =
        [(0, 0), (1, 5)] := by
      show [(0, ((clampAll [(0, (5 - 5 : ℝ))] h1).get 0).joint.position),
        (1, ((clampAll [(0, (5 - 5 : ℝ))] h1).get 1).joint.position)] = _
      rw [p0, p1, sub_self]
    rw [z]
    have a0 := clampAll_get [(0, 0), (1, 5)] (clampAll [(0, (5 - 5 : ℝ))] h1) (by simp) (0, 0) (by simp)
    have a1 := clampAll_get [(0, 0), (1, 5)] (clampAll [(0, (5 - 5 : ℝ))] h1) (by simp) (1, 5) (by simp)
    have mv : ∀ n, n = 0 ∨ n = 1 →
      ((clampAll [(0, (5 - 5 : ℝ))] h1).get n).joint.isMovable = true := fun n hn =>
        (isMovable_iff _).2 ((s.same sb).movable n hn)
    simp only at a0 a1
    rw [a0, a1]
    simp only [Joint.setJointPositionClamped, mv 0 (.inl rfl), mv 1 (.inr rfl), Bool.not_true,
      Bool.false_eq_true, if_false, Joint.setJointPositionUnchecked, sb.limits, l0, l1,
      clamp_high 0 1 5 (by norm_num) (by norm_num)]
    norm_num
  · have : posError (onlyX ["b"]) (atX 5) (atX 1) = ⟨4, 0, 0⟩ := by
      simp [posError, masked, onlyX, atX, V3.sub]; norm_num
    rw [this]
    simp [V3.norm, Scalar.sqrt, railSolver, Real.sqrt_mul_self_eq_abs]

/-- **C25** is false when a joint starts outside its limits: the restoring call of `set_joint_positions`
fails, its error replaces the one of the solver, and the joint stays where the solver put it. -/
theorem C25_refuted_limits : ∃ h', run (solveWithConstraints (railSolver 1) arm1 (atX 10) (onlyX []))
      (rail (some ⟨0, 1⟩) none 5 0) = .ok (.error (.outOfLimit "a" 5 1 0)) h' ∧
    posOf (rail (some ⟨0, 1⟩) none 5 0) 0 = some 5 ∧ posOf h' 0 = some 1 := by
  have s := rail_sliders (some ⟨0, 1⟩) none 5 0
  have u := rail_unlocked (some ⟨0, 1⟩) none 5 0
  obtain ⟨h1, o, e⟩ := loop1 u s (rail_ready1 _ _ _ _) 10 1
  have sb := o.moved.sameBut.trans (moved_clampAll [(0, (10 : ℝ))] [0] (by simp) h1).sameBut
  have p := clamp0 s o.moved.sameBut 10
  have : ((rail (some ⟨0, 1⟩) none 5 0).get 0).joint.limits = some ⟨0, 1⟩ := rfl
  simp only [this, clamp_high 0 1 10 (by norm_num) (by norm_num)] at p
  rw [p] at e
  have st := rail_stuck sb (.inr (by norm_num))
  refine ⟨_, run_solve_stuck u s.wf1 rfl (by simp [onlyX, arm1]) (by simp [onlyX_count]; simp [onlyX, arm1])
    (c := onlyX []) (is := []) rfl e (by rw [onlyX_reached]; norm_num) st st, rfl, ?_⟩
  rw [posOf, jointPosition_of_movable _ ((s.same sb).movable 0 (.inl rfl)), p]

/-- **C25** is false when an arm joint follows a joint outside the arm: the solver moves it with the
clamped setter, which does not care about mimicking, and the restoring call does nothing for it. -/
theorem C25_refuted_mimic : ∃ dp dr h', run (solveWithConstraints (railSolver 1) arm1 (atX 10) (onlyX []))
      (railMimic (some ⟨0, 1⟩) none 0 0) = .ok (.error (.notConverged 1 dp dr)) h' ∧
    posOf (railMimic (some ⟨0, 1⟩) none 0 0) 0 = some 0 ∧ posOf h' 0 = some 1 := by
  have s := railMimic_sliders (some ⟨0, 1⟩) none 0 0
  have u := railMimic_unlocked (some ⟨0, 1⟩) none 0 0
  obtain ⟨h1, o, e⟩ := loop1 u s (railMimic_ready1 _ _ _ _) 10 1
  have sb := o.moved.sameBut.trans (moved_clampAll [(0, (10 : ℝ))] [0] (by simp) h1).sameBut
  have p := clamp0 s o.moved.sameBut 10
  have : ((railMimic (some ⟨0, 1⟩) none 0 0).get 0).joint.limits = some ⟨0, 1⟩ := rfl
  simp only [this, clamp_high 0 1 10 (by norm_num) (by norm_num)] at p
  rw [p] at e
  have wf : MimicWF (clampAll [(0, (10 : ℝ))] h1) := by
    intro m c hc
    rw [sb.mimicChildren] at hc
    have : c = 0 := by
      simp only [railMimic] at hc
      split at hc
      · cases hc
      · split at hc
        · simpa using hc
        · cases hc
    subst this
    rw [sb.mimicParent, sb.mimic]
    exact ⟨rfl, rfl⟩
  have st : run (arm1.setJointPositions (posList (railMimic (some ⟨0, 1⟩) none 0 0)
      arm1.movableNodes)) (clampAll [(0, (10 : ℝ))] h1) =
      .ok (.ok ()) (clampAll [(0, (10 : ℝ))] h1) := by
    rw [run_setJointPositions arm1 _ _ (sb.unlocked u) wf rfl]
    have mp : ((clampAll [(0, (10 : ℝ))] h1).get 0).mimicParent = some 1 := by
      rw [sb.mimicParent]; rfl
    have : setPos 0 (0 : ℝ) (clampAll [(0, (10 : ℝ))] h1) = (.ok (), clampAll [(0, (10 : ℝ))] h1) := by
      unfold setPos
      rw [mp]; rfl
    have z : arm1.movableNodes.zip (posList (railMimic (some ⟨0, 1⟩) none 0 0) arm1.movableNodes) =
      [(0, 0)] := rfl
    rw [z]
    simp [setAll, this]
  refine ⟨_, _, _, run_solve_unreached u s.wf1 rfl (by simp [onlyX, arm1])
    (by simp [onlyX_count]; simp [onlyX, arm1])
    (c := onlyX []) (is := []) rfl e (by rw [onlyX_reached]; norm_num) st st, rfl, ?_⟩
  rw [posOf, jointPosition_of_movable _ ((s.same sb).movable 0 (.inl rfl)), p]

/-- **C26** is false when as many joints remain as coordinates are constrained: the increments are then
not spread over the remaining joints, and the ignored joint "a" is the one that moves. -/
theorem C26_refuted : ∃ h', run (solveWithConstraints (railSolver 1) arm2 (atX 1) (onlyX ["a"]))
      (rail none none 0 0) = .ok (.ok ()) h' ∧
    posOf (rail none none 0 0) 0 = some 0 ∧ posOf h' 0 = some 1 ∧ posOf h' 1 = some 0 := by
  have s := rail_sliders none none 0 0
  have u := rail_unlocked none none 0 0
  obtain ⟨h1, o, e⟩ := loop2 u s (rail_ready2 _ _ _ _) 1 1 0 (by norm_num) "a"
  have q : ((rail none none 0 0).get 1).joint.position = 0 := rfl
  rw [q] at e
  have m := moved_clampAll [(0, (1 - 0 : ℝ))] [0] (by simp) h1
  have sb := o.moved.sameBut.trans m.sameBut
  have p0 := clamp0 s o.moved.sameBut (1 - 0)
  have l0 : ((rail none none 0 0).get 0).joint.limits = none := rfl
  have l1 : ((rail none none 0 0).get 1).joint.limits = none := rfl
  simp only [l0] at p0
  have p1 : ((clampAll [(0, (1 - 0 : ℝ))] h1).get 1).joint.position = 0 := by
    rw [m.outside 1 (by simp), o.position 1, q]
  rw [p0, p1] at e
  have r := run_solve_reached u s.wf2 rfl (c := onlyX ["a"]) (is := [0]) (by simp [onlyX, arm2])
    (by simp [onlyX_count]; simp [onlyX, arm2]) rfl e
    (by rw [onlyX_reached]; simp)
  have m2 := moved_clamp_chain (h' := clampAll [(0, (1 - 0 : ℝ))] h1) (sb.chainWf s.wf2)
      (posList (clampAll [(0, (1 - 0 : ℝ))] h1) arm2.movableNodes)
  have s2 := s.same (sb.trans m2.sameBut)
  have same := position_clampAll_same (arm2.movableNodes.zip
      (posList (clampAll [(0, (1 - 0 : ℝ))] h1) arm2.movableNodes)) (clampAll [(0, (1 - 0 : ℝ))] h1)
    (fun p hp => (zip_posList _ p hp).2) (fun p hp r hr => by
      have := (zip_posList _ p hp).1
      rw [sb.limits] at hr
      simp only [arm2, List.mem_cons, List.not_mem_nil, or_false] at this
      rcases this with h | h <;> rw [h] at hr <;> cases hr)
  refine ⟨_, r, rfl, ?_, ?_⟩
  · rw [posOf, jointPosition_of_movable _ (s2.movable 0 (.inl rfl)), same, p0]; norm_num
  · rw [posOf, jointPosition_of_movable _ (s2.movable 1 (.inr rfl)), same, p1]

/-- **C28** does not hold for a joint outside its limits: the precondition error is replaced by the one
of the restoring call. -/
theorem C28_hidden_by_limits :
    run (solveWithConstraints (railSolver 1) arm1 (atX 10) Constraints.default)
      (rail (some ⟨0, 1⟩) none 5 0) =
      .ok (.error (.outOfLimit "a" 5 1 0)) (rail (some ⟨0, 1⟩) none 5 0) := by
  have s := rail_sliders (some ⟨0, 1⟩) none 5 0
  have u := rail_unlocked (some ⟨0, 1⟩) none 5 0
  have st := rail_stuck (SameBut.refl (rail (some ⟨0, 1⟩) none 5 0)) (.inr (by norm_num))
  unfold posList at st
  simp only [solveWithConstraints, solveInternal, run_bind, run_jointPositions _ u _ s.wf1, Res.bind_ok]
  rw [if_neg (by simp [Constraints.default]), if_pos (by
    simp [Constraints.default, defineOperationalSpace, countTrue, arm1])]
  simp only [run_pure, Res.bind_ok, st, run_bind]

/-! ## states the theorems apply to -/

/-- a successful solve from within the limits, as in `C24_success` -/
example : ∃ h', run (solveWithConstraints (railSolver 1) arm1 (atX 1) (onlyX []))
      (rail (some ⟨0, 2⟩) none 0 0) = .ok (.ok ()) h' ∧
    NoneOutside (rail (some ⟨0, 2⟩) none 0 0) arm1.movableNodes ∧
    ProperLimits (rail (some ⟨0, 2⟩) none 0 0) := by
  have s := rail_sliders (some ⟨0, 2⟩) none 0 0
  have u := rail_unlocked (some ⟨0, 2⟩) none 0 0
  obtain ⟨h1, o, e⟩ := loop1 u s (rail_ready1 _ _ _ _) 1 1
  have p := clamp0 s o.moved.sameBut 1
  have : ((rail (some ⟨0, 2⟩) none 0 0).get 0).joint.limits = some ⟨0, 2⟩ := rfl
  simp only [this, clamp_in 0 2 1 (by norm_num) (by norm_num)] at p
  rw [p] at e
  refine ⟨_, run_solve_reached u s.wf1 rfl (by simp [onlyX, arm1]) (by simp [onlyX_count]; simp [onlyX, arm1])
    (c := onlyX []) (is := []) rfl e (by rw [onlyX_reached]; norm_num), ?_, ?_⟩
  · intro n hn r hr
    simp only [arm1, List.mem_singleton] at hn
    subst hn
    rw [this] at hr; cases hr
    simp [rail, slider, Joint.new, NodeImpl.fresh, Scalar.lt]
  · intro n r hr
    by_cases h0 : n = 0
    · subst h0; rw [this] at hr; cases hr; simp [Scalar.le]
    · by_cases h1 : n = 1
      · subst h1; cases hr
      · simp [rail, h0, h1, NodeImpl.fresh, Joint.new] at hr

/-- a `Restorable` state for which the solve fails, as in `C25_restores` and `C29_not_converged` -/
example : ∃ dp dr h', run (solveWithConstraints (railSolver 1) arm1 (atX 10) (onlyX []))
      (rail (some ⟨0, 2⟩) none 0 0) = .ok (.error (.notConverged 1 dp dr)) h' ∧
    Restorable (rail (some ⟨0, 2⟩) none 0 0) arm1 ∧ OneLevel (rail (some ⟨0, 2⟩) none 0 0) := by
  have s := rail_sliders (some ⟨0, 2⟩) none 0 0
  have u := rail_unlocked (some ⟨0, 2⟩) none 0 0
  have nomc : ∀ m, ((rail (some ⟨0, 2⟩) none 0 0).get m).mimicChildren = [] := by
    intro m; simp only [rail]; split
    · rfl
    · split <;> rfl
  have re : Restorable (rail (some ⟨0, 2⟩) none 0 0) arm1 := by
    refine ⟨fun n hn _ r hr => ?_, fun n _ _ k hk => ?_, fun n hn m hm => ?_⟩
    · simp only [arm1, List.mem_singleton] at hn
      subst hn
      cases hr
      simp [rail, slider, Joint.new, NodeImpl.fresh, Scalar.le]
    · rw [nomc] at hk; cases hk
    · simp only [arm1, List.mem_singleton] at hn
      subst hn; cases hm
  have ol : OneLevel (rail (some ⟨0, 2⟩) none 0 0) := by
    intro m c hc; rw [nomc] at hc; cases hc
  obtain ⟨h1, o, e⟩ := loop1 u s (rail_ready1 _ _ _ _) 10 1
  have sb := o.moved.trans (moved_clampAll [(0, (10 : ℝ))] [0] (by simp) h1)
  have p := clamp0 s o.moved.sameBut 10
  have : ((rail (some ⟨0, 2⟩) none 0 0).get 0).joint.limits = some ⟨0, 2⟩ := rfl
  simp only [this, clamp_high 0 2 10 (by norm_num) (by norm_num)] at p
  rw [p] at e
  obtain ⟨h2, r2, sb2, pos⟩ := restore (arm := arm1) u ol s.wf1 (by simp [arm1]) re sb.disturbed
  obtain ⟨h3, r3, -, -⟩ := restore (arm := arm1) u ol s.wf1 (by simp [arm1]) re ⟨sb2, fun k _ => pos k⟩
  exact ⟨_, _, _, run_solve_unreached u s.wf1 rfl (by simp [onlyX, arm1])
    (by simp [onlyX_count]; simp [onlyX, arm1])
    (c := onlyX []) (is := []) rfl e (by rw [onlyX_reached]; norm_num) r2 r3, re, ol⟩

/-- an arm with more joints than constrained coordinates, as in `C26_ignored` -/
example : numConstrained (onlyX []) < arm2.dof - (onlyX []).ignoredJointNames.length := by decide

end
end K
