import Verif.Props.Target
import Verif.Props.FrameEx
/-!
# C104: concrete cases, and a half turn
-/

namespace K
open Prog

noncomputable section

/-! ## an unconstrained coordinate -/

/-- with only x constrained, the solver cannot tell these targets apart -/
theorem C104_only_x (y z : ℝ) (q : Quat ℝ) : SameRequest (onlyX []) (atX 1) ⟨⟨1, y, z⟩, q⟩ where
  x := fun _ => rfl
  y := fun e => by simp [onlyX] at e
  z := fun e => by simp [onlyX] at e
  rot := fun e => by simp [Constraints.Turning, onlyX] at e

/-! ## half a turn -/

/-- only the rotation about z is constrained -/
def onlyTurn : Constraints := ⟨false, false, false, false, false, true, []⟩

/-- full steps, one try -/
def fullStep : IkSolver ℝ := ⟨1 / 100, 1 / 100, 1, 1, none, exactLa⟩

/-- half a turn about z -/
def turned : Iso ℝ := ⟨V3.zero, ⟨0, 0, 0, 1⟩⟩

theorem swing_local (x : ℝ) (g : KHeap ℝ) (s : SameBut (swing 0) g) (e : (g.get 0).joint.position = x) :
    (endPose g swingArm.nodes).rot = ⟨Real.cos (x / 2), 0, 0, Real.sin (x / 2)⟩ := by
  obtain ⟨p0, a0, b0, e0⟩ := s.node 0
  obtain ⟨p1, a1, b1, e1⟩ := s.node 1
  have : p0 = x := by rw [e0] at e; exact e
  subst this
  have two : (1 + 1 : ℝ) = 2 := by norm_num
  simp only [endPose, swingArm, List.foldl_cons, List.foldl_nil, e0, e1]
  simp [swing, NodeImpl.fresh, Joint.new, Joint.localTransform, Joint.jointTransform, Iso.mul, Iso.one, Quat.mul,
    Quat.one, Quat.fromAxisAngle, atX, Scalar.cos, Scalar.sin, two]

/-- one full step towards half a turn about z, from either sign of the quaternion -/
theorem swing_put (x : ℝ) : ∀ g : KHeap ℝ, SameBut (swing 0) g →
    ((clampAll (swingArm.movableNodes.zip [x]) g).get 0).joint.position = x := by
  intro g sg
  show ((g.modify 0 fun s => { s with joint := s.joint.setJointPositionClamped x }).get 0).joint.position = _
  obtain ⟨p, a, b, e⟩ := sg.node 0
  rw [Heap.get_modify_self, e]
  simp [swing, NodeImpl.fresh, Joint.new, Joint.setJointPositionClamped, Joint.isMovable,
    Joint.setJointPositionUnchecked]

theorem swing_step (t : Iso ℝ) (x : ℝ)
    (start : calcPoseDiffWithConstraints t (endPose (swing 0) swingArm.nodes) (defineOperationalSpace onlyTurn) = [x])
    (stop : ∀ X : Iso ℝ, X.rot = ⟨Real.cos (x / 2), 0, 0, Real.sin (x / 2)⟩ →
      calcPoseDiffWithConstraints t X (defineOperationalSpace onlyTurn) = [0]) :
    ∃ g, run (solveOneLoop fullStep swingArm t (defineOperationalSpace onlyTurn) (sortedIndices [])) (swing 0) =
      .ok (.ok [0]) g ∧ SameBut (swing 0) g ∧ (g.get 0).joint.position = x := by
  obtain ⟨g1, ej⟩ := swing_jac
  have lg := swing_arm 0
  obtain ⟨ow, -⟩ := jacobian_ok swingArm (swing 0) g1 lg.unlocked _ ej
  have np : nextPositions fullStep (defineOperationalSpace onlyTurn) [] swingArm.dof
      [[0, 1, 0, 0, 0, 1]] [x] [0] = .ok (.ok [x]) := by
    have rr : removeRows (defineOperationalSpace onlyTurn) 0 0 [[(0 : ℝ), 1, 0, 0, 0, 1]] = .ok [[1]] := rfl
    simp only [nextPositions, rr]
    obtain ⟨y, ey, ly, vy⟩ := exactLa_exact.lu 1 [[1]] rfl (by simp) (by simp [toMat]) [x] rfl
    obtain ⟨q, rfl⟩ := List.length_eq_one_iff.1 ly
    have : q = x := by
      have := vy 0 (by omega)
      simpa [rowSum] using this
    subst this
    have ct : countTrue (defineOperationalSpace onlyTurn) = 1 := rfl
    simp [Bind.bind, Except.bind, removeIndices, swingArm, fullStep, ey, addPositionsWithMultiplier, ct]
  have pl : posList (swing 0) swingArm.movableNodes = [0] := by
    simp [posList, swingArm, swing, NodeImpl.fresh]
  have mv : Moved swingArm.nodes (swing 0) (clampAll (swingArm.movableNodes.zip [x]) g1) :=
    ow.moved.trans (moved_clamp_chain (ow.moved.sameBut.chainWf lg.wf) [x])
  have at0 := swing_put x
  have done := stop _ (swing_local x _ mv.sameBut (at0 g1 ow.moved.sameBut))
  have e1 : run (solveOneLoop fullStep swingArm t (defineOperationalSpace onlyTurn)
      (sortedIndices [])) (swing 0) = .ok (.ok [0]) (clampAll (swingArm.movableNodes.zip [x]) g1) := by
    have u1 := ow.moved.unlocked lg.unlocked
    simp only [solveOneLoop, run_bind, run_jointPositions _ lg.unlocked _ lg.wf, Res.bind_ok,
      run_endTransform _ _ lg.unlocked, ej]
    rw [show sortedIndices [] = ([] : List Nat) by simp [sortedIndices], start]
    simp only [posList] at pl
    rw [pl, np]
    show Res.bind (Res.ok (Except.ok [x]) g1) _ = _
    simp only [run_bind, run_setJointPositionsClamped _ _ _ u1, Res.bind_ok,
      run_endTransform _ _ (mv.unlocked lg.unlocked), done, run_pure]
  exact ⟨_, e1, mv.sameBut, at0 g1 ow.moved.sameBut⟩

theorem swing_turn (t : Iso ℝ) (x : ℝ)
    (start : calcPoseDiffWithConstraints t (endPose (swing 0) swingArm.nodes) (defineOperationalSpace onlyTurn) = [x])
    (stop : ∀ X : Iso ℝ, X.rot = ⟨Real.cos (x / 2), 0, 0, Real.sin (x / 2)⟩ →
      calcPoseDiffWithConstraints t X (defineOperationalSpace onlyTurn) = [0]) :
    ∃ h', run (solveWithConstraints fullStep swingArm t onlyTurn) (swing 0) = .ok (.ok ()) h' ∧
      (h'.get 0).joint.position = x := by
  obtain ⟨g, e1, sg, at1⟩ := swing_step t x start stop
  have lg := swing_arm 0
  refine ⟨_, run_solve_reached lg.unlocked lg.wf rfl (by decide) (by decide) (is := []) rfl e1 (by
    rw [show targetDiffToLenRotDiff [(0 : ℝ)] (defineOperationalSpace onlyTurn) = (⟨0, 0, 0⟩, ⟨0, 0, 0⟩) from rfl]
    norm_num [reached, V3.norm, fullStep, Scalar.sqrt, Scalar.lt]), ?_⟩
  have p2 : posList (g) swingArm.movableNodes = [x] := by
    simp only [posList, show swingArm.movableNodes = [0] from rfl, List.map_cons, List.map_nil]
    rw [at1]
  rw [p2]
  exact swing_put x _ sg

/-- **C104, a half turn.**  An arm that turns about z, asked for half a turn about z: with the quaternion
`(0, 0, 0, 1)` it turns by `π`, with the negative of it, the same orientation, by `-π`. -/
theorem C104_half_turn : RootedArm (swing 0) swingArm ∧
    (∀ v, turned.otherSign.rot.rotate v = turned.rot.rotate v) ∧
    ∃ h h', run (solveWithConstraints fullStep swingArm turned onlyTurn) (swing 0) = .ok (.ok ()) h ∧
      run (solveWithConstraints fullStep swingArm turned.otherSign onlyTurn) (swing 0) = .ok (.ok ()) h' ∧
      (h.get 0).joint.position = Real.pi ∧ (h'.get 0).joint.position = -Real.pi := by
  have v1 : ∀ s : ℝ, s = 1 ∨ s = -1 → (⟨0, 0, 0, s⟩ : Quat ℝ).scaledAxis = ⟨0, 0, s * Real.pi⟩ := by
    intro s hs
    have u : (⟨0, 0, 0, s⟩ : Quat ℝ).IsUnit := by rcases hs with rfl | rfl <;> simp [Quat.IsUnit]
    have n : (⟨0, 0, 0, s⟩ : Quat ℝ).vec.norm = 1 := by
      rcases hs with rfl | rfl <;> simp [Quat.vec, V3.norm, Scalar.sqrt]
    have a : arcRatio 1 = Real.pi / 2 := by
      have := arcRatio_mul 1
      rwa [mul_one, Real.arcsin_one] at this
    rw [Quat.scaledAxis_eq u, n, a]
    ext <;> simp [Quat.vec, V3.scale]
    exact .inl (by ring)
  have zero : (⟨1, 0, 0, 0⟩ : Quat ℝ).scaledAxis = ⟨0, 0, 0⟩ := (scaledAxis_eq_zero _).2 rfl
  have key : ∀ s : ℝ, s = 1 ∨ s = -1 → ∃ h',
      run (solveWithConstraints fullStep swingArm ⟨V3.zero, ⟨0, 0, 0, s⟩⟩ onlyTurn) (swing 0) = .ok (.ok ()) h' ∧
        (h'.get 0).joint.position = s * Real.pi := by
    intro s hs
    refine swing_turn _ _ ?_ fun X eX => ?_
    · rw [swing_pose]
      have : Quat.rotationTo Quat.one (⟨0, 0, 0, s⟩ : Quat ℝ) = ⟨0, 0, 0, s⟩ := by
        ext <;> simp [Quat.rotationTo, Quat.mul, Quat.conj, Quat.one]
      simp only [calcPoseDiffWithConstraints, calcPoseDiff, defineOperationalSpace, onlyTurn, selectFlags, atX, this,
        v1 s hs]
    · have c0 : Real.cos (s * Real.pi / 2) = 0 := by
        rcases hs with rfl | rfl
        · rw [one_mul, Real.cos_pi_div_two]
        · rw [show (-1 : ℝ) * Real.pi / 2 = -(Real.pi / 2) by ring, Real.cos_neg, Real.cos_pi_div_two]
      have s0 : Real.sin (s * Real.pi / 2) = s := by
        rcases hs with rfl | rfl
        · rw [one_mul, Real.sin_pi_div_two]
        · rw [show (-1 : ℝ) * Real.pi / 2 = -(Real.pi / 2) by ring, Real.sin_neg, Real.sin_pi_div_two]
      have : Quat.rotationTo X.rot (⟨0, 0, 0, s⟩ : Quat ℝ) = ⟨1, 0, 0, 0⟩ := by
        rw [eX, c0, s0]
        rcases hs with rfl | rfl <;> ext <;> simp [Quat.rotationTo, Quat.mul, Quat.conj]
      simp only [calcPoseDiffWithConstraints, calcPoseDiff, defineOperationalSpace, onlyTurn, selectFlags, this, zero]
  refine ⟨swing_arm 0, fun v => Quat.neg_rotate _ v, ?_⟩
  obtain ⟨h, e, p⟩ := key 1 (.inl rfl)
  obtain ⟨h', e', p'⟩ := key (-1) (.inr rfl)
  have os : turned.otherSign = ⟨V3.zero, ⟨0, 0, 0, -1⟩⟩ := by simp [turned, Iso.otherSign]
  exact ⟨h, h', e, by rw [os]; exact e', by rw [p, one_mul], by rw [p']; ring⟩

/-! ## never half a turn away -/

/-- `swing`, with limits -/
def gated : KHeap ℝ := (swing 0).modify 0 fun s => { s with joint := { s.joint with limits := some ⟨-1, 1⟩ } }

theorem gated_wf : swingArm.Wf gated :=
  ⟨by simp [swingArm, gated, swing, Movable, NodeImpl.fresh, Joint.new, Heap.modify], rfl⟩

theorem gated_limits : ProperLimits gated := by
  intro n r hr
  by_cases h0 : n = 0
  · subst h0
    have : r = ⟨-1, 1⟩ := by simpa [gated, swing, Heap.modify, NodeImpl.fresh, Joint.new] using hr.symm
    subst this
    simp only [Scalar.le]; exact decide_eq_true (by norm_num)
  · by_cases h1 : n = 1 <;> simp [gated, swing, Heap.modify, NodeImpl.fresh, Joint.new, h0, h1] at hr

theorem gated_inside : NoneOutside gated swingArm.movableNodes := by
  intro n hn
  have : n = 0 := by simpa [swingArm] using hn
  subst this
  intro r hr
  have : r = ⟨-1, 1⟩ := by simpa [gated, swing, Heap.modify, NodeImpl.fresh, Joint.new] using hr.symm
  subst this
  simp [gated, swing, Heap.modify, NodeImpl.fresh, Joint.new, Scalar.lt]

theorem gated_far : ∀ g X, SameBut gated g → NoneOutside g swingArm.movableNodes → run swingArm.endTransform g = .ok X g →
    ¬ HalfTurn X.rot (atX 1).rot := by
  intro g X sg og eX
  rw [run_endTransform _ _ (sg.unlocked fun _ => rfl)] at eX
  injection eX with eX _
  subst eX
  obtain ⟨p0, a0, b0, e0⟩ := sg.node 0
  obtain ⟨p1, a1, b1, e1⟩ := sg.node 1
  have lim := og 0 (by simp [swingArm]) ⟨-1, 1⟩ (by
    rw [sg.limits]; simp [gated, swing, Heap.modify, NodeImpl.fresh, Joint.new])
  rw [e0] at lim
  have two : (1 + 1 : ℝ) = 2 := by norm_num
  have rot : (endPose g swingArm.nodes).rot = ⟨Real.cos (p0 / 2), 0, 0, Real.sin (p0 / 2)⟩ := by
    simp only [endPose, swingArm, List.foldl_cons, List.foldl_nil, e0, e1]
    simp [gated, swing, Heap.modify, NodeImpl.fresh, Joint.new, Joint.localTransform, Joint.jointTransform, Iso.mul,
      Iso.one, Quat.mul, Quat.one, Quat.fromAxisAngle, atX, Scalar.cos, Scalar.sin, two]
  have ends : -1 ≤ p0 ∧ p0 ≤ 1 := by
    simpa [gated, swing, Heap.modify, NodeImpl.fresh, Joint.new, Scalar.lt] using lim
  have pi := Real.one_le_pi_div_two
  have := Real.cos_pos_of_mem_Ioo (x := p0 / 2) ⟨by linarith [ends.1], by linarith [ends.2]⟩
  rw [rot]
  simp [HalfTurn, atX, Quat.one, this.ne']

/-- the hypotheses of `C104_sign` are met by an arm with limits of one radian -/
theorem C104_gated (s : IkSolver ℝ) (c : Constraints) :
    run (solveWithConstraints s swingArm (atX 1).otherSign c) gated =
      run (solveWithConstraints s swingArm (atX 1) c) gated :=
  C104_sign s swingArm c (atX 1) gated (fun _ => rfl) gated_wf gated_limits gated_inside gated_far

end
end K
