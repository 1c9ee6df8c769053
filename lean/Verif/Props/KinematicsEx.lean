import Verif.Props.Kinematics
import Verif.Props.TriesEx
/-!
# C92: concrete cases; mimic relations, names and limits are seen
-/

namespace K
open Prog

noncomputable section

/-! ## a gantry on a stand -/

/-- the gantry of `FrameEx` on a stand: a fixed joint one metre up, and from there one metre down to the first slider -/
def onStand : KHeap ℝ :=
  { get := fun n =>
      if n = 0 then { NodeImpl.fresh ({ Joint.new "x" (.linear ⟨1, 0, 0⟩) with origin := ⟨⟨0, 0, -1⟩, Quat.one⟩ } : Joint ℝ) with
        parent := some 3, children := [1] }
      else if n = 1 then { NodeImpl.fresh (Joint.new "y" (.linear ⟨0, 1, 0⟩)) with
        parent := some 0, children := [2] }
      else if n = 2 then { NodeImpl.fresh (Joint.new "z" (.linear ⟨0, 0, 1⟩)) with parent := some 1 }
      else if n = 3 then { NodeImpl.fresh ({ Joint.new "stand" .fixed with origin := ⟨⟨0, 0, 1⟩, Quat.one⟩ } : Joint ℝ) with
        children := [0] }
      else NodeImpl.fresh (Joint.new "c" .fixed)
    next := 4, dead := fun _ => false, held := fun _ => false }

def standArm : Chain := ⟨[3, 0, 1, 2], [0, 1, 2], 3⟩

theorem onStand_arm : RootedArm onStand standArm where
  unlocked := fun _ => rfl
  wf := ⟨by simp [standArm, onStand, Movable, NodeImpl.fresh, Joint.new], rfl⟩
  root := ⟨3, [0, 1, 2], rfl, by simp [liveParent, onStand, NodeImpl.fresh]⟩
  serial := by
    intro pre a b post e
    match pre, e with
    | [], e => cases e; simp [liveParent, onStand]
    | [x], e => cases e; simp [liveParent, onStand]
    | [x, y], e => cases e; simp [liveParent, onStand]
    | [x, y, z], e => simp [standArm] at e
    | x :: y :: z :: w :: pre, e => simp [standArm] at e
  nodup := by simp [standArm]
  rigid := by
    intro n hn
    have : n = 3 ∨ n = 0 ∨ n = 1 ∨ n = 2 := by simpa [standArm] using hn
    rcases this with rfl | rfl | rfl | rfl <;>
      exact ⟨by simp [onStand, NodeImpl.fresh, Joint.new, Iso.IsRigid, Iso.one, Quat.one_isUnit], by
        simp [onStand, NodeImpl.fresh, V3.IsUnit, Joint.new]⟩

theorem onStand_noMimic (n : NodeId) : (onStand.get n).mimicParent = none ∧ (onStand.get n).mimicChildren = [] := by
  simp only [onStand]
  split
  · exact ⟨rfl, rfl⟩
  · split
    · exact ⟨rfl, rfl⟩
    · split
      · exact ⟨rfl, rfl⟩
      · split <;> exact ⟨rfl, rfl⟩

theorem gantry_onStand : SameRobot gantry gantryArm onStand standArm where
  left := gantry_arm
  right := onStand_arm
  leftMimic := gantry_mimicWF
  rightMimic := fun m c hc => by rw [(onStand_noMimic m).2] at hc; cases hc
  leftFree := fun n _ => ⟨gantry_noMimicParent n, gantry_noMimic n⟩
  rightFree := fun n _ => onStand_noMimic n
  names := rfl
  limits := rfl
  positions := rfl
  kinematics := C92_fixed gantry_arm onStand_arm rfl (by
    have e : Iso.mul ⟨⟨0, 0, 1⟩, Quat.one⟩ (⟨⟨0, 0, -1⟩, Quat.one⟩ : Iso ℝ) = Iso.one := by
      simp only [Iso.mul, Quat.rotate_one, Iso.one, V3.zero, V3.add, Quat.one_mul']
      norm_num
    simp [segments, gantry, gantryArm, onStand, standArm, NodeImpl.fresh, Joint.new, e, Iso.one_mul'])

/-- the gantry on the stand finds a target one metre away, as the one without does, with the same positions of the
joints -/
theorem C92_stand (t : V3 ℝ) (ht : t.norm = 1) :
    ∃ g g', run (solveWithConstraints (swingSolver 10) gantryArm ⟨t, Quat.one⟩ onlyPosition) gantry = .ok (.ok ()) g ∧
      run (solveWithConstraints (swingSolver 10) standArm ⟨t, Quat.one⟩ onlyPosition) onStand = .ok (.ok ()) g' ∧
      posList g gantryArm.movableNodes = posList g' standArm.movableNodes := by
  obtain ⟨g, e⟩ := (C70_iff gantry_sliding (gantry_posed t 10) (by norm_num [swingSolver])).2 ⟨7, by omega, by
    show 7 ≤ 10; omega, by
    have : (posError onlyPosition ⟨t, Quat.one⟩ Iso.one).norm = 1 := by
      rw [← ht]
      simp [posError, masked, onlyPosition, V3.sub, Iso.one, V3.zero, V3.norm]
    rw [this]
    norm_num [swingSolver, abs_of_pos]⟩
  have s := C92_same gantry_onStand (.call (.solve (swingSolver 10) ⟨t, Quat.one⟩ onlyPosition) .done)
  have r : ∀ (arm : Chain) h, run (ArmClient.on arm (.call (.solve (swingSolver 10) ⟨t, Quat.one⟩ onlyPosition) .done)).prog h
      = (run (solveWithConstraints (swingSolver 10) arm ⟨t, Quat.one⟩ onlyPosition) h).bind fun a h => .ok a h := by
    intro arm h
    exact run_bind _ _ _
  rw [r, r, e] at s
  cases e' : run (solveWithConstraints (swingSolver 10) standArm ⟨t, Quat.one⟩ onlyPosition) onStand with
  | ok a g' =>
    rw [e'] at s
    obtain ⟨rfl, p⟩ := s
    exact ⟨g, g', e, rfl, p⟩
  | _ => rw [e'] at s; exact s.elim

/-! ## a turning joint that is moved along its axis -/

/-- a joint that turns about the z axis, `c` above the ground, with a tip `d` above it and one metre out -/
def turner (c d : ℝ) : KHeap ℝ :=
  { get := fun n =>
      if n = 0 then { NodeImpl.fresh ({ Joint.new "a" (.rotational ⟨0, 0, 1⟩) with
        origin := ⟨⟨0, 0, c⟩, Quat.one⟩ } : Joint ℝ) with children := [1] }
      else if n = 1 then { NodeImpl.fresh ({ Joint.new "tip" .fixed with origin := ⟨⟨1, 0, d⟩, Quat.one⟩ } : Joint ℝ) with
        parent := some 0 }
      else NodeImpl.fresh (Joint.new "c" .fixed)
    next := 2, dead := fun _ => false, held := fun _ => false }

def turnerArm : Chain := ⟨[0, 1], [0], 1⟩

theorem turner_arm (c d : ℝ) : RootedArm (turner c d) turnerArm where
  unlocked := fun _ => rfl
  wf := ⟨by simp [turnerArm, turner, Movable, NodeImpl.fresh, Joint.new], rfl⟩
  root := ⟨0, [1], rfl, by simp [liveParent, turner, NodeImpl.fresh]⟩
  serial := by
    intro pre a b post e
    match pre, e with
    | [], e => cases e; simp [liveParent, turner]
    | [x], e => simp [turnerArm] at e
    | x :: y :: pre, e => simp [turnerArm] at e
  nodup := by simp [turnerArm]
  rigid := by
    intro n hn
    have : n = 0 ∨ n = 1 := by simpa [turnerArm] using hn
    rcases this with rfl | rfl <;>
      exact ⟨by simp [turner, NodeImpl.fresh, Joint.new, Iso.IsRigid, Quat.one_isUnit], by
        simp [turner, NodeImpl.fresh, V3.IsUnit, Joint.new]⟩

theorem turner_noMimic (c d : ℝ) (n : NodeId) :
    ((turner c d).get n).mimicParent = none ∧ ((turner c d).get n).mimicChildren = [] := by
  simp only [turner]
  split
  · exact ⟨rfl, rfl⟩
  · split <;> exact ⟨rfl, rfl⟩

/-- where on its axis the joint is does not matter, although no fixed joint is merged -/
theorem C92_axis (c d c' d' : ℝ) (e : c + d = c' + d') : SameRobot (turner c d) turnerArm (turner c' d') turnerArm where
  left := turner_arm c d
  right := turner_arm c' d'
  leftMimic := fun m x hx => by rw [(turner_noMimic c d m).2] at hx; cases hx
  rightMimic := fun m x hx => by rw [(turner_noMimic c' d' m).2] at hx; cases hx
  leftFree := fun n _ => turner_noMimic c d n
  rightFree := fun n _ => turner_noMimic c' d' n
  names := rfl
  limits := rfl
  positions := rfl
  kinematics := by
    intro xs len
    obtain ⟨x, rfl⟩ : ∃ x, xs = [x] := List.length_eq_one_iff.1 len
    have one : ∀ c d, ∃ h', run (moveTo turnerArm [x]) (turner c d) =
        .ok ⟨⟨Real.cos x, Real.sin x, c + d⟩, Quat.fromAxisAngle ⟨0, 0, 1⟩ x⟩ h' := by
      intro c d
      refine ⟨putAll (turnerArm.movableNodes.zip [x]) (turner c d), ?_⟩
      have u := (turner_arm c d).unlocked
      simp only [moveTo, run_bind, run_setJointPositionsUnchecked _ _ _ u, Res.bind_ok,
        run_endTransform _ _ (putAll_unlocked _ u)]
      congr 1
      have z : (Quat.fromAxisAngle ⟨0, 0, 1⟩ x).rotate (⟨1, 0, d⟩ : V3 ℝ) = ⟨Real.cos x, Real.sin x, d⟩ := by
        rw [rotate_fromAxisAngle (by norm_num [V3.IsUnit])]
        simp [V3.add, V3.scale, V3.cross, V3.dot]
        ring
      show (Iso.one.mul (Iso.mul ⟨⟨0, 0, c⟩, Quat.one⟩ ⟨⟨0, 0, 0⟩, Quat.fromAxisAngle ⟨0, 0, 1⟩ x⟩)).mul
        (Iso.mul ⟨⟨1, 0, d⟩, Quat.one⟩ Iso.one) = _
      rw [Iso.one_mul', Iso.mul_one']
      simp only [Iso.mul, Quat.rotate_one, Quat.one_mul', Quat.mul_one', z]
      simp [V3.add]
    obtain ⟨h', l⟩ := one c d
    obtain ⟨g', r⟩ := one c' d'
    exact ⟨_, h', g', l, by rw [r, e]⟩

/-! ## what is seen -/

/-- the gantry with the second slider following the first one -/
def coupled : KHeap ℝ :=
  { get := fun n =>
      if n = 0 then { NodeImpl.fresh (Joint.new "x" (.linear ⟨1, 0, 0⟩)) with children := [1], mimicChildren := [1] }
      else if n = 1 then { NodeImpl.fresh (Joint.new "y" (.linear ⟨0, 1, 0⟩)) with
        parent := some 0, children := [2], mimicParent := some 0, mimic := some ⟨1, 0⟩ }
      else if n = 2 then { NodeImpl.fresh (Joint.new "z" (.linear ⟨0, 0, 1⟩)) with parent := some 1 }
      else NodeImpl.fresh (Joint.new "c" .fixed)
    next := 3, dead := fun _ => false, held := fun _ => false }

/-- move the joints and ask where they are -/
def moveAndAsk (xs : List ℝ) : ArmClient (List ℝ) :=
  .call (.setJointPositions xs) fun _ => .call .jointPositions .done

/-- mimic relations are seen: with the same forward kinematics, names and limits the joints are not where they are without
them -/
theorem C92_mimic : (∃ g, run ((moveAndAsk [1, 2, 3]).on gantryArm).prog gantry = .ok [1, 2, 3] g) ∧
    ∃ g, run ((moveAndAsk [1, 2, 3]).on gantryArm).prog coupled = .ok [1, 1, 3] g := by
  have go : ∀ h : KHeap ℝ, h.Unlocked → MimicWF h → gantryArm.Wf h → ∃ g,
      run ((moveAndAsk [1, 2, 3]).on gantryArm).prog h =
        .ok (posList (setAll (gantryArm.movableNodes.zip [1, 2, 3]) h).2 gantryArm.movableNodes) g := by
    intro h u wf c
    have u' := (sameBut_setAll (gantryArm.movableNodes.zip [1, 2, 3]) h).unlocked u
    refine ⟨(setAll (gantryArm.movableNodes.zip [1, 2, 3]) h).2, ?_⟩
    show run ((gantryArm.setJointPositions [1, 2, 3]) >>= fun _ => gantryArm.jointPositions >>= fun a => .ret a) h = _
    rw [run_bind, run_setJointPositions _ _ _ u wf rfl, Res.bind_ok, run_bind, run_jointPositions _ u' _
      ((sameBut_setAll _ h).chainWf c)]
    rfl
  refine ⟨?_, ?_⟩
  · obtain ⟨g, e⟩ := go gantry (fun _ => rfl) gantry_mimicWF gantry_arm.wf
    refine ⟨g, e.trans ?_⟩
    congr 1
  · have wf : MimicWF coupled := fun n c hc => by
      by_cases h0 : n = 0
      · subst h0
        cases List.mem_singleton.1 (show c ∈ [1] from hc)
        exact ⟨rfl, rfl⟩
      · by_cases h1 : n = 1
        · subst h1; simp [coupled, NodeImpl.fresh] at hc
        · by_cases h2 : n = 2
          · subst h2; simp [coupled, NodeImpl.fresh] at hc
          · simp [coupled, NodeImpl.fresh, h0, h1, h2] at hc
    obtain ⟨g, e⟩ := go coupled (fun _ => rfl) wf ⟨by simp [gantryArm, coupled, Movable, NodeImpl.fresh, Joint.new], rfl⟩
    refine ⟨g, e.trans ?_⟩
    congr 1
    simp [gantryArm, setAll, setPos, coupled, NodeImpl.fresh, Joint.new, Joint.setJointPosition, Joint.isMovable,
      mimicLoop, Heap.setJoint, Heap.get_modify, posList, Mimic.mimicPosition]

end

end K
