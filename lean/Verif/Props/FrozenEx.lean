import Verif.Props.Frozen
import Verif.Props.KinematicsEx
/-!
# C103: concrete cases; as many joints as coordinates
-/

namespace K
open Prog

noncomputable section

/-- the gantry of `FrameEx`, the slider "y", which goes from 0 to 3, two metres out -/
def parked : KHeap ℝ :=
  { get := fun n =>
      if n = 0 then { NodeImpl.fresh (Joint.new "x" (.linear ⟨1, 0, 0⟩)) with children := [1] }
      else if n = 1 then { NodeImpl.fresh ({ Joint.new "y" (.linear ⟨0, 1, 0⟩) with
          position := 2, limits := some ⟨0, 3⟩ } : Joint ℝ) with parent := some 0, children := [2] }
      else if n = 2 then { NodeImpl.fresh (Joint.new "z" (.linear ⟨0, 0, 1⟩)) with parent := some 1 }
      else NodeImpl.fresh (Joint.new "c" .fixed)
    next := 3, dead := fun _ => false, held := fun _ => false }

/-- the same with "y" fixed there -/
def bolted : KHeap ℝ :=
  { parked with get := fun n => if n = 1 then { parked.get 1 with joint := (parked.get 1).joint.welded } else parked.get n }

def boltedArm : Chain := ⟨[0, 1, 2], [0, 2], 2⟩

theorem parked_noMimic (n : NodeId) : (parked.get n).mimicParent = none ∧ (parked.get n).mimicChildren = [] := by
  simp only [parked]
  split
  · exact ⟨rfl, rfl⟩
  · split
    · exact ⟨rfl, rfl⟩
    · split <;> exact ⟨rfl, rfl⟩

theorem bolted_noMimic (n : NodeId) : (bolted.get n).mimicParent = none ∧ (bolted.get n).mimicChildren = [] := by
  simp only [bolted]
  split
  · exact parked_noMimic 1
  · exact parked_noMimic n

theorem parked_arm : RootedArm parked gantryArm where
  unlocked := fun _ => rfl
  wf := ⟨by simp [gantryArm, parked, Movable, NodeImpl.fresh, Joint.new], rfl⟩
  root := ⟨0, [1, 2], rfl, by simp [liveParent, parked, NodeImpl.fresh]⟩
  serial := by
    intro pre a b post e
    match pre, e with
    | [], e => cases e; simp [liveParent, parked]
    | [x], e => cases e; simp [liveParent, parked]
    | [x, y], e => simp [gantryArm] at e
    | x :: y :: z :: pre, e => simp [gantryArm] at e
  nodup := by simp [gantryArm]
  rigid := by
    intro n hn
    have : n = 0 ∨ n = 1 ∨ n = 2 := by simpa [gantryArm] using hn
    rcases this with rfl | rfl | rfl <;>
      exact ⟨by simp [parked, NodeImpl.fresh, Joint.new, Iso.IsRigid, Iso.one, Quat.one_isUnit], by
        simp [parked, NodeImpl.fresh, V3.IsUnit, Joint.new]⟩

theorem bolted_arm : RootedArm bolted boltedArm where
  unlocked := fun _ => rfl
  wf := ⟨by simp [boltedArm, bolted, parked, Movable, NodeImpl.fresh, Joint.new, Joint.welded], rfl⟩
  root := ⟨0, [1, 2], rfl, by simp [liveParent, bolted, parked, NodeImpl.fresh]⟩
  serial := by
    intro pre a b post e
    match pre, e with
    | [], e => cases e; simp [liveParent, bolted, parked]
    | [x], e => cases e; simp [liveParent, bolted, parked]
    | [x, y], e => simp [boltedArm] at e
    | x :: y :: z :: pre, e => simp [boltedArm] at e
  nodup := by simp [boltedArm]
  rigid := by
    intro n hn
    have : n = 0 ∨ n = 1 ∨ n = 2 := by simpa [boltedArm] using hn
    rcases this with rfl | rfl | rfl
    · exact parked_arm.rigid 0 (by simp [gantryArm])
    · have r := parked_arm.rigid 1 (by simp [gantryArm])
      exact ⟨r.1.mul (Joint.jointTransform_isRigid r), by simp [bolted, Joint.welded]⟩
    · exact parked_arm.rigid 2 (by simp [gantryArm])

theorem parked_bolted : Welded parked gantryArm ["y"] bolted boltedArm where
  left := parked_arm
  right := bolted_arm
  leftMimic := fun m c hc => by rw [(parked_noMimic m).2] at hc; cases hc
  rightMimic := fun m c hc => by rw [(bolted_noMimic m).2] at hc; cases hc
  leftFree := fun n _ => parked_noMimic n
  rightFree := fun n _ => bolted_noMimic n
  inside := by
    intro n hn r hr
    have : n = 0 ∨ n = 1 ∨ n = 2 := by simpa [gantryArm] using hn
    rcases this with rfl | rfl | rfl
    · simp [parked, NodeImpl.fresh, Joint.new] at hr
    · have : r = ⟨0, 3⟩ := by simpa [parked, NodeImpl.fresh] using hr.symm
      subst this
      simp [parked, NodeImpl.fresh, Scalar.lt]
      norm_num
    · simp [parked, NodeImpl.fresh, Joint.new] at hr
  once := by simp
  known := by simp [gantryArm, parked, NodeImpl.fresh, Joint.new]
  distinct := by simp [gantryArm, parked, NodeImpl.fresh, Joint.new]
  nodes := rfl
  welded := by
    intro n hn q
    have : n = 0 ∨ n = 1 ∨ n = 2 := by simpa [gantryArm] using hn
    rcases this with rfl | rfl | rfl
    · simp [parked, NodeImpl.fresh, Joint.new] at q
    · rfl
    · simp [parked, NodeImpl.fresh, Joint.new] at q
  others := by
    intro n hn q
    have : n = 0 ∨ n = 1 ∨ n = 2 := by simpa [gantryArm] using hn
    rcases this with rfl | rfl | rfl
    · rfl
    · exact absurd ⟨by simp [gantryArm], by simp [parked, NodeImpl.fresh, Joint.new]⟩ q
    · rfl

/-- whatever the target, moving the gantry to it in the direction of x with "y" ignored is the same as doing that with the
gantry in which "y" is fixed -/
theorem C103_gantry (sol : IkSolver ℝ) (nf : sol.nullspaceFunction = none) (sz : sol.la.Sized) (target : Iso ℝ) :
    SameButHeld gantryArm [1] [0, 2, 0] boltedArm
      (run (solveWithConstraints sol gantryArm target (onlyX ["y"])) parked)
      (run (solveWithConstraints sol boltedArm target (onlyX [])) bolted) := by
  have i : indicesOf parked gantryArm (onlyX ["y"]).ignoredJointNames = [1] := by
    simp [indicesOf, gantryArm, onlyX, parked, NodeImpl.fresh, Joint.new, List.range_succ, List.filter]
  have p : (gantryArm.movableNodes.map fun n => (parked.get n).joint.position) = [0, 2, 0] := by
    simp [gantryArm, parked, NodeImpl.fresh, Joint.new]
  have := C103_welded (sol' := sol) (c := onlyX ["y"]) target parked_bolted
    ⟨rfl, rfl, rfl, rfl, rfl, by rw [nf]; trivial⟩ sz (by simp [numConstrained, onlyX, gantryArm])
  rw [i, p] at this
  exact this

theorem exactLa_sized : exactLa.Sized where
  svd r n J b _ _ hn _ _ := by simp [exactLa, hn]
  pinv r n J h0 hr hn hc := by
    cases J with
    | nil => simp at hn; omega
    | cons c J =>
      constructor
      · simp [exactLa, hc c (by simp)]
      · intro col hm
        simp only [exactLa, List.mem_ofFn] at hm
        obtain ⟨x, rfl⟩ := hm
        simpa using hn

/-- the same with exact linear algebra -/
example (target : Iso ℝ) : SameButHeld gantryArm [1] [0, 2, 0] boltedArm
    (run (solveWithConstraints (swingSolver 10) gantryArm target (onlyX ["y"])) parked)
    (run (solveWithConstraints (swingSolver 10) boltedArm target (onlyX [])) bolted) :=
  C103_gantry _ rfl exactLa_sized target

/-- **C103** is false when as many joints remain as coordinates are constrained: the ignored slider "a" of the rail moves, so
that no robot in which it is held can end alike. -/
theorem C103_equal_refuted (brm : Chain) (r : Res (NodeImpl ℝ) (Except (KError ℝ) Unit)) :
    numConstrained (onlyX ["a"]) = arm2.dof - (onlyX ["a"]).ignoredJointNames.length ∧
      indicesOf (rail none none 0 0) arm2 ["a"] = [0] ∧
      ¬ SameButHeld arm2 [0] (arm2.movableNodes.map fun n => ((rail none none 0 0).get n).joint.position) brm
        (run (solveWithConstraints (railSolver 1) arm2 (atX 1) (onlyX ["a"])) (rail none none 0 0)) r := by
  refine ⟨rfl, by simp [indicesOf, arm2, rail, slider, NodeImpl.fresh, Joint.new, List.range_succ, List.filter], ?_⟩
  obtain ⟨h', e, -, p, -⟩ := C26_refuted
  rw [e]
  intro x
  cases r with
  | panic m g => exact x.elim
  | blocked => exact x.elim
  | diverged => exact x.elim
  | ok b g =>
    have := x.2.2 0 (by simp)
    have q : (h'.get 0).joint.position = 1 := by
      unfold posOf Joint.jointPosition at p
      split at p
      · cases p
      · simpa using p
    simp [arm2, rail, slider, NodeImpl.fresh, q] at this

end

end K
