import Verif.Props.OtherNodes
import Verif.Props.TriesEx
/-!
# C88: concrete cases
-/

namespace K
open Prog

noncomputable section

/-- three sliders, the third of which follows the second at double speed -/
def follower : KHeap ℝ :=
  { get := fun n =>
      if n = 0 then { NodeImpl.fresh (Joint.new "x" (.linear ⟨1, 0, 0⟩)) with children := [1] }
      else if n = 1 then { NodeImpl.fresh (Joint.new "y" (.linear ⟨0, 1, 0⟩)) with
        parent := some 0, children := [2], mimicChildren := [2] }
      else if n = 2 then { NodeImpl.fresh (Joint.new "z" (.linear ⟨0, 0, 1⟩)) with
        parent := some 1, mimicParent := some 1, mimic := some ⟨2, 0⟩ }
      else NodeImpl.fresh (Joint.new "c" .fixed)
    next := 3, dead := fun _ => false, held := fun _ => false }

private theorem split4 (n : Nat) : n = 0 ∨ n = 1 ∨ n = 2 ∨ (n ≠ 0 ∧ n ≠ 1 ∧ n ≠ 2) := by omega

theorem follower_forest : Forest follower := by
  have big : ∀ n, n ≠ 0 → n ≠ 1 → n ≠ 2 → (follower.get n).parent = none ∧ (follower.get n).children = [] := by
    intro n a b c; simp [follower, a, b, c, NodeImpl.fresh]
  have ch0 : (follower.get 0).children = [1] := by simp [follower]
  have ch1 : (follower.get 1).children = [2] := by simp [follower]
  have ch2 : (follower.get 2).children = [] := by simp [follower, NodeImpl.fresh]
  have p0 : (follower.get 0).parent = none := by simp [follower, NodeImpl.fresh]
  have p1 : (follower.get 1).parent = some 0 := by simp [follower]
  have p2 : (follower.get 2).parent = some 1 := by simp [follower]
  refine ⟨?_, ?_, ?_, ⟨id, ?_⟩⟩
  · intro p c
    rcases split4 p with rfl | rfl | rfl | ⟨a, b, d⟩ <;>
    rcases split4 c with rfl | rfl | rfl | ⟨a', b', d'⟩ <;>
    simp_all [Ne.symm]
  · intro p
    rcases split4 p with rfl | rfl | rfl | ⟨a, b, d⟩ <;> simp_all
  · intro p c
    have : follower.next = 3 := rfl
    rw [this]
    rcases split4 p with rfl | rfl | rfl | ⟨a, b, d⟩
    · rw [ch0]; simp only [List.mem_singleton]; rintro rfl; decide
    · rw [ch1]; simp only [List.mem_singleton]; rintro rfl; decide
    · rw [ch2]; simp
    · rw [(big p a b d).2]; simp
  · intro p c hp
    rcases split4 c with rfl | rfl | rfl | ⟨a, b, d⟩
    · rw [p0] at hp; cases hp
    · rw [p1] at hp; cases hp; decide
    · rw [p2] at hp; cases hp; decide
    · rw [(big c a b d).1] at hp; cases hp

private theorem three {n : NodeId} (hn : n ∈ gantryArm.nodes) : n = 0 ∨ n = 1 ∨ n = 2 := by simpa [gantryArm] using hn

theorem follower_ready : CloneReady follower gantryArm 0 where
  first := rfl
  root := by simp [follower, NodeImpl.fresh]
  nodup := by simp [gantryArm]
  node := fun n hn => by rcases three hn with rfl | rfl | rfl <;> decide
  parent := fun n hn => by
    rcases three hn with rfl | rfl | rfl
    · exact .inl rfl
    · exact .inr ⟨0, by simp [gantryArm], by simp [liveParent, follower]⟩
    · exact .inr ⟨1, by simp [gantryArm], by simp [liveParent, follower]⟩
  mimicHandle := fun n hn m hm => by
    rcases three hn with rfl | rfl | rfl <;> simp [follower, NodeImpl.fresh] at hm
    subst hm; decide
  mimic := fun n hn m hm => by
    rcases three hn with rfl | rfl | rfl <;> simp [liveMimic, follower, NodeImpl.fresh] at hm
    subst hm; simp [gantryArm, follower]

theorem follower_own : OwnRobot follower gantryArm where
  alive := fun _ _ => rfl
  children := fun n hn k hk => by
    rcases three hn with rfl | rfl | rfl <;> simp [follower, NodeImpl.fresh] at hk <;> subst hk <;> simp [gantryArm]
  mimicParent := fun n hn m hm => by
    rcases three hn with rfl | rfl | rfl <;> simp [follower, NodeImpl.fresh] at hm
    subst hm; simp [gantryArm]
  mimic := fun n hn e => by
    rcases three hn with rfl | rfl | rfl <;> simp [follower, NodeImpl.fresh] at e ⊢
  mimicChildren := fun n hn => by
    rcases three hn with rfl | rfl | rfl <;> simp [follower, NodeImpl.fresh, gantryArm]
  outside := fun n hn => by
    have : n ≠ 0 ∧ n ≠ 1 ∧ n ≠ 2 := by simpa [gantryArm] using hn
    simp [follower, NodeImpl.fresh, this.1, this.2.1, this.2.2]

theorem follower_path : ∀ pre a b post, gantryArm.nodes = pre ++ a :: b :: post → liveParent follower b = some a := by
  intro pre a b post e
  match pre, e with
  | [], e => cases e; simp [liveParent, follower]
  | [x], e => cases e; simp [liveParent, follower]
  | [x, y], e => simp [gantryArm] at e
  | x :: y :: z :: pre, e => simp [gantryArm] at e

theorem follower_wf : gantryArm.Wf follower := ⟨by simp [gantryArm, follower, Movable, NodeImpl.fresh, Joint.new], rfl⟩

/-- Three sliders with a mimic joint: after cloning, inverse kinematics with any solver, target and constraints gives
the same answer and the same joints for the copy as for the original. -/
theorem C88_follower : ∃ c' g, run (gantryArm.clone 9) follower = .ok c' g ∧
    ∀ (s : IkSolver ℝ) (t : Iso ℝ) (k : Constraints) a g1, run (solveWithConstraints s gantryArm t k) g = .ok a g1 →
      ∃ g2, run (solveWithConstraints s c' t k) g = .ok a g2 ∧
        c'.movableNodes.map (posOf g2) = gantryArm.movableNodes.map (posOf g1) := by
  obtain ⟨c', g, e, x⟩ := C88_solve follower (fun _ => rfl) follower_forest gantryArm follower_wf 0 follower_ready
    follower_own 9 (by decide) follower_path
  exact ⟨c', g, e, fun s t k a g1 y => ((x s t k).2 a g1 y).imp fun _ z => ⟨z.1, z.2.1⟩⟩

/-- The other objects: with the contents of nodes 0 and 2 of the three sliders exchanged, the chain `2, 1, 0` is the
robot, and the solver gives for it the answer it gave for the chain `0, 1, 2`. -/
example (t : V3 ℝ) (ht : t.norm = 1) : ∃ h',
    run (solveWithConstraints ((swingSolver 0).withTries 7) ⟨[2, 1, 0], [2, 1, 0], 3⟩ ⟨t, Quat.one⟩ onlyPosition)
      (gantry.rename (Equiv.swap 0 2)) = .ok (.ok ()) h' := by
  obtain ⟨-, h', e⟩ := C86_gantry t ht
  have := (C88_call (.solve ((swingSolver 0).withTries 7) gantryArm ⟨t, Quat.one⟩ onlyPosition) gantry
    (ρ := Equiv.swap 0 2) (fun n hn => by
      have : 3 ≤ n := hn
      exact Equiv.swap_apply_of_ne_of_ne (by omega) (by omega))).1 _ h' (e 7 (Nat.le_refl _))
  have ec : gantryArm.rename (Equiv.swap 0 2) = ⟨[2, 1, 0], [2, 1, 0], 3⟩ := rfl
  rw [Call.rename, ec] at this
  exact ⟨_, this⟩

/-- Not so for a branching robot: `joint_positions()` of the copy reads other values than that of the original. -/
theorem C88_branch : ∃ c' g, run (Chain.clone 9 ⟨[0, 2, 1, 3], [0, 2, 1, 3], 4⟩) exTreePos = .ok c' g ∧
    run (Chain.jointPositions ⟨[0, 2, 1, 3], [0, 2, 1, 3], 4⟩) g = .ok [0, 2, 1, 3] g ∧
    run c'.jointPositions g = .ok [0, 1, 3, 2] g := by
  obtain ⟨c', g, -, e, -, ep⟩ := C19_order_refuted
  obtain ⟨c2, g2, φ, e2, wc, ug, -, -, old, -⟩ := C19_clone exTreePos (fun _ => rfl) exTreePos_forest
    ⟨[0, 2, 1, 3], [0, 2, 1, 3], 4⟩ exTreePos_wf 0 exTreePos_ready 9 (by decide)
  rw [e] at e2
  cases e2
  have get : ∀ n < 4, g.get n = exTreePos.get n := fun n hn => (old n hn).1
  have pos : ∀ n < 4, (g.get n).joint.position = (n : ℝ) := fun n hn => by rw [get n hn]; rfl
  refine ⟨c', g, e, ?_, ?_⟩
  · rw [run_jointPositions g ug _ ⟨?_, rfl⟩]
    · simp [pos 0 (by omega), pos 1 (by omega), pos 2 (by omega), pos 3 (by omega)]
    · refine (List.filter_eq_self.2 fun n hn => ?_).symm
      have : n < 4 := by
        simp only [List.mem_cons, List.not_mem_nil, or_false] at hn
        omega
      have m : Movable exTreePos n := by
        have := exTreePos_wf.movable
        have hn' := hn
        simp only at this
        rw [this, List.mem_filter] at hn'
        simpa using hn'.2
      simp only [decide_eq_true_eq]
      unfold Movable at m ⊢
      rw [get n this]; exact m
  · rw [run_jointPositions g ug _ wc]
    have : c'.movableNodes.map (posOf g) = c'.movableNodes.map fun n => some (g.get n).joint.position :=
      List.map_congr_left fun n hn => by
        rw [wc.movable, List.mem_filter, decide_eq_true_eq] at hn
        exact jointPosition_of_movable _ hn.2
    rw [this] at ep
    have := congrArg (List.filterMap id) ep
    simp only [List.filterMap_map] at this
    congr 1
    simpa [Function.comp_def, List.filterMap_eq_map] using this

end
end K
