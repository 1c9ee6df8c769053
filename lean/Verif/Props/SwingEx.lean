import Verif.Props.Swing
/-!
# C99: a concrete case
-/

namespace K
open Prog

noncomputable section

theorem exCom_joint (n : NodeId) : (exCom.get n).joint = Joint.new "j" (.rotational ⟨0, 1, 0⟩) := by
  have h1 : (exCom.get n).joint = (exTree.get n).joint := by
    simp only [exCom, Heap.get_modify]; split <;> [split; split] <;> rfl
  rw [h1]
  simp only [exTree]
  split
  · rfl
  · split
    · rfl
    · split
      · rfl
      · split <;> rfl

theorem exCom_parentsAhead : ParentsAhead exCom exTreeChain.nodes :=
  fun pre n post e => by simp only [exCom_parent]; exact exTree_parentsAhead pre n post e

theorem exCom_rigid (ns : List NodeId) : AllRigid exCom ns := by
  intro n _
  rw [exCom_joint]
  refine ⟨Iso.one_isRigid, ?_⟩
  show (⟨0, 1, 0⟩ : V3 ℝ).IsUnit
  simp [V3.IsUnit]

theorem exCom_hangs (n : NodeId) (hn : n ∈ [0, 2, 1, 3]) : Hangs exCom 1 n ↔ n = 1 ∨ n = 3 := by
  have p0 : liveParent exCom 0 = none := by rw [exCom_parent]; simp [liveParent, exTree, NodeImpl.fresh]
  have p1 : liveParent exCom 1 = some 0 := by rw [exCom_parent]; simp [liveParent, exTree]
  have p2 : liveParent exCom 2 = some 0 := by rw [exCom_parent]; simp [liveParent, exTree]
  have p3 : liveParent exCom 3 = some 1 := by rw [exCom_parent]; simp [liveParent, exTree]
  have n0 : ¬ Hangs exCom 1 0 := by
    intro a
    cases a with
    | step _ e => rw [p0] at e; cases e
  simp only [List.mem_cons, List.not_mem_nil, or_false] at hn
  rcases hn with rfl | rfl | rfl | rfl
  · simpa using n0
  · simp only [show ¬ ((2 : Nat) = 1 ∨ (2 : Nat) = 3) by decide, iff_false]
    intro a
    cases a with
    | step b e => rw [p2] at e; cases e; exact n0 b
  · simpa using Hangs.refl
  · simpa using Hangs.step .refl p3

theorem exCom_hang : open Classical in [1, 3].Perm (exTreeChain.nodes.filter (fun n => Hangs exCom 1 n)) := by
  classical
  have : exTreeChain.nodes.filter (fun n => Hangs exCom 1 n) = exTreeChain.nodes.filter (fun n => n = 1 ∨ n = 3) := by
    apply List.filter_congr
    intro n hn
    simp only [decide_eq_decide]
    exact exCom_hangs n hn
  rw [this]
  decide

theorem exCom_ord (pre : List NodeId) (n : NodeId) (post : List NodeId) (e : [1, 3] = pre ++ n :: post) (p : NodeId)
    (hp : liveParent exCom n = some p) : p ∈ pre ∨ p ∉ [1, 3] := by
  rw [exCom_parent] at hp
  match pre, e with
  | [], e => cases e; simp [liveParent, exTree] at hp; subst hp; simp
  | [x], e => cases e; simp [liveParent, exTree] at hp; subst hp; simp
  | x :: y :: t, e => simp at e

theorem exCom_mass : totalMass exCom [0, 2, 1, 3] = 4 ∧ totalMass exCom [1, 3] = 3 := by
  constructor <;> simp [totalMass, massOf, exCom, Heap.get_modify, exTree, NodeImpl.fresh]
  norm_num

theorem exCom_part {v : V3 ℝ} {g : KHeap ℝ} (e : run (centerOfMass exTreeChain) exCom = .ok v g) :
    ∃ g2, run (centerOfMass ⟨[1, 3], [1, 3], 2⟩) g = .ok ⟨0, 0, 4⟩ g2 := by
  obtain ⟨w, g2, es, hw⟩ := run_centerOfMass_part exCom g (fun _ => rfl) exTreeChain ⟨[1, 3], [1, 3], 2⟩
    exCom_parentsAhead v e (by simp [exTreeChain]) exCom_ord
  have p : ∀ n, poseOf exCom n = Iso.one := by
    intro n
    unfold poseOf
    split
    · rename_i e; exact exCom_world e.choose_spec
    · rfl
  simp only [exCom_mass.2, List.map_cons, List.map_nil, p] at hw
  refine ⟨g2, ?_⟩
  rw [es, hw]
  congr 1
  have o : (Iso.one : Iso ℝ).trans = ⟨0, 0, 0⟩ := rfl
  simp [totalMoment, momentOf, exCom, Heap.get_modify, exTree, NodeImpl.fresh, Iso.apply_one,
    V3.scale, V3.add, V3.zero, Link.default, Inertial.new, V3.unscale]

/-- **C99**, a case: in the tree of the example of C23 (masses 1 and 3, the second one 4 above the joint of node 1) an
accepted `set_joint_position(π/2)` of the joint of node 1, about the axis y, takes the center of mass from (0, 0, 3) to
(3, 0, 0); and it started to go there with the derivative (3, 0, 0) by the position. -/
theorem C99_topple :
    ∃ h' g0 g2 g', run (Node.setJointPosition 1 (Real.pi / 2)) exCom = .ok (.ok ()) h' ∧
      run (centerOfMass exTreeChain) exCom = .ok ⟨0, 0, 3⟩ g0 ∧
      run (centerOfMass ⟨[1, 3], [1, 3], 2⟩) g0 = .ok ⟨0, 0, 4⟩ g2 ∧
      run (centerOfMass exTreeChain) h' = .ok ⟨3, 0, 0⟩ g' ∧
      ∃ com : ℝ → V3 ℝ, (∀ x, ∃ g', run (do Node.setJointPositionUnchecked 1 x; centerOfMass exTreeChain) exCom =
          .ok (com x) g') ∧ V3.HasDeriv com ⟨3, 0, 0⟩ 0 := by
  have u : exCom.Unlocked := fun _ => rfl
  have mc : ∀ n, (exCom.get n).mimicChildren = [] ∧ (exCom.get n).mimicParent = none := by
    intro n
    have : (exCom.get n).mimicChildren = (exTree.get n).mimicChildren ∧
        (exCom.get n).mimicParent = (exTree.get n).mimicParent := by
      simp only [exCom, Heap.get_modify]; split <;> [split; split] <;> exact ⟨rfl, rfl⟩
    rw [this.1, this.2]
    simp only [exTree]
    split
    · exact ⟨rfl, rfl⟩
    · split
      · exact ⟨rfl, rfl⟩
      · split
        · exact ⟨rfl, rfl⟩
        · split <;> exact ⟨rfl, rfl⟩
  have wf : MimicWF exCom := fun m c hc => by rw [(mc m).1] at hc; cases hc
  have pos : posOf exCom 1 = some 0 := by unfold posOf; rw [exCom_joint]; rfl
  have jt : (exCom.get 1).joint.jointType = .rotational ⟨0, 1, 0⟩ := by rw [exCom_joint]; rfl
  have r : run (Node.setJointPosition 1 (Real.pi / 2)) exCom = .ok (.ok ()) (exCom.setJoint 1 (Real.pi / 2)) := by
    rw [run_setJointPosition 1 _ exCom u wf]
    unfold setPos
    simp only [(mc 1).1, (mc 1).2, Option.isSome_none, Bool.false_eq_true, if_false]
    have : ((exCom.get 1).joint.setJointPosition (Real.pi / 2)).2 = .ok () := by rw [exCom_joint]; rfl
    rw [this]; rfl
  have m := C99_set exCom _ u wf 1 0 (Real.pi / 2) pos (mc 1).2 (mc 1).1 r
  have mass : totalMass exCom exTreeChain.nodes ≠ 0 := by
    show totalMass exCom [0, 2, 1, 3] ≠ 0; rw [exCom_mass.1]; norm_num
  have part : totalMass exCom (Chain.mk [1, 3] [1, 3] 2).nodes ≠ 0 := by
    show totalMass exCom [1, 3] ≠ 0; rw [exCom_mass.2]; norm_num
  have share : totalMass exCom (Chain.mk [1, 3] [1, 3] 2).nodes / totalMass exCom exTreeChain.nodes = 3 / 4 := by
    show totalMass exCom [1, 3] / totalMass exCom [0, 2, 1, 3] = _
    rw [exCom_mass.1, exCom_mass.2]
  obtain ⟨g0, e0⟩ := exCom_com
  obtain ⟨g2, e2⟩ := exCom_part e0
  obtain ⟨K, v, g, w, g2', v', g', wk, e, es, e', rv⟩ := C99_center_of_mass exCom _ u exTreeChain ⟨[1, 3], [1, 3], 2⟩
    exCom_parentsAhead (exCom_rigid _) 1 (by simp [exTreeChain]) 0 (Real.pi / 2) m exCom_hang exCom_ord mass part
  rw [e0] at e; cases e
  rw [e2] at es; cases es
  have hK := exCom_world wk
  subst hK
  have fin : v' = ⟨3, 0, 0⟩ := by
    rw [rv, share, jt]
    simp only [jointMotion, (C99_turn _ _ (show ((Iso.one : Iso ℝ).rot.rotate (⟨0, 1, 0⟩ : V3 ℝ)).IsUnit by
      rw [show (Iso.one : Iso ℝ).rot = Quat.one from rfl, Quat.rotate_one]; simp [V3.IsUnit]) _).1]
    rw [show (Iso.one : Iso ℝ).rot = Quat.one from rfl, Quat.rotate_one, show (Iso.one : Iso ℝ).trans = ⟨0, 0, 0⟩ from rfl]
    ext <;> simp [K.turnAbout, V3.add, V3.sub, V3.scale, V3.cross, V3.dot]
    all_goals norm_num
  subst fin
  refine ⟨_, g0, g2, g', r, e0, e2, e', ?_⟩
  let at_ : ℝ → KHeap ℝ := fun x => exCom.modify 1 fun s => { s with joint := s.joint.setJointPositionUnchecked x }
  have ru : ∀ x, run (Node.setJointPositionUnchecked 1 x) exCom = .ok () (at_ x) := fun x =>
    run_Node_setJointPositionUnchecked 1 x exCom u
  obtain ⟨K, v, g, w, g2', com, wk, e, es, ec, rot, -⟩ := C99_center_of_mass_rate exCom u exTreeChain ⟨[1, 3], [1, 3], 2⟩
    exCom_parentsAhead (exCom_rigid _) 1 (by simp [exTreeChain]) 0 exCom_hang exCom_ord mass part at_
    (fun x => C99_unchecked exCom _ u 1 0 x pos (ru x))
  rw [e0] at e; cases e
  rw [e2] at es; cases es
  have hK := exCom_world wk
  subst hK
  have d := rot _ jt
  rw [share, show (Iso.one : Iso ℝ).rot = Quat.one from rfl, Quat.rotate_one,
    show (Iso.one : Iso ℝ).trans = ⟨0, 0, 0⟩ from rfl] at d
  refine ⟨com, fun x => ?_, ?_⟩
  · obtain ⟨g', e'⟩ := ec x
    exact ⟨g', by simp only [run_bind, ru, Res.bind_ok, e']⟩
  · have z : ((V3.cross (⟨0, 1, 0⟩ : V3 ℝ) (V3.sub ⟨0, 0, 4⟩ ⟨0, 0, 0⟩)).scale (3 / 4)) = ⟨3, 0, 0⟩ := by
      ext <;> simp [V3.cross, V3.sub, V3.scale]
      norm_num
    rw [z] at d; exact d

/-- **C99**, a case of the poses: after the clamping setter put the joint of node 1 of the same tree to `x`, the chain
answers the poses of nodes 0 and 2 as before, those of nodes 1 and 3 turned by `x` about the axis y; the chain of node 0
alone answers its pose as before. -/
theorem C99_branch (x : ℝ) :
    ∃ h' Ys g', run (Node.setJointPositionClamped 1 x) exCom = .ok () h' ∧
      run exTreeChain.updateTransforms h' = .ok Ys g' ∧
      Ys = [Iso.one, Iso.one, ⟨V3.zero, Quat.fromAxisAngle ⟨0, 1, 0⟩ x⟩, ⟨V3.zero, Quat.fromAxisAngle ⟨0, 1, 0⟩ x⟩] ∧
      ∃ g, run (Chain.updateTransforms ⟨[0], [0], 1⟩) h' = .ok [Iso.one] g := by
  have u : exCom.Unlocked := fun _ => rfl
  have pos : posOf exCom 1 = some 0 := by unfold posOf; rw [exCom_joint]; rfl
  have jt : (exCom.get 1).joint.jointType = .rotational ⟨0, 1, 0⟩ := by rw [exCom_joint]; rfl
  have r := run_Node_setJointPositionClamped 1 x exCom u
  obtain ⟨y, py, m⟩ := C99_clamped exCom _ u 1 0 x pos r
  have yx : y = x := by
    simp only [posOf, Heap.get_modify_self, exCom_joint] at py
    have : some x = some y := py
    injection this with this
    exact this.symm
  subst yx
  obtain ⟨Xs, g, Ys, g', e, e', l, l', all⟩ := C99_transforms exCom _ u exTreeChain exCom_parentsAhead (exCom_rigid _) 1
    (by simp [exTreeChain]) 0 y m
  obtain ⟨Xs', g1, e1, w, -⟩ := C12_update_transforms exCom u exTreeChain exCom_parentsAhead
  rw [e] at e1; cases e1
  have hXs : Xs = [Iso.one, Iso.one, Iso.one, Iso.one] := by
    refine List.eq_replicate_iff.2 ⟨l, fun X hX => ?_⟩
    obtain ⟨i, hi⟩ := List.getElem?_of_mem hX
    have hl : i < exTreeChain.nodes.length := by rw [← l]; exact (List.getElem?_eq_some_iff.1 hi).1
    exact exCom_world (forall₂_getElem? w (List.getElem?_eq_getElem hl) hi)
  subst hXs
  have S : jointMotion Iso.one (exCom.get 1).joint.jointType (y - 0) = ⟨V3.zero, Quat.fromAxisAngle ⟨0, 1, 0⟩ y⟩ := by
    rw [jt]
    simp only [jointMotion, Iso.turnAbout, sub_zero]
    rw [show (Iso.one : Iso ℝ).rot = Quat.one from rfl, Quat.rotate_one, show (Iso.one : Iso ℝ).trans = V3.zero from rfl,
      Quat.rotate_zero]
    refine Iso.ext ?_ rfl
    ext <;> simp [V3.sub, V3.zero]
  have at_ : ∀ (j : Nat) (n : NodeId), exTreeChain.nodes[j]? = some n → [Iso.one, Iso.one, Iso.one, Iso.one][j]? = some (Iso.one : Iso ℝ) →
      (Hangs exCom 1 n → Ys[j]? = some ⟨V3.zero, Quat.fromAxisAngle ⟨0, 1, 0⟩ y⟩) ∧ (¬ Hangs exCom 1 n → Ys[j]? = some Iso.one) := by
    intro j n jn jX
    have := all 2 j n Iso.one Iso.one rfl rfl jn jX
    rw [S, Iso.mul_one'] at this
    exact this
  refine ⟨_, Ys, g', r, e', ?_, ?_⟩
  · have a0 := (at_ 0 0 rfl rfl).2 (by rw [exCom_hangs 0 (by simp)]; simp)
    have a1 := (at_ 1 2 rfl rfl).2 (by rw [exCom_hangs 2 (by simp)]; simp)
    have a2 := (at_ 2 1 rfl rfl).1 (by rw [exCom_hangs 1 (by simp)]; simp)
    have a3 := (at_ 3 3 rfl rfl).1 (by rw [exCom_hangs 3 (by simp)]; simp)
    have l4 : Ys.length = 4 := l'
    match Ys, l4 with
    | [a, b, c, d], _ => simp at a0 a1 a2 a3; rw [a0, a1, a2, a3]
  · have pa0 : ParentsAhead exCom [0] := by
      intro pre n post e
      match pre, e with
      | [], e => cases e; left; rw [exCom_parent]; simp [liveParent, exTree, NodeImpl.fresh]
      | x :: t, e => simp at e
    obtain ⟨Zs, g2, g3, e2, e3⟩ := C99_elsewhere exCom _ u ⟨[0], [0], 1⟩ pa0 1 (by simp) 0 y m
    obtain ⟨Zs', g4, e4, w4, -⟩ := C12_update_transforms exCom u ⟨[0], [0], 1⟩ pa0
    rw [e2] at e4; cases e4
    cases w4 with
    | cons a t =>
      cases t
      rw [exCom_world a] at e3
      exact ⟨g3, e3⟩

end

end K
