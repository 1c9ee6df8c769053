import Verif.Props.Siblings
/-!
# C100: a torso with two arms
-/

namespace K
open Prog

/-- `torso`, `left` and `right`, not connected yet -/
noncomputable def armsLoose : KHeap ℝ :=
  { get := fun n => NodeImpl.fresh (Joint.new (match n with | 0 => "torso" | 1 => "left" | _ => "right")
      (.rotational ⟨0, 0, 1⟩))
    next := 3, dead := fun _ => false, held := fun _ => false }

/-- the left arm first -/
noncomputable def leftFirst : KHeap ℝ :=
  (((armsLoose.modify 1 fun s => { s with parent := some 0 }).modify 0
    fun s => { s with children := s.children ++ [1] }).modify 2 fun s => { s with parent := some 0 }).modify 0
    fun s => { s with children := s.children ++ [2] }

/-- the right arm first -/
noncomputable def rightFirst : KHeap ℝ :=
  (((armsLoose.modify 2 fun s => { s with parent := some 0 }).modify 0
    fun s => { s with children := s.children ++ [2] }).modify 1 fun s => { s with parent := some 0 }).modify 0
    fun s => { s with children := s.children ++ [1] }

theorem run_leftFirst : run (attachAll [(1, 0), (2, 0)]) armsLoose = .ok () leftFirst := by
  simp only [attachAll, forEach, run_bind, run_Node_setParent _ _ _ (show armsLoose.Unlocked from fun _ => rfl), Res.bind_ok]
  rw [run_Node_setParent _ _ _ (fun _ => rfl)]; rfl
theorem run_rightFirst : run (attachAll [(2, 0), (1, 0)]) armsLoose = .ok () rightFirst := by
  simp only [attachAll, forEach, run_bind, run_Node_setParent _ _ _ (show armsLoose.Unlocked from fun _ => rfl), Res.bind_ok]
  rw [run_Node_setParent _ _ _ (fun _ => rfl)]; rfl

/-- **C100**, concrete: both orders build the same robot. -/
theorem C100_two_arms : SameTree leftFirst rightFirst := by
  obtain ⟨g, g', e, e', s, -, -⟩ := C100_build (es := [(1, 0), (2, 0)]) (es' := [(2, 0), (1, 0)]) (.swap _ _ _)
    (by decide) armsLoose fun _ => rfl
  rw [run_leftFirst] at e; cases e
  rw [run_rightFirst] at e'; cases e'
  exact s

theorem leftFirst_children (n : NodeId) : (leftFirst.get n).children = if n = 0 then [1, 2] else [] := by
  match n with
  | 0 => rfl
  | 1 => rfl
  | 2 => rfl
  | _ + 3 => rfl
theorem leftFirst_parent (n : NodeId) : (leftFirst.get n).parent = if n = 1 ∨ n = 2 then some 0 else none := by
  match n with
  | 0 => rfl
  | 1 => rfl
  | 2 => rfl
  | _ + 3 => rfl

theorem leftFirst_forest : Forest leftFirst where
  agree p c := by
    rw [leftFirst_children, leftFirst_parent]
    split <;> split <;> simp_all <;> omega
  once p := by rw [leftFirst_children]; split <;> decide
  bound p c hc := by
    show c < 3 ∧ p < 3
    rw [leftFirst_children] at hc
    split at hc
    · simp at hc; omega
    · cases hc
  acyclic := ⟨id, fun p c e => by
    rw [leftFirst_parent] at e
    split at e
    · cases e; rename_i x; simp only [id]; omega
    · cases e⟩

example : ∃ (c c' : Chain) (Xs Xs' : List (Iso ℝ)) (g g' : KHeap ℝ),
    run (Chain.fromRoot 4 0) leftFirst = .ok c leftFirst ∧ run (Chain.fromRoot 4 0) rightFirst = .ok c' rightFirst ∧
      run c.updateTransforms leftFirst = .ok Xs g ∧ run c'.updateTransforms rightFirst = .ok Xs' g' ∧
      (c.nodes.zip Xs).Perm (c'.nodes.zip Xs') := by
  obtain ⟨c, c', Xs, Xs', g, g', a, b⟩ := C100_poses C100_two_arms (fun _ => rfl) leftFirst_forest 0 rfl
  exact ⟨c, c', Xs, Xs', g, g', (a 4 (Nat.le_refl 4)).1, (a 4 (Nat.le_refl 4)).2, b⟩

theorem arms_listed {h : KHeap ℝ} (u : h.Unlocked) {a b : NodeId} (c0 : (h.get 0).children = [a, b])
    (ca : (h.get a).children = []) (cb : (h.get b).children = []) (m0 : (h.get 0).joint.isMovable = true)
    (ma : (h.get a).joint.isMovable = true) (mb : (h.get b).joint.isMovable = true) :
    run (Chain.fromRoot 4 0) h = .ok ⟨[0, b, a], [0, b, a], 3⟩ h := by
  simp [Chain.fromRoot, Chain.fromNodes, descendants, run_bind, run_Node_children _ _ (u _), c0, ca, cb, filterList,
    run_Node_joint _ _ (u _), m0, ma, mb]

theorem noMimic {h : KHeap ℝ} (e : ∀ n, (h.get n).mimicChildren = []) : MimicWF h := by
  intro m c hc
  rw [e m] at hc
  cases hc

/-- **C100**, what does depend on the order: positions are given by index, so the same call moves the other arm. -/
theorem C100_other_arm :
    run (Chain.fromRoot 4 0) leftFirst = .ok ⟨[0, 2, 1], [0, 2, 1], 3⟩ leftFirst ∧
    run (Chain.fromRoot 4 0) rightFirst = .ok ⟨[0, 1, 2], [0, 1, 2], 3⟩ rightFirst ∧
    (∃ g, run (Chain.setJointPositions ⟨[0, 2, 1], [0, 2, 1], 3⟩ [0, 0, 1]) leftFirst = .ok (.ok ()) g ∧
      posOf g 1 = some 1 ∧ posOf g 2 = some 0) ∧
    ∃ g, run (Chain.setJointPositions ⟨[0, 1, 2], [0, 1, 2], 3⟩ [0, 0, 1]) rightFirst = .ok (.ok ()) g ∧
      posOf g 1 = some 0 ∧ posOf g 2 = some 1 := by
  refine ⟨arms_listed (fun _ => rfl) rfl rfl rfl rfl rfl rfl, arms_listed (fun _ => rfl) rfl rfl rfl rfl rfl rfl,
    ⟨_, run_setJointPositions _ _ _ (fun _ => rfl) (noMimic ?_) rfl, rfl, rfl⟩,
    ⟨_, run_setJointPositions _ _ _ (fun _ => rfl) (noMimic ?_) rfl, rfl, rfl⟩⟩
  · intro n
    match n with
    | 0 => rfl
    | 1 => rfl
    | 2 => rfl
    | _ + 3 => rfl
  · intro n
    match n with
    | 0 => rfl
    | 1 => rfl
    | 2 => rfl
    | _ + 3 => rfl

/-- **C100**, a node that gets two parents: the last `set_parent` counts, so there the order does matter. -/
theorem C100_two_parents : ∃ g g', run (attachAll [(2, 0), (2, 1)]) armsLoose = .ok () g ∧
    run (attachAll [(2, 1), (2, 0)]) armsLoose = .ok () g' ∧ run (Node.parent 2) g = .ok (some 1) g ∧
    run (Node.parent 2) g' = .ok (some 0) g' ∧ ¬ SameTree g g' := by
  refine ⟨_, _, rfl, rfl, ?_, ?_, fun s => ?_⟩
  · rw [run_Node_parent _ _ rfl]; rfl
  · rw [run_Node_parent _ _ rfl]; rfl
  · have := s.parent 2
    injection this with this
    cases this

end K
