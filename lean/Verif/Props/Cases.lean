import Verif.Props.IkConverge
import Verif.Props.JacobianMimic
import Verif.Props.MimicShared
import Verif.Props.Clone
import Verif.Props.Serial
import Verif.Props.Fk
import Verif.Props.Builder
import Verif.Props.IkApi
import Verif.Props.Topology
import Verif.Props.Geom
import Verif.Props.Reach
import Verif.Props.NodeApi
import Verif.Props.Caches
/-! Further concrete cases: theorems of the other modules applied to robots that meet their hypotheses. -/

namespace K

/-! ## setting positions -/

/-- **C05** (failure): the master of `exShy` moves to 3, its first follower, limited to `[0, 1]`, refuses -2.5,
and the second follower is not asked. -/
example : ∃ e h', run (Node.setJointPosition 0 (3 : ℝ)) exShy = .ok (.error e) h' ∧
    (h'.get 0).joint.jointPosition = some 3 ∧ h'.get 2 = exShy.get 2 := by
  obtain ⟨u, ol, -, -, e, h', r, -, -⟩ := C62_needs_accept
  refine ⟨e, h', r, ?_⟩
  have c0 : (exShy.get 0).mimicChildren = [1, 2] := by simp [exShy, exMimic]
  rcases C05_failure exShy h' u ol.mimicWF 0 3 e r with ⟨x, -⟩ | ⟨pre, c, post, m, a, b, x, y, -, z, -⟩
  · simp [exShy, exMimic, NodeImpl.fresh, Joint.new, Joint.setJointPosition, Joint.isMovable] at x
  · refine ⟨y, z 2 (by simp) fun h2 => ?_⟩
    rw [c0] at a
    match pre, a with
    | [], _ => cases h2
    | [p], a =>
      have : p = 1 := by injection a with q; exact q.symm
      subst this; simp at h2
    | p :: q :: pre, a => have := congrArg List.length a; simp at this

/-- **C07** with mimic joints: the values given for the two followers are ignored. -/
example : ∃ h', run (Chain.setJointPositions ⟨[0, 1, 2], [0, 1, 2], 3⟩ [3, 8, 9]) exMimic = .ok (.ok ()) h' ∧
    posOf h' 0 = some 3 ∧ posOf h' 1 = some (3 * -1 + 1 / 2) ∧ posOf h' 2 = some (3 * 2 + 0) := by
  have w : Chain.Wf exMimic ⟨[0, 1, 2], [0, 1, 2], 3⟩ := by
    refine ⟨?_, rfl⟩
    simp [Movable, exMimic, NodeImpl.fresh, Joint.new]
  have e : run (Chain.setJointPositions ⟨[0, 1, 2], [0, 1, 2], 3⟩ [3, 8, 9]) exMimic =
      .ok (.ok ()) (setAll [(0, 3), (1, 8), (2, 9)] exMimic).2 := by
    rw [run_setJointPositions _ _ exMimic (fun _ => rfl) exMimic_oneLevel.mimicWF rfl]
    refine congrArg (fun r => Res.ok r _) ?_
    simp [setAll, setPos, exMimic, NodeImpl.fresh, Joint.setJointPosition, Joint.isMovable, Joint.new,
      mimicLoop, Heap.setJoint, Heap.get_modify]
  obtain ⟨-, a, -⟩ := C07_set_effect exMimic _ (fun _ => rfl) exMimic_oneLevel _ w (by simp) _ e
  obtain ⟨a0, a1⟩ := a 0 3 (by simp) (by simp [exMimic, NodeImpl.fresh])
  refine ⟨_, e, a0, ?_, ?_⟩
  · obtain ⟨m, b, c⟩ := a1 1 (by simp [exMimic])
    have : m = ⟨-1, 1 / 2⟩ := by simpa [exMimic] using b.symm
    subst this; exact c
  · obtain ⟨m, b, c⟩ := a1 2 (by simp [exMimic])
    have : m = ⟨2, 0⟩ := by simpa [exMimic] using b.symm
    subst this; exact c

/-! ## poses -/

/-- **C12** (cut chains): the chain of node 1 alone needs the pose of node 0, which is known in `exCut` and not in
`exTree`. -/
example : (∃ Xs h', run (Chain.updateTransforms ⟨[1], [1], 1⟩) exCut = .ok Xs h' ∧ Xs.length = 1) ∧
    ∃ h', run (Chain.updateTransforms ⟨[1, 3], [1, 3], 2⟩ : KProg ℝ _) exTree = .panic "cache must exist" h' := by
  constructor
  · obtain ⟨Xs, h', e, f, -⟩ := C12_cut_chain exCut (fun _ => rfl) ⟨[1], [1], 1⟩ (by
      intro pre n post e
      match pre, e with
      | [], e =>
        cases e
        intro p hp
        rw [exCut_hyps.2.2.2.1] at hp
        cases hp
        exact .inr ⟨by simp, by simp [exCut, NodeImpl.fresh, Joint.setWorldTransform]⟩
      | [x], e => simp at e
      | x :: y :: pre, e => simp at e)
    exact ⟨Xs, h', e, f.length_eq.symm⟩
  · exact C12_missing_cache_panics exTree (fun _ => rfl) ⟨[1, 3], [1, 3], 2⟩ [] [3] 1 0 rfl
      (by intro pre n post e; simp at e) (by simp [liveParent, exTree]) (by simp)
      (by simp [exTree, NodeImpl.fresh, Joint.new])

/-- **C13** (cut chains): in `exCut` the two results differ by the pose of node 0, a shift by 5. -/
example : ∃ X Xs h', run exCutChain.endTransform exCut = .ok X exCut ∧
    run exCutChain.updateTransforms exCut = .ok Xs h' ∧ Xs.getLast? = some (Iso.mul ⟨⟨5, 0, 0⟩, Quat.one⟩ X) := by
  obtain ⟨a, b, c, d, e⟩ := exCut_hyps
  exact C13_cut_chain exCut a exCutChain 1 0 [] rfl c (by simp [exCutChain]) d (by simp [exCutChain]) _
    (by simp [exCut, NodeImpl.fresh, Joint.setWorldTransform]) (by simp [Iso.IsRigid, Quat.one_isUnit]) e

/-- **C22** (cut chains) on the same chain. -/
example : ∃ jac h', run (jacobian exCutChain) exCut = .ok jac h' ∧ jac.length = 1 := by
  obtain ⟨a, b, c, d, e⟩ := exCut_hyps
  obtain ⟨jac, h', x, y, -⟩ := C22_cut_chain exCut a exCutChain b 1 0 [] rfl c (by simp [exCutChain]) d
    (by simp [exCutChain]) ⟨⟨5, 0, 0⟩, Quat.one⟩ (by simp [exCut, NodeImpl.fresh, Joint.setWorldTransform])
    (by simp [Iso.IsRigid, Quat.one_isUnit]) e
  exact ⟨jac, h', x, y⟩

/-! ## copies, checks, connections -/

/-- **C19** (panics): the branch below node 1 of `exTree` cannot be cloned. -/
example : ∃ msg g, run (Chain.clone 9 ⟨[1, 3], [1, 3], 2⟩) exTree = .panic msg g :=
  C19_panics exTree (fun _ => rfl) exTree_forest ⟨[1, 3], [1, 3], 2⟩ 1 rfl
    (by simp [exTree])
    (by intro n hn m hm
        have : n = 1 ∨ n = 3 := by simpa using hn
        rcases this with rfl | rfl <;> simp [exTree, NodeImpl.fresh] at hm)
    (.inl (by simp [exTree])) 9

/-- **C19** (paths): cloning the path 0, 1, 3 of `exTree`, whose node 0 has another child. -/
example : ∃ c' g, ∃ φ : NodeId → NodeId, run (Chain.clone 9 ⟨[0, 1, 3], [0, 1, 3], 3⟩) exTree = .ok c' g ∧
    c'.nodes = [φ 0, φ 1, φ 3] := by
  obtain ⟨c', g, φ, e, -, a, -⟩ := C19_path exTree (fun _ => rfl) exTree_forest ⟨[0, 1, 3], [0, 1, 3], 3⟩
    ⟨by simp [Movable, exTree, NodeImpl.fresh, Joint.new], rfl⟩ 0
    { first := rfl
      root := by simp [exTree, NodeImpl.fresh]
      nodup := by simp
      node := by simp [exTree]
      parent := by
        intro n hn
        have : n = 0 ∨ n = 1 ∨ n = 3 := by simpa using hn
        rcases this with rfl | rfl | rfl
        · exact .inl rfl
        · exact .inr ⟨0, by simp, by simp [liveParent, exTree]⟩
        · exact .inr ⟨1, by simp, by simp [liveParent, exTree]⟩
      mimicHandle := by
        intro n hn m hm
        have : n = 0 ∨ n = 1 ∨ n = 3 := by simpa using hn
        rcases this with rfl | rfl | rfl <;> simp [exTree, NodeImpl.fresh] at hm
      mimic := by
        intro n hn m hm
        have : n = 0 ∨ n = 1 ∨ n = 3 := by simpa using hn
        rcases this with rfl | rfl | rfl <;> simp [liveMimic, exTree, NodeImpl.fresh] at hm } 9
    (by simp [exTree])
    (by intro pre a b post e
        match pre, e with
        | [], e => cases e; simp [liveParent, exTree]
        | [x], e => cases e; simp [liveParent, exTree]
        | [x, y], e => simp at e
        | x :: y :: z :: pre, e => simp at e)
  exact ⟨c', g, φ, e, a⟩

/-- **C20**: two sliders in a row are serial, the tree is not. -/
example : run (Chain.tryNew arm2) (rail none none 0 0) = .ok (some arm2) (rail none none 0 0) ∧
    ∃ c : Chain, run (Chain.fromRoot 5 0) exTree = .ok c exTree ∧ run c.tryNew exTree = .ok none exTree := by
  constructor
  · exact (C20_try_new _ (rail_unlocked _ _ _ _) arm2 [0] 1 rfl).1 (by simp [rail])
  · obtain ⟨c, a, -, b⟩ := C20_from_root exTree (fun _ => rfl) exTree_forest 0 5 (by simp [exTree])
    exact ⟨c, a, b ⟨0, .refl, by simp [exTree]⟩⟩

/-- **C45**: connecting three new nodes. -/
example (j : Joint ℝ) : ∃ h', run (connect [0, 1, 2]) (exBare j) = .ok () h' ∧ (h'.get 1).parent = some 0 ∧
    (h'.get 2).parent = some 1 ∧ (h'.get 0).children = [1] := by
  obtain ⟨h', e, a, -⟩ := C45_connect [0, 1, 2] (exBare j) (fun _ => rfl) (by simp)
  refine ⟨h', e, (a [] 0 1 [2] rfl).1, (a [0] 1 2 [] rfl).1, ?_⟩
  rw [(a [] 0 1 [2] rfl).2]; simp [exBare, NodeImpl.fresh]

/-! ## inverse kinematics -/

/-- **C27**: solving with the first slider alone leaves the second as it is, whatever happens. -/
example (s : IkSolver ℝ) (target : Iso ℝ) (c : Constraints) (p q : ℝ) (r : Except (KError ℝ) Unit) (h' : KHeap ℝ)
    (e : run (solveWithConstraints s arm1 target c) (rail none none p q) = .ok r h') :
    h'.get 1 = (rail none none p q).get 1 := by
  have := C27_only_arm (s := s) (target := target) (c := c) (arm := arm1) (rail none none p q)
    (rail_sliders none none p q).wf1 (by
      intro n hn k hk
      have : n = 0 := by simpa [arm1] using hn
      subst this; simp [rail, NodeImpl.fresh] at hk)
  simp only [e] at this
  exact this.1 1 (by simp [arm1])

/-- **C28**: three names for two joints panic. -/
example (s : IkSolver ℝ) (target : Iso ℝ) (p q : ℝ) :
    run (solveWithConstraints s arm2 target (onlyX ["a", "b", "c"])) (rail none none p q) =
      .panic "attempt to subtract with overflow" (rail none none p q) :=
  C28_too_many _ (rail_unlocked _ _ _ _) (rail_sliders none none p q).wf2 (by decide)

/-- **C60**: with one joint and one constrained coordinate a nullspace function does nothing. -/
example (s : IkSolver ℝ) (f : List ℝ → Except String (List ℝ)) (target : Iso ℝ) (p q : ℝ) :
    run (solveWithConstraints (s.setNullspaceFunction f) arm1 target (onlyX [])) (rail none none p q) =
      run (solveWithConstraints s arm1 target (onlyX [])) (rail none none p q) :=
  (C60_nullspace_unused s f arm1 target (onlyX []) _ (rail_unlocked _ _ _ _)
    (rail_sliders none none p q).wf1 (by decide)).1

theorem rail_plain (p q : ℝ) (k : NodeId) : ((rail none none p q).get k).mimicParent = none ∧
    ((rail none none p q).get k).mimicChildren = [] := by
  by_cases a : k = 0
  · subst a; simp [rail, NodeImpl.fresh, slider]
  · by_cases b : k = 1
    · subst b; simp [rail, NodeImpl.fresh, slider]
    · simp [rail, NodeImpl.fresh, a, b]

theorem rail_restorable (p q : ℝ) : OneLevel (rail none none p q) ∧ Restorable (rail none none p q) arm2 :=
  ⟨fun m k hk => (by rw [(rail_plain p q m).2] at hk; cases hk),
    ⟨fun n hn _ r hr => (by rw [(rail_sliding p q).free n hn] at hr; cases hr),
      fun n _ _ k hk => (by rw [(rail_plain p q n).2] at hk; cases hk),
      fun n _ m hm => (by rw [(rail_plain p q n).1] at hm; cases hm)⟩⟩

/-- **C28**: an unknown name among known ones is reported. -/
example (s : IkSolver ℝ) (target : Iso ℝ) (p q : ℝ) :
    ∃ h', run (solveWithConstraints s arm2 target ⟨false, false, false, false, false, false, ["b", "z"]⟩)
      (rail none none p q) = .ok (.error (.invalidJointName "z")) h' ∧ SameBut (rail none none p q) h' ∧
      ∀ k, posOf h' k = posOf (rail none none p q) k :=
  C28_invalid_name (s := s) (target := target) _ (rail_unlocked _ _ _ _) (rail_restorable p q).1
    (rail_sliders none none p q).wf2 (by simp [arm2]) (rail_restorable p q).2 (by decide) (by decide)
    ["b"] [] "z" rfl
    (by intro b hb
        have : b = "b" := by simpa using hb
        subst this
        exact ⟨1, by simp [arm2], by simp [rail, slider, NodeImpl.fresh, Joint.new]⟩)
    (by intro n hn
        have : n = 0 ∨ n = 1 := by simpa [arm2] using hn
        rcases this with rfl | rfl <;> simp [rail, slider, NodeImpl.fresh, Joint.new])

/-- **C29** (no tries). -/
example (s : IkSolver ℝ) (target : Iso ℝ) (p q : ℝ) :
    ∃ m h', run (solveWithConstraints { s with numMaxTry := 0 } arm2 target (onlyX ["b"])) (rail none none p q) =
      .panic m h' :=
  C29_zero_panics _ (rail_unlocked _ _ _ _) (rail_restorable p q).1
    (rail_sliders none none p q).wf2 (by simp [arm2]) (rail_restorable p q).2 rfl (by decide) (by decide)
    (by intro b hb
        have : b = "b" := by simpa [onlyX] using hb
        subst this
        exact ⟨1, by simp [arm2], by simp [rail, slider, NodeImpl.fresh, Joint.new]⟩)

/-! ### three sliders, the middle one ignored -/

/-- three sliders in a row, "a", "b" and "c" -/
noncomputable def rail3 (p0 p1 p2 : ℝ) : KHeap ℝ :=
  { get := fun n =>
      if n = 0 then { NodeImpl.fresh (slider "a" none p0) with children := [1] }
      else if n = 1 then { NodeImpl.fresh (slider "b" none p1) with parent := some 0, children := [2] }
      else { NodeImpl.fresh (slider "c" none p2) with parent := some 1 }
    next := 3, dead := fun _ => false, held := fun _ => false }

def arm3 : Chain := ⟨[0, 1, 2], [0, 1, 2], 3⟩

theorem rail3_slides (p0 p1 p2 : ℝ) (n : NodeId) : ((rail3 p0 p1 p2).get n).joint.jointType = .linear ⟨1, 0, 0⟩ ∧
    ((rail3 p0 p1 p2).get n).joint.origin = Iso.one ∧ ((rail3 p0 p1 p2).get n).joint.limits = none := by
  simp only [rail3]
  split
  · simp [slider, NodeImpl.fresh, Joint.new]
  · split <;> simp [slider, NodeImpl.fresh, Joint.new]

theorem rail3_sliding (p0 p1 p2 : ℝ) : Sliding (rail3 p0 p1 p2) arm3 where
  unlocked := fun _ => rfl
  wf := ⟨by simp [arm3, Movable, rail3_slides], rfl⟩
  root := ⟨0, [1, 2], rfl, by simp [liveParent, rail3, NodeImpl.fresh]⟩
  serial := by
    intro pre a b post e
    match pre, e with
    | [], e => cases e; simp [liveParent, rail3]
    | [x], e => cases e; simp [liveParent, rail3]
    | [x, y], e => simp [arm3] at e
    | x :: y :: z :: pre, e => simp [arm3] at e
  nodup := by simp [arm3]
  rigid := by
    intro n _
    obtain ⟨x, y, -⟩ := rail3_slides p0 p1 p2 n
    unfold Joint.IsRigid
    rw [x, y]
    exact ⟨by simp [Iso.IsRigid, Iso.one, Quat.one_isUnit], by simp [V3.IsUnit]⟩
  slides := by
    intro n _ a
    rw [(rail3_slides p0 p1 p2 n).1]; simp
  free := fun n _ => (rail3_slides p0 p1 p2 n).2.2

theorem rail3_local (p0 p1 p2 : ℝ) (n : NodeId) : ((rail3 p0 p1 p2).get n).joint.localTransform =
    atX ((rail3 p0 p1 p2).get n).joint.position := by
  obtain ⟨x, y, -⟩ := rail3_slides p0 p1 p2 n
  simp [Joint.localTransform, Joint.jointTransform, x, y, Iso.one_mul', atX, V3.scale]

theorem rail3_jacobian (p0 p1 p2 : ℝ) : ∃ g, run (jacobian arm3) (rail3 p0 p1 p2) =
    .ok [[1, 0, 0, 0, 0, 0], [1, 0, 0, 0, 0, 0], [1, 0, 0, 0, 0, 0]] g := by
  have l := rail3_sliding p0 p1 p2
  obtain ⟨jac, h', W, e, hW, rfl⟩ := jacobian_columns _ l.unlocked arm3 l.wf 0 [1, 2] rfl l.serial
    (by simp [liveParent, rail3, NodeImpl.fresh])
  refine ⟨h', ?_⟩
  rw [e]
  have r0 : (W 0).rot = Quat.one := by
    rw [hW [] 0 [1, 2] rfl]
    simp [prodFrom, rail3_local, Iso.one_mul', atX]
  have r1 : (W 1).rot = Quat.one := by
    rw [hW [0] 1 [2] rfl]
    simp [prodFrom, rail3_local, atX, Iso.mul, Quat.mul_one', Iso.one]
  have r2 : (W 2).rot = Quat.one := by
    rw [hW [0, 1] 2 [] rfl]
    simp [prodFrom, rail3_local, atX, Iso.mul, Quat.mul_one', Iso.one]
  simp [arm3, colLin, colAng, twist, rail3_slides, r0, r1, r2, Quat.rotate_one, V3.zero]

theorem rail3_posed (x p0 p1 p2 : ℝ) : Posed (IkSolver.default halfSolver.la) arm3 (atX x) (onlyX ["b"])
    (rail3 p0 p1 p2) [[1, 0, 0, 0, 0, 0], [1, 0, 0, 0, 0, 0], [1, 0, 0, 0, 0, 0]] [1] (atX (p0 + p1 + p2)) where
  pose := by
    rw [run_endTransform _ _ (rail3_sliding p0 p1 p2).unlocked]
    have : endPose (rail3 p0 p1 p2) arm3.nodes = atX (p0 + p1 + p2) := by
      simp only [endPose, arm3, List.foldl_cons, List.foldl_nil, rail3_local]
      simp [rail3, slider, NodeImpl.fresh, atX, Iso.mul, Iso.one, Quat.mul_one', Quat.rotate_one, V3.add, V3.zero]
    rw [this]
  hasJac := rail3_jacobian ..
  names := by simp [onlyX]
  found := by
    intro a ha
    have : a = "b" := by simpa [onlyX] using ha
    subst this
    exact ⟨1, by simp [arm3], by simp [rail3, slider, NodeImpl.fresh, Joint.new]⟩
  sorted := by simp
  ignored := by
    intro i
    have : arm3.movableNodes.findIdx? (fun n => ((rail3 p0 p1 p2).get n).joint.name == "b") = some 1 := by
      simp [arm3, rail3, slider, NodeImpl.fresh, Joint.new, List.findIdx?_cons]
    simp only [onlyX, List.mem_singleton, exists_eq_left, this, Option.some.injEq]
    exact ⟨fun h => h.symm, fun h => h.symm⟩
  able := by
    have hr : reducedJac (defineOperationalSpace (onlyX ["b"])) [1]
        [[1, 0, 0, 0, 0, 0], [1, 0, 0, 0, 0, 0], [1, 0, 0, 0, 0, 0]] = [[1], [1]] := by
      simp [reducedJac, defineOperationalSpace, onlyX, selectFlags, dropIdx, List.zipIdx]
    refine ⟨?_, ?_, ?_⟩
    · rw [hr]; exact halfSolver_solves
    · intro e; simp [onlyX_count, arm3] at e
    · intro f e; cases e
  constrained := by decide
  enough := .inr (by decide)
  sol := ⟨[(x - (p0 + p1 + p2)) / 2, 0, (x - (p0 + p1 + p2)) / 2], rfl, by simp, fun i hi => by
      match i, hi with
      | 0, _ => simp [rowSum, calcPoseDiff, atX, V3.sub]
      | 1, hi => cases hi
      | 2, hi => cases hi
      | 3, hi => cases hi
      | 4, hi => cases hi
      | 5, hi => cases hi
      | n + 6, hi => simp [defineOperationalSpace, onlyX] at hi⟩

/-- **C26**: the solve succeeds, the ignored slider "b" stays at 5, and the others have moved. -/
example : ∃ h', run (solveWithConstraints (IkSolver.default halfSolver.la) arm3 (atX 6) (onlyX ["b"]))
      (rail3 0 5 0) = .ok (.ok ()) h' ∧ posOf h' 1 = some 5 ∧ (posOf h' 0 ≠ some 0 ∨ posOf h' 2 ≠ some 0) := by
  have l := rail3_sliding 0 5 0
  have p := rail3_posed 6 0 5 0
  have d : (posError (onlyX ["b"]) (atX 6) (atX (0 + 5 + 0))).norm = 1 := by
    simp [posError, masked, onlyX, atX, V3.norm, V3.sub, Scalar.sqrt]
    norm_num
  obtain ⟨h', e⟩ := (C70_default l p).2 (by rw [d]; norm_num)
  have pl : ProperLimits (rail3 0 5 0) := fun n r hr => by rw [(rail3_slides 0 5 0 n).2.2] at hr; cases hr
  have no : NoneOutside (rail3 0 5 0) arm3.movableNodes := fun n hn r hr => by
    rw [(rail3_slides 0 5 0 n).2.2] at hr; cases hr
  have b5 : posOf h' 1 = some 5 := by
    rw [C26_ignored _ h' l.unlocked l.wf l.nodup pl no (fun x => by simp) (by simp [onlyX]) (by decide) e "b"
      (by simp [onlyX]) 1 (by simp [arm3, rail3, slider, NodeImpl.fresh, Joint.new])]
    simp [posOf, rail3, slider, NodeImpl.fresh, Joint.new, Joint.jointPosition]
  refine ⟨h', e, b5, ?_⟩
  by_contra no'
  push Not at no'
  obtain ⟨⟨X, e1, near, -⟩, -⟩ := C24_success (s := IkSolver.default halfSolver.la) _ _ l.unlocked l.wf pl no e
  have sb := solve_sameBut l.unlocked l.wf e
  have at' : ∀ n x, posOf h' n = some x → (h'.get n).joint.localTransform = atX x := by
    intro n x hx
    obtain ⟨a, b, -⟩ := rail3_slides 0 5 0 n
    have j : (h'.get n).joint.position = x := by
      rw [posOf, Joint.jointPosition, sb.jointType, a] at hx; simpa using hx
    simp [Joint.localTransform, Joint.jointTransform, sb.jointType, sb.origin, a, b, j, Iso.one_mul', atX, V3.scale]
  rw [run_endTransform _ _ (sb.unlocked l.unlocked)] at e1
  cases e1
  have e5 : endPose h' arm3.nodes = atX (0 + 5 + 0) := by
    simp only [endPose, arm3, List.foldl_cons, List.foldl_nil, at' _ _ no'.1, at' _ _ b5, at' _ _ no'.2]
    simp [atX, Iso.mul, Iso.one, Quat.mul_one', Quat.rotate_one, V3.add, V3.zero]
  have e6 : (IkSolver.default halfSolver.la).allowableTargetDistance = 1 / 1000 := by
    simp [IkSolver.default, IkSolver.new, Scalar.lit]
  rw [e5, d, e6] at near
  norm_num at near

/-! ## mimic joints -/

/-- **C06**: the joint "b" of two plain sliders is made to mimic "a". -/
example (p q : ℝ) : ∃ h', run (Node.setMimicParent 1 0 ⟨2, 1⟩) (rail none none p q) = .ok () h' ∧ OneLevel h' ∧
    1 ∈ (h'.get 0).mimicChildren := by
  have pl := rail_plain p q
  obtain ⟨h', e, -⟩ := C63_set_mimic_parent (rail none none p q) (rail_unlocked _ _ _ _) 1 0 ⟨2, 1⟩
  obtain ⟨o, a, -⟩ := C06_set_mimic_parent (rail none none p q) h' (rail_unlocked _ _ _ _)
    (rail_restorable p q).1 1 0 ⟨2, 1⟩ (by simp) (pl 0).1 (pl 1).1 (pl 1).2 e
  exact ⟨h', e, o, a⟩

/-- **C06**: "a" of `railTwice` is set to 4, then the chain to (7, 0): the relation still holds. -/
example : ∃ h1 h2, run (Node.setJointPosition 0 4) railTwice = .ok (.ok ()) h1 ∧
    run (arm2.setJointPositions [7, 0]) h1 = .ok (.ok ()) h2 ∧ MimicRelation h2 := by
  have o := railTwice_mimic.1
  have e1 : run (Node.setJointPosition 0 4) railTwice = .ok (.ok ()) (setPos 0 4 railTwice).2 := by
    rw [run_setJointPosition 0 4 railTwice (fun _ => rfl) o.mimicWF]
    refine congrArg (fun r => Res.ok r _) ?_
    simp [setPos, railTwice, slider, NodeImpl.fresh, Joint.setJointPosition, Joint.isMovable, Joint.new,
      mimicLoop, Heap.setJoint, Heap.get_modify]
  have sb := (C05_children_follow railTwice _ (fun _ => rfl) o.mimicWF 0 4 rfl e1).2.2.2
  have e2 : run (arm2.setJointPositions [7, 0]) (setPos 0 4 railTwice).2 =
      .ok (.ok ()) (setAll [(0, 7), (1, 0)] (setPos 0 4 railTwice).2).2 := by
    rw [run_setJointPositions _ _ _ (sb.unlocked fun _ => rfl) (sb.oneLevel o).mimicWF rfl]
    refine congrArg (fun r => Res.ok r _) ?_
    simp [arm2, setAll, setPos, railTwice, slider, NodeImpl.fresh, Joint.setJointPosition, Joint.isMovable,
      Joint.new, mimicLoop, Heap.setJoint, Heap.get_modify]
  exact ⟨_, _, e1, e2, C06_relation_preserved railTwice _ (fun _ => rfl) o railTwice_mimic.2
    (.chain (.node (.start _) 0 4 e1) arm2 [7, 0] e2)⟩

/-- **C67** (one master): where "a" of `railTwice` takes the end, "b" following twice as fast. -/
example : ∃ jac h', run (jacobian arm2) railTwice = .ok jac h' ∧ ∃ r : NodeId → ℝ, r 0 = 1 ∧ r 1 = 2 := by
  obtain ⟨s, root, ar⟩ := railTwice_chain
  obtain ⟨jac, h', r, E, e, a, b, -⟩ := C67_master railTwice (fun _ => rfl) railTwice_mimic.1 railTwice_mimic.2
    arm2 railTwice_sliders.wf2 0 [1] rfl s root ar 0 (by simp [railTwice, NodeImpl.fresh]) 0 (by
      rw [run_Node_jointPosition _ _ rfl]; simp [railTwice, slider, NodeImpl.fresh, Joint.new, Joint.jointPosition])
  exact ⟨jac, h', e, r, a, b 1 ⟨2, 0⟩ (by simp [railTwice]) (by simp [railTwice])⟩

/-! ## what is not touched -/

/-- **C15**: a client that moves the base of `exCut` and reads positions; node 1 keeps what it had or loses it, here
the pose of node 0 is dropped. -/
example (t : Iso ℝ) (r : List ℝ) (h' : KHeap ℝ)
    (e : run (Client.call (.setOrigin 0 t) fun _ => .call (.jointPositions exCutChain) .done).prog exCut = .ok r h') :
    cached h' 0 = some ⟨⟨5, 0, 0⟩, Quat.one⟩ ∨ cached h' 0 = none := by
  have := C15_only_updates_fill (Client.call (.setOrigin 0 t) fun _ => .call (.jointPositions exCutChain) .done)
    ⟨trivial, fun _ => ⟨trivial, fun _ => trivial⟩⟩ exCut h' r e 0 (by simp [exCut])
  simpa [cached, exCut, NodeImpl.fresh, Joint.setWorldTransform] using this

/-- **C18**: threads that set node 3 of the tree and solve with it leave nodes 0, 1 and 2 alone. -/
example (s : IkSolver ℝ) (target : Iso ℝ) (c : Constraints) (d : Config (NodeImpl ℝ) Unit)
    (st : DSteps ⟨exTree, [Client.prog (.call (.setJointPosition 3 1) fun _ => .done ()),
      Client.prog (.call (.solve s ⟨[3], [3], 1⟩ target c) fun _ => .done ())]⟩ d) :
    d.heap.get 1 = exTree.get 1 := by
  refine C18_frame exTree (· < 3) (fun m hm => Nat.lt_succ_of_lt hm) ?_
    [.call (.setJointPosition 3 1) fun _ => .done (), .call (.solve s ⟨[3], [3], 1⟩ target c) fun _ => .done ()]
    ?_ d st 1 (by decide)
  · intro m _ k hk
    simp only [exTree] at hk
    split at hk <;> (try split at hk) <;> (try split at hk) <;> (try split at hk) <;> simp [NodeImpl.fresh] at hk
  · intro cl hcl
    simp only [List.mem_cons, List.not_mem_nil, or_false] at hcl
    rcases hcl with rfl | rfl
    · exact ⟨by simp [Call.Avoids], fun _ => trivial⟩
    · exact ⟨by simp [Call.Avoids], fun _ => trivial⟩

end K
