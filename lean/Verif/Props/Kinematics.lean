import Verif.Spec.Kinematics
import Verif.Lemmas.ArmCoord
import Verif.Props.EndVelocity
import Verif.Props.Frame
/-!
# C92: a serial robot is seen only through its forward kinematics, the names and the limits of its joints
-/

namespace K
open Prog

noncomputable section

/-- Two serial robots with the same number of movable joints, that have the same names, limits and positions and take no
part in mimic relations, and that are anywhere at the same pose when their joints are at the same positions. -/
structure SameRobot (h : KHeap ℝ) (arm : Chain) (g : KHeap ℝ) (brm : Chain) : Prop where
  left : RootedArm h arm
  right : RootedArm g brm
  leftMimic : MimicWF h
  rightMimic : MimicWF g
  leftFree : ∀ n ∈ arm.movableNodes, (h.get n).mimicParent = none ∧ (h.get n).mimicChildren = []
  rightFree : ∀ n ∈ brm.movableNodes, (g.get n).mimicParent = none ∧ (g.get n).mimicChildren = []
  names : (arm.movableNodes.map fun n => (h.get n).joint.name) = brm.movableNodes.map fun n => (g.get n).joint.name
  limits : (arm.movableNodes.map fun n => (h.get n).joint.limits) =
    brm.movableNodes.map fun n => (g.get n).joint.limits
  positions : (arm.movableNodes.map fun n => (h.get n).joint.position) =
    brm.movableNodes.map fun n => (g.get n).joint.position
  kinematics : ∀ xs : List ℝ, xs.length = arm.dof →
    ∃ t h' g', run (moveTo arm xs) h = .ok t h' ∧ run (moveTo brm xs) g = .ok t g'

namespace SameRobot
variable {h g h' g' : KHeap ℝ} {arm brm : Chain}

theorem length (s : SameRobot h arm g brm) : arm.movableNodes.length = brm.movableNodes.length := by
  simpa using congrArg List.length s.names
theorem dof (s : SameRobot h arm g brm) : arm.dof = brm.dof := by
  rw [s.left.wf.dof, s.right.wf.dof, s.length]

/-- the end is where the joint positions say -/
theorem pose_congr {a b : KHeap ℝ} (l : RootedArm h arm) (sa : SameBut h a) (sb : SameBut h b)
    (e : posList a arm.movableNodes = posList b arm.movableNodes) : endPose a arm.nodes = endPose b arm.nodes := by
  rw [l.endPose sa, l.endPose sb]
  congr 1
  funext i
  have := congrArg (·[i.val]?) e
  simpa [posList, coordOf] using this

theorem sameBut_putAll (ps : List (NodeId × ℝ)) (h : KHeap ℝ) : SameBut h (putAll ps h) := by
  induction ps generalizing h with
  | nil => exact .refl h
  | cons p ps ih =>
    refine SameBut.trans (h2 := h.modify p.1 fun s => { s with joint := s.joint.setJointPositionUnchecked p.2 })
      ⟨rfl, rfl, rfl, fun k => ?_⟩ (ih _)
    by_cases e : k = p.1
    · subst e
      rw [Heap.get_modify_self]
      exact ⟨_, _, _, rfl⟩
    · rw [Heap.get_modify_of_ne _ _ e]
      exact ⟨_, _, _, rfl⟩

theorem posList_putAll (ns : List NodeId) (nd : ns.Nodup) (xs : List ℝ) (e : xs.length = ns.length) (h : KHeap ℝ) :
    posList (putAll (ns.zip xs) h) ns = xs := by
  refine List.ext_getElem (by simp [posList, e]) fun i h1 h2 => ?_
  have hi : i < ns.length := by rw [← e]; exact h2
  have mem : (ns[i], xs[i]) ∈ ns.zip xs := by
    refine List.mem_iff_getElem.2 ⟨i, by simp [hi, h2], by simp⟩
  have := putAll_mem (ns.zip xs) h (by rw [List.map_fst_zip (by omega)]; exact nd) _ mem
  simp only [posList, List.getElem_map]
  rw [this]
  rfl

/-- two states of the two robots with the joints at the same positions -/
structure At (h : KHeap ℝ) (arm : Chain) (g : KHeap ℝ) (brm : Chain) (h' g' : KHeap ℝ) : Prop where
  left : SameBut h h'
  right : SameBut g g'
  pos : posList h' arm.movableNodes = posList g' brm.movableNodes

theorem At.start (s : SameRobot h arm g brm) : At h arm g brm h g := ⟨.refl h, .refl g, s.positions⟩

theorem At.endPose (s : SameRobot h arm g brm) (a : At h arm g brm h' g') :
    K.endPose h' arm.nodes = K.endPose g' brm.nodes := by
  have lp : (posList h' arm.movableNodes).length = arm.dof := by simp [posList, s.left.wf.dof]
  obtain ⟨t, h1, g1, e1, e2⟩ := s.kinematics (posList h' arm.movableNodes) lp
  simp only [moveTo, run_bind, run_setJointPositionsUnchecked _ _ _ s.left.unlocked,
    run_setJointPositionsUnchecked _ _ _ s.right.unlocked, Res.bind_ok,
    run_endTransform _ _ (putAll_unlocked _ s.left.unlocked), run_endTransform _ _ (putAll_unlocked _ s.right.unlocked)]
    at e1 e2
  cases e1
  have : K.endPose (putAll (brm.movableNodes.zip (posList h' arm.movableNodes)) g) brm.nodes =
      K.endPose (putAll (arm.movableNodes.zip (posList h' arm.movableNodes)) h) arm.nodes := by
    injection e2
  rw [pose_congr s.left a.left (sameBut_putAll (arm.movableNodes.zip (posList h' arm.movableNodes)) h)
    (by rw [posList_putAll _ s.left.movableNodup _ (by simp [posList])]), ← this]
  exact (pose_congr s.right a.right (sameBut_putAll _ g) (by
    rw [posList_putAll _ s.right.movableNodup _ (by simp [posList, s.length]), a.pos])).symm

/-- a change of the joint at one index of both robots -/
theorem At.modify (s : SameRobot h arm g brm) (a : At h arm g brm h' g') {i : Nat} {n m : NodeId}
    (hn : arm.movableNodes[i]? = some n) (hm : brm.movableNodes[i]? = some m) (f f' : Joint ℝ → Joint ℝ)
    (sf : ∀ j, ∃ p wt wv, f j = { j with position := p, worldTransformCache := wt, worldVelocityCache := wv })
    (sf' : ∀ j, ∃ p wt wv, f' j = { j with position := p, worldTransformCache := wt, worldVelocityCache := wv })
    (e : (f (h'.get n).joint).position = (f' (g'.get m).joint).position) :
    At h arm g brm (h'.modify n fun s => { s with joint := f s.joint })
      (g'.modify m fun s => { s with joint := f' s.joint }) := by
  have sb : ∀ (h : KHeap ℝ) n (f : Joint ℝ → Joint ℝ),
      (∀ j, ∃ p wt wv, f j = { j with position := p, worldTransformCache := wt, worldVelocityCache := wv }) →
      SameBut h (h.modify n fun s => { s with joint := f s.joint }) := by
    intro h n f sf
    refine ⟨rfl, rfl, rfl, fun k => ?_⟩
    by_cases e : k = n
    · subst e
      obtain ⟨p, wt, wv, x⟩ := sf (h.get k).joint
      rw [Heap.get_modify_self]
      exact ⟨p, wt, wv, by rw [x]⟩
    · rw [Heap.get_modify_of_ne _ _ e]
      exact ⟨_, _, _, rfl⟩
  have pl : ∀ (h : KHeap ℝ) (ns : List NodeId) n (f : Joint ℝ → Joint ℝ), ns.Nodup → ns[i]? = some n →
      posList (h.modify n fun s => { s with joint := f s.joint }) ns =
        (posList h ns).set i (f (h.get n).joint).position := by
    intro h ns n f nd hi
    obtain ⟨li, ei⟩ := List.getElem?_eq_some_iff.1 hi
    refine List.ext_getElem (by simp [posList]) fun k h1 h2 => ?_
    simp only [posList, List.getElem_map, List.getElem_set]
    split
    · rename_i ik
      subst ik
      rw [ei, Heap.get_modify_self]
    · rename_i ik
      rw [Heap.get_modify_of_ne]
      intro x
      exact ik ((List.Nodup.getElem_inj_iff nd).1 (ei.trans x.symm))
  refine ⟨a.left.trans (sb _ _ _ sf), a.right.trans (sb _ _ _ sf'), ?_⟩
  rw [pl _ _ _ _ s.left.movableNodup hn, pl _ _ _ _ s.right.movableNodup hm, a.pos, e]

/-- what the two joints at one index have in common -/
theorem At.joint (s : SameRobot h arm g brm) (a : At h arm g brm h' g') {i : Nat} {n m : NodeId}
    (hn : arm.movableNodes[i]? = some n) (hm : brm.movableNodes[i]? = some m) :
    (h'.get n).joint.name = (g'.get m).joint.name ∧ (h'.get n).joint.limits = (g'.get m).joint.limits ∧
      (h'.get n).joint.position = (g'.get m).joint.position ∧ (h'.get n).joint.isMovable = true ∧
      (g'.get m).joint.isMovable = true := by
  have get : ∀ {β : Type} (f f' : NodeId → β), arm.movableNodes.map f = brm.movableNodes.map f' → f n = f' m := by
    intro β f f' e
    have := congrArg (·[i]?) e
    simpa [hn, hm] using this
  have mv : ∀ {h h' : KHeap ℝ} {arm : Chain} {n : NodeId}, RootedArm h arm → SameBut h h' → n ∈ arm.movableNodes →
      (h'.get n).joint.isMovable = true := by
    intro h h' arm n l sb hn
    have := l.movable hn
    rw [← sb.jointType] at this
    unfold Joint.isMovable
    split
    · rename_i x; exact absurd x this
    · rfl
  exact ⟨by rw [a.left.name, a.right.name]; exact get _ _ s.names,
    by rw [a.left.limits, a.right.limits]; exact get _ _ s.limits, get _ _ a.pos,
    mv s.left a.left (List.mem_of_getElem? hn), mv s.right a.right (List.mem_of_getElem? hm)⟩

/-- the loops of the setters of a chain -/
theorem At.clampAll (s : SameRobot h arm g brm) (xs : List ℝ) (a : At h arm g brm h' g') :
    At h arm g brm (K.clampAll (arm.movableNodes.zip xs) h') (K.clampAll (brm.movableNodes.zip xs) g') := by
  suffices ∀ (i : Nat) (h' g' : KHeap ℝ), At h arm g brm h' g' →
      At h arm g brm (K.clampAll ((arm.movableNodes.drop i).zip xs) h')
        (K.clampAll ((brm.movableNodes.drop i).zip xs) g') from by simpa using this 0 h' g' a
  induction xs with
  | nil => intro i h' g' a; simpa [K.clampAll] using a
  | cons x xs ih =>
    intro i h' g' a
    by_cases hi : i < arm.movableNodes.length
    · have hi' : i < brm.movableNodes.length := by rw [← s.length]; exact hi
      rw [List.drop_eq_getElem_cons hi, List.drop_eq_getElem_cons hi']
      have hn : arm.movableNodes[i]? = some arm.movableNodes[i] := List.getElem?_eq_getElem hi
      have hm : brm.movableNodes[i]? = some brm.movableNodes[i] := List.getElem?_eq_getElem hi'
      obtain ⟨-, li, -, m1, m2⟩ := a.joint s hn hm
      refine ih (i + 1) _ _ (a.modify s hn hm (fun j => j.setJointPositionClamped x)
        (fun j => j.setJointPositionClamped x) (fun j => setJointPositionClamped_shape j x)
        (fun j => setJointPositionClamped_shape j x) ?_)
      unfold Joint.setJointPositionClamped
      rw [m1, m2, li]
      simp only [Bool.not_true, Bool.false_eq_true, if_false]
      split <;> rfl
    · have hi' : ¬ i < brm.movableNodes.length := by rw [← s.length]; exact hi
      rw [List.drop_eq_nil_of_le (by omega), List.drop_eq_nil_of_le (by omega)]
      exact a

theorem At.putAll (s : SameRobot h arm g brm) (xs : List ℝ) (a : At h arm g brm h' g') :
    At h arm g brm (K.putAll (arm.movableNodes.zip xs) h') (K.putAll (brm.movableNodes.zip xs) g') := by
  suffices ∀ (i : Nat) (h' g' : KHeap ℝ), At h arm g brm h' g' →
      At h arm g brm (K.putAll ((arm.movableNodes.drop i).zip xs) h')
        (K.putAll ((brm.movableNodes.drop i).zip xs) g') from by simpa using this 0 h' g' a
  induction xs with
  | nil => intro i h' g' a; simpa [K.putAll] using a
  | cons x xs ih =>
    intro i h' g' a
    by_cases hi : i < arm.movableNodes.length
    · have hi' : i < brm.movableNodes.length := by rw [← s.length]; exact hi
      rw [List.drop_eq_getElem_cons hi, List.drop_eq_getElem_cons hi']
      exact ih (i + 1) _ _ (a.modify s (List.getElem?_eq_getElem hi) (List.getElem?_eq_getElem hi')
        (fun j => j.setJointPositionUnchecked x) (fun j => j.setJointPositionUnchecked x) (fun j => ⟨_, _, _, rfl⟩)
        (fun j => ⟨_, _, _, rfl⟩) rfl)
    · have hi' : ¬ i < brm.movableNodes.length := by rw [← s.length]; exact hi
      rw [List.drop_eq_nil_of_le (by omega), List.drop_eq_nil_of_le (by omega)]
      exact a

theorem At.setAll (s : SameRobot h arm g brm) (xs : List ℝ) (a : At h arm g brm h' g') :
    (K.setAll (arm.movableNodes.zip xs) h').1 = (K.setAll (brm.movableNodes.zip xs) g').1 ∧
    At h arm g brm (K.setAll (arm.movableNodes.zip xs) h').2 (K.setAll (brm.movableNodes.zip xs) g').2 := by
  suffices ∀ (i : Nat) (h' g' : KHeap ℝ), At h arm g brm h' g' →
      (K.setAll ((arm.movableNodes.drop i).zip xs) h').1 = (K.setAll ((brm.movableNodes.drop i).zip xs) g').1 ∧
      At h arm g brm (K.setAll ((arm.movableNodes.drop i).zip xs) h').2
        (K.setAll ((brm.movableNodes.drop i).zip xs) g').2 from by simpa using this 0 h' g' a
  induction xs with
  | nil => intro i h' g' a; simpa [K.setAll] using a
  | cons x xs ih =>
    intro i h' g' a
    by_cases hi : i < arm.movableNodes.length
    · have hi' : i < brm.movableNodes.length := by rw [← s.length]; exact hi
      rw [List.drop_eq_getElem_cons hi, List.drop_eq_getElem_cons hi']
      have hn : arm.movableNodes[i]? = some arm.movableNodes[i] := List.getElem?_eq_getElem hi
      have hm : brm.movableNodes[i]? = some brm.movableNodes[i] := List.getElem?_eq_getElem hi'
      obtain ⟨nm, li, po, m1, m2⟩ := a.joint s hn hm
      have r : ((h'.get arm.movableNodes[i]).joint.setJointPosition x).2 =
          ((g'.get brm.movableNodes[i]).joint.setJointPosition x).2 := by
        unfold Joint.setJointPosition
        rw [m1, m2, li, nm]
        simp only [Bool.not_true, Bool.false_eq_true, if_false]
        split
        · split <;> rfl
        · rfl
      have p : ((h'.get arm.movableNodes[i]).joint.setJointPosition x).1.position =
          ((g'.get brm.movableNodes[i]).joint.setJointPosition x).1.position := by
        unfold Joint.setJointPosition
        rw [m1, m2, li]
        simp only [Bool.not_true, Bool.false_eq_true, if_false]
        split
        · split
          · exact po
          · rfl
        · rfl
      have f1 := s.leftFree _ (List.getElem_mem hi)
      have f2 := s.rightFree _ (List.getElem_mem hi')
      have sp : ∀ {k : KHeap ℝ} {n : NodeId}, (k.get n).mimicParent = none → (k.get n).mimicChildren = [] →
          setPos n x k = match ((k.get n).joint.setJointPosition x).2 with
            | .error e => (.error e, k)
            | .ok () => (.ok (), k.setJoint n x) := by
        intro k n a b
        unfold setPos
        rw [a, b]
        simp only [Option.isSome_none, Bool.false_eq_true, if_false]
        cases ((k.get n).joint.setJointPosition x).2 <;> rfl
      simp only [List.zip_cons_cons, K.setAll]
      rw [sp (by rw [a.left.mimicParent]; exact f1.1) (by rw [a.left.mimicChildren]; exact f1.2),
        sp (by rw [a.right.mimicParent]; exact f2.1) (by rw [a.right.mimicChildren]; exact f2.2), r]
      cases ((g'.get brm.movableNodes[i]).joint.setJointPosition x).2 with
      | error e => exact ⟨rfl, a⟩
      | ok v =>
        exact ih (i + 1) _ _ (a.modify s hn hm (fun j => (j.setJointPosition x).1)
          (fun j => (j.setJointPosition x).1) (fun j => setJointPosition_shape j x)
          (fun j => setJointPosition_shape j x) p)
    · have hi' : ¬ i < brm.movableNodes.length := by rw [← s.length]; exact hi
      rw [List.drop_eq_nil_of_le (by omega), List.drop_eq_nil_of_le (by omega)]
      exact ⟨rfl, a⟩

/-- a derivative is unique -/
theorem deriv_unique {f : ℝ → V3 ℝ} {d e : V3 ℝ} {x : ℝ} (a : V3.HasDeriv f d x) (b : V3.HasDeriv f e x) : d = e := by
  rcases d with ⟨d1, d2, d3⟩
  rcases e with ⟨e1, e2, e3⟩
  have := a.1.unique b.1
  have := a.2.1.unique b.2.1
  have := a.2.2.unique b.2.2
  simp_all

theorem cross_unique {a b : V3 ℝ} (e : ∀ v, a.cross v = b.cross v) : a = b := by
  have e1 := e ⟨1, 0, 0⟩
  have e2 := e ⟨0, 1, 0⟩
  rcases a with ⟨a1, a2, a3⟩
  rcases b with ⟨b1, b2, b3⟩
  simp [V3.cross] at e1 e2
  simp [e1, e2]

/-- The Jacobians of the two robots are the same, as these are the derivatives of the same function. -/
theorem At.jacobian (s : SameRobot h arm g brm) (a : At h arm g brm h' g') : ∃ J h1 g1,
    run (K.jacobian arm) h' = .ok J h1 ∧ run (K.jacobian brm) g' = .ok J g1 ∧ At h arm g brm h1 g1 ∧
      J.length = arm.dof := by
  have l := s.left.same a.left
  have r := s.right.same a.right
  obtain ⟨n, rest, en, rn⟩ := l.root
  obtain ⟨m, rest', em, rm⟩ := r.root
  obtain ⟨J, h1, e1, l1, c1⟩ := jacobian_core h' l.unlocked arm l.wf n rest en l.serial l.nodup Iso.one Iso.one_isRigid
    (.inl ⟨rn, rfl⟩) l.rigid
  obtain ⟨K', g1, e2, l2, c2⟩ := jacobian_core g' r.unlocked brm r.wf m rest' em r.serial r.nodup Iso.one Iso.one_isRigid
    (.inl ⟨rm, rfl⟩) r.rigid
  have JK : J = K' := by
    refine List.ext_getElem? fun i => ?_
    by_cases hi : i < J.length
    · have hi1 : i < arm.movableNodes.length := by rw [← l.wf.dof, ← l1]; exact hi
      have hi2 : i < brm.movableNodes.length := by rw [← s.length]; exact hi1
      have hi3 : i < K'.length := by rw [l2, r.wf.dof]; exact hi2
      have hn : arm.movableNodes[i]? = some arm.movableNodes[i] := List.getElem?_eq_getElem hi1
      have hm : brm.movableNodes[i]? = some brm.movableNodes[i] := List.getElem?_eq_getElem hi2
      rw [List.getElem?_eq_getElem hi, List.getElem?_eq_getElem hi3]
      obtain ⟨d, w, x1, x2, x3⟩ := c1 i _ _ hn (List.getElem?_eq_getElem hi)
      obtain ⟨d', w', y1, y2, y3⟩ := c2 i _ _ hm (List.getElem?_eq_getElem hi3)
      obtain ⟨-, -, po, -, -⟩ := a.joint s hn hm
      have T : ∀ x, prodFrom (setAt h' arm.movableNodes[i] x) Iso.one arm.nodes =
          prodFrom (setAt g' brm.movableNodes[i] x) Iso.one brm.nodes := by
        intro x
        exact (a.modify s hn hm (fun j => j.setJointPositionUnchecked x) (fun j => j.setJointPositionUnchecked x)
          (fun j => ⟨_, _, _, rfl⟩) (fun j => ⟨_, _, _, rfl⟩) rfl).endPose s
      have E : prodFrom h' Iso.one arm.nodes = prodFrom g' Iso.one brm.nodes := a.endPose s
      have E' : K.endPose h' arm.nodes = K.endPose g' brm.nodes := E
      simp only [T, E, po] at x2 x3
      have dd := deriv_unique x2 y2
      have ww : w = w' := by
        have u : (prodFrom g' Iso.one brm.nodes).rot.IsUnit :=
          foldl_mul_rigid g' brm.nodes r.rigid Iso.one Iso.one_isRigid
        refine cross_unique fun v => ?_
        have := deriv_unique (x3 ((prodFrom g' Iso.one brm.nodes).rot.conj.rotate v))
          (y3 ((prodFrom g' Iso.one brm.nodes).rot.conj.rotate v))
        rw [← Quat.rotate_mul u u.conj, Quat.mul_conj u, Quat.rotate_one] at this
        exact this
      rw [x1, y1, dd, ww, E, E']
    · rw [List.getElem?_eq_none (by omega), List.getElem?_eq_none (by
        rw [l2, ← s.dof, ← l1]; omega)]
  subst JK
  have o1 := (jacobian_ok arm h' h1 l.unlocked J e1).1.moved.sameBut
  have o2 := (jacobian_ok brm g' g1 r.unlocked J e2).1.moved.sameBut
  have w1 := (jacobian_ok arm h' h1 l.unlocked J e1).1.same
  have w2 := (jacobian_ok brm g' g1 r.unlocked J e2).1.same
  refine ⟨J, h1, g1, e1, e2, ⟨a.left.trans o1, a.right.trans o2, ?_⟩, l1⟩
  have p1 : posList h1 arm.movableNodes = posList h' arm.movableNodes :=
    List.map_congr_left fun n _ => (w1 n).position
  have p2 : posList g1 brm.movableNodes = posList g' brm.movableNodes :=
    List.map_congr_left fun n _ => (w2 n).position
  rw [p1, p2, a.pos]

/-- the two runs end alike -/
def Both {α : Type} (h : KHeap ℝ) (arm : Chain) (g : KHeap ℝ) (brm : Chain) :
    Res (NodeImpl ℝ) α → Res (NodeImpl ℝ) α → Prop
  | .ok a h', .ok b g' => a = b ∧ At h arm g brm h' g'
  | .panic m h', .panic m' g' => m = m' ∧ At h arm g brm h' g'
  | _, _ => False

theorem Both.bind {α β : Type} {x y : Res (NodeImpl ℝ) α} {f k : α → KHeap ℝ → Res (NodeImpl ℝ) β}
    (b : Both h arm g brm x y) (c : ∀ a h' g', At h arm g brm h' g' → Both h arm g brm (f a h') (k a g')) :
    Both h arm g brm (x.bind f) (y.bind k) := by
  cases x <;> cases y <;> first | exact b.elim | skip
  · obtain ⟨rfl, b⟩ := b
    exact c _ _ _ b
  · exact b

section solve
variable {sol : IkSolver ℝ} {target : Iso ℝ} {ops : List Bool} {ign : List Nat}

theorem both_positions (s : SameRobot h arm g brm) (a : At h arm g brm h' g') :
    Both h arm g brm (run arm.jointPositions h') (run brm.jointPositions g') := by
  have l := s.left.same a.left
  have r := s.right.same a.right
  rw [run_jointPositions h' l.unlocked arm l.wf, run_jointPositions g' r.unlocked brm r.wf]
  exact ⟨a.pos, a⟩

theorem both_end (s : SameRobot h arm g brm) (a : At h arm g brm h' g') :
    Both h arm g brm (run arm.endTransform h') (run brm.endTransform g') := by
  rw [run_endTransform _ _ (s.left.same a.left).unlocked, run_endTransform _ _ (s.right.same a.right).unlocked]
  exact ⟨a.endPose s, a⟩

theorem both_clamped (s : SameRobot h arm g brm) (xs : List ℝ) (a : At h arm g brm h' g') :
    Both h arm g brm (run (arm.setJointPositionsClamped xs) h') (run (brm.setJointPositionsClamped xs) g') := by
  rw [run_setJointPositionsClamped _ _ _ (s.left.same a.left).unlocked,
    run_setJointPositionsClamped _ _ _ (s.right.same a.right).unlocked]
  exact ⟨rfl, a.clampAll s xs⟩

theorem both_unchecked (s : SameRobot h arm g brm) (xs : List ℝ) (a : At h arm g brm h' g') :
    Both h arm g brm (run (arm.setJointPositionsUnchecked xs) h') (run (brm.setJointPositionsUnchecked xs) g') := by
  rw [run_setJointPositionsUnchecked _ _ _ (s.left.same a.left).unlocked,
    run_setJointPositionsUnchecked _ _ _ (s.right.same a.right).unlocked]
  exact ⟨rfl, a.putAll s xs⟩

theorem both_set (s : SameRobot h arm g brm) (xs : List ℝ) (a : At h arm g brm h' g') :
    Both h arm g brm (run (arm.setJointPositions xs) h') (run (brm.setJointPositions xs) g') := by
  by_cases len : xs.length = arm.dof
  · have len' : xs.length = brm.dof := by rw [← s.dof]; exact len
    rw [run_setJointPositions _ _ _ (s.left.same a.left).unlocked (a.left.mimicWF s.leftMimic) len,
      run_setJointPositions _ _ _ (s.right.same a.right).unlocked (a.right.mimicWF s.rightMimic) len']
    exact a.setAll s xs
  · unfold Chain.setJointPositions
    rw [← s.dof, if_pos (by simpa using len), if_pos (by simpa using len)]
    exact ⟨rfl, a⟩

theorem both_jacobian (s : SameRobot h arm g brm) (a : At h arm g brm h' g') :
    Both h arm g brm (run (K.jacobian arm) h') (run (K.jacobian brm) g') := by
  obtain ⟨J, h1, g1, e1, e2, a1, -⟩ := a.jacobian s
  rw [e1, e2]
  exact ⟨rfl, a1⟩

theorem both_step (s : SameRobot h arm g brm) (a : At h arm g brm h' g') :
    Both h arm g brm (run (solveOneLoop sol arm target ops ign) h') (run (solveOneLoop sol brm target ops ign) g') := by
  simp only [solveOneLoop, run_bind]
  refine (both_positions s a).bind fun orig h1 g1 a => (both_end s a).bind fun t0 h1 g1 a =>
    (both_jacobian s a).bind fun J h1 g1 a => ?_
  rw [← s.dof]
  cases nextPositions sol ops ign arm.dof J _ orig with
  | error m => exact ⟨rfl, a⟩
  | ok re =>
    simp only [run_ofExcept_ok, Res.bind_ok]
    cases re with
    | error e => exact ⟨rfl, a⟩
    | ok ps =>
      simp only [run_bind]
      exact (both_clamped s ps a).bind fun _ h1 g1 a => (both_end s a).bind fun t1 h1 g1 a => ⟨rfl, a⟩

theorem both_loop (s : SameRobot h arm g brm) (orig : List ℝ) (left : Nat) (last : Option (V3 ℝ × V3 ℝ))
    (a : At h arm g brm h' g') :
    Both h arm g brm (run (tryLoop sol arm target ops ign orig left last) h')
      (run (tryLoop sol brm target ops ign orig left last) g') := by
  induction left generalizing last h' g' with
  | zero =>
    simp only [tryLoop, run_bind]
    refine (both_set s orig a).bind fun r h1 g1 a => ?_
    cases r with
    | error e => exact ⟨rfl, a⟩
    | ok v => cases last <;> exact ⟨rfl, a⟩
  | succ left ih =>
    simp only [tryLoop, run_bind]
    refine (both_step s a).bind fun r h1 g1 a => ?_
    cases r with
    | error e => exact ⟨rfl, a⟩
    | ok v =>
      simp only
      split
      · simp only [run_bind]
        exact (both_positions s a).bind fun xs h1 g1 a => (both_clamped s xs a).bind fun _ h1 g1 a => ⟨rfl, a⟩
      · exact ih _ a

theorem nameIndices_same (s : SameRobot h arm g brm) (a : At h arm g brm h' g') (names : List String) :
    nameIndices h' arm.movableNodes names = nameIndices g' brm.movableNodes names := by
  have e : (arm.movableNodes.map fun n => (h'.get n).joint.name) = brm.movableNodes.map fun n => (g'.get n).joint.name := by
    simp only [a.left.name, a.right.name]; exact s.names
  induction names with
  | nil => rfl
  | cons x xs ih =>
    have f : ∀ (k : KHeap ℝ) (ns : List NodeId), ns.findIdx? (fun n => (k.get n).joint.name == x) =
        (ns.map fun n => (k.get n).joint.name).findIdx? (· == x) := by
      intro k ns; rw [List.findIdx?_map]; rfl
    simp only [nameIndices, f, e, ih]

theorem both_solve (s : SameRobot h arm g brm) (c : Constraints) (a : At h arm g brm h' g') :
    Both h arm g brm (run (solveWithConstraints sol arm target c) h') (run (solveWithConstraints sol brm target c) g') := by
  simp only [solveWithConstraints, run_bind]
  refine (both_positions s a).bind fun orig h1 g1 a => ?_
  have inner : Both h arm g brm (run (solveInternal sol arm target c) h1) (run (solveInternal sol brm target c) g1) := by
    simp only [solveInternal, run_bind]
    refine (both_positions s a).bind fun orig h1 g1 a => ?_
    rw [← s.dof]
    split
    · exact ⟨rfl, a⟩
    · split
      · exact ⟨rfl, a⟩
      · rw [run_bind, run_bind, run_ignoredIndices _ _ _ (s.left.same a.left).unlocked,
          run_ignoredIndices _ _ _ (s.right.same a.right).unlocked, nameIndices_same s a]
        cases nameIndices g1 brm.movableNodes c.ignoredJointNames with
        | error e => exact ⟨rfl, a⟩
        | ok is => exact both_loop s _ _ _ a
  refine inner.bind fun r h1 g1 a => ?_
  cases r with
  | ok v => exact ⟨rfl, a⟩
  | error e =>
    simp only [run_bind]
    refine (both_set s orig a).bind fun r h1 g1 a => ?_
    cases r <;> exact ⟨rfl, a⟩

end solve

theorem both_call {β : Type} (s : SameRobot h arm g brm) (c : ArmCall β) (a : At h arm g brm h' g') :
    Both h arm g brm (run (c.on arm).prog h') (run (c.on brm).prog g') := by
  cases c with
  | jointPositions => exact both_positions s a
  | setJointPositions xs => exact both_set s xs a
  | setJointPositionsClamped xs => exact both_clamped s xs a
  | setJointPositionsUnchecked xs => exact both_unchecked s xs a
  | endTransform => exact both_end s a
  | jacobian => exact both_jacobian s a
  | solve sol target cs => exact both_solve s cs a

theorem both_client {α : Type} (s : SameRobot h arm g brm) (p : ArmClient α) (a : At h arm g brm h' g') :
    Both h arm g brm (run (p.on arm).prog h') (run (p.on brm).prog g') := by
  induction p generalizing h' g' with
  | done x => exact ⟨rfl, a⟩
  | call c k ih =>
    simp only [ArmClient.on, Client.prog, run_bind]
    exact (both_call s c a).bind fun r h1 g1 a => ih r a

end SameRobot

/-- **C92.**  Whatever a program does with a serial robot, it gets the same answers from every robot with the same forward
kinematics whose joints have the same names, limits and positions: the same poses, Jacobians and solutions of the inverse
kinematics, the same errors, the same panics. -/
theorem C92_same {α : Type} {h g : KHeap ℝ} {arm brm : Chain} (s : SameRobot h arm g brm) (p : ArmClient α) :
    SameEnd arm brm (run (p.on arm).prog h) (run (p.on brm).prog g) := by
  have := SameRobot.both_client s p (SameRobot.At.start s)
  cases e : run (p.on arm).prog h <;> cases e' : run (p.on brm).prog g <;> rw [e, e'] at this <;>
    first | exact this.elim | exact ⟨this.1, this.2.pos⟩

/-! ## fixed joints -/

/-- the pose of the end of a robot made of these segments -/
def finish (X : Iso ℝ) : List (Iso ℝ × JointType ℝ) × Iso ℝ → List ℝ → Iso ℝ
  | ((o, t) :: r, e), p :: ps => finish ((X.mul o).mul (t.motion p)) (r, e) ps
  | (_, e), _ => X.mul e
termination_by x => x.1

theorem jointTransform_motion (j : Joint ℝ) : j.jointTransform = j.jointType.motion j.position := by
  unfold Joint.jointTransform JointType.motion
  cases j.jointType <;> rfl

theorem prodFrom_segments (h : KHeap ℝ) (ns : List NodeId) (ar : AllRigid h ns) (X acc : Iso ℝ) (hX : X.IsRigid)
    (hacc : acc.IsRigid) :
    prodFrom h (X.mul acc) ns = finish X (segments h acc ns)
      (posList h (ns.filter fun n => decide (Movable h n))) := by
  induction ns generalizing X acc with
  | nil => simp [segments, finish, prodFrom]
  | cons n ns ih =>
    have rn := ar n (by simp)
    have rest : AllRigid h ns := fun m hm => ar m (by simp [hm])
    have step : prodFrom h (X.mul acc) (n :: ns) =
        prodFrom h ((X.mul acc).mul ((h.get n).joint.origin.mul (h.get n).joint.jointTransform)) ns := rfl
    rw [step]
    have ro : (h.get n).joint.origin.IsRigid := rn.1
    by_cases fx : (h.get n).joint.jointType = .fixed
    · have nm : ¬ Movable h n := fun x => x fx
      have sg : segments h acc (n :: ns) = segments h (acc.mul (h.get n).joint.origin) ns := by
        rw [segments, fx]
      rw [jointTransform_motion, fx]
      show prodFrom h ((X.mul acc).mul ((h.get n).joint.origin.mul Iso.one)) ns = _
      rw [sg, Iso.mul_one', Iso.mul_assoc' hX hacc, ih rest X _ hX (hacc.mul ro),
        List.filter_cons_of_neg (by simpa using nm)]
    · have sg : segments h acc (n :: ns) = ((acc.mul (h.get n).joint.origin, (h.get n).joint.jointType) ::
          (segments h Iso.one ns).1, (segments h Iso.one ns).2) := by
        rw [segments]
        split
        · rename_i x; exact absurd x fx
        · rfl
      have rt : (h.get n).joint.jointTransform.IsRigid := Joint.jointTransform_isRigid rn
      have e : (X.mul acc).mul ((h.get n).joint.origin.mul (h.get n).joint.jointTransform) =
          ((X.mul (acc.mul (h.get n).joint.origin)).mul (h.get n).joint.jointTransform).mul Iso.one := by
        rw [Iso.mul_one', Iso.mul_assoc' hX hacc, ← Iso.mul_assoc' hacc ro, ← Iso.mul_assoc' hX (hacc.mul ro)]
      rw [e, ih rest _ Iso.one ((hX.mul (hacc.mul ro)).mul rt) Iso.one_isRigid, sg,
        List.filter_cons_of_pos (by simpa using (show Movable h n from fx))]
      show _ = finish X _ ((h.get n).joint.position :: posList h _)
      rw [finish, jointTransform_motion]

theorem segments_same {h h' : KHeap ℝ} (sb : SameBut h h') (ns : List NodeId) (acc : Iso ℝ) :
    segments h' acc ns = segments h acc ns := by
  induction ns generalizing acc with
  | nil => rfl
  | cons n ns ih =>
    have o : (h'.get n).joint.origin = (h.get n).joint.origin := by
      obtain ⟨p, wt, wv, e⟩ := sb.node n; rw [e]
    simp only [segments, sb.jointType, o, ih]

/-- **C92, fixed joints.**  Fixed joints can be merged into the origin of the next joint, or be split off from it, and how
often and where this is done does not matter: two robots have the same forward kinematics if the transforms between their
movable joints are the same. -/
theorem C92_fixed {h g : KHeap ℝ} {arm brm : Chain} (left : RootedArm h arm) (right : RootedArm g brm)
    (names : (arm.movableNodes.map fun n => (h.get n).joint.name) = brm.movableNodes.map fun n => (g.get n).joint.name)
    (seg : segments h Iso.one arm.nodes = segments g Iso.one brm.nodes) (xs : List ℝ) (len : xs.length = arm.dof) :
    ∃ t h' g', run (moveTo arm xs) h = .ok t h' ∧ run (moveTo brm xs) g = .ok t g' := by
  have dof : arm.movableNodes.length = brm.movableNodes.length := by simpa using congrArg List.length names
  have one : ∀ {h : KHeap ℝ} {arm : Chain}, RootedArm h arm → xs.length = arm.dof →
      ∃ h', run (moveTo arm xs) h = .ok (finish Iso.one (segments h Iso.one arm.nodes) xs) h' := by
    intro h arm l len
    refine ⟨putAll (arm.movableNodes.zip xs) h, ?_⟩
    have sb := SameRobot.sameBut_putAll (arm.movableNodes.zip xs) h
    have l' := l.same sb
    simp only [moveTo, run_bind, run_setJointPositionsUnchecked _ _ _ l.unlocked, Res.bind_ok,
      run_endTransform _ _ l'.unlocked]
    have := prodFrom_segments _ arm.nodes l'.rigid Iso.one Iso.one Iso.one_isRigid Iso.one_isRigid
    rw [Iso.mul_one', segments_same sb, ← l'.wf.movable,
      SameRobot.posList_putAll _ l.movableNodup _ (by rw [len, l.wf.dof])] at this
    rw [← this]
    rfl
  obtain ⟨h', e⟩ := one left len
  obtain ⟨g', e'⟩ := one right (by rw [len, left.wf.dof, right.wf.dof, dof])
  exact ⟨_, h', g', e, by rw [e', seg]⟩

end

end K
