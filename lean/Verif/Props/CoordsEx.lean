import Verif.Props.Coords
import Verif.Props.UnitsEx
/-!
# C91: exact linear algebra works in all directions; concrete cases; tasks that depend on the direction
-/

namespace K
open Prog Matrix

noncomputable section

/-! ## exact linear algebra -/

theorem toMat_signed {n m : Nat} (c : List ℝ) (J : Mat ℝ) (lc : c.length = m) (lJ : J.length = m)
    (hJ : ∀ col ∈ J, col.length = n) :
    toMat n m (Coords.signed c J) = toMat n m J * Matrix.diagonal (toVec m c) := by
  ext i j
  rw [Matrix.mul_diagonal]
  have h2 : j.val < c.length := by rw [lc]; exact j.2
  have h3 : j.val < J.length := by rw [lJ]; exact j.2
  have h4 : i.val < (J[j.val]).length := by rw [hJ _ (List.getElem_mem h3)]; exact i.2
  simp [toMat, toVec, Coords.signed, List.getD_eq_getElem?_getD, h2, h3, h4]

theorem signs_square {m : Nat} (c : List ℝ) (lc : c.length = m) (hc : ∀ k ∈ c, k = 1 ∨ k = -1) :
    Matrix.diagonal (toVec m c) * Matrix.diagonal (toVec m c) = 1 := by
  rw [Matrix.diagonal_mul_diagonal, ← Matrix.diagonal_one]
  congr 1
  funext i
  have h : i.val < c.length := by rw [lc]; exact i.2
  have : toVec m c i = c[i.val] := by simp [toVec, List.getD_eq_getElem?_getD, h]
  rw [this]
  rcases hc _ (List.getElem_mem h) with e | e <;> rw [e] <;> norm_num

theorem solveWide_signs {n m : Nat} (c : List ℝ) (J : Mat ℝ) (b : List ℝ) (lc : c.length = m) (lJ : J.length = m)
    (hJ : ∀ col ∈ J, col.length = n) (hc : ∀ k ∈ c, k = 1 ∨ k = -1) :
    solveWide n m (Coords.signed c J) b = Units.list c (solveWide n m J b) := by
  refine toVec_inj List.length_ofFn (by rw [Units.list_length]; exact List.length_ofFn) ?_
  unfold solveWide
  rw [toVec_list _ _ lc List.length_ofFn]
  rw [toVec_ofFn, toVec_ofFn, toMat_signed c J lc lJ hJ, Matrix.transpose_mul, Matrix.diagonal_transpose]
  have e : toMat n m J * Matrix.diagonal (toVec m c) * (Matrix.diagonal (toVec m c) * (toMat n m J)ᵀ) =
      toMat n m J * (toMat n m J)ᵀ := by
    rw [Matrix.mul_assoc, ← Matrix.mul_assoc (Matrix.diagonal _), signs_square c lc hc, Matrix.one_mul]
  rw [e, Matrix.mul_assoc, ← Matrix.mulVec_mulVec]

/-- exact linear algebra works in all directions -/
theorem exactLa_signFree : exactLa.SignFree where
  lu := by
    intro c J b hc lc lJ hJ
    show solveSquare b.length (Coords.signed c J) b = (solveSquare b.length J b).map _
    rw [lJ] at lc
    generalize hn : b.length = n at *
    have sq := signs_square c lc hc
    have inv : (Matrix.diagonal (toVec n c))⁻¹ = Matrix.diagonal (toVec n c) := Matrix.inv_eq_left_inv sq
    have d : (Matrix.diagonal (toVec n c)).det ≠ 0 := by
      intro z
      have := congrArg Matrix.det sq
      rw [Matrix.det_mul, z, Matrix.det_one] at this
      norm_num at this
    unfold solveSquare
    rw [toMat_signed c J lc lJ hJ, Matrix.det_mul]
    simp only [mul_eq_zero, d, or_false]
    split
    · rfl
    · rw [Option.map_some, Matrix.mul_inv_rev, inv, ← Matrix.mulVec_mulVec]
      congr 1
      refine toVec_inj List.length_ofFn (by rw [Units.list_length, List.length_ofFn]) ?_
      rw [toVec_ofFn, toVec_list _ _ lc List.length_ofFn, toVec_ofFn]
  svd := by
    intro c J b hc lc lt hJ
    refine ⟨?_, List.length_ofFn⟩
    show solveWide b.length (Coords.signed c J).length (Coords.signed c J) b = Units.list c (solveWide b.length J.length J b)
    have l : (Coords.signed c J).length = J.length := by simp [Coords.signed, lc]
    rw [l]
    exact solveWide_signs c J b lc rfl hJ hc
  pinv := by
    intro c J v hc lc lt hJ
    have hd : (J.headD []).length = v.length := by
      cases J with
      | nil => simp at lt
      | cons c J => exact hJ c (by simp)
    have hd' : ((Coords.signed c J).headD []).length = v.length := by
      cases J with
      | nil => simp at lt
      | cons col J =>
        cases c with
        | nil => simp at lc
        | cons k c => exact (List.length_map _).trans (hJ col (by simp))
    have l : (Coords.signed c J).length = J.length := by simp [Coords.signed, lc]
    show matVec J.length (pinvWide ((Coords.signed c J).headD []).length (Coords.signed c J).length (Coords.signed c J)) v =
        Units.list c (matVec J.length (pinvWide (J.headD []).length J.length J) v) ∧
      (matVec J.length (pinvWide (J.headD []).length J.length J) v).length = J.length
    rw [hd, hd', l, pinvWide_apply _ _ _ _ rfl, pinvWide_apply _ _ _ _ rfl]
    exact ⟨solveWide_signs c J v lc rfl hJ hc, List.length_ofFn⟩

/-! ## a gantry -/

/-- the zero of the first joint is moved by 5, the last joint counts downwards from 2 -/
def fromAbove : Coords where
  sign n := if n = 2 then -1 else 1
  shift n := if n = 0 then 5 else if n = 2 then 2 else 0
  sourceSign _ := 1
  sourceShift _ := 0
  name n := if n = 0 then "x" else if n = 1 then "y" else if n = 2 then "z" else "c"
  kind n := if n = 0 then .linear ⟨1, 0, 0⟩ else if n = 1 then .linear ⟨0, 1, 0⟩ else if n = 2 then .linear ⟨0, 0, 1⟩
    else .fixed
  sign_sq n := by split <;> simp
  source_sq n := by simp
  unit n a e := by
    split at e
    · cases e
    · split at e
      · cases e
      · split at e <;> cases e

theorem gantry_fitsCoords (n : NodeId) : fromAbove.Fits n (gantry.get n) := by
  by_cases h0 : n = 0
  · subst h0
    exact ⟨rfl, rfl, fun r e => by simp [gantry, NodeImpl.fresh, Joint.new] at e, fun c hc => by
      simp [gantry, NodeImpl.fresh] at hc⟩
  · by_cases h1 : n = 1
    · subst h1
      exact ⟨rfl, rfl, fun r e => by simp [gantry, NodeImpl.fresh, Joint.new] at e, fun c hc => by
        simp [gantry, NodeImpl.fresh] at hc⟩
    · by_cases h2 : n = 2
      · subst h2
        exact ⟨rfl, rfl, fun r e => by simp [gantry, NodeImpl.fresh, Joint.new] at e, fun c hc => by
          simp [gantry, NodeImpl.fresh] at hc⟩
      · have e : gantry.get n = NodeImpl.fresh (Joint.new "c" .fixed) := by simp [gantry, h0, h1, h2]
        rw [e]
        exact ⟨by simp [NodeImpl.fresh, Joint.new, fromAbove, h0, h1, h2], by
          simp [NodeImpl.fresh, Joint.new, fromAbove, h0, h1, h2], fun r e => by simp [NodeImpl.fresh, Joint.new] at e,
          fun c hc => by simp [NodeImpl.fresh] at hc⟩

/-- how the gantry is described then: the first joint is at 5, the last one points downwards and is at 2 -/
theorem fromAbove_joints :
    ((fromAbove.heap gantry).get 0).joint.position = 5 ∧ ((fromAbove.heap gantry).get 0).joint.origin = ⟨⟨-5, 0, 0⟩, Quat.one⟩ ∧
    ((fromAbove.heap gantry).get 2).joint.jointType = .linear ⟨0, 0, -1⟩ ∧
    ((fromAbove.heap gantry).get 2).joint.position = 2 ∧
    ((fromAbove.heap gantry).get 2).joint.origin = ⟨⟨0, 0, 2⟩, Quat.one⟩ := by
  have one : ∀ t : Iso ℝ, (⟨⟨0, 0, 0⟩, Quat.one⟩ : Iso ℝ).mul t = t := Iso.one_mul'
  simp [Coords.heap, Coords.node, Coords.joint, gantry, NodeImpl.fresh, Joint.new, fromAbove, Coords.coord,
    JointType.directed, Coords.correction, JointType.motion, V3.scale, Iso.one_mul']

/-- it finds a target one metre away, as the first one does -/
theorem C91_gantry (t : V3 ℝ) (ht : t.norm = 1) :
    ∃ g, run (solveWithConstraints (swingSolver 10) gantryArm ⟨t, Quat.one⟩ onlyPosition) gantry = .ok (.ok ()) g ∧
      run (solveWithConstraints (swingSolver 10) gantryArm ⟨t, Quat.one⟩ onlyPosition) (fromAbove.heap gantry) =
        .ok (.ok ()) (fromAbove.heap g) := by
  obtain ⟨g, e⟩ := (C70_iff gantry_sliding (gantry_posed t 10) (by norm_num [swingSolver])).2 ⟨7, by omega, by
    show 7 ≤ 10; omega, by
    have : (posError onlyPosition ⟨t, Quat.one⟩ Iso.one).norm = 1 := by
      rw [← ht]
      simp [posError, masked, onlyPosition, V3.sub, Iso.one, V3.zero, V3.norm]
    rw [this]
    norm_num [swingSolver, abs_of_pos]⟩
  refine ⟨g, e, ?_⟩
  obtain ⟨a', e', an, -⟩ := (C91_call (U := fromAbove) (.solve (swingSolver 10) gantryArm ⟨t, Quat.one⟩ onlyPosition) gantry
    gantry_fitsCoords ⟨rfl, exactLa_signFree, by simp [onlyPosition], .inl rfl⟩).1 _ _ e
  cases (show fromAbove.SameResult (.ok ()) a' from an)
  exact e'

/-- a client: move the joints and tell whether the tip is more than a metre away -/
def lookAway (xs : List ℝ) : Client ℝ Bool :=
  .call (.setJointPositions gantryArm xs) fun _ =>
    .call (.endTransform gantryArm) fun t => .done (Scalar.lt 1 t.trans.norm)

theorem C91_lookAway : run (lookAway [6, 2, -1]).prog (fromAbove.heap gantry) =
    (run (lookAway [1, 2, 3]).prog gantry).inCoords fromAbove := by
  refine C91_sequential ?_ gantry gantry_fitsCoords
  have e : lookAway [6, 2, -1] = .call (Call.inCoords fromAbove (.setJointPositions gantryArm [1, 2, 3])) fun _ =>
      .call (Call.inCoords fromAbove (.endTransform gantryArm)) fun t => .done (Scalar.lt 1 t.trans.norm) := by
    unfold lookAway
    congr 2
    simp only [Coords.coords, gantryArm, Coords.list, fromAbove, Coords.coord]
    norm_num
  rw [e]
  refine .call _ _ _ trivial fun _ _ _ => .call _ _ _ trivial fun t t' h => ?_
  cases (show t' = t from h)
  exact .done _

/-! ## a joint that turns, with limits and a joint that mimics it -/

/-- node 0 turns about z between 0 and 1, node 1 turns twice as far -/
def fingers : KHeap ℝ :=
  { get := fun n =>
      if n = 0 then { NodeImpl.fresh ({ Joint.new "a" (.rotational ⟨0, 0, 1⟩) with limits := some ⟨0, 1⟩ } : Joint ℝ) with
        mimicChildren := [1] }
      else if n = 1 then { NodeImpl.fresh (Joint.new "b" (.rotational ⟨0, 0, 1⟩)) with
        mimicParent := some 0, mimic := some ⟨2, 0⟩ }
      else NodeImpl.fresh (Joint.new "c" .fixed)
    next := 2, dead := fun _ => false, held := fun _ => false }

/-- node 0 counts from the other side: 3 instead of 0, 2 instead of 1 -/
def otherSide : Coords where
  sign n := if n = 0 then -1 else 1
  shift n := if n = 0 then 3 else 0
  sourceSign n := if n = 1 then -1 else 1
  sourceShift n := if n = 1 then 3 else 0
  name n := if n = 0 then "a" else if n = 1 then "b" else "c"
  kind n := if n = 0 then .rotational ⟨0, 0, 1⟩ else if n = 1 then .rotational ⟨0, 0, 1⟩ else .fixed
  sign_sq n := by split <;> simp
  source_sq n := by split <;> simp
  unit n a e := by
    split at e
    · cases e; right; norm_num
    · split at e
      · cases e; right; norm_num
      · cases e

theorem fingers_fit (n : NodeId) : otherSide.Fits n (fingers.get n) := by
  by_cases h0 : n = 0
  · subst h0
    refine ⟨rfl, rfl, fun r e => .inr ?_, fun c hc => ?_⟩
    · cases (show some ⟨0, 1⟩ = some r from e); norm_num
    · cases List.mem_singleton.1 (show c ∈ [1] from hc); exact ⟨rfl, rfl⟩
  · by_cases h1 : n = 1
    · subst h1
      exact ⟨rfl, rfl, fun r e => by simp [fingers, NodeImpl.fresh, Joint.new] at e, fun c hc => by
        simp [fingers, NodeImpl.fresh] at hc⟩
    · have e : fingers.get n = NodeImpl.fresh (Joint.new "c" .fixed) := by simp [fingers, h0, h1]
      rw [e]
      exact ⟨by simp [NodeImpl.fresh, Joint.new, otherSide, h0, h1], by
        simp [NodeImpl.fresh, Joint.new, otherSide, h0, h1], fun r e => by simp [NodeImpl.fresh, Joint.new] at e,
        fun c hc => by simp [NodeImpl.fresh] at hc⟩

/-- the limits are 2 and 3 then, and node 1 is at 6 - 2 x -/
theorem otherSide_fingers : ((otherSide.heap fingers).get 0).joint.limits = some ⟨2, 3⟩ ∧
    ((otherSide.heap fingers).get 0).joint.position = 3 ∧ ((otherSide.heap fingers).get 1).mimic = some ⟨-2, 6⟩ := by
  have m : otherSide.range 0 ⟨0, 1⟩ = ⟨2, 3⟩ := by
    have : ¬ otherSide.sign 0 = 1 := by norm_num [otherSide]
    rw [Coords.range, if_neg this]
    norm_num [Coords.coord, otherSide]
  refine ⟨?_, ?_, ?_⟩
  · show some (otherSide.range 0 ⟨0, 1⟩) = _
    rw [m]
  · simp [Coords.heap, Coords.node, Coords.joint, fingers, NodeImpl.fresh, Joint.new, otherSide, Coords.coord]
  · norm_num [Coords.heap, Coords.node, Coords.mimic, fingers, NodeImpl.fresh, Joint.new, otherSide, Coords.coord]

/-- a position outside of the limits is refused in both cases, with the limits that hold in each -/
theorem C91_limits : run (Node.setJointPosition 0 5) fingers = .ok (.error (.outOfLimit "a" 5 1 0)) fingers ∧
    run (Node.setJointPosition 0 (-2)) (otherSide.heap fingers) =
      .ok (.error (.outOfLimit "a" (-2) 3 2)) (otherSide.heap fingers) := by
  have wf : MimicWF fingers := fun n c hc => by
    by_cases h0 : n = 0
    · subst h0
      cases List.mem_singleton.1 (show c ∈ [1] from hc)
      exact ⟨rfl, rfl⟩
    · by_cases h1 : n = 1
      · subst h1; simp [fingers, NodeImpl.fresh] at hc
      · simp [fingers, NodeImpl.fresh, h0, h1] at hc
  have l : (fingers.get 0).joint.setJointPosition 5 = ((fingers.get 0).joint, .error (.outOfLimit "a" 5 1 0)) := by
    have : ((⟨0, 1⟩ : Range ℝ).isValid 5) = false := by norm_num [Range.isValid, Scalar.le]
    simp [fingers, NodeImpl.fresh, Joint.new, Joint.setJointPosition, Joint.isMovable, this]
  have e : run (Node.setJointPosition 0 5) fingers = .ok (.error (.outOfLimit "a" 5 1 0)) fingers := by
    rw [run_setJointPosition _ _ _ (fun _ => rfl) wf]
    have : setPos 0 5 fingers = (.error (.outOfLimit "a" 5 1 0), fingers) := by
      have m : (fingers.get 0).mimicParent.isSome = false := rfl
      simp [setPos, l, m]
    rw [this]
  refine ⟨e, ?_⟩
  obtain ⟨a', e', an, -⟩ := (C91_call (U := otherSide) (.setJointPosition 0 5) fingers fingers_fit trivial).1 _ _ e
  have c : otherSide.coord 0 5 = -2 := by norm_num [otherSide, Coords.coord]
  have e' : run (Node.setJointPosition 0 (otherSide.coord 0 5)) (otherSide.heap fingers) =
    .ok a' (otherSide.heap fingers) := e'
  rw [c] at e'
  rw [e']
  cases (show otherSide.SameResult (.error (.outOfLimit "a" 5 1 0)) a' from an) with
  | error h =>
    generalize hx : (KError.outOfLimit "a" 5 1 0 : KError ℝ) = x at h
    cases h with
    | other _ no => exact absurd hx.symm (no _ _ _ _)
    | outOfLimit n x r =>
      injection hx with h1 h2 h3 h4
      have n0 : n = 0 := by
        by_contra h0
        by_cases h1' : n = 1
        · simp [otherSide, h1'] at h1
        · simp [otherSide, h0, h1'] at h1
      subst n0 h2
      have er : r = ⟨0, 1⟩ := by cases r; simp only at h3 h4; rw [h3, h4]
      have hs : ¬ otherSide.sign 0 = 1 := by norm_num [otherSide]
      rw [er, c, Coords.range, if_neg hs]
      norm_num [Coords.coord, otherSide]

/-! ## what depends on the direction -/

/-- **C91, printing.**  The direction of an axis is printed. -/
theorem C91_display : run (Chain.display 1 ⟨[2], [2], 1⟩) gantry = .ok "z [↕+Z]\n" gantry ∧
    run (Chain.display 1 ⟨[2], [2], 1⟩) (fromAbove.heap gantry) = .ok "z [↕-Z]\n" (fromAbove.heap gantry) := by
  have one : ∀ h : KHeap ℝ, h.held 2 = false → (h.get 2).children = [] →
      run (Chain.display 1 ⟨[2], [2], 1⟩) h = .ok (String.join [displayLine 0 (h.get 2)]) h := by
    intro h u e
    simp [Chain.display, Chain.fmtWithIndentLevel, run_bind, run_peek _ _ u, run_doLock_free _ _ u, e, mapList,
      Heap.setHeld_setHeld_false _ _ u]
  have t : ((fromAbove.heap gantry).get 2).joint.jointType = .linear ⟨0, 0, -1⟩ := fromAbove_joints.2.2.1
  have a1 : axisToString (⟨0, 0, 1⟩ : V3 ℝ) = "+Z" := by simp [axisToString, V3.beq, Scalar.eq]
  have a2 : axisToString (⟨0, 0, -1⟩ : V3 ℝ) = "-Z" := by
    norm_num [axisToString, V3.beq, Scalar.eq, V3.neg]
  refine ⟨?_, ?_⟩
  · rw [one _ rfl rfl]
    have : (gantry.get 2).joint.jointType.display = "[↕+Z]" := by
      show "[↕" ++ axisToString (⟨0, 0, 1⟩ : V3 ℝ) ++ "]" = _
      rw [a1]; rfl
    have n : displayLine 0 (gantry.get 2) = "" ++ ("z" ++ " " ++ (gantry.get 2).joint.jointType.display ++ "") ++ "\n" := rfl
    rw [n, this]
    rfl
  · rw [one _ rfl rfl]
    have : ((fromAbove.heap gantry).get 2).joint.jointType.display = "[↕-Z]" := by
      rw [t]
      show "[↕" ++ axisToString (⟨0, 0, -1⟩ : V3 ℝ) ++ "]" = _
      rw [a2]; rfl
    have n : displayLine 0 ((fromAbove.heap gantry).get 2) =
      "" ++ ("z" ++ " " ++ ((fromAbove.heap gantry).get 2).joint.jointType.display ++ "") ++ "\n" := rfl
    rw [n, this]
    rfl

/-- node 0 slides along x, node 1 along x or, if `s` is -1, in the other direction -/
def rails (s : ℝ) : KHeap ℝ :=
  { get := fun n =>
      if n = 0 then { NodeImpl.fresh (Joint.new "x" (.linear ⟨1, 0, 0⟩)) with children := [1] }
      else if n = 1 then { NodeImpl.fresh (Joint.new "y" (.linear ⟨s, 0, 0⟩)) with parent := some 0 }
      else NodeImpl.fresh (Joint.new "c" .fixed)
    next := 2, dead := fun _ => false, held := fun _ => false }

def railsArm : Chain := ⟨[0, 1], [0, 1], 2⟩

/-- the second joint counts in the other direction -/
def backwards : Coords where
  sign n := if n = 1 then -1 else 1
  shift _ := 0
  sourceSign _ := 1
  sourceShift _ := 0
  name n := if n = 0 then "x" else if n = 1 then "y" else "c"
  kind n := if n = 0 then .linear ⟨1, 0, 0⟩ else if n = 1 then .linear ⟨1, 0, 0⟩ else .fixed
  sign_sq n := by split <;> simp
  source_sq n := by simp
  unit n a e := .inl rfl

theorem rails_fits (n : NodeId) : backwards.Fits n ((rails 1).get n) := by
  by_cases h0 : n = 0
  · subst h0
    exact ⟨rfl, rfl, fun r e => by simp [rails, NodeImpl.fresh, Joint.new] at e, fun c hc => by
      simp [rails, NodeImpl.fresh] at hc⟩
  · by_cases h1 : n = 1
    · subst h1
      exact ⟨rfl, rfl, fun r e => by simp [rails, NodeImpl.fresh, Joint.new] at e, fun c hc => by
        simp [rails, NodeImpl.fresh] at hc⟩
    · have e : (rails 1).get n = NodeImpl.fresh (Joint.new "c" .fixed) := by simp [rails, h0, h1]
      rw [e]
      exact ⟨by simp [NodeImpl.fresh, Joint.new, backwards, h0, h1], by
        simp [NodeImpl.fresh, Joint.new, backwards, h0, h1], fun r e => by simp [NodeImpl.fresh, Joint.new] at e,
        fun c hc => by simp [NodeImpl.fresh] at hc⟩

theorem rails_heap : backwards.heap (rails 1) = rails (-1) := by
  have no : ∀ n (t : Iso ℝ), t.mul (backwards.correction n) = t := by
    intro n t
    have : backwards.correction n = Iso.one := by
      unfold Coords.correction
      simp only [backwards]
      split
      · simp [JointType.motion, V3.scale, Iso.one, V3.zero]
      · split <;> simp [JointType.motion, V3.scale, Iso.one, V3.zero]
    rw [this, Iso.mul_one']
  have : (fun n => backwards.node n ((rails 1).get n)) = (rails (-1)).get := by
    funext n
    by_cases h0 : n = 0
    · subst h0
      simp [rails, Coords.node, Coords.joint, NodeImpl.fresh, Joint.new, no]
      simp [backwards, JointType.directed, V3.scale, Coords.coord]
    · by_cases h1 : n = 1
      · subst h1
        simp [rails, Coords.node, Coords.joint, NodeImpl.fresh, Joint.new, no]
        simp [backwards, JointType.directed, V3.scale, Coords.coord]
      · simp [rails, Coords.node, Coords.joint, NodeImpl.fresh, Joint.new, no, h0, h1]
        simp [backwards, JointType.directed, Coords.coord, h1]
  show ({ get := fun n => backwards.node n ((rails 1).get n), next := 2, dead := _, held := _ } : KHeap ℝ) = _
  rw [this]
  rfl

theorem rails_arm {s : ℝ} (hs : s * s = 1) : RootedArm (rails s) railsArm where
  unlocked := fun _ => rfl
  wf := ⟨by simp [railsArm, rails, Movable, NodeImpl.fresh, Joint.new], rfl⟩
  root := ⟨0, [1], rfl, by simp [liveParent, rails, NodeImpl.fresh]⟩
  serial := by
    intro pre a b post e
    match pre, e with
    | [], e => cases e; simp [liveParent, rails]
    | [x], e => simp [railsArm] at e
    | x :: y :: pre, e => simp [railsArm] at e
  nodup := by simp [railsArm]
  rigid := by
    intro n hn
    have : n = 0 ∨ n = 1 := by simpa [railsArm] using hn
    rcases this with rfl | rfl
    · exact ⟨by simp [rails, NodeImpl.fresh, Joint.new, Iso.IsRigid, Iso.one, Quat.one_isUnit],
        by simp [rails, NodeImpl.fresh, Joint.new, V3.IsUnit]⟩
    · exact ⟨by simp [rails, NodeImpl.fresh, Joint.new, Iso.IsRigid, Iso.one, Quat.one_isUnit],
        by simp [rails, NodeImpl.fresh, Joint.new, V3.IsUnit, hs]⟩

/-- the local transforms with other joint positions -/
theorem rails_local {s : ℝ} {g : KHeap ℝ} (m : SameBut (rails s) g) {p q : ℝ} (h0 : (g.get 0).joint.position = p)
    (h1 : (g.get 1).joint.position = q) :
    (g.get 0).joint.localTransform = ⟨⟨p, 0, 0⟩, Quat.one⟩ ∧
    (g.get 1).joint.localTransform = ⟨⟨s * q, 0, 0⟩, Quat.one⟩ := by
  refine ⟨?_, ?_⟩
  · obtain ⟨x, a, b, e⟩ := m.node 0
    rw [e] at h0 ⊢
    simp only at h0
    subst h0
    show Iso.one.mul ⟨V3.scale ⟨1, 0, 0⟩ _, Quat.one⟩ = _
    rw [Iso.one_mul']
    simp [V3.scale]
  · obtain ⟨x, a, b, e⟩ := m.node 1
    rw [e] at h1 ⊢
    simp only at h1
    subst h1
    show Iso.one.mul ⟨V3.scale ⟨s, 0, 0⟩ _, Quat.one⟩ = _
    rw [Iso.one_mul']
    simp [V3.scale]

theorem rails_pose {s : ℝ} {g : KHeap ℝ} (m : SameBut (rails s) g) {p q : ℝ} (h0 : (g.get 0).joint.position = p)
    (h1 : (g.get 1).joint.position = q) : (endPose g railsArm.nodes).trans.x = p + s * q := by
  obtain ⟨a, b⟩ := rails_local m h0 h1
  simp only [endPose, railsArm, List.foldl_cons, List.foldl_nil, a, b, Iso.one_mul']
  simp [Iso.mul, Quat.rotate_one, V3.add]

theorem rails_jacobian {s : ℝ} (hs : s * s = 1) : ∃ g, run (jacobian railsArm) (rails s) =
    .ok [[1, 0, 0, 0, 0, 0], [s, 0, 0, 0, 0, 0]] g := by
  obtain ⟨jac, h', W, e, hW, rfl⟩ := jacobian_columns (rails s) (rails_arm hs).unlocked railsArm (rails_arm hs).wf 0 [1] rfl
    (rails_arm hs).serial (by simp [liveParent, rails, NodeImpl.fresh])
  refine ⟨h', ?_⟩
  rw [e]
  obtain ⟨a, b⟩ := rails_local (SameBut.refl (rails s)) (p := 0) (q := 0)
    (by simp [rails, NodeImpl.fresh, Joint.new]) (by simp [rails, NodeImpl.fresh, Joint.new])
  have one : (⟨⟨0, 0, 0⟩, Quat.one⟩ : Iso ℝ) = Iso.one := rfl
  rw [one] at a
  rw [mul_zero, one] at b
  have w0 : W 0 = Iso.one := by
    rw [hW [] 0 [1] rfl]; simp [prodFrom, a, Iso.one_mul']
  have w1 : W 1 = Iso.one := by
    rw [hW [0] 1 [] rfl]; simp [prodFrom, a, b, Iso.one_mul']
  have j0 : ((rails s).get 0).joint = Joint.new "x" (.linear ⟨1, 0, 0⟩) := rfl
  have j1 : ((rails s).get 1).joint = Joint.new "y" (.linear ⟨s, 0, 0⟩) := rfl
  simp [railsArm, j0, j1, w0, w1, colLin, colAng, twist, Joint.new, Iso.one, Quat.rotate_one, V3.zero]

/-- the first joint is to be left out -/
theorem rails_next {s : ℝ} (hs : s * s = 1) :
    nextPositions (mixedSolver 1) (defineOperationalSpace (onlyX ["x"])) [0] 2
      [[1, 0, 0, 0, 0, 0], [s, 0, 0, 0, 0, 0]] [1] [0, 0] = .ok (.ok [s]) := by
  have s0 : s ≠ 0 := fun e => by rw [e] at hs; norm_num at hs
  have x : exactLa.lu [[s]] [1] = some [s] := by
    show solveSquare 1 [[s]] [1] = some [s]
    have m : toMat 1 1 [[s]] = !![s] := by ext i j; fin_cases i; fin_cases j; simp [toMat]
    unfold solveSquare
    rw [m, Matrix.det_fin_one_of, if_neg s0]
    congr 1
    have i : (!![s] : Matrix (Fin 1) (Fin 1) ℝ)⁻¹ = !![s] := by
      refine Matrix.inv_eq_left_inv ?_
      ext i j; fin_cases i; fin_cases j; simp [Matrix.mul_apply, hs]
    rw [i]
    simp [dotProduct, toVec]
  simp only [nextPositions, onlyX_count]
  rw [removeRows_onlyX ["x"] _ (by simp)]
  simp [Bind.bind, Except.bind, removeIndices, mixedSolver, x, addPositionsWithMultiplier]

theorem rails_lenRot (x : ℝ) :
    targetDiffToLenRotDiff [x] (defineOperationalSpace (onlyX ["x"])) = (⟨x, 0, 0⟩, ⟨0, 0, 0⟩) := rfl

theorem rails_loop {s : ℝ} (hs : s * s = 1) : ∃ g, SameBut (rails s) g ∧ g.Unlocked ∧
    run (solveOneLoop (mixedSolver 1) railsArm (atX 1) (defineOperationalSpace (onlyX ["x"])) (sortedIndices [0]))
      (rails s) = .ok (.ok [1 - s]) g := by
  have l := rails_arm hs
  obtain ⟨h1, ej⟩ := rails_jacobian hs
  obtain ⟨ow, -⟩ := jacobian_ok railsArm _ h1 l.unlocked _ ej
  have z0 : ((rails s).get 0).joint.position = 0 := by simp [rails, NodeImpl.fresh, Joint.new]
  have z1 : ((rails s).get 1).joint.position = 0 := by simp [rails, NodeImpl.fresh, Joint.new]
  have pl : posList (rails s) railsArm.movableNodes = [0, 0] := by
    simp [posList, railsArm, z0, z1]
  have mv : Moved railsArm.nodes (rails s) (clampAll (railsArm.movableNodes.zip [s]) h1) :=
    ow.moved.trans (moved_clamp_chain (ow.moved.sameBut.chainWf l.wf) [s])
  have u1 := ow.moved.unlocked l.unlocked
  have u2 := mv.unlocked l.unlocked
  have pos : ((clampAll (railsArm.movableNodes.zip [s]) h1).get 0).joint.position = s ∧
      ((clampAll (railsArm.movableNodes.zip [s]) h1).get 1).joint.position = 0 := by
    show ((h1.modify 0 fun v => { v with joint := v.joint.setJointPositionClamped s }).get 0).joint.position = s ∧
      ((h1.modify 0 fun v => { v with joint := v.joint.setJointPositionClamped s }).get 1).joint.position = 0
    rw [Heap.get_modify_self, Heap.get_modify_of_ne _ _ (by decide), (ow.same 1).position, z1]
    have sw := ow.same 0
    unfold SameButWorld at sw
    rw [sw]
    simp [rails, NodeImpl.fresh, Joint.new, Joint.setJointPositionClamped, Joint.isMovable,
      Joint.setJointPositionUnchecked]
  refine ⟨_, mv.sameBut, u2, ?_⟩
  rw [sortedIndices_single]
  have diff : ∀ (g : KHeap ℝ) (x : ℝ), (endPose g railsArm.nodes).trans.x = x →
      calcPoseDiffWithConstraints (atX 1) (endPose g railsArm.nodes) (defineOperationalSpace (onlyX ["x"])) =
        [1 - x] := by
    intro g x e
    simp [calcPoseDiffWithConstraints, calcPoseDiff, defineOperationalSpace, onlyX, selectFlags, V3.sub, atX, e]
  have e0 := diff _ _ (rails_pose (SameBut.refl (rails s)) z0 z1)
  rw [mul_zero, add_zero, sub_zero] at e0
  simp only [solveOneLoop, run_bind, run_jointPositions _ l.unlocked _ l.wf, Res.bind_ok,
    run_endTransform _ _ l.unlocked, ej, e0]
  simp only [posList] at pl
  rw [pl, show railsArm.dof = 2 from rfl, rails_next hs]
  show Res.bind (Res.ok (Except.ok [s]) h1) _ = _
  simp only [run_bind, run_setJointPositionsClamped _ _ _ u1, Res.bind_ok, run_endTransform _ _ u2, run_pure]
  rw [diff _ _ (rails_pose mv.sameBut pos.1 pos.2), mul_zero, add_zero]

theorem rails_set {s : ℝ} {g : KHeap ℝ} (m : SameBut (rails s) g) (u : g.Unlocked) (xs : List ℝ) (hx : xs.length = 2) :
    ∃ g', SameBut (rails s) g' ∧ g'.Unlocked ∧ run (railsArm.setJointPositions xs) g = .ok (.ok ()) g' := by
  have no : ∀ n, ((rails s).get n).mimicChildren = [] ∧ ((rails s).get n).mimicParent = none ∧
      ((rails s).get n).joint.limits = none := by
    intro n
    simp only [rails]
    split
    · exact ⟨rfl, rfl, rfl⟩
    · split <;> exact ⟨rfl, rfl, rfl⟩
  have mv : ∀ n, n = 0 ∨ n = 1 → ((rails s).get n).joint.jointType ≠ .fixed := by
    rintro n (rfl | rfl) <;> simp [rails, NodeImpl.fresh, Joint.new]
  have wf : MimicWF g := fun n c hc => by
    rw [m.mimicChildren, (no n).1] at hc; cases hc
  have one : ∀ (g : KHeap ℝ), SameBut (rails s) g → ∀ n, n = 0 ∨ n = 1 → ∀ x, (setPos n x g).1 = .ok () := by
    intro g m n hn x
    have ty := mv n hn
    rw [← m.jointType n] at ty
    have li := (no n).2.2
    rw [← m.limits n] at li
    unfold setPos
    rw [m.mimicParent, (no n).2.1, m.mimicChildren, (no n).1]
    have : ((g.get n).joint.setJointPosition x).2 = .ok () := by
      simp [Joint.setJointPosition, Joint.isMovable, li]
    simp [this, mimicLoop]
  obtain ⟨a, b, rfl⟩ := List.length_eq_two.1 hx
  have m' := m.trans (sameBut_setAll (railsArm.movableNodes.zip [a, b]) g)
  refine ⟨_, m', m'.unlocked (fun _ => rfl), ?_⟩
  rw [run_setJointPositions railsArm _ g u wf rfl]
  have : (setAll (railsArm.movableNodes.zip [a, b]) g).1 = .ok () := by
    show (setAll [(0, a), (1, b)] g).1 = _
    simp only [setAll, one g m 0 (.inl rfl), one _ (m.trans (sameBut_setPos 0 a g)) 1 (.inr rfl)]
  rw [this]

/-- **C91, tasks with ignored joints.**  When as many joints remain as there are equations, the joint that is to be ignored
is moved, by the amount computed for another joint.  So whether a target is found depends on the direction in which the
other joint counts. -/
theorem C91_ignored : (∀ n, backwards.Fits n ((rails 1).get n)) ∧ (mixedSolver 1).la.SignFree ∧
    (∃ g, run (solveWithConstraints (mixedSolver 1) railsArm (atX 1) (onlyX ["x"])) (rails 1) = .ok (.ok ()) g) ∧
    ∃ a b g', run (solveWithConstraints (mixedSolver 1) railsArm (atX 1) (onlyX ["x"])) (backwards.heap (rails 1)) =
      .ok (.error (.notConverged 1 a b)) g' := by
  have n : ∀ x : ℝ, (V3.mk x 0 0).norm = |x| := fun x => by
    simp [V3.norm, Scalar.sqrt, Real.sqrt_mul_self_eq_abs]
  have ni : ∀ s, nameIndices (rails s) railsArm.movableNodes (onlyX ["x"]).ignoredJointNames = .ok [0] := by
    intro s
    have nm : ((rails s).get 0).joint.name = "x" := rfl
    simp [nameIndices, onlyX, railsArm, List.findIdx?_cons, nm]
  refine ⟨rails_fits, exactLa_signFree, ?_, ?_⟩
  · obtain ⟨g, m, u, e⟩ := rails_loop (s := 1) (by norm_num)
    have l := rails_arm (s := 1) (by norm_num)
    exact ⟨_, run_solve_reached l.unlocked l.wf rfl (by decide) (by decide) (ni 1) e (by
      rw [rails_lenRot]
      simp [reached, mixedSolver, n, Scalar.lt])⟩
  · rw [rails_heap]
    obtain ⟨g, m, u, e⟩ := rails_loop (s := -1) (by norm_num)
    have l := rails_arm (s := -1) (by norm_num)
    obtain ⟨g2, m2, u2, r2⟩ := rails_set m u (posList (rails (-1)) railsArm.movableNodes) rfl
    obtain ⟨g3, -, -, r3⟩ := rails_set m2 u2 (posList (rails (-1)) railsArm.movableNodes) rfl
    exact ⟨_, _, _, run_solve_unreached l.unlocked l.wf rfl (by decide) (by decide) (ni (-1)) e (by
      rw [rails_lenRot]
      norm_num [reached, mixedSolver, n, Scalar.lt]) r2 r3⟩

end

end K
