import Verif.Props.Flip
import Verif.Props.UnitsEx
import Verif.Props.Round
/-!
# C98: number types with laws of signs; exact linear algebra; concrete cases; what the mirror does change
-/

namespace K
open Prog Matrix

noncomputable section

/-! ## the laws of signs -/

instance : SignLaws ℝ where
  neg_neg := _root_.neg_neg
  neg_zero := _root_.neg_zero
  neg_mul := _root_.neg_mul
  mul_neg := _root_.mul_neg
  neg_add_neg a b := by ring
  neg_sub_neg a b := by ring
  neg_div a b := _root_.neg_div b a

/-- numbers that may be NaN -/
instance : SignLaws NReal where
  neg_neg a := by
    cases a with
    | nan => rfl
    | num x => exact congrArg NReal.num (_root_.neg_neg x)
  neg_zero := congrArg NReal.num _root_.neg_zero
  neg_mul a b := by
    cases a <;> cases b <;> first | rfl | exact congrArg NReal.num (_root_.neg_mul _ _)
  mul_neg a b := by
    cases a <;> cases b <;> first | rfl | exact congrArg NReal.num (_root_.mul_neg _ _)
  neg_add_neg a b := by
    cases a <;> cases b <;> first | rfl | exact congrArg NReal.num (by ring)
  neg_sub_neg a b := by
    cases a <;> cases b <;> first | rfl | exact congrArg NReal.num (by ring)
  neg_div a b := by
    cases b with
    | nan => rfl
    | num y =>
      show (if y = 0 then NReal.nan else NReal.map1 (· / y) (-a)) = -(if y = 0 then NReal.nan else NReal.map1 (· / y) a)
      split
      · rfl
      · cases a with
        | nan => rfl
        | num x => exact congrArg NReal.num (_root_.neg_div _ _)

/-- rounding that does not prefer a sign -/
structure Arith.SignFree (A : Arith) : Prop where
  add : ∀ a b, A.add (-a) (-b) = -A.add a b
  sub : ∀ a b, A.sub (-a) (-b) = -A.sub a b
  mul_left : ∀ a b, A.mul (-a) b = -A.mul a b
  mul_right : ∀ a b, A.mul a (-b) = -A.mul a b
  div : ∀ a b, A.div (-a) b = -A.div a b

/-- rounded arithmetic, as of the type `f64` without its exceptions -/
theorem Arith.SignFree.laws {A : Arith} (h : A.SignFree) : SignLaws (Fl A) where
  neg_neg a := by ext; simp
  neg_zero := by ext; simp
  neg_mul a b := by ext; exact h.mul_left _ _
  mul_neg a b := by ext; exact h.mul_right _ _
  neg_add_neg a b := by ext; exact h.add _ _
  neg_sub_neg a b := by ext; exact h.sub _ _
  neg_div a b := by ext; exact h.div _ _

/-! ## exact linear algebra -/

/-- the factors of the equations -/
def signs (r : List Bool) : Nat → ℝ := fun i => if r.getD i false then -1 else 1

theorem signs_sq (r : List Bool) (i : Nat) : signs r i * signs r i = 1 := by
  unfold signs; split <;> norm_num

theorem getD_flip (r : List Bool) (b : List ℝ) (i : Nat) : (Flip.list r b).getD i 0 = signs r i * b.getD i 0 := by
  induction r generalizing b i with
  | nil => cases b <;> simp [Flip.list, signs]
  | cons x r ih =>
    cases b with
    | nil => simp [Flip.list]
    | cons y b =>
      cases i with
      | zero => cases x <;> simp [Flip.list, signs, flipIf]
      | succ i =>
        have := ih b i
        simpa [Flip.list, signs] using this

def signMat (r : List Bool) (n : Nat) : Matrix (Fin n) (Fin n) ℝ := Matrix.diagonal fun i => signs r i.val

theorem signMat_sq (r : List Bool) (n : Nat) : signMat r n * signMat r n = 1 := by
  unfold signMat
  rw [Matrix.diagonal_mul_diagonal, ← Matrix.diagonal_one]
  congr 1
  funext i
  exact signs_sq r _

theorem signMat_inv (r : List Bool) (n : Nat) : (signMat r n)⁻¹ = signMat r n :=
  Matrix.inv_eq_left_inv (signMat_sq r n)

theorem signMat_det (r : List Bool) (n : Nat) : (signMat r n).det ≠ 0 := by
  intro h
  have := congrArg Matrix.det (signMat_sq r n)
  rw [Matrix.det_mul, h, Matrix.det_one] at this
  norm_num at this

theorem mul_signMat {k n : Nat} (r : List Bool) (P : Matrix (Fin k) (Fin n) ℝ) (j : Fin k) (i : Fin n) :
    (P * signMat r n) j i = P j i * signs r i.val := by
  unfold signMat; rw [Matrix.mul_diagonal]

theorem toVec_flip (n : Nat) (r : List Bool) (b : List ℝ) : toVec n (Flip.list r b) = signMat r n *ᵥ toVec n b := by
  funext i
  rw [signMat, Matrix.mulVec_diagonal]
  exact getD_flip r b i

theorem toMat_flip (n k : Nat) (r : List Bool) (J : Mat ℝ) : toMat n k (J.map (Flip.list r)) = signMat r n * toMat n k J := by
  ext i j
  rw [signMat, Matrix.diagonal_mul]
  have : (J.map (Flip.list r)).getD j.val [] = Flip.list r (J.getD j.val []) := by
    simp only [List.getD_eq_getElem?_getD, List.getElem?_map]
    cases J[j.val]? with
    | some c => rfl
    | none => cases r <;> rfl
  show ((J.map (Flip.list r)).getD j.val []).getD i.val 0 = _
  rw [this]
  exact getD_flip r _ i

theorem wide_flip (n k : Nat) (r : List Bool) (J : Mat ℝ) :
    (toMat n k (J.map (Flip.list r)))ᵀ *
      (toMat n k (J.map (Flip.list r)) * (toMat n k (J.map (Flip.list r)))ᵀ)⁻¹ =
    (toMat n k J)ᵀ * (toMat n k J * (toMat n k J)ᵀ)⁻¹ * signMat r n := by
  have t : (signMat r n)ᵀ = signMat r n := Matrix.diagonal_transpose _
  rw [toMat_flip, Matrix.transpose_mul, t, Matrix.mul_assoc (signMat r n), ← Matrix.mul_assoc (toMat n k J),
    Matrix.mul_inv_rev, Matrix.mul_inv_rev, signMat_inv]
  simp only [Matrix.mul_assoc]
  rw [← Matrix.mul_assoc (signMat r n) (signMat r n), signMat_sq, Matrix.one_mul]

/-- exact linear algebra does not depend on signs -/
theorem exactLa_rowSignFree : exactLa.RowSignFree where
  lu := by
    intro r J b _ _
    show solveSquare (Flip.list r b).length _ _ = solveSquare b.length J b
    rw [Flip.list_length]
    unfold solveSquare
    rw [toMat_flip, toVec_flip, Matrix.det_mul]
    simp only [mul_eq_zero, signMat_det, false_or]
    rw [Matrix.mul_inv_rev, Matrix.mulVec_mulVec, signMat_inv, Matrix.mul_assoc, signMat_sq, Matrix.mul_one]
  svd := by
    intro r J b _ _
    show solveWide (Flip.list r b).length (J.map (Flip.list r)).length _ _ = solveWide b.length J.length J b
    rw [Flip.list_length, List.length_map]
    unfold solveWide
    rw [wide_flip, toVec_flip, Matrix.mulVec_mulVec, Matrix.mul_assoc, signMat_sq, Matrix.mul_one]
  pinv := by
    intro r J hJ
    show pinvWide ((J.map (Flip.list r)).headD []).length (J.map (Flip.list r)).length _ =
      List.zipWith _ r (pinvWide (J.headD []).length J.length J)
    cases J with
    | nil => simp [pinvWide]
    | cons c J =>
      have h1 : (((c :: J).map (Flip.list r)).headD []).length = r.length := by
        show (Flip.list r c).length = _
        rw [Flip.list_length]
        exact hJ c (by simp)
      have h2 : ((c :: J).headD []).length = r.length := hJ c (by simp)
      rw [h1, h2, List.length_map]
      unfold pinvWide
      rw [wide_flip]
      refine List.ext_getElem (by simp) fun i x1 x2 => ?_
      have hi : i < r.length := by simpa using x1
      simp only [List.getElem_ofFn, List.getElem_zipWith, List.map_ofFn]
      congr 1
      funext j
      rw [mul_signMat]
      simp only [Function.comp, signs, List.getD_eq_getElem?_getD, List.getElem?_eq_getElem hi, Option.getD_some]
      cases r[i] <;> simp [flipIf]

/-! ## right and left -/

/-- the mirror between right and left -/
def sideways : Flip := ⟨false, true, false⟩

/-- the right arm: shoulder (node 0) at the right side, turning about z; elbow (node 1), turning about y; hand (node 2) -/
def starboardArm : KHeap ℝ :=
  { get := fun n =>
      if n = 0 then { NodeImpl.fresh { Joint.new (T := ℝ) "shoulder" (.rotational ⟨0, 0, 1⟩) with
        origin := ⟨⟨0, -1, 0⟩, Quat.one⟩ } with children := [1] }
      else if n = 1 then { NodeImpl.fresh { Joint.new (T := ℝ) "elbow" (.rotational ⟨0, 1, 0⟩) with
        origin := ⟨⟨2, 0, 0⟩, Quat.one⟩ } with parent := some 0, children := [2] }
      else { NodeImpl.fresh { Joint.new (T := ℝ) "hand" .fixed with origin := ⟨⟨2, 0, 0⟩, Quat.one⟩ } with parent := some 1 }
    next := 3, dead := fun _ => false, held := fun _ => false }

/-- the left arm: the shoulder is at the left side and turns the other way -/
def portArm : KHeap ℝ :=
  { get := fun n =>
      if n = 0 then { NodeImpl.fresh { Joint.new (T := ℝ) "shoulder" (.rotational ⟨0, 0, -1⟩) with
        origin := ⟨⟨0, 1, 0⟩, Quat.one⟩ } with children := [1] }
      else if n = 1 then { NodeImpl.fresh { Joint.new (T := ℝ) "elbow" (.rotational ⟨0, 1, 0⟩) with
        origin := ⟨⟨2, 0, 0⟩, Quat.one⟩ } with parent := some 0, children := [2] }
      else { NodeImpl.fresh { Joint.new (T := ℝ) "hand" .fixed with origin := ⟨⟨2, 0, 0⟩, Quat.one⟩ } with parent := some 1 }
    next := 3, dead := fun _ => false, held := fun _ => false }

def boardArm : Chain := ⟨[0, 1, 2], [0, 1], 2⟩

theorem left_is_mirrored : sideways.heap starboardArm = portArm := by
  have : (fun n => sideways.node (starboardArm.get n)) = portArm.get := by
    funext n
    by_cases h0 : n = 0
    · subst h0
      simp [starboardArm, portArm, Flip.node, Flip.joint, Flip.iso, Flip.vec, Flip.quat, Flip.jointType, Flip.turn, flipIf,
        sideways, NodeImpl.fresh, Joint.new, Quat.one]
    · by_cases h1 : n = 1
      · subst h1
        simp [starboardArm, portArm, Flip.node, Flip.joint, Flip.iso, Flip.vec, Flip.quat, Flip.jointType, Flip.turn, flipIf,
          sideways, NodeImpl.fresh, Joint.new, Quat.one]
      · simp [starboardArm, portArm, Flip.node, Flip.joint, Flip.iso, Flip.vec, Flip.quat, Flip.jointType, flipIf,
          sideways, NodeImpl.fresh, Joint.new, Quat.one, h0, h1]
  show ({ get := fun n => sideways.node (starboardArm.get n), next := 3, dead := _, held := _ } : KHeap ℝ) = _
  rw [this]
  rfl

/-- whatever inverse kinematics does with the right arm, it does in the mirror with the left arm: with the same positions
of the joints the left hand is at the mirrored target -/
theorem C98_arms (n : Nat) (target : Iso ℝ) (cs : Constraints) (r : Except (KError ℝ) Unit) (g : KHeap ℝ)
    (e : run (solveWithConstraints (swingSolver n) boardArm target cs) starboardArm = .ok r g) :
    run (solveWithConstraints (swingSolver n) boardArm (sideways.iso target) cs) portArm =
      .ok (sideways.result r) (sideways.heap g) ∧
    ∀ m, ((sideways.heap g).get m).joint.position = (g.get m).joint.position := by
  obtain ⟨a', e', an⟩ := (C98_call (F := sideways) (.solve (swingSolver n) boardArm target cs)
    (show (swingSolver n).la.RowSignFree from exactLa_rowSignFree) starboardArm).1 _ _ e
  rw [left_is_mirrored] at e'
  rw [show a' = sideways.result r from an] at e'
  exact ⟨e', fun _ => rfl⟩

/-- a mirrored gantry finds the mirrored target -/
theorem C98_gantry (F : Flip) (t : V3 ℝ) (ht : t.norm = 1) :
    ∃ g, run (solveWithConstraints (swingSolver 10) gantryArm ⟨t, Quat.one⟩ onlyPosition) gantry = .ok (.ok ()) g ∧
      run (solveWithConstraints (swingSolver 10) gantryArm ⟨F.vec t, Quat.one⟩ onlyPosition) (F.heap gantry) =
        .ok (.ok ()) (F.heap g) := by
  obtain ⟨g, e, -⟩ := C89_gantry t ht
  refine ⟨g, e, ?_⟩
  obtain ⟨a', e', an⟩ := (C98_call (F := F) (.solve (swingSolver 10) gantryArm ⟨t, Quat.one⟩ onlyPosition)
    (show (swingSolver 10).la.RowSignFree from exactLa_rowSignFree) gantry).1 _ _ e
  rw [show a' = F.result (.ok ()) from an] at e'
  have : F.iso ⟨t, Quat.one⟩ = ⟨F.vec t, Quat.one⟩ := by simp only [Flip.iso, Flip.quat_one]
  rw [← this]
  exact e'

/-- a client: raise the arm, look how far to the side the hand is, and tell whether it is further than the shoulder -/
def reachOut (side : ℝ) : Client ℝ Bool :=
  .call (.setJointPositions boardArm [1 / 2, 1]) fun _ =>
    .call (.endTransform boardArm) fun t => .done (Scalar.lt 1 (side * t.trans.y))

theorem C98_reachOut : run (reachOut 1).prog portArm = (run (reachOut (-1)).prog starboardArm).mirrored sideways := by
  rw [← left_is_mirrored]
  refine C98_sequential ?_ starboardArm
  refine .call (.setJointPositions boardArm [1 / 2, 1]) _ _ trivial fun _ _ _ =>
    .call (.endTransform boardArm) _ _ trivial fun t t' h => ?_
  have h : t' = sideways.iso t := h
  subst h
  have : (1 : ℝ) * (sideways.iso t).trans.y = -1 * t.trans.y := by simp [Flip.iso, Flip.vec, sideways, flipIf]
  rw [this]
  exact .done _

/-- the text of a chain does change: it shows the axes with their signs -/
theorem C98_text : (starboardArm.get 0).display = "shoulder [⚙+Z]" ∧
    ((sideways.heap starboardArm).get 0).display = "shoulder [⚙-Z]" := by
  rw [left_is_mirrored]
  refine ⟨?_, ?_⟩
  · have : axisToString (⟨0, 0, 1⟩ : V3 ℝ) = "+Z" := by
      simp [axisToString, V3.beq, Scalar.eq]
    simp only [starboardArm, NodeImpl.display, Joint.display, NodeImpl.fresh, Joint.new, JointType.display, if_true, this]
    rfl
  · have : axisToString (⟨0, 0, -1⟩ : V3 ℝ) = "-Z" := by
      norm_num [axisToString, V3.beq, Scalar.eq, V3.neg]
    simp only [portArm, NodeImpl.display, Joint.display, NodeImpl.fresh, Joint.new, JointType.display, if_true, this]
    rfl

/-! ## rounding -/

theorem greedy_signFree (u : ℝ) (u0 : 0 ≤ u) (u1 : u ≤ 1 / 2) : (greedy u u0 u1).SignFree where
  add a b := by show -a + -b = -(a + b); ring
  sub a b := by show -a - -b = -(a - b); ring
  mul_left a b := by show -a * b * (1 + u) = -(a * b * (1 + u)); ring
  mul_right a b := by show a * -b * (1 + u) = -(a * b * (1 + u)); ring
  div a b := by show -a / b = -(a / b); ring

/-- rounding errors have their mirror images too: with rounding that does not prefer a sign the computed pose of the
mirrored chain is exactly the mirror image of the computed pose -/
theorem C98_rounded {A : Arith} (free : A.SignFree) (F : Flip) (c : Chain) (h g : KHeap (Fl A)) (t : Iso (Fl A))
    (e : run c.endTransform h = .ok t g) : run c.endTransform (F.heap h) = .ok (F.iso t) (F.heap g) := by
  have := free.laws
  obtain ⟨t', e', an⟩ := (C98_call (T := Fl A) (F := F) (β := Iso (Fl A)) (.endTransform c) True.intro h).1 _ _ e
  rw [show t' = F.iso t from an] at e'
  exact e'

/-- sums are rounded upwards, everything else is exact -/
def upwards : Arith :=
  { greedy (1 / 2) (by norm_num) (by norm_num) with
    add := fun a b => a + b + |a + b| / 2
    add_err := fun a b => by
      show |a + b + |a + b| / 2 - (a + b)| ≤ 1 / 2 * |a + b|
      rw [show a + b + |a + b| / 2 - (a + b) = 1 / 2 * |a + b| by ring, abs_mul, abs_abs]
      norm_num
    mul := fun a b => a * b
    mul_err := fun a b => by
      show |a * b - a * b| ≤ 1 / 2 * |a * b|
      rw [sub_self, abs_zero]
      positivity }

/-- one fixed node at the distance `x` -/
def fixedAt (x : Fl upwards) : KHeap (Fl upwards) :=
  { get := fun _ => NodeImpl.fresh { Joint.new (T := Fl upwards) "p" .fixed with origin := ⟨⟨x, 0, 0⟩, Quat.one⟩ }
    next := 1, dead := fun _ => false, held := fun _ => false }

/-- rounding upwards: the computed positions of mirrored chains are not mirror images -/
theorem C98_upwards : ∃ t t' g g', run (Chain.endTransform ⟨[0], [], 0⟩) (fixedAt ⟨1⟩) = .ok t g ∧
    run (Chain.endTransform ⟨[0], [], 0⟩) ((⟨true, false, false⟩ : Flip).heap (fixedAt ⟨1⟩)) = .ok t' g' ∧
    t' ≠ (⟨true, false, false⟩ : Flip).iso t := by
  refine ⟨_, _, _, _, rfl, rfl, fun e => ?_⟩
  have := congrArg (fun t : Iso (Fl upwards) => t.trans.x.val) e
  simp only [Chain.foldTransform, fixedAt, NodeImpl.fresh, Joint.new, Joint.localTransform, Joint.jointTransform,
    Flip.heap, Flip.node, Flip.joint, Flip.iso, Flip.jointType, Flip.vec, Flip.quat, flipIf, Iso.mul, Iso.one, V3.add,
    V3.zero, Quat.rotate, Quat.one, Quat.vec, V3.scale, V3.cross, Fl.val_add, Fl.val_mul, Fl.val_sub, Fl.val_neg,
    Fl.val_zero, Fl.val_one] at this
  norm_num [upwards, greedy] at this

end

end K
