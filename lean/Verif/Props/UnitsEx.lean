import Verif.Props.Units
import Verif.Props.FrameEx
/-!
# C89: exact linear algebra works in all units; concrete cases; tasks that depend on the units
-/

namespace K
open Prog Matrix

noncomputable section

/-! ## exact linear algebra -/

theorem toVec_list {n : Nat} (r b : List ℝ) (lr : r.length = n) (lb : b.length = n) :
    toVec n (Units.list r b) = Matrix.diagonal (toVec n r) *ᵥ toVec n b := by
  funext i
  rw [Matrix.mulVec_diagonal, Units.list_eq_zip (by omega)]
  have h1 : i.val < r.length := by rw [lr]; exact i.2
  have h2 : i.val < b.length := by rw [lb]; exact i.2
  simp [toVec, List.getD_eq_getElem?_getD, h1, h2, mul_comm]

theorem toMat_list {n : Nat} (r c : List ℝ) (J : Mat ℝ) (lr : r.length = n) (lc : c.length = n) (lJ : J.length = n)
    (hJ : ∀ col ∈ J, col.length = n) :
    toMat n n (List.zipWith (fun l col => List.zipWith (fun k a => a * (k / l)) r col) c J) =
      Matrix.diagonal (toVec n r) * toMat n n J * Matrix.diagonal fun i => (toVec n c i)⁻¹ := by
  ext i j
  rw [Matrix.mul_diagonal, Matrix.diagonal_mul]
  have h1 : i.val < r.length := by rw [lr]; exact i.2
  have h2 : j.val < c.length := by rw [lc]; exact j.2
  have h3 : j.val < J.length := by rw [lJ]; exact j.2
  have h4 : i.val < (J[j.val]).length := by rw [hJ _ (List.getElem_mem h3)]; exact i.2
  simp [toMat, toVec, List.getD_eq_getElem?_getD, h1, h2, h3, h4]
  rw [div_eq_mul_inv]; ring

theorem toMat_scale (n k : Nat) (J : Mat ℝ) (x : ℝ) : toMat n k (J.map (List.map (· * x))) = x • toMat n k J := by
  ext i j
  simp only [toMat, Matrix.of_apply, Matrix.smul_apply, smul_eq_mul, List.getD_eq_getElem?_getD, List.getElem?_map]
  cases J[j.val]? with
  | none => simp
  | some col =>
    simp only [Option.map_some, Option.getD_some, List.getElem?_map]
    cases col[i.val]? <;> simp [mul_comm]

theorem toVec_scale (n : Nat) (b : List ℝ) (x : ℝ) : toVec n (b.map (· * x)) = x • toVec n b := by
  funext i
  simp only [toVec, Pi.smul_apply, smul_eq_mul, List.getD_eq_getElem?_getD, List.getElem?_map]
  cases b[i.val]? <;> simp [mul_comm]

theorem inv_scale {n : Nat} (M : Matrix (Fin n) (Fin n) ℝ) {x : ℝ} (hx : x ≠ 0) : (x • M)⁻¹ = x⁻¹ • M⁻¹ := by
  by_cases h : IsUnit M.det
  · have : Invertible x := invertibleOfNonzero hx
    rw [Matrix.inv_smul (k := x) M h, invOf_eq_inv]
  · have h' : ¬ IsUnit (x • M).det := by
      rw [Matrix.det_smul, isUnit_iff_ne_zero]
      rw [isUnit_iff_ne_zero, not_not] at h
      simp [h]
    rw [Matrix.nonsing_inv_apply_not_isUnit _ h, Matrix.nonsing_inv_apply_not_isUnit _ h', smul_zero]

theorem solveWide_units {k l : ℝ} (hk : 0 < k) (hl : 0 < l) (n m : Nat) (J : Mat ℝ) (b : List ℝ) :
    solveWide n m (J.map (List.map (· * (k / l)))) (b.map (· * k)) = (solveWide n m J b).map (· * l) := by
  unfold solveWide
  have hx : k / l * (k / l) ≠ 0 := by positivity
  have e : (k / l) • toMat n m J * ((k / l) • (toMat n m J)ᵀ) = (k / l * (k / l)) • (toMat n m J * (toMat n m J)ᵀ) := by
    rw [Matrix.smul_mul, Matrix.mul_smul, smul_smul]
  rw [toMat_scale, toVec_scale, Matrix.transpose_smul, e, inv_scale _ hx, Matrix.smul_mul, Matrix.mul_smul, smul_smul,
    Matrix.smul_mulVec, Matrix.mulVec_smul, smul_smul, List.map_ofFn]
  congr 1
  funext i
  simp only [Pi.smul_apply, smul_eq_mul, Function.comp]
  rw [mul_comm]
  congr 1
  field_simp

/-- exact linear algebra works in all units -/
theorem exactLa_unitFree : exactLa.UnitFree where
  lu_length := by
    intro J b x _ _ e
    have e : solveSquare b.length J b = some x := e
    unfold solveSquare at e
    split at e
    · cases e
    · cases e; simp
  lu := by
    intro r c J b pr pc lr lc lJ hJ
    show solveSquare (Units.list r b).length _ _ = (solveSquare b.length J b).map _
    rw [Units.list_length]
    generalize hn : b.length = n at *
    have pv : ∀ (v : List ℝ), v.length = n → (∀ k ∈ v, 0 < k) → ∀ i, toVec n v i ≠ 0 := by
      intro v lv h i
      have hi : i.val < v.length := by rw [lv]; exact i.2
      have : toVec n v i = v[i.val] := by simp [toVec, List.getD_eq_getElem?_getD, hi]
      rw [this]
      exact (h _ (List.getElem_mem hi)).ne'
    have rn := pv r lr pr
    have cn := pv c lc pc
    have d1 : (Matrix.diagonal (toVec n r)).det ≠ 0 := by
      rw [Matrix.det_diagonal]; exact Finset.prod_ne_zero_iff.2 fun i _ => rn i
    have d2 : (Matrix.diagonal fun i => (toVec n c i)⁻¹).det ≠ 0 := by
      rw [Matrix.det_diagonal]; exact Finset.prod_ne_zero_iff.2 fun i _ => inv_ne_zero (cn i)
    unfold solveSquare
    rw [toMat_list r c J lr lc lJ hJ, toVec_list r b lr hn, Matrix.det_mul, Matrix.det_mul]
    simp only [mul_eq_zero, d1, d2, false_or, or_false]
    split
    · rfl
    · have i1 : (Matrix.diagonal (toVec n r))⁻¹ * Matrix.diagonal (toVec n r) = 1 :=
        Matrix.nonsing_inv_mul _ (isUnit_iff_ne_zero.2 d1)
      have i2 : (Matrix.diagonal fun i => (toVec n c i)⁻¹)⁻¹ = Matrix.diagonal (toVec n c) := by
        refine Matrix.inv_eq_left_inv ?_
        rw [Matrix.diagonal_mul_diagonal, ← Matrix.diagonal_one]
        congr 1
        funext i
        exact mul_inv_cancel₀ (cn i)
      rw [Option.map_some, Matrix.mul_inv_rev, Matrix.mul_inv_rev, Matrix.mulVec_mulVec, i2]
      congr 1
      have : Matrix.diagonal (toVec n c) * ((toMat n n J)⁻¹ * (Matrix.diagonal (toVec n r))⁻¹) *
          Matrix.diagonal (toVec n r) = Matrix.diagonal (toVec n c) * (toMat n n J)⁻¹ := by
        rw [Matrix.mul_assoc, Matrix.mul_assoc, i1, Matrix.mul_one]
      rw [this, ← Matrix.mulVec_mulVec]
      refine toVec_inj List.length_ofFn (by rw [Units.list_length, List.length_ofFn]) ?_
      rw [toVec_ofFn, toVec_list _ _ lc List.length_ofFn, toVec_ofFn]
  svd := by
    intro k l J b hk hl _ _
    show solveWide (b.map (· * k)).length (J.map (List.map (· * (k / l)))).length _ _ =
      (solveWide b.length J.length J b).map _
    rw [List.length_map, List.length_map]
    exact solveWide_units hk hl _ _ J b
  pinv := by
    intro k l J v hk hl lt hJ
    have hd : (J.headD []).length = v.length := by
      cases J with
      | nil => simp at lt
      | cons c J => exact hJ c (by simp)
    have hd' : ((J.map (List.map (· * (k / l)))).headD []).length = v.length := by
      cases J with
      | nil => simp at lt
      | cons c J => exact (List.length_map _).trans (hJ c (by simp))
    show matVec J.length (pinvWide ((J.map (List.map (· * (k / l)))).headD []).length
        (J.map (List.map (· * (k / l)))).length _) _ =
      (matVec J.length (pinvWide (J.headD []).length J.length J) v).map _
    rw [hd, hd', List.length_map, pinvWide_apply _ _ _ _ (List.length_map _), pinvWide_apply _ _ _ _ rfl]
    exact solveWide_units hk hl _ _ J v

/-! ## millimetres -/

/-- metres to millimetres, kilograms to grams, seconds to minutes, for a robot with three linear joints 0, 1 and 2 -/
def milli : Units where
  len := 1000
  mass := 1000
  rate := 60
  coord n := if n < 3 then 1000 else 1
  source n := if n < 3 then 1000 else 1
  len_pos := by norm_num
  mass_pos := by norm_num
  rate_pos := by norm_num
  coord_pos n := by split <;> norm_num
  source_pos n := by split <;> norm_num

theorem gantry_fits (n : NodeId) : milli.Fits n (gantry.get n) := by
  by_cases h0 : n = 0
  · subst h0
    exact ⟨fun _ _ => rfl, fun a e => by simp [gantry, NodeImpl.fresh, Joint.new] at e, fun c hc => by
      simp [gantry, NodeImpl.fresh] at hc⟩
  · by_cases h1 : n = 1
    · subst h1
      exact ⟨fun _ _ => rfl, fun a e => by simp [gantry, NodeImpl.fresh, Joint.new] at e, fun c hc => by
        simp [gantry, NodeImpl.fresh] at hc⟩
    · by_cases h2 : n = 2
      · subst h2
        exact ⟨fun _ _ => rfl, fun a e => by simp [gantry, NodeImpl.fresh, Joint.new] at e, fun c hc => by
          simp [gantry, NodeImpl.fresh] at hc⟩
      · have e : gantry.get n = NodeImpl.fresh (Joint.new "c" .fixed) := by simp [gantry, h0, h1, h2]
        rw [e]
        exact ⟨fun a e => by simp [NodeImpl.fresh, Joint.new] at e, fun a e => by
          simp [NodeImpl.fresh, Joint.new] at e, fun c hc => by simp [NodeImpl.fresh] at hc⟩

theorem gantry_solveFits (n : Nat) : milli.SolveFits (swingSolver n) gantryArm onlyPosition :=
  ⟨rfl, exactLa_unitFree, .inl ⟨rfl, rfl⟩⟩

/-- a gantry described in millimetres finds a target one metre away, as the one described in metres does -/
theorem C89_gantry (t : V3 ℝ) (ht : t.norm = 1) :
    ∃ g, run (solveWithConstraints (swingSolver 10) gantryArm ⟨t, Quat.one⟩ onlyPosition) gantry = .ok (.ok ()) g ∧
      run (solveWithConstraints (milli.solver gantryArm (swingSolver 10)) gantryArm ⟨t.scale 1000, Quat.one⟩
        onlyPosition) (milli.heap gantry) = .ok (.ok ()) (milli.heap g) ∧
      (milli.solver gantryArm (swingSolver 10)).allowableTargetDistance = 10 := by
  obtain ⟨g, e⟩ := (C70_iff gantry_sliding (gantry_posed t 10) (by norm_num [swingSolver])).2 ⟨7, by omega, by
    show 7 ≤ 10; omega, by
    have : (posError onlyPosition ⟨t, Quat.one⟩ Iso.one).norm = 1 := by
      rw [← ht]
      simp [posError, masked, onlyPosition, V3.sub, Iso.one, V3.zero, V3.norm]
    rw [this]
    norm_num [swingSolver, abs_of_pos]⟩
  refine ⟨g, e, ?_, by norm_num [Units.solver, milli, swingSolver]⟩
  obtain ⟨a', e', an, -⟩ := (C89_call (U := milli) (.solve (swingSolver 10) gantryArm ⟨t, Quat.one⟩ onlyPosition) gantry
    gantry_fits (gantry_solveFits 10)).1 _ _ e
  cases (show milli.SameResult (.ok ()) a' from an)
  exact e'

/-- a client: move the joints, look where the end is, and tell whether it is more than a metre away -/
def lookFar (len : ℝ) : Client ℝ Bool :=
  .call (.setJointPositions gantryArm [len, 2 * len, 3 * len]) fun _ =>
    .call (.endTransform gantryArm) fun t => .done (Scalar.lt len t.trans.norm)

theorem C89_lookFar : run (lookFar 1000).prog (milli.heap gantry) = (run (lookFar 1).prog gantry).inUnits milli := by
  refine C89_sequential ?_ gantry gantry_fits
  have e : lookFar 1000 = .call (Call.inUnits milli (.setJointPositions gantryArm [1, 2 * 1, 3 * 1])) fun _ =>
      .call (Call.inUnits milli (.endTransform gantryArm)) fun t => .done (Scalar.lt (1000 : ℝ) t.trans.norm) := by
    unfold lookFar
    congr 2
    simp only [Units.coords, gantryArm, List.map_cons, List.map_nil, Units.list, milli]
    norm_num
  rw [e]
  refine .call _ _ _ trivial fun _ _ _ => .call _ _ _ trivial fun t t' h => ?_
  have h : t' = milli.iso t := h
  subst h
  have : Scalar.lt (1000 : ℝ) (milli.iso t).trans.norm = Scalar.lt 1 t.trans.norm := by
    show Scalar.lt (1000 : ℝ) (t.trans.scale 1000).norm = _
    rw [Units.norm_scale _ (by norm_num), ← Units.lt_scale (k := 1000) (by norm_num) 1, one_mul]
  rw [this]
  exact .done _

/-! ## tasks that depend on the units -/

/-- node 0 slides along x, node 1 turns about z, the tip (node 2) is at distance `k` from it in the direction -y -/
def mixed (k : ℝ) : KHeap ℝ :=
  { get := fun n =>
      if n = 0 then { NodeImpl.fresh (Joint.new "x" (.linear ⟨1, 0, 0⟩)) with children := [1] }
      else if n = 1 then { NodeImpl.fresh (Joint.new "r" (.rotational ⟨0, 0, 1⟩)) with
        parent := some 0, children := [2] }
      else if n = 2 then { NodeImpl.fresh { Joint.new "tip" .fixed with origin := ⟨⟨0, -k, 0⟩, Quat.one⟩ } with
        parent := some 1 }
      else NodeImpl.fresh (Joint.new "c" .fixed)
    next := 3, dead := fun _ => false, held := fun _ => false }

def mixedArm : Chain := ⟨[0, 1, 2], [0, 1], 2⟩

def mixedSolver (d : ℝ) : IkSolver ℝ := ⟨d, 1, 1, 1, none, exactLa⟩

/-- half of the unit of length -/
def halves : Units where
  len := 2
  mass := 1
  rate := 1
  coord n := if n = 0 then 2 else 1
  source _ := 1
  len_pos := by norm_num
  mass_pos := by norm_num
  rate_pos := by norm_num
  coord_pos n := by split <;> norm_num
  source_pos n := by norm_num

theorem mixed_fits (k : ℝ) (n : NodeId) : halves.Fits n ((mixed k).get n) := by
  by_cases h0 : n = 0
  · subst h0
    exact ⟨fun _ _ => rfl, fun a e => by simp [mixed, NodeImpl.fresh, Joint.new] at e, fun c hc => by
      simp [mixed, NodeImpl.fresh] at hc⟩
  · by_cases h1 : n = 1
    · subst h1
      exact ⟨fun a e => by simp [mixed, NodeImpl.fresh, Joint.new] at e, fun _ _ => rfl, fun c hc => by
        simp [mixed, NodeImpl.fresh] at hc⟩
    · have e : ((mixed k).get n).joint.jointType = .fixed ∧ ((mixed k).get n).mimicChildren = [] := by
        simp only [mixed, if_neg h0, if_neg h1]
        split <;> exact ⟨rfl, rfl⟩
      have f := e.1
      refine ⟨fun a h => ?_, fun a h => ?_, fun c hc => ?_⟩
      · rw [f] at h; cases h
      · rw [f] at h; cases h
      · rw [e.2] at hc; cases hc

theorem mixed_heap (k : ℝ) : halves.heap (mixed k) = mixed (2 * k) := by
  have o : halves.iso Iso.one = Iso.one := Units.iso_one
  have ot : halves.iso ⟨⟨0, -k, 0⟩, Quat.one⟩ = ⟨⟨0, -(2 * k), 0⟩, Quat.one⟩ := by
    simp [Units.iso, halves, V3.scale, mul_comm]
  have : (fun n => halves.node n ((mixed k).get n)) = (mixed (2 * k)).get := by
    funext n
    by_cases h0 : n = 0
    · subst h0; simp [mixed, Units.node, Units.joint, NodeImpl.fresh, Joint.new, o]
    · by_cases h1 : n = 1
      · subst h1; simp [mixed, Units.node, Units.joint, NodeImpl.fresh, Joint.new, o]
      · by_cases h2 : n = 2
        · subst h2; simp [mixed, Units.node, Units.joint, NodeImpl.fresh, Joint.new, ot]
        · simp [mixed, Units.node, Units.joint, NodeImpl.fresh, Joint.new, o, h0, h1, h2]
  show ({ get := fun n => halves.node n ((mixed k).get n), next := 3, dead := _, held := _ } : KHeap ℝ) = _
  rw [this]
  rfl

theorem mixed_arm (k : ℝ) : RootedArm (mixed k) mixedArm where
  unlocked := fun _ => rfl
  wf := ⟨by simp [mixedArm, mixed, Movable, NodeImpl.fresh, Joint.new], rfl⟩
  root := ⟨0, [1, 2], rfl, by simp [liveParent, mixed, NodeImpl.fresh]⟩
  serial := by
    intro pre a b post e
    match pre, e with
    | [], e => cases e; simp [liveParent, mixed]
    | [x], e => cases e; simp [liveParent, mixed]
    | [x, y], e => simp [mixedArm] at e
    | x :: y :: z :: pre, e => simp [mixedArm] at e
  nodup := by simp [mixedArm]
  rigid := by
    intro n hn
    have : n = 0 ∨ n = 1 ∨ n = 2 := by simpa [mixedArm] using hn
    rcases this with rfl | rfl | rfl
    · exact ⟨by simp [mixed, NodeImpl.fresh, Joint.new, Iso.IsRigid, Iso.one, Quat.one_isUnit],
        by simp [mixed, NodeImpl.fresh, Joint.new, V3.IsUnit]⟩
    · exact ⟨by simp [mixed, NodeImpl.fresh, Joint.new, Iso.IsRigid, Iso.one, Quat.one_isUnit],
        by simp [mixed, NodeImpl.fresh, Joint.new, V3.IsUnit]⟩
    · exact ⟨by simp [mixed, NodeImpl.fresh, Joint.new, Iso.IsRigid, Quat.one_isUnit],
        by simp [mixed, NodeImpl.fresh, Joint.new]⟩

/-- the local transforms of the arm with other joint positions -/
theorem mixed_local {k : ℝ} {g : KHeap ℝ} (m : SameBut (mixed k) g) {p q : ℝ} (h0 : (g.get 0).joint.position = p)
    (h1 : (g.get 1).joint.position = q) :
    (g.get 0).joint.localTransform = ⟨⟨p, 0, 0⟩, Quat.one⟩ ∧
    (g.get 1).joint.localTransform = ⟨V3.zero, Quat.fromAxisAngle ⟨0, 0, 1⟩ q⟩ ∧
    (g.get 2).joint.localTransform = ⟨⟨0, -k, 0⟩, Quat.one⟩ := by
  refine ⟨?_, ?_, ?_⟩
  · obtain ⟨x, a, b, e⟩ := m.node 0
    rw [e] at h0 ⊢
    simp only at h0
    subst h0
    show Iso.one.mul ⟨V3.scale ⟨1, 0, 0⟩ _, Quat.one⟩ = _
    rw [Iso.one_mul']
    simp [V3.scale]
  · obtain ⟨x, a, b, e⟩ := m.node 1
    rw [e] at h1 ⊢
    simp only at h1
    subst h1
    show Iso.one.mul ⟨V3.zero, _⟩ = _
    rw [Iso.one_mul']
  · obtain ⟨x, a, b, e⟩ := m.node 2
    rw [e]
    show Iso.mul ⟨⟨0, -k, 0⟩, Quat.one⟩ Iso.one = _
    rw [Iso.mul_one']

theorem axisAngle_zero : Quat.fromAxisAngle ⟨0, 0, 1⟩ (0 : ℝ) = Quat.one := by
  simp [Quat.fromAxisAngle, Quat.one, Scalar.cos, Scalar.sin]

theorem mixed_pose {k : ℝ} {g : KHeap ℝ} (m : SameBut (mixed k) g) {p q : ℝ} (h0 : (g.get 0).joint.position = p)
    (h1 : (g.get 1).joint.position = q) : (endPose g mixedArm.nodes).trans.x = p + k * Real.sin q := by
  obtain ⟨a, b, c⟩ := mixed_local m h0 h1
  simp only [endPose, mixedArm, List.foldl_cons, List.foldl_nil, a, b, c, Iso.one_mul']
  have s : Real.sin q = 2 * Real.sin (q / 2) * Real.cos (q / 2) := by
    rw [← Real.sin_two_mul]; congr 1; ring
  simp [Iso.mul, Quat.fromAxisAngle, Quat.rotate, Quat.mul, Quat.one, Quat.vec, V3.cross, V3.scale, V3.add, V3.zero,
    Scalar.cos, Scalar.sin, s]
  ring_nf

theorem mixed_jacobian (k : ℝ) : ∃ g, run (jacobian mixedArm) (mixed k) =
    .ok [[1, 0, 0, 0, 0, 0], [k, 0, 0, 0, 0, 1]] g := by
  obtain ⟨jac, h', W, e, hW, rfl⟩ := jacobian_columns (mixed k) (mixed_arm k).unlocked mixedArm (mixed_arm k).wf 0 [1, 2] rfl
    (mixed_arm k).serial (by simp [liveParent, mixed, NodeImpl.fresh])
  refine ⟨h', ?_⟩
  rw [e]
  obtain ⟨a, b, c⟩ := mixed_local (SameBut.refl (mixed k)) (p := 0) (q := 0)
    (by simp [mixed, NodeImpl.fresh, Joint.new]) (by simp [mixed, NodeImpl.fresh, Joint.new])
  rw [axisAngle_zero] at b
  have one : (⟨⟨0, 0, 0⟩, Quat.one⟩ : Iso ℝ) = Iso.one := rfl
  have one' : (⟨V3.zero, Quat.one⟩ : Iso ℝ) = Iso.one := rfl
  rw [one] at a
  rw [one'] at b
  have w0 : W 0 = Iso.one := by
    rw [hW [] 0 [1, 2] rfl]; simp [prodFrom, a, Iso.one_mul']
  have w1 : W 1 = Iso.one := by
    rw [hW [0] 1 [2] rfl]; simp [prodFrom, a, b, Iso.one_mul']
  have w2 : endPose (mixed k) mixedArm.nodes = ⟨⟨0, -k, 0⟩, Quat.one⟩ := by
    simp only [endPose, mixedArm, List.foldl_cons, List.foldl_nil, a, b, c, Iso.one_mul']
  have j0 : ((mixed k).get 0).joint = Joint.new "x" (.linear ⟨1, 0, 0⟩) := rfl
  have j1 : ((mixed k).get 1).joint = Joint.new "r" (.rotational ⟨0, 0, 1⟩) := rfl
  simp [mixedArm, j0, j1, w0, w1, w2, colLin, colAng, twist, Joint.new, Iso.one, Quat.rotate_one, V3.zero, V3.cross,
    V3.sub] at w2 ⊢

/-- a step of the solver that sets the positions to `p` and `q` -/
theorem mixed_loop {k d : ℝ} {names : List String} {ign : List Nat} {ps : List ℝ} {p q : ℝ}
    (np : nextPositions (mixedSolver d) (defineOperationalSpace (onlyX names)) ign 2
      [[1, 0, 0, 0, 0, 0], [k, 0, 0, 0, 0, 1]] [2 * k] [0, 0] = .ok (.ok ps))
    (hp : ps = [p] ∧ q = 0 ∨ ps = [p, q]) :
    ∃ g, SameBut (mixed k) g ∧ g.Unlocked ∧ (g.get 0).joint.position = p ∧ (g.get 1).joint.position = q ∧
      run (solveOneLoop (mixedSolver d) mixedArm (atX (2 * k)) (defineOperationalSpace (onlyX names)) ign) (mixed k) =
        .ok (.ok [2 * k - (p + k * Real.sin q)]) g := by
  have l := mixed_arm k
  obtain ⟨h1, ej⟩ := mixed_jacobian k
  obtain ⟨ow, -⟩ := jacobian_ok mixedArm _ h1 l.unlocked _ ej
  have z0 : ((mixed k).get 0).joint.position = 0 := by simp [mixed, NodeImpl.fresh, Joint.new]
  have z1 : ((mixed k).get 1).joint.position = 0 := by simp [mixed, NodeImpl.fresh, Joint.new]
  have pl : posList (mixed k) mixedArm.movableNodes = [0, 0] := by
    simp [posList, mixedArm, z0, z1]
  have mv : Moved mixedArm.nodes (mixed k) (clampAll (mixedArm.movableNodes.zip ps) h1) :=
    ow.moved.trans (moved_clamp_chain (ow.moved.sameBut.chainWf l.wf) ps)
  have u1 := ow.moved.unlocked l.unlocked
  have u2 := mv.unlocked l.unlocked
  have free : ∀ n, n = 0 ∨ n = 1 → ∀ x : ℝ, ((h1.get n).joint.setJointPositionClamped x).position = x := by
    intro n hn x
    have sw := ow.same n
    unfold SameButWorld at sw
    rw [sw]
    rcases hn with rfl | rfl <;>
      simp [mixed, NodeImpl.fresh, Joint.new, Joint.setJointPositionClamped, Joint.isMovable,
        Joint.setJointPositionUnchecked]
  have pos : ((clampAll (mixedArm.movableNodes.zip ps) h1).get 0).joint.position = p ∧
      ((clampAll (mixedArm.movableNodes.zip ps) h1).get 1).joint.position = q := by
    rcases hp with ⟨rfl, rfl⟩ | rfl
    · show ((h1.modify 0 fun s => { s with joint := s.joint.setJointPositionClamped p }).get 0).joint.position = p ∧
        ((h1.modify 0 fun s => { s with joint := s.joint.setJointPositionClamped p }).get 1).joint.position = 0
      rw [Heap.get_modify_self, Heap.get_modify_of_ne _ _ (by decide), (ow.same 1).position, z1]
      exact ⟨free 0 (.inl rfl) p, rfl⟩
    · show (((h1.modify 0 fun s => { s with joint := s.joint.setJointPositionClamped p }).modify 1 fun s =>
          { s with joint := s.joint.setJointPositionClamped q }).get 0).joint.position = p ∧
        (((h1.modify 0 fun s => { s with joint := s.joint.setJointPositionClamped p }).modify 1 fun s =>
          { s with joint := s.joint.setJointPositionClamped q }).get 1).joint.position = q
      rw [Heap.get_modify_of_ne _ _ (by decide), Heap.get_modify_self, Heap.get_modify_self,
        Heap.get_modify_of_ne _ _ (by decide)]
      exact ⟨free 0 (.inl rfl) p, free 1 (.inr rfl) q⟩
  refine ⟨_, mv.sameBut, u2, pos.1, pos.2, ?_⟩
  have diff : ∀ (g : KHeap ℝ) (x : ℝ), (endPose g mixedArm.nodes).trans.x = x →
      calcPoseDiffWithConstraints (atX (2 * k)) (endPose g mixedArm.nodes) (defineOperationalSpace (onlyX names)) =
        [2 * k - x] := by
    intro g x e
    simp [calcPoseDiffWithConstraints, calcPoseDiff, defineOperationalSpace, onlyX, selectFlags, V3.sub, atX, e]
  have e0 := diff _ _ (mixed_pose (SameBut.refl (mixed k)) z0 z1)
  rw [Real.sin_zero, mul_zero, add_zero, sub_zero] at e0
  simp only [solveOneLoop, run_bind, run_jointPositions _ l.unlocked _ l.wf, Res.bind_ok,
    run_endTransform _ _ l.unlocked, ej, e0]
  simp only [posList] at pl
  rw [pl, show mixedArm.dof = 2 from rfl, np]
  show Res.bind (Res.ok (Except.ok ps) h1) _ = _
  simp only [run_bind, run_setJointPositionsClamped _ _ _ u1, Res.bind_ok, run_endTransform _ _ u2, run_pure]
  rw [diff _ _ (mixed_pose mv.sameBut pos.1 pos.2)]

theorem mixed_lenRot (names : List String) (x : ℝ) :
    targetDiffToLenRotDiff [x] (defineOperationalSpace (onlyX names)) = (⟨x, 0, 0⟩, ⟨0, 0, 0⟩) := rfl

/-- the shortest step -/
theorem mixed_next {k : ℝ} (hk : 0 < k) (d : ℝ) :
    nextPositions (mixedSolver d) (defineOperationalSpace (onlyX [])) [] 2
      [[1, 0, 0, 0, 0, 0], [k, 0, 0, 0, 0, 1]] [2 * k] [0, 0] =
      .ok (.ok [2 * k / (1 + k * k), 2 * k * k / (1 + k * k)]) := by
  have hd : (toMat 1 2 [[1], [k]] * (toMat 1 2 [[1], [k]])ᵀ).det ≠ 0 := by
    have : toMat 1 2 [[1], [k]] * (toMat 1 2 [[1], [k]])ᵀ = !![1 + k * k] := by
      ext i j; fin_cases i; fin_cases j; simp [toMat, Matrix.mul_apply, Fin.sum_univ_two]
    rw [this, Matrix.det_fin_one_of]
    positivity
  obtain ⟨l, s, mi⟩ := exactLa_exact.svd 1 2 [[1], [k]] rfl (by simp) hd [2 * k] rfl
  have x : exactLa.svdSolve [[1], [k]] [2 * k] = [2 * k / (1 + k * k), 2 * k * k / (1 + k * k)] := by
    generalize exactLa.svdSolve [[1], [k]] [2 * k] = v at *
    obtain ⟨a, b, rfl⟩ := List.length_eq_two.1 l
    have e : a + k * b = 2 * k := by
      have := s 0 (by omega)
      simpa [rowSum] using this
    have z : (1 + k * k) ≠ 0 := by positivity
    have m := mi [2 * k / (1 + k * k), 2 * k * k / (1 + k * k)] rfl (by
      intro i hi
      have : i = 0 := by omega
      subst this
      simp [rowSum]
      field_simp)
    simp at m
    have n : (2 * k / (1 + k * k)) ^ 2 + (2 * k * k / (1 + k * k)) ^ 2 = (2 * k) * (2 * k / (1 + k * k)) := by
      field_simp
    have c : (a - 2 * k / (1 + k * k)) ^ 2 + (b - 2 * k * k / (1 + k * k)) ^ 2 ≤ 0 := by
      have c1 : a * (2 * k / (1 + k * k)) + b * (2 * k * k / (1 + k * k)) = (2 * k) * (2 * k / (1 + k * k)) := by
        rw [← e]
        field_simp
      nlinarith
    have s1 := sq_nonneg (a - 2 * k / (1 + k * k))
    have s2 := sq_nonneg (b - 2 * k * k / (1 + k * k))
    have ea : a = 2 * k / (1 + k * k) := sub_eq_zero.1 ((pow_eq_zero_iff two_ne_zero).1 (by linarith))
    have eb : b = 2 * k * k / (1 + k * k) := sub_eq_zero.1 ((pow_eq_zero_iff two_ne_zero).1 (by linarith))
    rw [ea, eb]
  simp only [nextPositions, onlyX_count]
  rw [removeRows_onlyX [] _ (by simp)]
  simp [Bind.bind, Except.bind, removeIndices, insertZeros, mixedSolver, x, addPositionsWithMultiplier]

theorem mixed_solve {k : ℝ} (hk : 0 < k) : ∃ g,
    run (solveWithConstraints (mixedSolver (100 * k)) mixedArm (atX (2 * k)) (onlyX [])) (mixed k) = .ok (.ok ()) g ∧
      (g.get 1).joint.position = 2 * k * k / (1 + k * k) := by
  have l := mixed_arm k
  obtain ⟨g, m, u, -, p1, e⟩ := mixed_loop (mixed_next hk (100 * k)) (.inr rfl)
  rw [← sortedIndices_nil] at e
  have re := run_solve_reached l.unlocked l.wf rfl (by decide) (by decide) (is := []) rfl e (by
    rw [mixed_lenRot]
    have b1 := Real.neg_one_le_sin (2 * k * k / (1 + k * k))
    have b2 := Real.sin_le_one (2 * k * k / (1 + k * k))
    have b3 : 0 ≤ 2 * k / (1 + k * k) := by positivity
    have b4 : 2 * k / (1 + k * k) ≤ 2 * k := div_le_self (by positivity) (by nlinarith)
    have n : ∀ x : ℝ, (V3.mk x 0 0).norm = |x| := fun x => by
      simp [V3.norm, Scalar.sqrt, Real.sqrt_mul_self_eq_abs]
    simp only [reached, mixedSolver, n, Scalar.lt, abs_zero]
    rw [decide_eq_true (show |2 * k - (2 * k / (1 + k * k) + k * Real.sin (2 * k * k / (1 + k * k)))| < 100 * k by
      rw [abs_lt]; constructor <;> nlinarith)]
    simp)
  refine ⟨_, re, ?_⟩
  show (((g.modify 0 fun s => { s with joint := s.joint.setJointPositionClamped _ }).modify 1 fun s =>
    { s with joint := s.joint.setJointPositionClamped (g.get 1).joint.position }).get 1).joint.position = _
  rw [Heap.get_modify_self, Heap.get_modify_of_ne _ _ (by decide), ← p1]
  obtain ⟨x, a, b, en⟩ := m.node 1
  rw [en]
  simp [mixed, NodeImpl.fresh, Joint.new, Joint.setJointPositionClamped, Joint.isMovable,
    Joint.setJointPositionUnchecked]

/-- **C89, redundant tasks that mix joints of both kinds.**  Which of the many solutions is found depends on the unit of
length: with more joints than equations the shortest step is taken, and that adds squares of lengths and angles.  The
joint turns by 1 when lengths are given in one unit and by 8/5 when they are given in the half of it. -/
theorem C89_mixed : (∀ n, halves.Fits n ((mixed 1).get n)) ∧ (mixedSolver 100).la.UnitFree ∧
    ∃ g g', run (solveWithConstraints (mixedSolver 100) mixedArm (atX 2) (onlyX [])) (mixed 1) = .ok (.ok ()) g ∧
      run (solveWithConstraints (halves.solver mixedArm (mixedSolver 100)) mixedArm (halves.iso (atX 2)) (onlyX []))
        (halves.heap (mixed 1)) = .ok (.ok ()) g' ∧
      (g.get 1).joint.position = 1 ∧ (g'.get 1).joint.position = 8 / 5 := by
  refine ⟨mixed_fits 1, exactLa_unitFree, ?_⟩
  obtain ⟨g, e, p⟩ := mixed_solve (k := 1) one_pos
  obtain ⟨g', e', p'⟩ := mixed_solve (k := 2) two_pos
  rw [mul_one, mul_one] at e
  refine ⟨g, g', e, ?_, by rw [p]; norm_num, by rw [p']; norm_num⟩
  have s : halves.solver mixedArm (mixedSolver 100) = mixedSolver (100 * 2) := rfl
  have t : halves.iso (atX 2) = atX (2 * 2) := by
    simp [Units.iso, halves, atX, V3.scale]
  rw [s, t, mixed_heap, mul_one]
  exact e'

/-- the joint that slides is to be left out -/
theorem mixed_next_ignored {k : ℝ} (hk : 0 < k) (d : ℝ) :
    nextPositions (mixedSolver d) (defineOperationalSpace (onlyX ["x"])) [0] 2
      [[1, 0, 0, 0, 0, 0], [k, 0, 0, 0, 0, 1]] [2 * k] [0, 0] = .ok (.ok [2]) := by
  have x : exactLa.lu [[k]] [2 * k] = some [2] := by
    show solveSquare 1 [[k]] [2 * k] = some [2]
    have m : toMat 1 1 [[k]] = !![k] := by ext i j; fin_cases i; fin_cases j; simp [toMat]
    unfold solveSquare
    rw [m, Matrix.det_fin_one_of, if_neg hk.ne']
    congr 1
    have i : (!![k] : Matrix (Fin 1) (Fin 1) ℝ)⁻¹ = !![k⁻¹] := by
      refine Matrix.inv_eq_left_inv ?_
      ext i j; fin_cases i; fin_cases j; simp [Matrix.mul_apply, hk.ne']
    rw [i]
    simp [dotProduct, toVec]
    field_simp
  simp only [nextPositions, onlyX_count]
  rw [removeRows_onlyX ["x"] _ (by simp)]
  simp [Bind.bind, Except.bind, removeIndices, mixedSolver, x, addPositionsWithMultiplier]

theorem mixed_ignored_loop {k : ℝ} (hk : 0 < k) (d : ℝ) : ∃ g, SameBut (mixed k) g ∧ g.Unlocked ∧
    run (solveOneLoop (mixedSolver d) mixedArm (atX (2 * k)) (defineOperationalSpace (onlyX ["x"])) (sortedIndices [0]))
      (mixed k) = .ok (.ok [2 * k - 2]) g := by
  obtain ⟨g, m, u, -, -, e⟩ := mixed_loop (mixed_next_ignored hk d) (.inl ⟨rfl, rfl⟩)
  rw [Real.sin_zero, mul_zero, add_zero] at e
  exact ⟨g, m, u, by rw [sortedIndices_single]; exact e⟩

theorem mixed_set {k : ℝ} {g : KHeap ℝ} (m : SameBut (mixed k) g) (xs : List ℝ) (hx : xs.length = 2) :
    ∃ g', SameBut (mixed k) g' ∧ run (mixedArm.setJointPositions xs) g = .ok (.ok ()) g' := by
  have no : ∀ n, ((mixed k).get n).mimicChildren = [] ∧ ((mixed k).get n).mimicParent = none ∧
      ((mixed k).get n).joint.limits = none := by
    intro n
    simp only [mixed]
    split
    · exact ⟨rfl, rfl, rfl⟩
    · split
      · exact ⟨rfl, rfl, rfl⟩
      · split <;> exact ⟨rfl, rfl, rfl⟩
  have mv : ∀ n, n = 0 ∨ n = 1 → ((mixed k).get n).joint.jointType ≠ .fixed := by
    rintro n (rfl | rfl) <;> simp [mixed, NodeImpl.fresh, Joint.new]
  have wf : MimicWF g := fun n c hc => by
    rw [m.mimicChildren, (no n).1] at hc; cases hc
  have one : ∀ (g : KHeap ℝ), SameBut (mixed k) g → ∀ n, n = 0 ∨ n = 1 → ∀ x, (setPos n x g).1 = .ok () := by
    intro g m n hn x
    have ty := mv n hn
    rw [← m.jointType n] at ty
    have li := (no n).2.2
    rw [← m.limits n] at li
    unfold setPos
    rw [m.mimicParent, (no n).2.1, m.mimicChildren, (no n).1]
    have : ((g.get n).joint.setJointPosition x).2 = .ok () := by
      simp [Joint.setJointPosition, Joint.isMovable, li]
    simp [this, mimicLoop]
  obtain ⟨a, b, rfl⟩ := List.length_eq_two.1 hx
  refine ⟨_, m.trans (sameBut_setAll (mixedArm.movableNodes.zip [a, b]) g), ?_⟩
  rw [run_setJointPositions mixedArm _ g (m.unlocked (mixed_arm k).unlocked) wf rfl]
  have : (setAll (mixedArm.movableNodes.zip [a, b]) g).1 = .ok () := by
    show (setAll [(0, a), (1, b)] g).1 = _
    simp only [setAll, one g m 0 (.inl rfl), one _ (m.trans (sameBut_setPos 0 a g)) 1 (.inr rfl)]
  rw [this]

/-- **C89, tasks with ignored joints.**  When as many joints remain as there are equations, the joint that is to be ignored
is moved, by the amount computed for another joint.  So whether a target is found depends on the unit of length. -/
theorem C89_ignored : (∀ n, halves.Fits n ((mixed 1).get n)) ∧ (mixedSolver 1).la.UnitFree ∧
    (∃ g, run (solveWithConstraints (mixedSolver 1) mixedArm (atX 2) (onlyX ["x"])) (mixed 1) = .ok (.ok ()) g) ∧
    ∃ a b g', run (solveWithConstraints (halves.solver mixedArm (mixedSolver 1)) mixedArm (halves.iso (atX 2))
      (onlyX ["x"])) (halves.heap (mixed 1)) = .ok (.error (.notConverged 1 a b)) g' := by
  have n : ∀ x : ℝ, (V3.mk x 0 0).norm = |x| := fun x => by
    simp [V3.norm, Scalar.sqrt, Real.sqrt_mul_self_eq_abs]
  have ni : ∀ k, nameIndices (mixed k) mixedArm.movableNodes (onlyX ["x"]).ignoredJointNames = .ok [0] := by
    intro k
    have nm : ((mixed k).get 0).joint.name = "x" := rfl
    simp [nameIndices, onlyX, mixedArm, List.findIdx?_cons, nm]
  refine ⟨mixed_fits 1, exactLa_unitFree, ?_, ?_⟩
  · obtain ⟨g, m, u, e⟩ := mixed_ignored_loop (k := 1) one_pos 1
    rw [mul_one] at e
    exact ⟨_, run_solve_reached (mixed_arm 1).unlocked (mixed_arm 1).wf rfl (by decide) (by decide) (ni 1) e (by
      rw [mixed_lenRot]
      simp [reached, mixedSolver, n, Scalar.lt])⟩
  · obtain ⟨g, m, u, e⟩ := mixed_ignored_loop (k := 2) two_pos 2
    have s : halves.solver mixedArm (mixedSolver 1) = mixedSolver 2 := by
      simp [Units.solver, mixedSolver, halves]
    have t : halves.iso (atX 2) = atX (2 * 2) := by
      simp [Units.iso, halves, atX, V3.scale]
    rw [s, t, mixed_heap, mul_one]
    have r : ∀ g, SameBut (mixed 2) g → ∃ g', SameBut (mixed 2) g' ∧
        run (mixedArm.setJointPositions (posList (mixed 2) mixedArm.movableNodes)) g = .ok (.ok ()) g' :=
      fun g m => mixed_set m _ rfl
    obtain ⟨g2, m2, r2⟩ := r g m
    obtain ⟨g3, -, r3⟩ := r g2 m2
    exact ⟨_, _, _, run_solve_unreached (mixed_arm 2).unlocked (mixed_arm 2).wf rfl (by decide) (by decide) (ni 2) e (by
      rw [mixed_lenRot]
      norm_num [reached, mixedSolver, n, Scalar.lt]) r2 r3⟩

end

end K
