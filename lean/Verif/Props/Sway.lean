import Verif.Spec.Sway
import Verif.Props.Reach
/-!
# C95: how far the end of a chain moves when its joints move
-/

namespace K
open Prog

noncomputable section

theorem chord_nonneg (d : ℝ) : 0 ≤ chord d := mul_nonneg (by norm_num) (abs_nonneg _)

theorem chord_sq (d : ℝ) : chord d ^ 2 = 2 * (1 - Real.cos d) := by
  have e : Real.cos d = 1 - 2 * Real.sin (d / 2) ^ 2 := by
    have := Real.cos_sq' (d / 2)
    have c := Real.cos_two_mul (d / 2)
    rw [show 2 * (d / 2) = d by ring] at c
    rw [c, this]; ring
  rw [chord, mul_pow, sq_abs, e]; ring

/-- the chord is no longer than the arc, and no longer than the diameter -/
theorem chord_le (d : ℝ) : chord d ≤ |d| ∧ chord d ≤ 2 := by
  constructor
  · have := Real.abs_sin_le_abs (x := d / 2)
    rw [abs_div, abs_of_pos (by norm_num : (0 : ℝ) < 2)] at this
    unfold chord; linarith
  · have := Real.abs_sin_le_one (d / 2)
    unfold chord; linarith

/-- turning a vector about a unit axis by `x` and by `y`: the two results are at most the chord of the
difference times the length of the vector apart -/
theorem turn_apart {a : V3 ℝ} (ha : a.IsUnit) (x y : ℝ) (v : V3 ℝ) :
    (((Quat.fromAxisAngle a y).rotate v).sub ((Quat.fromAxisAngle a x).rotate v)).norm ≤
      chord (y - x) * v.norm := by
  refine abs_le_of_sq_le_sq' ?_ (mul_nonneg (chord_nonneg _) v.norm_nonneg') |>.2
  rw [rotate_fromAxisAngle ha, rotate_fromAxisAngle ha, mul_pow, chord_sq, Real.cos_sub]
  simp only [V3.IsUnit] at ha
  have sx := Real.sin_sq_add_cos_sq x
  have sy := Real.sin_sq_add_cos_sq y
  set cx := Real.cos x
  set cy := Real.cos y
  set s := Real.sin x
  set t := Real.sin y
  have k0 : 0 ≤ 2 * (1 - (cy * cx + t * s)) := by nlinarith [sq_nonneg (cx - cy), sq_nonneg (s - t)]
  have e : ((((v.scale cy).add ((a.cross v).scale t)).add (a.scale (a.dot v * (1 - cy)))).sub
      (((v.scale cx).add ((a.cross v).scale s)).add (a.scale (a.dot v * (1 - cx))))).norm ^ 2 =
      2 * (1 - (cy * cx + t * s)) * (v.norm ^ 2 - (a.dot v) ^ 2) := by
    rw [norm_sq, norm_sq]
    simp only [V3.sub, V3.add, V3.scale, V3.cross, V3.dot]
    linear_combination ((t - s) ^ 2 * (v.x * v.x + v.y * v.y + v.z * v.z) +
      (cy - cx) ^ 2 * (a.x * v.x + a.y * v.y + a.z * v.z) ^ 2) * ha +
      ((v.x * v.x + v.y * v.y + v.z * v.z) - (a.x * v.x + a.y * v.y + a.z * v.z) ^ 2) * sx +
      ((v.x * v.x + v.y * v.y + v.z * v.z) - (a.x * v.x + a.y * v.y + a.z * v.z) ^ 2) * sy
  rw [e]
  nlinarith [mul_nonneg k0 (sq_nonneg (a.dot v))]

/-- a rigid motion keeps distances -/
theorem Iso.apart {a : Iso ℝ} (ha : a.IsRigid) (v w : V3 ℝ) :
    ((a.apply v).sub (a.apply w)).norm = (v.sub w).norm := by
  have e : (a.apply v).sub (a.apply w) = a.rot.rotate (v.sub w) := by
    rw [Quat.rotate_sub]
    ext <;> simp only [Iso.apply, V3.sub, V3.add] <;> ring
  rw [e, Quat.norm_rotate ha]

theorem V3.norm_zero' : (V3.zero : V3 ℝ).norm = 0 := by simp [V3.norm, V3.zero, Scalar.sqrt]
theorem V3.sub_self' (v : V3 ℝ) : v.sub v = V3.zero := by
  ext <;> simp [V3.sub, V3.zero]
theorem V3.sub_split (a b c : V3 ℝ) : a.sub c = (a.sub b).add (b.sub c) := by
  ext <;> simp only [V3.sub, V3.add] <;> ring

theorem extent_eq (js : List (Joint ℝ)) : extent js = (js.map stepLength).sum := by
  induction js with
  | nil => rfl
  | cons j js ih => rw [extent, ih, List.map_cons, List.sum_cons]; rfl

/-- the joints of `ns` in `h`, with the positions they have in `h'` -/
def moves (h h' : KHeap ℝ) (ns : List NodeId) : List (Joint ℝ × ℝ) :=
  ns.map fun n => ((h.get n).joint, (h'.get n).joint.position)

theorem moves_fst (h h' : KHeap ℝ) (ns : List NodeId) :
    (moves h h' ns).map (·.1) = ns.map fun n => (h.get n).joint := by
  simp [moves, Function.comp_def]

theorem endPose_cons {h : KHeap ℝ} {n : NodeId} {ns : List NodeId} (ar : AllRigid h (n :: ns)) :
    endPose h (n :: ns) = (h.get n).joint.localTransform.mul (endPose h ns) := by
  have e := prodFrom_mul h ns (fun m hm => ar m (by simp [hm])) (h.get n).joint.localTransform
    (Joint.localTransform_isRigid (ar n (by simp)))
  unfold endPose
  rw [List.foldl_cons, Iso.one_mul']
  exact e

theorem endPose_rigid {h : KHeap ℝ} {ns : List NodeId} (ar : AllRigid h ns) : (endPose h ns).IsRigid :=
  foldl_mul_rigid h ns ar _ Iso.one_isRigid

theorem endPose_apply_norm {h : KHeap ℝ} {ns : List NodeId} (ar : AllRigid h ns) (p : V3 ℝ) :
    ((endPose h ns).apply p).norm ≤ extent (ns.map fun n => (h.get n).joint) + p.norm := by
  have a := V3.norm_add_le (endPose h ns).trans ((endPose h ns).rot.rotate p)
  rw [Quat.norm_rotate (endPose_rigid ar)] at a
  have b := prodFrom_norm h ns ar Iso.one Iso.one_isRigid
  have z : (Iso.one : Iso ℝ).trans.norm = 0 := V3.norm_zero'
  rw [z, _root_.zero_add] at b
  rw [extent_eq, List.map_map]
  exact a.trans (add_le_add_left b _)

/-- one joint moves a point at `v` in its frame -/
theorem joint_apart {j : Joint ℝ} (r : j.IsRigid) (j' : Joint ℝ) (eo : j'.origin = j.origin)
    (et : j'.jointType = j.jointType) (v : V3 ℝ) :
    ((j'.localTransform.apply v).sub (j.localTransform.apply v)).norm ≤ match j.jointType with
      | .fixed => 0
      | .linear _ => |j'.position - j.position|
      | .rotational _ => chord (j'.position - j.position) * v.norm := by
  have r' : j'.IsRigid := by unfold Joint.IsRigid; rw [eo, et]; exact r
  have e : (j'.localTransform.apply v).sub (j.localTransform.apply v) =
      (j.origin.apply (j'.jointTransform.apply v)).sub (j.origin.apply (j.jointTransform.apply v)) := by
    unfold Joint.localTransform
    rw [Iso.apply_mul r'.1 (Joint.jointTransform_isRigid r'), Iso.apply_mul r.1
      (Joint.jointTransform_isRigid r), eo]
  rw [e, Iso.apart r.1]
  have ax := r.2
  cases t : j.jointType with
  | fixed =>
    rw [t] at et
    simp only [Joint.jointTransform, t, et, V3.sub_self', V3.norm_zero', le_refl]
  | linear a =>
    rw [t] at et ax
    have d : (j'.jointTransform.apply v).sub (j.jointTransform.apply v) =
        a.scale (j'.position - j.position) := by
      simp only [Joint.jointTransform, t, et]
      ext <;> simp only [Iso.apply, V3.sub, V3.add, V3.scale, Quat.rotate_one] <;> ring
    rw [d, V3.norm_scale, V3.IsUnit.norm ax, _root_.one_mul]
  | rotational a =>
    rw [t] at et ax
    have d : (j'.jointTransform.apply v).sub (j.jointTransform.apply v) =
        ((Quat.fromAxisAngle a j'.position).rotate v).sub ((Quat.fromAxisAngle a j.position).rotate v) := by
      simp only [Joint.jointTransform, t, et]
      ext <;> simp only [Iso.apply, V3.sub, V3.add, _root_.zero_add]
    rw [d]
    exact turn_apart ax _ _ v

/-- one joint turns a direction `v` given in its frame -/
theorem joint_turn {j : Joint ℝ} (r : j.IsRigid) (j' : Joint ℝ) (eo : j'.origin = j.origin)
    (et : j'.jointType = j.jointType) (v : V3 ℝ) :
    ((j'.localTransform.rot.rotate v).sub (j.localTransform.rot.rotate v)).norm ≤ (match j.jointType with
      | .rotational _ => chord (j'.position - j.position)
      | _ => 0) * v.norm := by
  have r' : j'.IsRigid := by unfold Joint.IsRigid; rw [eo, et]; exact r
  have e : (j'.localTransform.rot.rotate v).sub (j.localTransform.rot.rotate v) =
      j.origin.rot.rotate ((j'.jointTransform.rot.rotate v).sub (j.jointTransform.rot.rotate v)) := by
    rw [Quat.rotate_sub, ← Quat.rotate_mul r.1 (Joint.jointTransform_isRigid r), ← eo,
      ← Quat.rotate_mul r'.1 (Joint.jointTransform_isRigid r')]
    rw [eo]; simp only [Joint.localTransform, Iso.mul, eo]
  rw [e, Quat.norm_rotate r.1]
  have ax := r.2
  cases t : j.jointType with
  | fixed =>
    rw [t] at et
    simp [Joint.jointTransform, t, et, V3.sub_self', V3.norm_zero']
  | linear a =>
    rw [t] at et
    simp [Joint.jointTransform, t, et, V3.sub_self', V3.norm_zero']
  | rotational a =>
    rw [t] at et ax
    simp only [Joint.jointTransform, t, et]
    exact turn_apart ax _ _ v

theorem endPose_apart {h h' : KHeap ℝ} (sb : SameBut h h') {ns : List NodeId} (ar : AllRigid h ns) (p : V3 ℝ) :
    (((endPose h' ns).apply p).sub ((endPose h ns).apply p)).norm ≤ sway p.norm (moves h h' ns) := by
  induction ns with
  | nil => simp [endPose, V3.sub_self', V3.norm_zero', moves, sway]
  | cons n ns ih =>
    have arn : AllRigid h ns := fun m hm => ar m (by simp [hm])
    have ar' := sb.allRigid ar
    have arn' := sb.allRigid arn
    have r := ar n (by simp)
    have r' := ar' n (by simp)
    have ih := ih arn
    rw [endPose_cons ar, endPose_cons ar', Iso.apply_mul (Joint.localTransform_isRigid r) (endPose_rigid arn),
      Iso.apply_mul (Joint.localTransform_isRigid r') (endPose_rigid arn'),
      V3.sub_split _ ((h'.get n).joint.localTransform.apply ((endPose h ns).apply p))]
    refine (V3.norm_add_le _ _).trans ?_
    rw [Iso.apart (Joint.localTransform_isRigid r'), _root_.add_comm]
    have eo : (h'.get n).joint.origin = (h.get n).joint.origin := by
      obtain ⟨q, wt, wv, e⟩ := sb.node n; rw [e]
    have et : (h'.get n).joint.jointType = (h.get n).joint.jointType := by
      obtain ⟨q, wt, wv, e⟩ := sb.node n; rw [e]
    have one := joint_apart r (h'.get n).joint eo et ((endPose h ns).apply p)
    have len := endPose_apply_norm arn p
    have c0 := chord_nonneg ((h'.get n).joint.position - (h.get n).joint.position)
    show _ ≤ sway p.norm (((h.get n).joint, (h'.get n).joint.position) :: moves h h' ns)
    rw [sway, moves_fst]
    refine add_le_add (one.trans ?_) ih
    cases (h.get n).joint.jointType with
    | fixed => exact le_rfl
    | linear a => exact le_rfl
    | rotational a => exact mul_le_mul_of_nonneg_left len c0

theorem endPose_turned {h h' : KHeap ℝ} (sb : SameBut h h') {ns : List NodeId} (ar : AllRigid h ns) (v : V3 ℝ) :
    (((endPose h' ns).rot.rotate v).sub ((endPose h ns).rot.rotate v)).norm ≤
      turning (moves h h' ns) * v.norm := by
  induction ns with
  | nil => simp [endPose, V3.sub_self', V3.norm_zero', moves, turning]
  | cons n ns ih =>
    have arn : AllRigid h ns := fun m hm => ar m (by simp [hm])
    have ar' := sb.allRigid ar
    have arn' := sb.allRigid arn
    have r := ar n (by simp)
    have r' := ar' n (by simp)
    have ih := ih arn
    have e1 : ((h.get n).joint.localTransform.mul (endPose h ns)).rot.rotate v =
        (h.get n).joint.localTransform.rot.rotate ((endPose h ns).rot.rotate v) :=
      Quat.rotate_mul (Joint.localTransform_isRigid r) (endPose_rigid arn) v
    have e2 : ((h'.get n).joint.localTransform.mul (endPose h' ns)).rot.rotate v =
        (h'.get n).joint.localTransform.rot.rotate ((endPose h' ns).rot.rotate v) :=
      Quat.rotate_mul (Joint.localTransform_isRigid r') (endPose_rigid arn') v
    rw [endPose_cons ar, endPose_cons ar', e1, e2,
      V3.sub_split _ ((h'.get n).joint.localTransform.rot.rotate ((endPose h ns).rot.rotate v))]
    refine (V3.norm_add_le _ _).trans ?_
    rw [← Quat.rotate_sub, Quat.norm_rotate (Joint.localTransform_isRigid r'), _root_.add_comm]
    have eo : (h'.get n).joint.origin = (h.get n).joint.origin := by
      obtain ⟨q, wt, wv, e⟩ := sb.node n; rw [e]
    have et : (h'.get n).joint.jointType = (h.get n).joint.jointType := by
      obtain ⟨q, wt, wv, e⟩ := sb.node n; rw [e]
    have one := joint_turn r (h'.get n).joint eo et ((endPose h ns).rot.rotate v)
    rw [Quat.norm_rotate (endPose_rigid arn)] at one
    show _ ≤ turning (((h.get n).joint, (h'.get n).joint.position) :: moves h h' ns) * _
    rw [turning, _root_.add_mul]
    exact add_le_add one ih

/-- **C95** (points).  Take two states of a robot that differ in the positions of the joints and in the
cached poses only.  Between them, a point fixed to the end of a chain, at `p` in the coordinates of the
end, moves no farther than the strokes of the linear joints of the chain, plus, for each rotational joint,
the chord of its turn times the length of what comes after it up to the point. -/
theorem C95_points (c : Chain) (h h' : KHeap ℝ) (u : h.Unlocked) (sb : SameBut h h') (ar : AllRigid h c.nodes) :
    ∃ X X', run c.endTransform h = .ok X h ∧ run c.endTransform h' = .ok X' h' ∧
      ∀ p : V3 ℝ, ((X'.apply p).sub (X.apply p)).norm ≤ sway p.norm (moves h h' c.nodes) :=
  ⟨_, _, run_endTransform c h u, run_endTransform c h' (sb.unlocked u), fun p => endPose_apart sb ar p⟩

/-- **C95** (directions).  A direction fixed to the end changes no more than the chords of the turns of the
rotational joints add up to; what the linear joints do does not matter. -/
theorem C95_directions (c : Chain) (h h' : KHeap ℝ) (u : h.Unlocked) (sb : SameBut h h')
    (ar : AllRigid h c.nodes) :
    ∃ X X', run c.endTransform h = .ok X h ∧ run c.endTransform h' = .ok X' h' ∧
      ∀ v : V3 ℝ, ((X'.rot.rotate v).sub (X.rot.rotate v)).norm ≤ turning (moves h h' c.nodes) * v.norm :=
  ⟨_, _, run_endTransform c h u, run_endTransform c h' (sb.unlocked u), fun v => endPose_turned sb ar v⟩

/-! ## what it means for the calls -/

/-- **C95** (`set_joint_positions`).  Whether the call on `c` returns `Ok` or `Err`, and whatever joints
follow the ones that are set, the bound holds for the end of every chain `d` of the robot. -/
theorem C95_set_joint_positions (c d : Chain) (xs : List ℝ) (h : KHeap ℝ) (u : h.Unlocked) (wf : MimicWF h)
    (len : xs.length = c.dof) (ar : AllRigid h d.nodes) :
    ∃ r h' X X', run (c.setJointPositions xs) h = .ok r h' ∧ run d.endTransform h = .ok X h ∧
      run d.endTransform h' = .ok X' h' ∧
      (∀ p : V3 ℝ, ((X'.apply p).sub (X.apply p)).norm ≤ sway p.norm (moves h h' d.nodes)) ∧
      ∀ v : V3 ℝ, ((X'.rot.rotate v).sub (X.rot.rotate v)).norm ≤ turning (moves h h' d.nodes) * v.norm := by
  have sb := sameBut_setAll (c.movableNodes.zip xs) h
  exact ⟨_, _, _, _, run_setJointPositions c xs h u wf len, run_endTransform d h u,
    run_endTransform d _ (sb.unlocked u), fun p => endPose_apart sb ar p, fun v => endPose_turned sb ar v⟩

/-- **C95** (`solve`).  After a solve that returned `Ok` the end of the arm is no farther from where it was
than the joints of the arm moved. -/
theorem C95_solve (s : IkSolver ℝ) (arm : Chain) (target : Iso ℝ) (c : Constraints) (h h' : KHeap ℝ)
    (u : h.Unlocked) (w : arm.Wf h) (ar : AllRigid h arm.nodes)
    (e : run (solveWithConstraints s arm target c) h = .ok (.ok ()) h') :
    ∃ X X', run arm.endTransform h = .ok X h ∧ run arm.endTransform h' = .ok X' h' ∧
      ∀ p : V3 ℝ, ((X'.apply p).sub (X.apply p)).norm ≤ sway p.norm (moves h h' arm.nodes) :=
  C95_points arm h h' u (solve_sameBut u w e) ar

/-- the most that an end at distance `r` moves per unit of joint motion -/
def gain (h : KHeap ℝ) (ns : List NodeId) (r : ℝ) : ℝ :=
  ns.length * (1 + (extent (ns.map fun n => (h.get n).joint) + r))

theorem extent_nonneg (js : List (Joint ℝ)) : 0 ≤ extent js := by
  induction js with
  | nil => exact le_rfl
  | cons j js ih =>
    rw [extent]
    have := V3.norm_nonneg' j.origin.trans
    cases j.jointType <;> simp <;> positivity

theorem sway_le {h h' : KHeap ℝ} {ns : List NodeId} {r ε : ℝ} (r0 : 0 ≤ r) (e0 : 0 ≤ ε)
    (hm : ∀ n ∈ ns, |(h'.get n).joint.position - (h.get n).joint.position| ≤ ε) :
    sway r (moves h h' ns) ≤ gain h ns r * ε := by
  suffices ∀ L, extent (ns.map fun n => (h.get n).joint) ≤ L →
      sway r (moves h h' ns) ≤ ns.length * (1 + (L + r)) * ε from this _ le_rfl
  induction ns with
  | nil => intro L _; simp [moves, sway]
  | cons n ns ih =>
    intro L hL
    have m1 := hm n (by simp)
    have x0 := extent_nonneg (ns.map fun n => (h.get n).joint)
    have le : extent (ns.map fun n => (h.get n).joint) ≤ L := by
      refine le_trans ?_ hL
      rw [List.map_cons, extent]
      have := V3.norm_nonneg' (h.get n).joint.origin.trans
      cases (h.get n).joint.jointType with
      | linear a => have := abs_nonneg (h.get n).joint.position; simp only; linarith
      | _ => simp only; linarith
    have ih := ih (fun m hm' => hm m (by simp [hm'])) L le
    show sway r (((h.get n).joint, (h'.get n).joint.position) :: moves h h' ns) ≤ _
    rw [sway, moves_fst, List.length_cons, Nat.cast_succ]
    have L0 : 0 ≤ L + r := by linarith
    have le0 := mul_nonneg L0 e0
    have first : (match (h.get n).joint.jointType with
      | .fixed => 0
      | .linear _ => |(h'.get n).joint.position - (h.get n).joint.position|
      | .rotational _ => chord ((h'.get n).joint.position - (h.get n).joint.position) *
          (extent (ns.map fun n => (h.get n).joint) + r)) ≤ (1 + (L + r)) * ε := by
      cases (h.get n).joint.jointType with
      | fixed => simp only; nlinarith
      | linear a => simp only; nlinarith
      | rotational a =>
        simp only
        have := (chord_le ((h'.get n).joint.position - (h.get n).joint.position)).1.trans m1
        have := mul_le_mul this (_root_.add_le_add le (le_refl r)) (by linarith) e0
        nlinarith
    exact (_root_.add_le_add first ih).trans (le_of_eq (by ring))

/-- **C95** (continuity).  The pose of the end depends continuously on the joints: for each point of the
tool and each `ε > 0` there is a `δ > 0` such that, whatever joints move by no more than `δ` each, the point
moves by less than `ε`. -/
theorem C95_continuous (c : Chain) (h : KHeap ℝ) (u : h.Unlocked) (ar : AllRigid h c.nodes) (p : V3 ℝ) (ε : ℝ)
    (e0 : 0 < ε) : ∃ δ > 0, ∀ h', SameBut h h' →
      (∀ n ∈ c.nodes, |(h'.get n).joint.position - (h.get n).joint.position| ≤ δ) →
      ∃ X X', run c.endTransform h = .ok X h ∧ run c.endTransform h' = .ok X' h' ∧
        ((X'.apply p).sub (X.apply p)).norm < ε := by
  have g0 : 0 ≤ gain h c.nodes p.norm := by
    have := extent_nonneg (c.nodes.map fun n => (h.get n).joint)
    have := p.norm_nonneg'
    unfold gain; positivity
  refine ⟨ε / (gain h c.nodes p.norm + 1), by positivity, fun h' sb hm => ?_⟩
  obtain ⟨X, X', e, e', b⟩ := C95_points c h h' u sb ar
  refine ⟨X, X', e, e', lt_of_le_of_lt ((b p).trans (sway_le p.norm_nonneg' (by positivity) hm)) ?_⟩
  rw [mul_div_assoc', div_lt_iff₀ (by positivity)]
  nlinarith

/-! ## the columns of the Jacobian -/

theorem moves_self_left {h h' : KHeap ℝ} {ns : List NodeId}
    (e : ∀ n ∈ ns, (h'.get n).joint.position = (h.get n).joint.position) (r : ℝ) :
    sway r (moves h h' ns) = 0 ∧ turning (moves h h' ns) = 0 := by
  induction ns with
  | nil => exact ⟨rfl, rfl⟩
  | cons n ns ih =>
    obtain ⟨a, b⟩ := ih fun m hm => e m (by simp [hm])
    have e := e n (by simp)
    show sway r (((h.get n).joint, (h'.get n).joint.position) :: moves h h' ns) = 0 ∧
      turning (((h.get n).joint, (h'.get n).joint.position) :: moves h h' ns) = 0
    rw [sway, turning, a, b, e, sub_self]
    have c : chord 0 = 0 := by simp [chord]
    rw [c]
    cases (h.get n).joint.jointType <;> simp

/-- only joint `k` moves -/
theorem moves_one {h h' : KHeap ℝ} {pre post : List NodeId} {k : NodeId}
    (e : ∀ n ∈ pre ++ post, (h'.get n).joint.position = (h.get n).joint.position) (r : ℝ) :
    sway r (moves h h' (pre ++ k :: post)) = (match (h.get k).joint.jointType with
      | .fixed => 0
      | .linear _ => |(h'.get k).joint.position - (h.get k).joint.position|
      | .rotational _ => chord ((h'.get k).joint.position - (h.get k).joint.position) *
          (extent (post.map fun n => (h.get n).joint) + r)) ∧
    turning (moves h h' (pre ++ k :: post)) = (match (h.get k).joint.jointType with
      | .rotational _ => chord ((h'.get k).joint.position - (h.get k).joint.position)
      | _ => 0) := by
  induction pre with
  | nil =>
    obtain ⟨a, b⟩ := moves_self_left (h := h) (h' := h') (ns := post) (fun n hn => e n (by simp [hn])) r
    show sway r (((h.get k).joint, (h'.get k).joint.position) :: moves h h' post) = _ ∧
      turning (((h.get k).joint, (h'.get k).joint.position) :: moves h h' post) = _
    rw [sway, turning, moves_fst, a, b, _root_.add_zero, _root_.add_zero]
    exact ⟨rfl, rfl⟩
  | cons n pre ih =>
    obtain ⟨a, b⟩ := ih fun m hm => e m (by simp at hm ⊢; tauto)
    have e := e n (by simp)
    show sway r (((h.get n).joint, (h'.get n).joint.position) :: moves h h' (pre ++ k :: post)) = _ ∧
      turning (((h.get n).joint, (h'.get n).joint.position) :: moves h h' (pre ++ k :: post)) = _
    rw [sway, turning, a, b, e, sub_self]
    have c : chord 0 = 0 := by simp [chord]
    rw [c]
    constructor <;> cases (h.get n).joint.jointType <;> simp

/-- the derivative of a curve that stays within `K` times the time -/
theorem deriv_norm_le {f : ℝ → V3 ℝ} {d : V3 ℝ} {q K : ℝ} (hd : V3.HasDeriv f d q) (k0 : 0 ≤ K)
    (hK : ∀ x, ((f x).sub (f q)).norm ≤ K * |x - q|) : d.norm ≤ K := by
  obtain ⟨hx, hy, hz⟩ := hd
  have der : HasDerivAt (fun t => d.x * (f t).x + d.y * (f t).y + d.z * (f t).z)
      (d.x * d.x + d.y * d.y + d.z * d.z) q :=
    ((hx.const_mul d.x).add (hy.const_mul d.y)).add (hz.const_mul d.z)
  have n0 := d.norm_nonneg'
  have le := der.le_of_lip' (C := d.norm * K) (mul_nonneg n0 k0) (Filter.Eventually.of_forall fun x => by
    have cs : |d.x * ((f x).x - (f q).x) + d.y * ((f x).y - (f q).y) + d.z * ((f x).z - (f q).z)| ≤
        d.norm * ((f x).sub (f q)).norm := by
      refine abs_le_of_sq_le_sq ?_ (mul_nonneg n0 (V3.norm_nonneg' _))
      rw [mul_pow, norm_sq, norm_sq]
      simp only [V3.sub]
      nlinarith [sq_nonneg (d.x * ((f x).y - (f q).y) - d.y * ((f x).x - (f q).x)),
        sq_nonneg (d.x * ((f x).z - (f q).z) - d.z * ((f x).x - (f q).x)),
        sq_nonneg (d.y * ((f x).z - (f q).z) - d.z * ((f x).y - (f q).y))]
    rw [Real.norm_eq_abs, Real.norm_eq_abs]
    have e : d.x * (f x).x + d.y * (f x).y + d.z * (f x).z - (d.x * (f q).x + d.y * (f q).y + d.z * (f q).z) =
        d.x * ((f x).x - (f q).x) + d.y * ((f x).y - (f q).y) + d.z * ((f x).z - (f q).z) := by ring
    rw [e]
    have := mul_le_mul_of_nonneg_left (hK x) n0
    linarith)
  rw [Real.norm_eq_abs, ← norm_sq, abs_of_nonneg (sq_nonneg _)] at le
  rcases n0.eq_or_lt with z | p
  · rw [← z]; exact k0
  · nlinarith

theorem setAt_sameBut (h : KHeap ℝ) (k : NodeId) (x : ℝ) : SameBut h (setAt h k x) :=
  ⟨rfl, rfl, rfl, fun m => by
    by_cases e : m = k
    · subst e; exact ⟨x, none, none, by simp [setAt, Heap.modify, Joint.setJointPositionUnchecked]⟩
    · exact ⟨_, _, _, by rw [setAt_other _ _ _ _ e]⟩⟩

/-- **C95** (Jacobian).  The column of a linear joint has a linear part of length at most one and no angular
part; that of a rotational joint has an angular part of length at most one and a linear part no longer than
what comes after the joint. -/
theorem C95_jacobian (h : KHeap ℝ) (u : h.Unlocked) (c : Chain) (w : c.Wf h) (n : NodeId)
    (rest : List NodeId) (hc : c.nodes = n :: rest) (s : Serial h c.nodes) (nd : c.nodes.Nodup)
    (root : liveParent h n = none) (ar : AllRigid h c.nodes) :
    ∃ jac h', run (jacobian c) h = .ok jac h' ∧ jac.length = c.dof ∧
      ∀ (i : Nat) (k : NodeId) (col : List ℝ), c.movableNodes[i]? = some k → jac[i]? = some col →
        ∃ d a : V3 ℝ, col = [d.x, d.y, d.z, a.x, a.y, a.z] ∧
          ∀ pre post, c.nodes = pre ++ k :: post → match (h.get k).joint.jointType with
            | .rotational _ => d.norm ≤ extent (post.map fun m => (h.get m).joint) ∧ a.norm ≤ 1
            | _ => d.norm ≤ 1 ∧ a = V3.zero := by
  obtain ⟨jac, h', e, l, f⟩ := C21_jacobian h u c w n rest hc s nd root ar
  refine ⟨jac, h', e, l, fun i k col hk hcol => ?_⟩
  obtain ⟨q, T, d, a, eq, eT, ec, hd, ha⟩ := f i k col hk hcol
  refine ⟨d, a, ec, fun pre post sp => ?_⟩
  have hT : ∀ x, T x = endPose (setAt h k x) c.nodes := fun x => by
    obtain ⟨g, eg⟩ := eT x
    have : run (endAt c k x) h = .ok (endPose (setAt h k x) c.nodes) (setAt h k x) := by
      simp only [endAt, run_bind, run_setAt h u k x, Res.bind_ok, run_endTransform c _ (setAt_unlocked u k x)]
    rw [this] at eg
    injection eg with eg _
    exact eg.symm
  have hq : q = (h.get k).joint.position := by
    rw [Node.jointPosition, run_bind, run_peek _ _ (u k)] at eq
    simp only [Res.bind_ok, run_pure] at eq
    injection eq with eq _
    unfold Joint.jointPosition at eq
    split at eq
    · cases eq
    · exact (Option.some.inj eq).symm
  have zero : T q = endPose h c.nodes := by
    rw [hT, hq]
    refine endPose_congr (setAt_sameBut h k _) _ fun m _ => ?_
    by_cases e : m = k
    · subst e; simp [setAt, Heap.modify, Joint.setJointPositionUnchecked]
    · rw [setAt_other _ _ _ _ e]
  have nk : ∀ m ∈ pre ++ post, m ≠ k := fun m hm e => by
    subst e
    rw [sp] at nd
    have := List.nodup_middle.1 nd
    exact (List.nodup_cons.1 this).1 hm
  have one : ∀ x r, _ := fun x r => moves_one (h := h) (h' := setAt h k x) (pre := pre) (post := post) (k := k)
    (fun m hm => by rw [setAt_other _ _ _ _ (nk m hm)]) r
  have px : ∀ x, ((setAt h k x).get k).joint.position = x := fun x => by
    simp [setAt, Heap.modify, Joint.setJointPositionUnchecked]
  have mt : ∀ x, ((T x).trans.sub (T q).trans).norm ≤ sway 0 (moves h (setAt h k x) (pre ++ k :: post)) := fun x => by
    have := endPose_apart (setAt_sameBut h k x) ar V3.zero
    rw [Iso.apply_zero, Iso.apply_zero, V3.norm_zero', ← hT, ← zero, sp] at this
    exact this
  have mr : ∀ x v, (((T x).rot.rotate v).sub ((T q).rot.rotate v)).norm ≤
      turning (moves h (setAt h k x) (pre ++ k :: post)) * v.norm := fun x v => by
    have := endPose_turned (setAt_sameBut h k x) ar v
    rw [← hT, ← zero, sp] at this
    exact this
  have rq : (T q).rot.IsUnit := by rw [zero]; exact endPose_rigid ar
  -- from the derivatives of all directions to the angular velocity
  have ang : ∀ K : ℝ, 0 ≤ K → (∀ x v, (((T x).rot.rotate v).sub ((T q).rot.rotate v)).norm ≤
      K * |x - q| * v.norm) → a.norm ≤ K := by
    intro K k0 hK
    have b : ∀ w : V3 ℝ, (a.cross w).norm ≤ K * w.norm := fun w => by
      have := deriv_norm_le (K := K * ((T q).rot.conj.rotate w).norm) (ha ((T q).rot.conj.rotate w))
        (mul_nonneg k0 (V3.norm_nonneg' _)) (fun x => by
          have := hK x ((T q).rot.conj.rotate w)
          linarith)
      rw [← Quat.rotate_mul rq rq.conj, Quat.mul_conj rq, Quat.rotate_one, Quat.norm_rotate rq.conj] at this
      exact this
    -- a vector of length one orthogonal to `a`
    obtain ⟨w, hw, ow⟩ : ∃ w : V3 ℝ, w.norm = 1 ∧ a.x * w.x + a.y * w.y + a.z * w.z = 0 := by
      by_cases z : a.x = 0 ∧ a.y = 0
      · exact ⟨⟨1, 0, 0⟩, by simp [V3.norm, Scalar.sqrt], by simp [z.1]⟩
      · have pos : 0 < a.x * a.x + a.y * a.y := by
          rcases not_and_or.1 z with z | z
          · have := mul_self_pos.2 z; nlinarith [mul_self_nonneg a.y]
          · have := mul_self_pos.2 z; nlinarith [mul_self_nonneg a.x]
        have n1 : (⟨-a.y, a.x, 0⟩ : V3 ℝ).norm ^ 2 = a.x * a.x + a.y * a.y := by rw [norm_sq]; ring
        have n0 : 0 < (⟨-a.y, a.x, 0⟩ : V3 ℝ).norm := by
          rcases (V3.norm_nonneg' (⟨-a.y, a.x, 0⟩ : V3 ℝ)).eq_or_lt with e | e
          · rw [← e] at n1; simp at n1; linarith
          · exact e
        refine ⟨(⟨-a.y, a.x, 0⟩ : V3 ℝ).scale (1 / (⟨-a.y, a.x, 0⟩ : V3 ℝ).norm), ?_, ?_⟩
        · rw [V3.norm_scale, abs_of_pos (by positivity)]; field_simp
        · simp only [V3.scale]; ring
    have := b w
    rw [hw, _root_.mul_one] at this
    have e : (a.cross w).norm = a.norm := by
      refine (pow_left_inj₀ (V3.norm_nonneg' _) (V3.norm_nonneg' _) two_ne_zero).1 ?_
      have w2 := norm_sq w
      rw [hw] at w2
      rw [norm_sq, norm_sq]
      simp only [V3.cross]
      linear_combination (-(a.x * a.x + a.y * a.y + a.z * a.z)) * w2 -
        (a.x * w.x + a.y * w.y + a.z * w.z) * ow
    rw [e] at this
    exact this
  have a0 : a.norm ≤ 0 → a = V3.zero := fun le => by
    have z : a.norm = 0 := le_antisymm le a.norm_nonneg'
    have := norm_sq a
    rw [z] at this
    have hx := mul_self_nonneg a.x
    have hy := mul_self_nonneg a.y
    have hz := mul_self_nonneg a.z
    ext
    · exact mul_self_eq_zero.1 (by linarith)
    · exact mul_self_eq_zero.1 (by linarith)
    · exact mul_self_eq_zero.1 (by linarith)
  have mvk : (h.get k).joint.jointType ≠ .fixed := by
    have hm : k ∈ c.movableNodes := List.mem_of_getElem? hk
    rw [w.movable, List.mem_filter] at hm
    exact (decide_eq_true_iff (p := Movable h k)).1 hm.2
  cases t : (h.get k).joint.jointType with
  | fixed => exact absurd t mvk
  | linear ax =>
    simp only [t, px, ← hq] at one
    refine ⟨deriv_norm_le hd (by norm_num) fun x => ?_, a0 (ang 0 le_rfl fun x v => ?_)⟩
    · have := mt x; rw [(one x 0).1] at this; linarith
    · have := mr x v; rw [(one x 0).2] at this; linarith
  | rotational ax =>
    simp only [t, px, ← hq] at one
    have x0 := extent_nonneg (post.map fun n => (h.get n).joint)
    refine ⟨deriv_norm_le hd x0 fun x => ?_, ang 1 (by norm_num) fun x v => ?_⟩
    · have := mt x
      rw [(one x 0).1, _root_.add_zero] at this
      have := mul_le_mul_of_nonneg_right (chord_le (x - q)).1 x0
      linarith
    · have := mr x v
      rw [(one x 0).2] at this
      have := mul_le_mul_of_nonneg_right (chord_le (x - q)).1 v.norm_nonneg'
      linarith

/-! ## the bound cannot be improved -/

/-- a joint that turns about the vertical, and one that slides along the first axis, two in front of it -/
def crane (q x : ℝ) : KHeap ℝ :=
  { get := fun n => if n = 0 then NodeImpl.fresh { Joint.new "turn" (.rotational ⟨0, 0, 1⟩) with position := q }
      else NodeImpl.fresh { Joint.new "slide" (.linear ⟨1, 0, 0⟩) with
        position := x, origin := ⟨⟨2, 0, 0⟩, Quat.one⟩ }
    next := 2, dead := fun _ => false, held := fun _ => false }

theorem crane_sameBut (q x q' x' : ℝ) : SameBut (crane q x) (crane q' x') :=
  ⟨rfl, rfl, rfl, fun k => by
    by_cases z : k = 0
    · exact ⟨q', none, none, by simp [crane, z, NodeImpl.fresh, Joint.new]⟩
    · exact ⟨x', none, none, by simp [crane, z, NodeImpl.fresh, Joint.new]⟩⟩

theorem crane_rigid (q x : ℝ) (ns : List NodeId) : AllRigid (crane q x) ns := fun n _ => by
  by_cases z : n = 0
  · simp [crane, z, NodeImpl.fresh, Joint.new, Joint.IsRigid, Iso.IsRigid, Iso.one, Quat.one, Quat.IsUnit,
      V3.IsUnit]
  · simp [crane, z, NodeImpl.fresh, Joint.new, Joint.IsRigid, Iso.IsRigid, Quat.one, Quat.IsUnit,
      V3.IsUnit]

/-- **C95** (tight).  A turn of the crane by any angle `d` moves its end by exactly the bound of
`C95_points`, and so does a stroke of its slider. -/
theorem C95_tight (q d x : ℝ) (x0 : 0 ≤ x) :
    (∃ X X', run (Chain.mk [0, 1] [0, 1] 2).endTransform (crane q x) = .ok X (crane q x) ∧
      run (Chain.mk [0, 1] [0, 1] 2).endTransform (crane (q + d) x) = .ok X' (crane (q + d) x) ∧
      (X'.trans.sub X.trans).norm = chord d * (2 + x) ∧
      sway 0 (moves (crane q x) (crane (q + d) x) [0, 1]) = chord d * (2 + x)) ∧
    ∃ X X', run (Chain.mk [0, 1] [0, 1] 2).endTransform (crane q x) = .ok X (crane q x) ∧
      run (Chain.mk [0, 1] [0, 1] 2).endTransform (crane q (x + d)) = .ok X' (crane q (x + d)) ∧
      (X'.trans.sub X.trans).norm = |d| ∧
      sway 0 (moves (crane q x) (crane q (x + d)) [0, 1]) = |d| := by
  have u : ∀ q x, (crane q x).Unlocked := fun _ _ _ => rfl
  have pose : ∀ q x, (endPose (crane q x) [0, 1]).trans = ⟨Real.cos q * (2 + x), Real.sin q * (2 + x), 0⟩ := by
    intro q x
    have ha : (⟨0, 0, 1⟩ : V3 ℝ).IsUnit := by simp [V3.IsUnit]
    have e1 : (endPose (crane q x) [0, 1]).trans =
        (Quat.fromAxisAngle (⟨0, 0, 1⟩ : V3 ℝ) q).rotate ⟨2 + x, 0, 0⟩ := by
      have a : (endPose (crane q x) [0, 1]) = ((crane q x).get 0).joint.localTransform.mul
          ((crane q x).get 1).joint.localTransform := by
        simp [endPose, Iso.one_mul']
      rw [a]
      have b0 : ((crane q x).get 0).joint.localTransform =
          ⟨⟨0, 0, 0⟩, Quat.fromAxisAngle (⟨0, 0, 1⟩ : V3 ℝ) q⟩ := by
        simp only [crane, if_true, NodeImpl.fresh, Joint.new, Joint.localTransform, Joint.jointTransform,
          Iso.one_mul']
      have b1 : ((crane q x).get 1).joint.localTransform.trans = ⟨2 + x, 0, 0⟩ := by
        simp [crane, NodeImpl.fresh, Joint.new, Joint.localTransform, Joint.jointTransform, Iso.mul,
          Quat.rotate_one, V3.add, V3.scale]
      rw [Iso.mul, b0, b1]
      ext <;> simp [V3.add]
    rw [e1, rotate_fromAxisAngle ha]
    ext <;> simp [V3.add, V3.scale, V3.cross, V3.dot] <;> ring
  have two : (⟨2, 0, 0⟩ : V3 ℝ).norm = 2 := by
    have := norm_sq (⟨2, 0, 0⟩ : V3 ℝ)
    have n0 := V3.norm_nonneg' (⟨2, 0, 0⟩ : V3 ℝ)
    simp only at this
    nlinarith
  refine ⟨⟨_, _, run_endTransform _ _ (u _ _), run_endTransform _ _ (u _ _), ?_, ?_⟩,
    ⟨_, _, run_endTransform _ _ (u _ _), run_endTransform _ _ (u _ _), ?_, ?_⟩⟩
  · rw [pose, pose]
    refine (pow_left_inj₀ (V3.norm_nonneg' _) (mul_nonneg (chord_nonneg _) (by linarith)) two_ne_zero).1 ?_
    rw [norm_sq, mul_pow, chord_sq]
    have a := Real.sin_sq_add_cos_sq q
    have b := Real.sin_sq_add_cos_sq (q + d)
    have c : Real.cos d = Real.cos (q + d) * Real.cos q + Real.sin (q + d) * Real.sin q := by
      rw [← Real.cos_sub]; congr 1; ring
    simp only [V3.sub]
    rw [c]
    linear_combination (2 + x) ^ 2 * (a + b)
  · simp [moves, sway, crane, NodeImpl.fresh, Joint.new, extent, two, abs_of_nonneg x0]
  · rw [pose, pose]
    refine (pow_left_inj₀ (V3.norm_nonneg' _) (abs_nonneg _) two_ne_zero).1 ?_
    rw [norm_sq, sq_abs]
    have a := Real.sin_sq_add_cos_sq q
    simp only [V3.sub]
    linear_combination d ^ 2 * a
  · simp [moves, sway, crane, NodeImpl.fresh, Joint.new, chord, extent]

/-- setting both joints of the crane: the end moves no farther than the stroke and the chord times the old
length add up to, and a direction no more than the chord -/
example (q x q' x' : ℝ) : ∃ r h' X X', run ((Chain.mk [0, 1] [0, 1] 2).setJointPositions [q', x']) (crane q x) =
      .ok r h' ∧ run (Chain.mk [0, 1] [0, 1] 2).endTransform (crane q x) = .ok X (crane q x) ∧
      run (Chain.mk [0, 1] [0, 1] 2).endTransform h' = .ok X' h' ∧
      (∀ p : V3 ℝ, ((X'.apply p).sub (X.apply p)).norm ≤ sway p.norm (moves (crane q x) h' [0, 1])) ∧
      ∀ v : V3 ℝ, ((X'.rot.rotate v).sub (X.rot.rotate v)).norm ≤
        turning (moves (crane q x) h' [0, 1]) * v.norm :=
  C95_set_joint_positions _ _ _ _ (fun _ => rfl) (fun n c hc => by
    exfalso
    by_cases z : n = 0 <;> simp [crane, z, NodeImpl.fresh] at hc) rfl (crane_rigid q x _)

/-- what the bounds are for the crane -/
example (q x q' x' r : ℝ) : sway r (moves (crane q x) (crane q' x') [0, 1]) =
      chord (q' - q) * (2 + |x| + r) + |x' - x| ∧
    turning (moves (crane q x) (crane q' x') [0, 1]) = chord (q' - q) := by
  have two : (⟨2, 0, 0⟩ : V3 ℝ).norm = 2 := by
    have := norm_sq (⟨2, 0, 0⟩ : V3 ℝ)
    have n0 := V3.norm_nonneg' (⟨2, 0, 0⟩ : V3 ℝ)
    simp only at this
    nlinarith
  constructor <;> simp [moves, sway, turning, crane, NodeImpl.fresh, Joint.new, extent, two]

/-- the crane with its slider mounted on the turning joint -/
def mounted (q x : ℝ) : KHeap ℝ :=
  { crane q x with get := fun n => if n = 0 then { (crane q x).get 0 with children := [1] }
      else { (crane q x).get 1 with parent := some 0 } }

/-- the Jacobian of the crane: turning moves the end no faster than the length of the arm, sliding no faster
than the slider, and only turning turns the end -/
example (q x : ℝ) : ∃ jac h', run (jacobian (Chain.mk [0, 1] [0, 1] 2)) (mounted q x) = .ok jac h' ∧
    jac.length = 2 ∧
    (∀ col, jac[0]? = some col → ∃ d a : V3 ℝ, col = [d.x, d.y, d.z, a.x, a.y, a.z] ∧
      d.norm ≤ 2 + |x| ∧ a.norm ≤ 1) ∧
    ∀ col, jac[1]? = some col → ∃ d : V3 ℝ, col = [d.x, d.y, d.z, 0, 0, 0] ∧ d.norm ≤ 1 := by
  have two : (⟨2, 0, 0⟩ : V3 ℝ).norm = 2 := by
    have := norm_sq (⟨2, 0, 0⟩ : V3 ℝ)
    have n0 := V3.norm_nonneg' (⟨2, 0, 0⟩ : V3 ℝ)
    simp only at this
    nlinarith
  have p1 : liveParent (mounted q x) 1 = some 0 := by simp [liveParent, mounted, crane]
  obtain ⟨jac, h', e, l, f⟩ := C95_jacobian (mounted q x) (fun _ => rfl) ⟨[0, 1], [0, 1], 2⟩
    ⟨by simp [mounted, crane, Movable, NodeImpl.fresh, Joint.new], rfl⟩ 0 [1] rfl
    (fun pre a b post e => by
      match pre, e with
      | [], e => cases e; exact p1
      | y :: pre, e =>
        have := congrArg List.length e
        simp at this
        omega)
    (by simp) (by simp [liveParent, mounted, crane, NodeImpl.fresh])
    (fun n hn => by
      have := crane_rigid q x [n] n (by simp)
      by_cases z : n = 0 <;> simpa [mounted, crane, z] using this)
  refine ⟨jac, h', e, l, fun col hcol => ?_, fun col hcol => ?_⟩
  · obtain ⟨d, a, ec, b⟩ := f 0 0 col rfl hcol
    have b := b [] [1] rfl
    simp [mounted, crane, NodeImpl.fresh, Joint.new, extent, two] at b
    exact ⟨d, a, ec, b.1, b.2⟩
  · obtain ⟨d, a, ec, b⟩ := f 1 1 col rfl hcol
    have b := b [0] [] rfl
    simp [mounted, crane, NodeImpl.fresh, Joint.new] at b
    refine ⟨d, ?_, b.1⟩
    rw [ec, b.2]
    simp [V3.zero]

end

end K
