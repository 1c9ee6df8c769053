import Verif.Props.Geom
import Verif.Props.IkApi
import Verif.Props.Jacobian
import Mathlib.Analysis.SpecialFunctions.Trigonometric.Bounds
/-!
# C60, C68: how far the end can be off, and how far it can reach
-/

namespace K
open Prog

noncomputable section

theorem V3.norm_nonneg' (a : V3 ℝ) : 0 ≤ a.norm := Real.sqrt_nonneg _

theorem V3.norm_add_le (a b : V3 ℝ) : (a.add b).norm ≤ a.norm + b.norm := by
  have ha := a.norm_nonneg'
  have hb := b.norm_nonneg'
  have qa := norm_sq a
  have qb := norm_sq b
  have cs : a.x * b.x + a.y * b.y + a.z * b.z ≤ a.norm * b.norm := by
    refine le_of_abs_le (abs_le_of_sq_le_sq ?_ (mul_nonneg ha hb))
    rw [mul_pow, qa, qb]
    nlinarith [sq_nonneg (a.x * b.y - a.y * b.x), sq_nonneg (a.x * b.z - a.z * b.x),
      sq_nonneg (a.y * b.z - a.z * b.y)]
  refine abs_le_of_sq_le_sq' ?_ (by linarith) |>.2
  rw [norm_sq]
  simp only [V3.add]
  nlinarith

theorem V3.norm_scale (a : V3 ℝ) (s : ℝ) : (a.scale s).norm = a.norm * |s| := by
  have e : (a.scale s).norm ^ 2 = (a.norm * |s|) ^ 2 := by
    rw [norm_sq, mul_pow, norm_sq, sq_abs]; simp only [V3.scale]; ring
  exact (pow_left_inj₀ (norm_nonneg' _) (mul_nonneg (norm_nonneg' _) (abs_nonneg _)) two_ne_zero).1 e

theorem V3.IsUnit.norm {a : V3 ℝ} (u : a.IsUnit) : a.norm = 1 := by
  have := norm_sq a
  simp only [V3.IsUnit] at u
  rw [u] at this
  nlinarith [a.norm_nonneg']

theorem Quat.norm_rotate {q : Quat ℝ} (u : q.IsUnit) (v : V3 ℝ) : (q.rotate v).norm = v.norm := by
  have e : (q.rotate v).norm ^ 2 = v.norm ^ 2 := by
    have := Quat.rotate_dot u v v
    rw [norm_sq, norm_sq]; simpa only [V3.dot] using this
  exact (pow_left_inj₀ (V3.norm_nonneg' _) (V3.norm_nonneg' _) two_ne_zero).1 e

/-- turning by `t` moves a point by no more than `t` times its distance -/
theorem turnAbout_near {u : V3 ℝ} (hu : u.IsUnit) (t : ℝ) (t0 : 0 ≤ t) (v : V3 ℝ) :
    ((turnAbout u t v).sub v).norm ≤ t * v.norm := by
  refine abs_le_of_sq_le_sq' ?_ (mul_nonneg t0 v.norm_nonneg') |>.2
  have c := Real.one_sub_sq_div_two_le_cos (x := t)
  have sc := Real.sin_sq_add_cos_sq t
  simp only [V3.IsUnit] at hu
  have e : ((turnAbout u t v).sub v).norm ^ 2 =
      2 * (1 - Real.cos t) * (v.norm ^ 2 - (u.dot v) ^ 2) := by
    rw [norm_sq, norm_sq]
    simp only [turnAbout, V3.sub, V3.add, V3.scale, V3.cross, V3.dot]
    linear_combination (Real.sin t ^ 2 * (v.x * v.x + v.y * v.y + v.z * v.z) +
      (1 - Real.cos t) ^ 2 * (u.x * v.x + u.y * v.y + u.z * v.z) ^ 2) * hu +
      ((v.x * v.x + v.y * v.y + v.z * v.z) - (u.x * v.x + u.y * v.y + u.z * v.z) ^ 2) * sc
  rw [e, mul_pow]
  nlinarith [sq_nonneg (u.dot v), mul_nonneg (sub_nonneg.2 (Real.cos_le_one t)) (sq_nonneg (u.dot v)),
    mul_nonneg (by linarith : 0 ≤ t ^ 2 - 2 * (1 - Real.cos t)) (sq_nonneg v.norm)]

theorem SameBut.allRigid {h h' : KHeap ℝ} (s : SameBut h h') {ns : List NodeId} (ar : AllRigid h ns) :
    AllRigid h' ns := by
  intro n hn
  obtain ⟨p, wt, wv, e⟩ := s.node n
  have := ar n hn
  rw [e]; exact this

theorem solve_sameBut {T : Type} [Scalar T] {s : IkSolver T} {arm : Chain} {target : Iso T} {c : Constraints}
    {h h' : KHeap T}
    (u : h.Unlocked) (w : arm.Wf h)
    (e : run (solveWithConstraints s arm target c) h = .ok (.ok ()) h') : SameBut h h' := by
  rcases C29_bound h h' u w _ e with ⟨_, x⟩ | ⟨-, is, k, h1, last, diff, h2, -, i, e2, rfl⟩
  · cases x
  have m1 := i.moved u w
  have u1 := m1.unlocked u
  have w1 := m1.sameBut.chainWf w
  have m2 := solveOneLoop_moved _ _ _ _ _ _ _ u1 w1 _ e2
  have m3 := moved_clamp_chain (h' := h2) (m2.sameBut.chainWf w1) (posList h2 arm.movableNodes)
  exact (m1.sameBut.trans m2.sameBut).trans m3.sameBut

/-- **C60, every point of the tool.**  After `Ok` from `solve`, each point rigidly attached to the end, `p`
in the coordinates of the end, is off its place in the target pose by less than
`allowable_target_distance + allowable_target_angle * |p|`. -/
theorem C60_points (s : IkSolver ℝ) (arm : Chain) (target : Iso ℝ) (h h' : KHeap ℝ)
    (u : h.Unlocked) (w : arm.Wf h) (p : ProperLimits h) (o : NoneOutside h arm.movableNodes)
    (ar : AllRigid h arm.nodes) (tr : target.IsRigid)
    (e : run (solve s arm target) h = .ok (.ok ()) h') :
    ∃ X, run arm.endTransform h' = .ok X h' ∧ ∀ p, ((target.apply p).sub (X.apply p)).norm <
      s.allowableTargetDistance + s.allowableTargetAngle * p.norm := by
  obtain ⟨X, eX, hd, ha⟩ := C60_solve s arm target h h' u w p o e
  refine ⟨X, eX, fun q => ?_⟩
  have sb := solve_sameBut u w e
  have rX : X.IsRigid := by
    rw [run_endTransform _ _ (sb.unlocked u)] at eX
    cases eX
    exact foldl_mul_rigid h' arm.nodes (sb.allRigid ar) _ Iso.one_isRigid
  have hd : (target.trans.sub X.trans).norm < s.allowableTargetDistance := by
    simpa [Scalar.lt] using hd
  have ha : (X.rot.rotationTo target.rot).scaledAxis.norm < s.allowableTargetAngle := by
    simpa [Scalar.lt] using ha
  obtain ⟨a, t, hu, t0, -, es, hr⟩ := Quat.scaledAxis_spec (q := X.rot.rotationTo target.rot)
    (Quat.IsUnit.mul tr rX.conj)
  rw [es, V3.norm_scale, hu.norm, abs_of_nonneg t0, _root_.one_mul] at ha
  have hr : target.rot.rotate q = turnAbout a t (X.rot.rotate q) := by
    rw [← hr, Quat.rotationTo, Quat.rotate_mul tr rX.conj, ← Quat.rotate_mul rX.conj rX,
      Quat.conj_mul rX, Quat.rotate_one]
  have split : (target.apply q).sub (X.apply q) =
      (target.trans.sub X.trans).add ((turnAbout a t (X.rot.rotate q)).sub (X.rot.rotate q)) := by
    rw [← hr]; ext <;> simp only [Iso.apply, V3.sub, V3.add] <;> ring
  rw [split]
  have b1 := V3.norm_add_le (target.trans.sub X.trans)
    ((turnAbout a t (X.rot.rotate q)).sub (X.rot.rotate q))
  have b2 := turnAbout_near hu t t0 (X.rot.rotate q)
  rw [Quat.norm_rotate rX] at b2
  nlinarith [mul_le_mul_of_nonneg_right ha.le q.norm_nonneg']

/-! ## C68 -/

/-- how much one joint can add to the distance: the length of its origin, and its stroke if it is
linear -/
def stepLength (j : Joint ℝ) : ℝ :=
  j.origin.trans.norm + match j.jointType with
    | .linear _ => |j.position|
    | _ => 0

theorem localTransform_norm {j : Joint ℝ} (r : j.IsRigid) :
    j.localTransform.trans.norm ≤ stepLength j := by
  have e : j.localTransform.trans = j.origin.trans.add (j.origin.rot.rotate j.jointTransform.trans) := rfl
  rw [e, stepLength]
  refine (V3.norm_add_le _ _).trans ?_
  rw [Quat.norm_rotate r.1]
  have z : (V3.zero : V3 ℝ).norm = 0 := by simp [V3.norm, V3.zero, Scalar.sqrt]
  have := r.2
  cases t : j.jointType with
  | fixed => simp [Joint.jointTransform, t, Iso.one, z]
  | rotational a =>
    have e : j.jointTransform.trans = V3.zero := by simp [Joint.jointTransform, t, V3.zero]
    simp [e, z]
  | linear a =>
    rw [t] at this
    simp [Joint.jointTransform, t, V3.norm_scale, V3.IsUnit.norm this]

theorem prodFrom_norm (h : KHeap ℝ) (ns : List NodeId) (ar : AllRigid h ns) (X : Iso ℝ) (hX : X.IsRigid) :
    (prodFrom h X ns).trans.norm ≤ X.trans.norm + (ns.map fun n => stepLength (h.get n).joint).sum := by
  induction ns generalizing X with
  | nil => simp [prodFrom]
  | cons n ns ih =>
    have r := ar n (by simp)
    have := ih (fun m hm => ar m (by simp [hm])) (X.mul (h.get n).joint.localTransform)
      (hX.mul (Joint.localTransform_isRigid r))
    have e : prodFrom h X (n :: ns) = prodFrom h (X.mul (h.get n).joint.localTransform) ns := rfl
    rw [e, List.map_cons, List.sum_cons]
    have b := V3.norm_add_le X.trans (X.rot.rotate (h.get n).joint.localTransform.trans)
    rw [Quat.norm_rotate hX] at b
    have c := localTransform_norm r
    have d : (X.mul (h.get n).joint.localTransform).trans =
      X.trans.add (X.rot.rotate (h.get n).joint.localTransform.trans) := rfl
    rw [d] at this
    linarith

/-- **C68** (reach).  The end of a chain is no farther from the frame of the chain than the lengths of
all its origins and the strokes of its linear joints add up to, whatever the rotational joints do. -/
theorem C68_reach (c : Chain) (h : KHeap ℝ) (u : h.Unlocked) (ar : AllRigid h c.nodes) :
    ∃ X, run c.endTransform h = .ok X h ∧
      X.trans.norm ≤ (c.nodes.map fun n => stepLength (h.get n).joint).sum := by
  refine ⟨_, run_endTransform c h u, ?_⟩
  have := prodFrom_norm h c.nodes ar Iso.one Iso.one_isRigid
  have z : (Iso.one : Iso ℝ).trans.norm = 0 := by simp [V3.norm, Iso.one, V3.zero, Scalar.sqrt]
  rw [z, _root_.zero_add] at this
  exact this

/-- the most one joint can add: the length of its origin, and the larger of its limits if it is
linear -/
def maxLength (j : Joint ℝ) : ℝ :=
  j.origin.trans.norm + match j.jointType, j.limits with
    | .linear _, some r => max |r.min| |r.max|
    | _, _ => 0

theorem masked_norm_le (x y z : Bool) (v : V3 ℝ) : (masked x y z v).norm ≤ v.norm := by
  refine abs_le_of_sq_le_sq' ?_ v.norm_nonneg' |>.2
  rw [norm_sq, norm_sq]
  have hx := mul_self_nonneg v.x
  have hy := mul_self_nonneg v.y
  have hz := mul_self_nonneg v.z
  cases x <;> cases y <;> cases z <;> simp [masked] <;> linarith

/-- **C68** (out of reach).  If all linear joints of the arm have limits and the position of the target is
farther away, in the constrained coordinates, than all origins and strokes together plus the tolerance,
no solve returns `Ok`, whatever the number of tries, the linear solver and the nullspace function. -/
theorem C68_unreachable (s : IkSolver ℝ) (arm : Chain) (target : Iso ℝ) (c : Constraints) (h h' : KHeap ℝ)
    (u : h.Unlocked) (w : arm.Wf h) (p : ProperLimits h) (o : NoneOutside h arm.movableNodes)
    (ar : AllRigid h arm.nodes)
    (lin : ∀ n ∈ arm.nodes, ∀ a, (h.get n).joint.jointType = .linear a →
      (h.get n).joint.limits ≠ none)
    (far : (arm.nodes.map fun n => maxLength (h.get n).joint).sum + s.allowableTargetDistance ≤
      (masked c.positionX c.positionY c.positionZ target.trans).norm) :
    run (solveWithConstraints s arm target c) h ≠ .ok (.ok ()) h' := by
  intro e
  have sb := solve_sameBut u w e
  obtain ⟨⟨X, eX, hd, -⟩, no⟩ := C24_success h h' u w p o e
  obtain ⟨X', eX', le⟩ := C68_reach arm h' (sb.unlocked u) (sb.allRigid ar)
  rw [eX] at eX'
  cases eX'
  have hd : (masked c.positionX c.positionY c.positionZ (target.trans.sub X.trans)).norm <
      s.allowableTargetDistance := by
    exact of_decide_eq_true hd
  have sum : (arm.nodes.map fun n => stepLength (h'.get n).joint).sum ≤
      (arm.nodes.map fun n => maxLength (h.get n).joint).sum := by
    refine List.sum_le_sum fun n hn => ?_
    obtain ⟨q, wt, wv, en⟩ := sb.node n
    have eo : (h'.get n).joint.origin = (h.get n).joint.origin := by rw [en]
    have et : (h'.get n).joint.jointType = (h.get n).joint.jointType := by rw [en]
    have el : (h'.get n).joint.limits = (h.get n).joint.limits := by rw [en]
    simp only [stepLength, maxLength, eo, et]
    cases t : (h.get n).joint.jointType with
    | fixed => simp
    | rotational a => simp
    | linear a =>
      cases l : (h.get n).joint.limits with
      | none => exact absurd l (lin n hn a t)
      | some r =>
        have mv : n ∈ arm.movableNodes := by
          rw [w.movable, List.mem_filter]
          exact ⟨hn, by simp [Movable, t]⟩
        obtain ⟨lo, hi⟩ := no n mv r (el.trans l)
        have lo : r.min ≤ (h'.get n).joint.position := by simpa [Scalar.lt] using lo
        have hi : (h'.get n).joint.position ≤ r.max := by simpa [Scalar.lt] using hi
        simp only [add_le_add_iff_left]
        exact abs_le_max_abs_abs lo hi
  have tri := V3.norm_add_le (masked c.positionX c.positionY c.positionZ (target.trans.sub X.trans))
    (masked c.positionX c.positionY c.positionZ X.trans)
  have et : (masked c.positionX c.positionY c.positionZ (target.trans.sub X.trans)).add
      (masked c.positionX c.positionY c.positionZ X.trans) =
      masked c.positionX c.positionY c.positionZ target.trans := by
    ext <;> simp only [masked, V3.sub, V3.add] <;> split <;> simp
  rw [et] at tri
  have mx := masked_norm_le c.positionX c.positionY c.positionZ X.trans
  linarith

/-! ## examples -/

/-- six sliders at 0 -/
def six : KHeap ℝ :=
  { get := fun n => if n < 6 then NodeImpl.fresh (slider (toString n) none 0)
      else NodeImpl.fresh (Joint.new "c" .fixed)
    next := 6, dead := fun _ => false, held := fun _ => false }
/-- all of them -/
def arm6 : Chain := ⟨List.range 6, List.range 6, 6⟩

/-- nodes below 6 are sliders at 0 -/
def AtZero (h : KHeap ℝ) : Prop := ∀ n, n < 6 → (h.get n).joint.jointType = .linear ⟨1, 0, 0⟩ ∧
  (h.get n).joint.origin = Iso.one ∧ (h.get n).joint.limits = none ∧ (h.get n).joint.position = 0

theorem AtZero.local {h : KHeap ℝ} (z : AtZero h) (n : NodeId) (lt : n < 6) :
    (h.get n).joint.localTransform = Iso.one := by
  obtain ⟨a, b, -, d⟩ := z n lt
  simp only [Joint.localTransform, Joint.jointTransform, a, b, d, Iso.one_mul']
  simp [V3.scale, Iso.one, V3.zero]

theorem AtZero.pose {h : KHeap ℝ} (z : AtZero h) : endPose h arm6.nodes = Iso.one := by
  have : ∀ ns : List NodeId, (∀ n ∈ ns, n < 6) → endPose h ns = Iso.one := by
    intro ns
    unfold endPose
    induction ns with
    | nil => intro _; rfl
    | cons n ns ih =>
      intro hn
      rw [List.foldl_cons, z.local n (hn n (by simp)), Iso.one_mul']
      exact ih fun m hm => hn m (by simp [hm])
  exact this _ fun n hn => List.mem_range.1 hn

theorem AtZero.clampAll {h : KHeap ℝ} (z : AtZero h) (ps : List (NodeId × ℝ)) (h0 : ∀ p ∈ ps, p.2 = 0) :
    AtZero (K.clampAll ps h) := by
  unfold K.clampAll
  induction ps generalizing h with
  | nil => exact z
  | cons p ps ih =>
    rw [List.foldl_cons]
    refine ih ?_ fun q hq => h0 q (by simp [hq])
    intro n lt
    obtain ⟨a, b, c, d⟩ := z n lt
    have p0 := h0 p (by simp)
    by_cases e : n = p.1
    · subst e
      simp [Heap.modify, Joint.setJointPositionClamped, Joint.isMovable, a, b, c, p0,
        Joint.setJointPositionUnchecked]
    · simp [Heap.modify, e, a, b, c, d]

/-- six sliders find the pose where they are, and each point of the tool is where it should be up to
`1 + |p|` -/
example : ∃ h', run (solve (railSolver 1) arm6 Iso.one) six = .ok (.ok ()) h' ∧
    ∃ X, run arm6.endTransform h' = .ok X h' ∧ ∀ p, ((Iso.one.apply p).sub (X.apply p)).norm <
      1 + 1 * p.norm := by
  have z : AtZero six := by
    intro n lt
    simp [six, lt, NodeImpl.fresh, slider, Joint.new]
  have u : six.Unlocked := fun _ => rfl
  have w : arm6.Wf six := by
    refine ⟨?_, rfl⟩
    refine (List.filter_eq_self.2 ?_).symm
    intro n hn
    simp [Movable, (z n (List.mem_range.1 hn)).1]
  have pr : ParentsReady six arm6.nodes := by
    intro pre n post _ p hp
    have : liveParent six n = none := by
      unfold liveParent
      by_cases lt : n < 6 <;> simp [six, lt, NodeImpl.fresh]
    rw [this] at hp; cases hp
  have diff0 : ∀ X : Iso ℝ, X = Iso.one → calcPoseDiffWithConstraints Iso.one X
      (defineOperationalSpace Constraints.default) = [0, 0, 0, 0, 0, 0] := by
    rintro X rfl
    show calcPoseDiff _ _ = _
    rw [C37_zero_iff _ _ Iso.one_isRigid Iso.one_isRigid]
    exact fun _ => rfl
  have pos0 : posList six arm6.movableNodes = [0, 0, 0, 0, 0, 0] := rfl
  obtain ⟨h1, ow, e⟩ := run_solveOneLoop (s := railSolver 1) (arm := arm6) (target := Iso.one)
    (ops := defineOperationalSpace Constraints.default) (ign := []) six u w pr [0, 0, 0, 0, 0, 0] (by
      intro jac _ hl
      rw [diff0 _ z.pose, pos0]
      simp [nextPositions, defineOperationalSpace, Constraints.default, removeRows, removeIndices,
        Bind.bind, Except.bind, countTrue, arm6, railSolver, addPositionsWithMultiplier])
  have z1 : AtZero h1 := by
    intro n lt
    have := ow.same n
    unfold SameButWorld at this
    rw [this]
    exact z n lt
  have z2 := z1.clampAll (arm6.movableNodes.zip [0, 0, 0, 0, 0, 0]) (by
    intro p hp
    have := (List.of_mem_zip hp).2
    simpa using this)
  rw [diff0 _ z2.pose] at e
  have r := run_solve_reached (s := railSolver 1) (c := Constraints.default) u w rfl (Nat.zero_le _)
    (le_refl 6) (is := []) rfl (by rw [sortedIndices_nil]; exact e) (by
      have : targetDiffToLenRotDiff [(0 : ℝ), 0, 0, 0, 0, 0] (defineOperationalSpace Constraints.default) =
        (⟨0, 0, 0⟩, ⟨0, 0, 0⟩) := rfl
      rw [this]
      simp [reached, railSolver, V3.norm, Scalar.sqrt, Scalar.lt])
  refine ⟨_, r, C60_points _ _ _ _ _ u w ?_ ?_ ?_ Iso.one_isRigid r⟩
  · intro n x hx
    by_cases lt : n < 6
    · rw [(z n lt).2.2.1] at hx; cases hx
    · simp [six, lt, NodeImpl.fresh, Joint.new] at hx
  · intro n hn x hx
    rw [(z n (List.mem_range.1 hn)).2.2.1] at hx; cases hx
  · intro n hn
    obtain ⟨a, b, -⟩ := z n (List.mem_range.1 hn)
    refine ⟨by rw [b]; exact Iso.one_isRigid, ?_⟩
    rw [a]; simp [V3.IsUnit]

/-- two sliders with limits `[0, 1]` and a tolerance of 1 do not get to 3 -/
example (tries : Nat) (h' : KHeap ℝ) :
    run (solveWithConstraints (railSolver tries) arm2 (atX 3) (onlyX []))
      (rail (some ⟨0, 1⟩) (some ⟨0, 1⟩) 0 0) ≠ .ok (.ok ()) h' := by
  have n2 : ∀ n ∈ arm2.nodes, n = 0 ∨ n = 1 := by simp [arm2]
  refine C68_unreachable _ _ _ _ _ _ (rail_unlocked _ _ _ _) (rail_sliders _ _ _ _).wf2 ?_ ?_ ?_ ?_ ?_
  · intro n r hr
    by_cases a : n = 0
    · subst a; simp [rail, NodeImpl.fresh, slider] at hr; subst hr; simp [Scalar.le]
    · by_cases b : n = 1
      · subst b; simp [rail, NodeImpl.fresh, slider] at hr; subst hr; simp [Scalar.le]
      · simp [rail, NodeImpl.fresh, a, b, Joint.new] at hr
  · intro n hn r hr
    rcases n2 n hn with rfl | rfl <;> simp [rail, NodeImpl.fresh, slider] at hr <;> subst hr <;>
      simp [rail, NodeImpl.fresh, slider, Scalar.lt]
  · intro n hn
    obtain ⟨a, b⟩ := rail_sliders (some ⟨0, 1⟩) (some ⟨0, 1⟩) 0 0 n (n2 n hn)
    refine ⟨by rw [b]; exact Iso.one_isRigid, ?_⟩
    rw [a]; simp [V3.IsUnit]
  · intro n hn a _
    rcases n2 n hn with rfl | rfl <;> simp [rail, NodeImpl.fresh, slider]
  · have z : (Iso.one : Iso ℝ).trans.norm = 0 := by simp [V3.norm, Iso.one, V3.zero, Scalar.sqrt]
    have e : (masked (onlyX []).positionX (onlyX []).positionY (onlyX []).positionZ
        (atX 3).trans).norm = 3 := by
      simp [masked, onlyX, atX, V3.norm, Scalar.sqrt]
    rw [e]
    simp [arm2, rail, NodeImpl.fresh, slider, maxLength, Joint.new, z, railSolver]
    norm_num

end
end K
