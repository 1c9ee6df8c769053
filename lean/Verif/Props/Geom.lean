import Verif.Lemmas.RealGeom
import Verif.Lemmas.Fk
import Verif.Lemmas.Deriv
import Verif.Lemmas.SetPos
import Verif.Model.Urdf
import Verif.Model.Ik
/-!
# C36, C37, C48: rotations
-/

set_option linter.unusedSectionVars false

namespace K
open Prog

noncomputable section

/-! ## C36 -/

/-- rotation about x -/
def rotX (a : ℝ) (v : V3 ℝ) : V3 ℝ :=
  ⟨v.x, Real.cos a * v.y - Real.sin a * v.z, Real.sin a * v.y + Real.cos a * v.z⟩
/-- rotation about y -/
def rotY (a : ℝ) (v : V3 ℝ) : V3 ℝ :=
  ⟨Real.cos a * v.x + Real.sin a * v.z, v.y, -Real.sin a * v.x + Real.cos a * v.z⟩
/-- rotation about z -/
def rotZ (a : ℝ) (v : V3 ℝ) : V3 ℝ :=
  ⟨Real.cos a * v.x - Real.sin a * v.y, Real.sin a * v.x + Real.cos a * v.y, v.z⟩

theorem fromEuler_eq (r p y : ℝ) : Quat.fromEuler r p y =
    ((Quat.fromAxisAngle ⟨0, 0, 1⟩ y).mul (Quat.fromAxisAngle ⟨0, 1, 0⟩ p)).mul
      (Quat.fromAxisAngle ⟨1, 0, 0⟩ r) := by
  have h : ∀ x : ℝ, x * Scalar.lit 1 2 = x / (1 + 1) := fun x => by
    simp [Scalar.lit]; ring
  ext <;> simp only [Quat.fromEuler, Quat.fromAxisAngle, Quat.mul, h] <;> ring

theorem half_cos (a : ℝ) : Real.cos a = Real.cos (a / (1 + 1)) ^ 2 - Real.sin (a / (1 + 1)) ^ 2 := by
  have : a = 2 * (a / (1 + 1)) := by ring
  conv_lhs => rw [this, Real.cos_two_mul]
  linear_combination Real.sin_sq_add_cos_sq (a / (1 + 1))
theorem half_sin (a : ℝ) : Real.sin a = 2 * Real.sin (a / (1 + 1)) * Real.cos (a / (1 + 1)) := by
  have : a = 2 * (a / (1 + 1)) := by ring
  conv_lhs => rw [this, Real.sin_two_mul]

theorem axisX_isUnit : (⟨1, 0, 0⟩ : V3 ℝ).IsUnit := by simp [V3.IsUnit]
theorem axisY_isUnit : (⟨0, 1, 0⟩ : V3 ℝ).IsUnit := by simp [V3.IsUnit]
theorem axisZ_isUnit : (⟨0, 0, 1⟩ : V3 ℝ).IsUnit := by simp [V3.IsUnit]

theorem rotate_axisX (a : ℝ) (v : V3 ℝ) : (Quat.fromAxisAngle ⟨1, 0, 0⟩ a).rotate v = rotX a v := by
  rw [Quat.rotate_eq (Quat.fromAxisAngle_isUnit axisX_isUnit _)]
  have := Real.sin_sq_add_cos_sq (a / (1 + 1))
  ext <;> simp only [Quat.matRotate, Quat.fromAxisAngle, rotX, half_cos a, half_sin a, Scalar.sin,
    Scalar.cos]
  · linear_combination v.x * this
  · ring
  · ring
theorem rotate_axisY (a : ℝ) (v : V3 ℝ) : (Quat.fromAxisAngle ⟨0, 1, 0⟩ a).rotate v = rotY a v := by
  rw [Quat.rotate_eq (Quat.fromAxisAngle_isUnit axisY_isUnit _)]
  have := Real.sin_sq_add_cos_sq (a / (1 + 1))
  ext <;> simp only [Quat.matRotate, Quat.fromAxisAngle, rotY, half_cos a, half_sin a, Scalar.sin,
    Scalar.cos]
  · ring
  · linear_combination v.y * this
  · ring
theorem rotate_axisZ (a : ℝ) (v : V3 ℝ) : (Quat.fromAxisAngle ⟨0, 0, 1⟩ a).rotate v = rotZ a v := by
  rw [Quat.rotate_eq (Quat.fromAxisAngle_isUnit axisZ_isUnit _)]
  have := Real.sin_sq_add_cos_sq (a / (1 + 1))
  ext <;> simp only [Quat.matRotate, Quat.fromAxisAngle, rotZ, half_cos a, half_sin a, Scalar.sin,
    Scalar.cos]
  · ring
  · ring
  · linear_combination v.z * this

/-- **C36**.  `quaternion_from` of roll, pitch, yaw is a unit quaternion and rotates by roll about x,
then pitch about y, then yaw about z (the fixed axes). -/
theorem C36_rpy (rpy v : V3 ℝ) : (Urdf.quaternionFrom id rpy).IsUnit ∧
    (Urdf.quaternionFrom id rpy).rotate v = rotZ rpy.z (rotY rpy.y (rotX rpy.x v)) := by
  have e : Urdf.quaternionFrom id rpy = Quat.fromEuler rpy.x rpy.y rpy.z := rfl
  have ux := Quat.fromAxisAngle_isUnit axisX_isUnit rpy.x
  have uy := Quat.fromAxisAngle_isUnit axisY_isUnit rpy.y
  have uz := Quat.fromAxisAngle_isUnit axisZ_isUnit rpy.z
  rw [e, fromEuler_eq]
  refine ⟨(uz.mul uy).mul ux, ?_⟩
  rw [Quat.rotate_mul (uz.mul uy) ux, Quat.rotate_mul uz uy, rotate_axisX, rotate_axisY, rotate_axisZ]

/-- **C36** (pose).  `isometry_from` rotates so and then translates by `xyz`. -/
theorem C36_isometry (o : Urdf.Pose ℝ) (v : V3 ℝ) : (Urdf.isometryFrom id o).IsRigid ∧
    (Urdf.isometryFrom id o).apply v =
      o.xyz.add (rotZ o.rpy.z (rotY o.rpy.y (rotX o.rpy.x v))) := by
  obtain ⟨a, b⟩ := C36_rpy o.rpy v
  refine ⟨a, ?_⟩
  simp only [Urdf.isometryFrom, Iso.apply, b, Urdf.translationFrom, Urdf.cvV3, id]

/-- a quarter turn about z takes x to y -/
example : rotZ (Real.pi / 2) (rotY 0 (rotX 0 ⟨1, 0, 0⟩)) = ⟨0, 1, 0⟩ := by
  simp [rotX, rotY, rotZ]

/-! ## C37 -/

theorem norm_pos_iff (v : V3 ℝ) : 0 < v.norm ↔ v ≠ V3.zero := by
  unfold V3.norm Scalar.sqrt
  show 0 < Real.sqrt _ ↔ _
  rw [Real.sqrt_pos]
  constructor
  · rintro h rfl; simp [V3.zero] at h
  · intro h
    by_contra c
    apply h
    have c := not_lt.1 c
    have hx : v.x = 0 := by nlinarith [mul_self_nonneg v.x, mul_self_nonneg v.y, mul_self_nonneg v.z]
    have hy : v.y = 0 := by nlinarith [mul_self_nonneg v.x, mul_self_nonneg v.y, mul_self_nonneg v.z]
    have hz : v.z = 0 := by nlinarith [mul_self_nonneg v.x, mul_self_nonneg v.y, mul_self_nonneg v.z]
    ext <;> simp [V3.zero, hx, hy, hz]

theorem angle_ne_zero (q : Quat ℝ) (h : 0 < q.vec.norm) : q.angle ≠ 0 := by
  unfold Quat.angle Scalar.atan2 Scalar.lit
  simp only [instScalarReal]
  intro e
  have : Complex.arg ⟨|q.w|, q.vec.norm⟩ = 0 := by
    rcases mul_eq_zero.1 e with e | e
    · exact e
    · norm_num at e
  rw [Complex.arg_eq_zero_iff] at this
  exact h.ne' this.2

theorem scaledAxis_eq_zero (q : Quat ℝ) : q.scaledAxis = V3.zero ↔ q.vec = V3.zero := by
  have nn : q.vec.neg.norm = q.vec.norm := by simp [V3.norm, V3.neg]
  constructor
  · intro h
    by_contra c
    have p := (norm_pos_iff _).2 c
    have ang := angle_ne_zero q p
    unfold Quat.scaledAxis Quat.axis at h
    have key : ∀ v : V3 ℝ, v ≠ V3.zero → v.norm = q.vec.norm →
        (v.unscale v.norm).scale q.angle ≠ V3.zero := by
      intro v hv hn e
      apply hv
      simp only [V3.scale, V3.unscale, V3.zero, V3.mk.injEq, mul_eq_zero, ang, or_false, div_eq_zero_iff,
        hn, p.ne'] at e
      ext
      · exact e.1
      · exact e.2.1
      · exact e.2.2
    by_cases hw : Scalar.le 0 q.w = true
    · simp only [hw, if_true] at h
      have : Scalar.lt 0 q.vec.norm = true := by simpa [Scalar.lt] using p
      simp only [this, if_true] at h
      exact key _ c rfl h
    · simp only [hw] at h
      have : Scalar.lt 0 q.vec.neg.norm = true := by rw [nn]; simpa [Scalar.lt] using p
      simp only [this, if_true, Bool.false_eq_true, if_false] at h
      refine key _ ?_ nn h
      intro e; apply c
      simp only [V3.neg, V3.zero, V3.mk.injEq, neg_eq_zero] at e
      ext
      · exact e.1
      · exact e.2.1
      · exact e.2.2
  · intro h
    have n0 : q.vec.norm = 0 := by rw [h]; simp [V3.norm, V3.zero, Scalar.sqrt]
    unfold Quat.scaledAxis Quat.axis
    have : Scalar.lt 0 (if Scalar.le 0 q.w = true then q.vec else q.vec.neg).norm = false := by
      split
      · rw [n0]; simp [Scalar.lt]
      · rw [nn, n0]; simp [Scalar.lt]
    simp only [this]
    rfl

/-- a unit quaternion without imaginary part is a trivial rotation, and conversely -/
theorem vec_zero_iff {q : Quat ℝ} (u : q.IsUnit) :
    q.vec = V3.zero ↔ ∀ v, q.rotate v = v := by
  constructor
  · intro h v
    have hi : q.i = 0 := congrArg V3.x h
    have hj : q.j = 0 := congrArg V3.y h
    have hk : q.k = 0 := congrArg V3.z h
    ext <;> simp [Quat.rotate, Quat.vec, V3.cross, V3.add, V3.scale, hi, hj, hk]
  · intro h
    have ex := h ⟨1, 0, 0⟩
    have ey := h ⟨0, 1, 0⟩
    have ez := h ⟨0, 0, 1⟩
    simp only [Quat.rotate_eq u, Quat.matRotate, V3.mk.injEq] at ex ey ez
    simp only [Quat.IsUnit] at u
    have a : q.j * q.j + q.k * q.k = 0 := by linarith [ex.1]
    have b : q.i * q.i + q.k * q.k = 0 := by linarith [ey.2.1]
    have hj : q.j = 0 := by nlinarith [mul_self_nonneg q.j, mul_self_nonneg q.k]
    have hk : q.k = 0 := by nlinarith [mul_self_nonneg q.j, mul_self_nonneg q.k]
    have hi : q.i = 0 := by nlinarith [mul_self_nonneg q.i, mul_self_nonneg q.k]
    ext <;> simp [Quat.vec, V3.zero, hi, hj, hk]

/-- **C37**.  The pose difference of two rigid poses vanishes iff they are the same motion. -/
theorem C37_zero_iff (a b : Iso ℝ) (ha : a.IsRigid) (hb : b.IsRigid) :
    calcPoseDiff a b = [0, 0, 0, 0, 0, 0] ↔ ∀ p, a.apply p = b.apply p := by
  have uq : (b.rot.rotationTo a.rot).IsUnit := Quat.IsUnit.mul ha hb.conj
  have key : (b.rot.rotationTo a.rot).scaledAxis = V3.zero ↔
      ∀ v, a.rot.rotate v = b.rot.rotate v := by
    rw [scaledAxis_eq_zero, vec_zero_iff uq]
    unfold Quat.rotationTo
    constructor
    · intro h v
      have := h (b.rot.rotate v)
      rw [Quat.rotate_mul ha hb.conj, ← Quat.rotate_mul hb.conj hb, Quat.conj_mul hb,
        Quat.rotate_one] at this
      exact this
    · intro h v
      rw [Quat.rotate_mul ha hb.conj, h, ← Quat.rotate_mul hb hb.conj, Quat.mul_conj hb,
        Quat.rotate_one]
  have e : calcPoseDiff a b = [0, 0, 0, 0, 0, 0] ↔
      a.trans = b.trans ∧ (b.rot.rotationTo a.rot).scaledAxis = V3.zero := by
    simp only [calcPoseDiff, List.cons.injEq, and_true, V3.sub, V3.ext_iff, V3.zero, sub_eq_zero]
    tauto
  rw [e, key]
  constructor
  · rintro ⟨t, r⟩ p
    simp only [Iso.apply, t, r]
  · intro h
    have t : a.trans = b.trans := by
      have := h V3.zero
      rwa [Iso.apply_zero, Iso.apply_zero] at this
    refine ⟨t, fun v => ?_⟩
    have := h v
    simp only [Iso.apply, t, V3.ext_iff, V3.add, add_right_inj] at this
    ext
    · exact this.1
    · exact this.2.1
    · exact this.2.2

/-- two different quaternions for the same motion -/
example : calcPoseDiff (⟨V3.zero, ⟨-1, 0, 0, 0⟩⟩ : Iso ℝ) Iso.one = [0, 0, 0, 0, 0, 0] := by
  rw [C37_zero_iff _ _ (by simp [Iso.IsRigid, Quat.IsUnit]) Iso.one_isRigid]
  intro p
  simp [Iso.apply, Iso.one, Quat.rotate, Quat.vec, V3.cross, V3.add, V3.scale, V3.zero, Quat.one]

/-- the opposite quaternion -/
def Quat.neg (q : Quat ℝ) : Quat ℝ := ⟨-q.w, -q.i, -q.j, -q.k⟩

theorem Quat.neg_rotate (q : Quat ℝ) (v : V3 ℝ) : q.neg.rotate v = q.rotate v := by
  ext <;> simp only [Quat.neg, Quat.rotate, Quat.vec, V3.cross, V3.add, V3.scale] <;> ring

/-- the rotation by `t` about the unit vector `u` (Rodrigues' formula) -/
def turnAbout (u : V3 ℝ) (t : ℝ) (p : V3 ℝ) : V3 ℝ :=
  ((p.scale (Real.cos t)).add ((u.cross p).scale (Real.sin t))).add
    (u.scale (u.dot p * (1 - Real.cos t)))

theorem norm_sq (v : V3 ℝ) : v.norm ^ 2 = v.x * v.x + v.y * v.y + v.z * v.z := by
  show Real.sqrt _ ^ 2 = _
  rw [Real.sq_sqrt]
  nlinarith [mul_self_nonneg v.x, mul_self_nonneg v.y, mul_self_nonneg v.z]

/-- for a unit quaternion `cos (angle / 2) = |w|` and `sin (angle / 2) = ‖vec‖` -/
theorem Quat.angle_spec {q : Quat ℝ} (u : q.IsUnit) :
    0 ≤ q.angle ∧ q.angle ≤ Real.pi ∧ Real.cos (q.angle / (1 + 1)) = |q.w| ∧
      Real.sin (q.angle / (1 + 1)) = q.vec.norm := by
  have n0 : 0 ≤ q.vec.norm := Real.sqrt_nonneg _
  have n1 : |q.w| ^ 2 + q.vec.norm ^ 2 = 1 := by
    rw [norm_sq, sq_abs]
    simp only [Quat.IsUnit] at u
    simp only [Quat.vec]
    nlinarith
  have e : q.angle = Complex.arg ⟨|q.w|, q.vec.norm⟩ * 2 := by
    unfold Quat.angle Scalar.atan2 Scalar.lit
    simp [instScalarReal, Scalar.abs]
  have z0 : (⟨|q.w|, q.vec.norm⟩ : ℂ) ≠ 0 := by
    intro h
    have h1 := congrArg Complex.re h
    have h2 := congrArg Complex.im h
    simp only [Complex.zero_re, Complex.zero_im] at h1 h2
    rw [h1, h2] at n1
    norm_num at n1
  have nz : ‖(⟨|q.w|, q.vec.norm⟩ : ℂ)‖ = 1 := by
    have : ‖(⟨|q.w|, q.vec.norm⟩ : ℂ)‖ ^ 2 = 1 := by
      rw [Complex.sq_norm, Complex.normSq_mk]; nlinarith
    nlinarith [norm_nonneg (⟨|q.w|, q.vec.norm⟩ : ℂ)]
  have a0 : 0 ≤ Complex.arg ⟨|q.w|, q.vec.norm⟩ := Complex.arg_nonneg_iff.2 n0
  have a1 : Complex.arg ⟨|q.w|, q.vec.norm⟩ ≤ Real.pi / 2 :=
    (abs_le.1 (Complex.abs_arg_le_pi_div_two_iff.2 (abs_nonneg _))).2
  have e2 : q.angle / (1 + 1) = Complex.arg ⟨|q.w|, q.vec.norm⟩ := by rw [e]; ring
  refine ⟨by rw [e]; linarith, by rw [e]; linarith, ?_, ?_⟩
  · rw [e2, Complex.cos_arg z0, nz]; simp
  · rw [e2, Complex.sin_arg, nz]; simp

/-- the scaled axis of a unit quaternion: an axis and an angle in `[0, π]` of its rotation -/
theorem Quat.scaledAxis_spec {q : Quat ℝ} (u : q.IsUnit) :
    ∃ a t, a.IsUnit ∧ 0 ≤ t ∧ t ≤ Real.pi ∧ q.scaledAxis = a.scale t ∧
      ∀ p, q.rotate p = turnAbout a t p := by
  obtain ⟨t0, t1, hc, hs⟩ := Quat.angle_spec u
  have nn : q.vec.neg.norm = q.vec.norm := by simp [V3.norm, V3.neg]
  by_cases c : q.vec = V3.zero
  · refine ⟨⟨1, 0, 0⟩, 0, by simp [V3.IsUnit], le_rfl, Real.pi_pos.le, ?_, fun p => ?_⟩
    · rw [(scaledAxis_eq_zero q).2 c]; simp [V3.zero, V3.scale]
    · rw [(vec_zero_iff u).1 c]
      ext <;> simp [turnAbout, V3.add, V3.scale, V3.cross]
  · have p := (norm_pos_iff _).2 c
    have un : ∀ v : V3 ℝ, v.norm = q.vec.norm → (v.unscale v.norm).IsUnit := by
      intro v hv
      have := norm_sq v
      have hp : v.norm ≠ 0 := by rw [hv]; exact p.ne'
      simp only [V3.IsUnit, V3.unscale]
      field_simp
      linarith
    by_cases hw : 0 ≤ q.w
    · refine ⟨q.vec.unscale q.vec.norm, q.angle, un _ rfl, t0, t1, ?_, fun x => ?_⟩
      · have h1 : Scalar.le 0 q.w = true := by simpa [Scalar.le] using hw
        have h2 : Scalar.lt 0 q.vec.norm = true := by simpa [Scalar.lt] using p
        simp [Quat.scaledAxis, Quat.axis, h1, h2]
      · rw [turnAbout, ← rotate_fromAxisAngle (un _ rfl)]
        congr 1
        have hc' : Scalar.cos (q.angle / (1 + 1)) = q.w := by
          rw [abs_of_nonneg hw] at hc; exact hc
        have hs' : Scalar.sin (q.angle / (1 + 1)) = q.vec.norm := hs
        have := p.ne'
        ext <;> simp only [Quat.fromAxisAngle, hc', hs', V3.unscale]
        all_goals field_simp
        all_goals rfl
    · refine ⟨q.vec.neg.unscale q.vec.neg.norm, q.angle, un _ nn, t0, t1, ?_, fun x => ?_⟩
      · have h1 : Scalar.le 0 q.w = false := by simpa [Scalar.le] using hw
        have h2 : Scalar.lt 0 q.vec.neg.norm = true := by rw [nn]; simpa [Scalar.lt] using p
        simp [Quat.scaledAxis, Quat.axis, h1, h2]
      · rw [turnAbout, ← rotate_fromAxisAngle (un _ nn), ← Quat.neg_rotate]
        congr 1
        have hc' : Scalar.cos (q.angle / (1 + 1)) = -q.w := by
          rw [abs_of_neg (not_le.1 hw)] at hc; exact hc
        have hs' : Scalar.sin (q.angle / (1 + 1)) = q.vec.norm := hs
        have := p.ne'
        ext <;> simp only [Quat.fromAxisAngle, hc', hs', V3.unscale, nn, Quat.neg]
        all_goals field_simp
        all_goals rfl

/-- **C37** (exactly).  The first three entries of the pose difference are the translation from `b` to
`a`; the last three are an axis times an angle between 0 and π, and turning about this axis by this
angle takes the orientation of `b` to that of `a`. -/
theorem C37_exact (a b : Iso ℝ) (ha : a.IsRigid) (hb : b.IsRigid) :
    ∃ u t, V3.IsUnit u ∧ 0 ≤ t ∧ t ≤ Real.pi ∧
      calcPoseDiff a b = [a.trans.x - b.trans.x, a.trans.y - b.trans.y, a.trans.z - b.trans.z,
        u.x * t, u.y * t, u.z * t] ∧
      ∀ p, a.rot.rotate p = turnAbout u t (b.rot.rotate p) := by
  have uq : (b.rot.rotationTo a.rot).IsUnit := Quat.IsUnit.mul ha hb.conj
  obtain ⟨u, t, hu, t0, t1, e, h⟩ := Quat.scaledAxis_spec uq
  refine ⟨u, t, hu, t0, t1, ?_, fun p => ?_⟩
  · simp only [calcPoseDiff, e, V3.sub, V3.scale]
  · rw [← h, Quat.rotationTo, Quat.rotate_mul ha hb.conj, ← Quat.rotate_mul hb.conj hb, Quat.conj_mul hb,
      Quat.rotate_one]

/-- a quarter turn the other way round, given by a quaternion with a negative real part: the angle is
that of the shorter way -/
example : ∃ u t, V3.IsUnit u ∧ 0 ≤ t ∧ t ≤ Real.pi ∧
    calcPoseDiff ⟨⟨1, 2, 3⟩, Quat.fromAxisAngle ⟨0, 0, 1⟩ (3 * Real.pi / 2)⟩ (Iso.one (T := ℝ)) =
      [1, 2, 3, u.x * t, u.y * t, u.z * t] ∧
    turnAbout u t ⟨1, 0, 0⟩ = ⟨0, -1, 0⟩ := by
  obtain ⟨u, t, hu, t0, t1, e, h⟩ := C37_exact
    ⟨⟨1, 2, 3⟩, Quat.fromAxisAngle ⟨0, 0, 1⟩ (3 * Real.pi / 2)⟩ (Iso.one (T := ℝ))
    (Quat.fromAxisAngle_isUnit (by simp [V3.IsUnit]) _) Iso.one_isRigid
  refine ⟨u, t, hu, t0, t1, ?_, ?_⟩
  · rw [e]; simp [Iso.one, V3.zero]
  · have := h ⟨1, 0, 0⟩
    simp only [Iso.one, Quat.rotate_one] at this
    rw [← this, rotate_axisZ]
    have e : 3 * Real.pi / 2 = Real.pi / 2 + Real.pi := by ring
    simp [rotZ, e, Real.cos_add_pi, Real.sin_add_pi]

/-! ## C48 -/

/-- equal up to the sign of the quaternion -/
def Iso.SameMotion (a b : Iso ℝ) : Prop := b.trans = a.trans ∧ (b.rot = a.rot ∨ b.rot = a.rot.neg)

theorem Iso.SameMotion.mul {a b c d : Iso ℝ} (x : a.SameMotion b) (y : c.SameMotion d) :
    (a.mul c).SameMotion (b.mul d) := by
  obtain ⟨t1, r1⟩ := x
  obtain ⟨t2, r2⟩ := y
  refine ⟨?_, ?_⟩
  · simp only [Iso.mul, t1, t2]
    rcases r1 with e | e <;> rw [e]
    rw [Quat.neg_rotate]
  · simp only [Iso.mul]
    rcases r1 with e | e <;> rcases r2 with f | f <;> rw [e, f]
    · exact .inl rfl
    · right; ext <;> simp only [Quat.mul, Quat.neg] <;> ring
    · right; ext <;> simp only [Quat.mul, Quat.neg] <;> ring
    · left; ext <;> simp only [Quat.mul, Quat.neg] <;> ring

theorem Iso.SameMotion.apply {a b : Iso ℝ} (x : a.SameMotion b) (p : V3 ℝ) : b.apply p = a.apply p := by
  obtain ⟨t, r | r⟩ := x
  · simp [Iso.apply, t, r]
  · simp [Iso.apply, t, r, Quat.neg_rotate]

theorem Iso.SameMotion.refl (a : Iso ℝ) : a.SameMotion a := ⟨rfl, .inl rfl⟩

theorem fromAxisAngle_period (a : V3 ℝ) (x : ℝ) :
    Quat.fromAxisAngle a (x + 2 * Real.pi) = (Quat.fromAxisAngle a x).neg := by
  have e : (x + 2 * Real.pi) / (1 + 1) = x / (1 + 1) + Real.pi := by ring
  simp only [Quat.fromAxisAngle, Quat.neg, e]
  simp [Scalar.sin, Scalar.cos, Real.sin_add_pi, Real.cos_add_pi]

/-- **C48** (period).  Adding `2π` to the position of a rotational joint changes the image of no point
under any world transform: `h'` differs from `h` in that position (and in caches). -/
theorem C48_period (h h' : KHeap ℝ) (sb : SameBut h h') (dead : h'.dead = h.dead) (k : NodeId)
    (axis : V3 ℝ) (rot : (h.get k).joint.jointType = .rotational axis)
    (turn : (h'.get k).joint.position = (h.get k).joint.position + 2 * Real.pi)
    (other : ∀ n, n ≠ k → (h'.get n).joint.position = (h.get n).joint.position)
    (n : NodeId) (X X' : Iso ℝ) (w : World h n X) (w' : World h' n X') (p : V3 ℝ) :
    X'.apply p = X.apply p := by
  have lt : ∀ n, (h.get n).joint.localTransform.SameMotion (h'.get n).joint.localTransform := by
    intro n
    unfold Joint.localTransform
    rw [sb.origin]
    refine (Iso.SameMotion.refl _).mul ?_
    unfold Joint.jointTransform
    rw [sb.jointType]
    by_cases e : n = k
    · subst e
      rw [rot, turn]
      exact ⟨rfl, .inr (fromAxisAngle_period _ _)⟩
    · rw [other n e]; exact .refl _
  have lp : ∀ n, liveParent h' n = liveParent h n := by
    intro n; unfold liveParent; rw [sb.parent, dead]
  have : X.SameMotion X' := by
    induction w generalizing X' with
    | @root n e =>
      cases w' with
      | root e' => exact (Iso.SameMotion.refl _).mul (lt n)
      | step e' => rw [lp, e] at e'; cases e'
    | @step n p X e _ ih =>
      cases w' with
      | root e' => rw [lp, e] at e'; cases e'
      | step e' w' => rw [lp, e] at e'; cases e'; exact (ih _ w').mul (lt n)
  exact this.apply p

theorem fromAxisAngle_add {a : V3 ℝ} (u : a.IsUnit) (x y : ℝ) :
    Quat.fromAxisAngle a (x + y) = (Quat.fromAxisAngle a x).mul (Quat.fromAxisAngle a y) := by
  have e : (x + y) / (1 + 1) = x / (1 + 1) + y / (1 + 1) := by ring
  simp only [V3.IsUnit] at u
  ext <;> simp only [Quat.fromAxisAngle, Quat.mul, e, Scalar.sin, Scalar.cos, Real.sin_add,
    Real.cos_add]
  · linear_combination Real.sin (x / (1 + 1)) * Real.sin (y / (1 + 1)) * u
  all_goals ring

/-- **C48** (axis).  The motion of a rotational joint fixes the points of its axis, whatever the
position. -/
theorem C48_axis_fixed (j : Joint ℝ) (r : j.IsRigid) (axis : V3 ℝ)
    (e : j.jointType = .rotational axis) (s : ℝ) :
    j.localTransform.apply (axis.scale s) = j.origin.apply (axis.scale s) := by
  have : j.jointTransform.apply (axis.scale s) = axis.scale s := by
    simp only [Joint.jointTransform, e, Iso.apply]
    ext <;> simp only [Quat.fromAxisAngle, Quat.rotate, Quat.vec, V3.cross, V3.add, V3.scale] <;> ring
  rw [Joint.localTransform, Iso.apply_mul r.1 (Joint.jointTransform_isRigid r), this]

/-- **C48** (rotation).  A rotational joint at position `x` rotates by the angle `x` about its axis,
counterclockwise seen against the axis (Rodrigues' formula). -/
theorem C48_rotation (j : Joint ℝ) (r : j.IsRigid) (axis : V3 ℝ)
    (e : j.jointType = .rotational axis) (p : V3 ℝ) :
    j.localTransform.apply p = j.origin.apply
      (((p.scale (Real.cos j.position)).add ((axis.cross p).scale (Real.sin j.position))).add
        (axis.scale (axis.dot p * (1 - Real.cos j.position)))) := by
  have ua : axis.IsUnit := by have := r.2; rw [e] at this; exact this
  have : j.jointTransform.apply p =
      ((p.scale (Real.cos j.position)).add ((axis.cross p).scale (Real.sin j.position))).add
        (axis.scale (axis.dot p * (1 - Real.cos j.position))) := by
    have sc := Real.sin_sq_add_cos_sq (j.position / (1 + 1))
    have ua : axis.x * axis.x + axis.y * axis.y + axis.z * axis.z = 1 := ua
    simp only [Joint.jointTransform, e, Iso.apply]
    generalize hc : Real.cos (j.position / (1 + 1)) = c at *
    generalize hs : Real.sin (j.position / (1 + 1)) = s at *
    ext <;> simp only [Quat.fromAxisAngle, Quat.rotate, Quat.vec, V3.cross, V3.add, V3.scale, V3.dot,
      half_cos j.position, half_sin j.position, Scalar.sin, Scalar.cos, hc, hs]
    · linear_combination (axis.x * (axis.x * p.x + axis.y * p.y + axis.z * p.z) - p.x) * sc
        - 2 * s ^ 2 * p.x * ua
    · linear_combination (axis.y * (axis.x * p.x + axis.y * p.y + axis.z * p.z) - p.y) * sc
        - 2 * s ^ 2 * p.y * ua
    · linear_combination (axis.z * (axis.x * p.x + axis.y * p.y + axis.z * p.z) - p.z) * sc
        - 2 * s ^ 2 * p.z * ua
  rw [Joint.localTransform, Iso.apply_mul r.1 (Joint.jointTransform_isRigid r), this]

/-- **C48** (linear).  A linear joint at position `x` translates by `x` along its axis. -/
theorem C48_linear (j : Joint ℝ) (r : j.IsRigid) (axis : V3 ℝ) (e : j.jointType = .linear axis)
    (p : V3 ℝ) : j.localTransform.apply p = j.origin.apply (p.add (axis.scale j.position)) := by
  have : j.jointTransform.apply p = p.add (axis.scale j.position) := by
    simp only [Joint.jointTransform, e, Iso.apply, Quat.rotate_one, V3.add_comm']
  rw [Joint.localTransform, Iso.apply_mul r.1 (Joint.jointTransform_isRigid r), this]

/-- **C48** (fixed).  A Fixed joint is its origin, whatever position it has. -/
theorem C48_fixed (j : Joint ℝ) (r : j.IsRigid) (e : j.jointType = .fixed) (p : V3 ℝ) :
    j.localTransform.apply p = j.origin.apply p := by
  have : j.jointTransform.apply p = p := by
    simp [Joint.jointTransform, e, Iso.apply, Quat.rotate_one, Iso.one, V3.add, V3.zero]
  rw [Joint.localTransform, Iso.apply_mul r.1 (Joint.jointTransform_isRigid r), this]

/-- **C48** (composition).  Two moves of the same joint add up. -/
theorem C48_add (j : Joint ℝ) (r : j.IsRigid) (x y : ℝ) :
    ({ j with position := x + y } : Joint ℝ).jointTransform =
      ({ j with position := x } : Joint ℝ).jointTransform.mul
        ({ j with position := y } : Joint ℝ).jointTransform := by
  obtain ⟨-, r⟩ := r
  unfold Joint.jointTransform
  cases e : j.jointType with
  | fixed => exact (Iso.one_mul' _).symm
  | rotational a =>
    rw [e] at r
    refine Iso.ext ?_ (fromAxisAngle_add r x y)
    ext <;> simp [Iso.mul, Quat.rotate, V3.cross, V3.add, V3.scale]
  | linear a =>
    refine Iso.ext ?_ (Quat.one_mul' _).symm
    simp only [Iso.mul, Quat.rotate_one]
    ext <;> simp only [V3.add, V3.scale] <;> ring

/-- the full turn leaves the joint where it was, the half turn does not -/
example : (Quat.fromAxisAngle ⟨0, 0, 1⟩ (2 * Real.pi)).rotate ⟨1, 0, 0⟩ = (⟨1, 0, 0⟩ : V3 ℝ) ∧
    (Quat.fromAxisAngle ⟨0, 0, 1⟩ Real.pi).rotate ⟨1, 0, 0⟩ = (⟨-1, 0, 0⟩ : V3 ℝ) := by
  rw [rotate_axisZ, rotate_axisZ]
  simp [rotZ]

end
end K
