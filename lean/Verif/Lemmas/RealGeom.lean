import Verif.Spec.Geom
import Mathlib.Tactic.LinearCombination
import Mathlib.Tactic.Ring
/-!
# Quaternions and isometries over the reals
-/

namespace K

namespace V3
theorem add_zero' (a : V3 ℝ) : a.add V3.zero = a := by ext <;> simp [add, zero]
theorem zero_add' (a : V3 ℝ) : V3.zero.add a = a := by ext <;> simp [add, zero]
theorem add_assoc' (a b c : V3 ℝ) : (a.add b).add c = a.add (b.add c) := by
  ext <;> simp [add, _root_.add_assoc]
theorem add_comm' (a b : V3 ℝ) : a.add b = b.add a := by ext <;> simp [add, _root_.add_comm]
end V3

namespace Quat

theorem one_isUnit : (Quat.one : Quat ℝ).IsUnit := by simp [IsUnit, one]

theorem IsUnit.mul {a b : Quat ℝ} (ha : a.IsUnit) (hb : b.IsUnit) : (a.mul b).IsUnit := by
  simp only [IsUnit, Quat.mul] at *
  linear_combination (b.w * b.w + b.i * b.i + b.j * b.j + b.k * b.k) * ha + hb

theorem IsUnit.conj {a : Quat ℝ} (ha : a.IsUnit) : a.conj.IsUnit := by
  simp only [IsUnit, Quat.conj] at *
  linear_combination ha

theorem fromAxisAngle_isUnit {a : V3 ℝ} (ha : a.IsUnit) (x : ℝ) :
    (Quat.fromAxisAngle a x).IsUnit := by
  simp only [IsUnit, V3.IsUnit, Quat.fromAxisAngle, Scalar.sin, Scalar.cos] at *
  have := Real.sin_sq_add_cos_sq (x / (1 + 1))
  linear_combination (Real.sin (x / (1 + 1)) ^ 2) * ha + this

/-- `q * v` and the rotation matrix agree for unit quaternions -/
theorem rotate_eq {q : Quat ℝ} (h : q.IsUnit) (v : V3 ℝ) : q.rotate v = q.matRotate v := by
  simp only [IsUnit] at h
  ext <;> simp only [rotate, matRotate, V3.cross, V3.add, V3.scale, Quat.vec]
  · linear_combination (-v.x) * h
  · linear_combination (-v.y) * h
  · linear_combination (-v.z) * h

theorem matRotate_mul (a b : Quat ℝ) (v : V3 ℝ) :
    (a.mul b).matRotate v = a.matRotate (b.matRotate v) := by
  ext <;> simp only [matRotate, Quat.mul] <;> ring

theorem rotate_mul {a b : Quat ℝ} (ha : a.IsUnit) (hb : b.IsUnit) (v : V3 ℝ) :
    (a.mul b).rotate v = a.rotate (b.rotate v) := by
  rw [rotate_eq (ha.mul hb), rotate_eq ha, rotate_eq hb, matRotate_mul]

theorem mul_assoc' (a b c : Quat ℝ) : (a.mul b).mul c = a.mul (b.mul c) := by
  ext <;> simp only [Quat.mul] <;> ring
theorem one_mul' (a : Quat ℝ) : Quat.one.mul a = a := by
  ext <;> simp [Quat.mul, Quat.one]
theorem mul_one' (a : Quat ℝ) : a.mul Quat.one = a := by
  ext <;> simp [Quat.mul, Quat.one]
theorem mul_conj {a : Quat ℝ} (h : a.IsUnit) : a.mul a.conj = Quat.one := by
  simp only [IsUnit] at h
  ext <;> simp only [Quat.mul, Quat.one, Quat.conj]
  · linear_combination h
  all_goals ring
theorem conj_mul {a : Quat ℝ} (h : a.IsUnit) : a.conj.mul a = Quat.one := by
  simp only [IsUnit] at h
  ext <;> simp only [Quat.mul, Quat.one, Quat.conj]
  · linear_combination h
  all_goals ring

theorem rotate_one (v : V3 ℝ) : Quat.one.rotate v = v := by
  ext <;> simp [rotate, V3.cross, V3.add, V3.scale, Quat.vec, one]
theorem rotate_zero (q : Quat ℝ) : q.rotate V3.zero = V3.zero := by
  ext <;> simp [rotate, V3.cross, V3.add, V3.scale, V3.zero]
theorem rotate_add (q : Quat ℝ) (v w : V3 ℝ) : q.rotate (v.add w) = (q.rotate v).add (q.rotate w) := by
  ext <;> simp only [rotate, V3.cross, V3.add, V3.scale, Quat.vec] <;> ring
theorem rotate_sub (q : Quat ℝ) (v w : V3 ℝ) : q.rotate (v.sub w) = (q.rotate v).sub (q.rotate w) := by
  ext <;> simp only [rotate, V3.cross, V3.add, V3.sub, V3.scale, Quat.vec] <;> ring
theorem rotate_scale (q : Quat ℝ) (v : V3 ℝ) (s : ℝ) :
    q.rotate (v.scale s) = (q.rotate v).scale s := by
  ext <;> simp only [rotate, V3.cross, V3.add, V3.scale, Quat.vec] <;> ring

theorem rotate_dot {q : Quat ℝ} (h : q.IsUnit) (v w : V3 ℝ) :
    (q.rotate v).dot (q.rotate w) = v.dot w := by
  have key : (q.matRotate v).dot (q.matRotate w) =
      (q.w * q.w + q.i * q.i + q.j * q.j + q.k * q.k) ^ 2 * v.dot w := by
    simp only [matRotate, V3.dot]; ring
  rw [rotate_eq h, rotate_eq h, key, h]; ring

theorem rotate_cross {q : Quat ℝ} (h : q.IsUnit) (v w : V3 ℝ) :
    (q.rotate v).cross (q.rotate w) = q.rotate (v.cross w) := by
  have key : (q.matRotate v).cross (q.matRotate w) =
      (q.matRotate (v.cross w)).scale (q.w * q.w + q.i * q.i + q.j * q.j + q.k * q.k) := by
    ext <;> simp only [matRotate, V3.cross, V3.scale] <;> ring
  rw [rotate_eq h, rotate_eq h, rotate_eq h, key, h]
  ext <;> simp [V3.scale]

end Quat

namespace Iso

theorem one_isRigid : (Iso.one : Iso ℝ).IsRigid := Quat.one_isUnit
theorem IsRigid.mul {a b : Iso ℝ} (ha : a.IsRigid) (hb : b.IsRigid) : (a.mul b).IsRigid :=
  Quat.IsUnit.mul ha hb

theorem mul_assoc' {a b : Iso ℝ} (ha : a.IsRigid) (hb : b.IsRigid) (c : Iso ℝ) :
    (a.mul b).mul c = a.mul (b.mul c) := by
  have e1 : ((a.mul b).mul c).trans = (a.mul (b.mul c)).trans := by
    simp only [mul, Quat.rotate_mul ha hb, Quat.rotate_add, V3.add_assoc']
  have e2 : ((a.mul b).mul c).rot = (a.mul (b.mul c)).rot := Quat.mul_assoc' _ _ _
  exact Iso.ext e1 e2
theorem one_mul' (a : Iso ℝ) : Iso.one.mul a = a := by
  refine Iso.ext ?_ (Quat.one_mul' _)
  simp only [mul, one, Quat.rotate_one, V3.zero_add']
theorem mul_one' (a : Iso ℝ) : a.mul Iso.one = a := by
  refine Iso.ext ?_ (Quat.mul_one' _)
  simp only [mul, one, Quat.rotate_zero, V3.add_zero']

theorem apply_mul {a b : Iso ℝ} (ha : a.IsRigid) (hb : b.IsRigid) (p : V3 ℝ) :
    (a.mul b).apply p = a.apply (b.apply p) := by
  simp only [mul, apply, Quat.rotate_mul ha hb, Quat.rotate_add, V3.add_assoc']
theorem apply_one (p : V3 ℝ) : Iso.one.apply p = p := by
  simp only [apply, one, Quat.rotate_one, V3.zero_add']
theorem apply_zero (a : Iso ℝ) : a.apply V3.zero = a.trans := by
  simp only [apply, Quat.rotate_zero, V3.add_zero']

end Iso

namespace Joint
theorem jointTransform_isRigid {j : Joint ℝ} (h : j.IsRigid) : j.jointTransform.IsRigid := by
  obtain ⟨-, h⟩ := h
  unfold jointTransform
  cases e : j.jointType with
  | fixed => exact Iso.one_isRigid
  | rotational a => rw [e] at h; exact Quat.fromAxisAngle_isUnit h _
  | linear a => exact Quat.one_isUnit
theorem localTransform_isRigid {j : Joint ℝ} (h : j.IsRigid) : j.localTransform.IsRigid :=
  h.1.mul (jointTransform_isRigid h)
end Joint

end K
