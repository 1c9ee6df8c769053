import Verif.Lemmas.RealGeom
import Verif.Model.Funcs
import Mathlib.Analysis.SpecialFunctions.Trigonometric.Deriv
import Mathlib.Analysis.Calculus.Deriv.Mul
import Mathlib.Analysis.Calculus.Deriv.Add
/-!
# Derivatives of rigid motions with respect to a joint position
-/

namespace K

/-- the three coordinates of `f` have the derivatives `d` at `x` -/
def V3.HasDeriv (f : ℝ → V3 ℝ) (d : V3 ℝ) (x : ℝ) : Prop :=
  HasDerivAt (fun t => (f t).x) d.x x ∧ HasDerivAt (fun t => (f t).y) d.y x ∧
    HasDerivAt (fun t => (f t).z) d.z x

namespace V3

theorem HasDeriv.const_add {f : ℝ → V3 ℝ} {d : V3 ℝ} {x : ℝ} (hf : HasDeriv f d x) (c : V3 ℝ) :
    HasDeriv (fun t => c.add (f t)) d x :=
  ⟨hf.1.const_add _, hf.2.1.const_add _, hf.2.2.const_add _⟩

theorem HasDeriv.add_const {f : ℝ → V3 ℝ} {d : V3 ℝ} {x : ℝ} (hf : HasDeriv f d x) (c : V3 ℝ) :
    HasDeriv (fun t => (f t).add c) d x :=
  ⟨hf.1.add_const _, hf.2.1.add_const _, hf.2.2.add_const _⟩

theorem hasDeriv_const (c : V3 ℝ) (x : ℝ) : HasDeriv (fun _ => c) V3.zero x :=
  ⟨hasDerivAt_const _ _, hasDerivAt_const _ _, hasDerivAt_const _ _⟩

theorem hasDeriv_scale (a : V3 ℝ) (x : ℝ) : HasDeriv (fun t => a.scale t) a x := by
  refine ⟨?_, ?_, ?_⟩ <;> simp only [V3.scale] <;>
    simpa using (hasDerivAt_id x).const_mul _

theorem HasDeriv.rotate {f : ℝ → V3 ℝ} {d : V3 ℝ} {x : ℝ} (hf : HasDeriv f d x) (q : Quat ℝ) :
    HasDeriv (fun t => q.rotate (f t)) (q.rotate d) x := by
  obtain ⟨h1, h2, h3⟩ := hf
  have lin : ∀ a b c : ℝ, HasDerivAt (fun t => a * (f t).x + b * (f t).y + c * (f t).z)
      (a * d.x + b * d.y + c * d.z) x := fun a b c =>
    ((h1.const_mul a).add (h2.const_mul b)).add (h3.const_mul c)
  have e1 : ∀ v : V3 ℝ, (q.rotate v).x = (1 - 2 * (q.j * q.j + q.k * q.k)) * v.x +
      2 * (q.i * q.j - q.w * q.k) * v.y + 2 * (q.i * q.k + q.w * q.j) * v.z := by
    intro v; simp only [Quat.rotate, V3.cross, V3.add, V3.scale, Quat.vec]; ring
  have e2 : ∀ v : V3 ℝ, (q.rotate v).y = 2 * (q.i * q.j + q.w * q.k) * v.x +
      (1 - 2 * (q.i * q.i + q.k * q.k)) * v.y + 2 * (q.j * q.k - q.w * q.i) * v.z := by
    intro v; simp only [Quat.rotate, V3.cross, V3.add, V3.scale, Quat.vec]; ring
  have e3 : ∀ v : V3 ℝ, (q.rotate v).z = 2 * (q.i * q.k - q.w * q.j) * v.x +
      2 * (q.j * q.k + q.w * q.i) * v.y + (1 - 2 * (q.i * q.i + q.j * q.j)) * v.z := by
    intro v; simp only [Quat.rotate, V3.cross, V3.add, V3.scale, Quat.vec]; ring
  refine ⟨?_, ?_, ?_⟩
  · simp only [e1]; exact lin _ _ _
  · simp only [e2]; exact lin _ _ _
  · simp only [e3]; exact lin _ _ _

theorem HasDeriv.apply {f : ℝ → V3 ℝ} {d : V3 ℝ} {x : ℝ} (hf : HasDeriv f d x) (m : Iso ℝ) :
    HasDeriv (fun t => m.apply (f t)) (m.rot.rotate d) x := (hf.rotate m.rot).const_add _

end V3

theorem rotate_fromAxisAngle {a : V3 ℝ} (ha : a.IsUnit) (x : ℝ) (p : V3 ℝ) :
    (Quat.fromAxisAngle a x).rotate p =
      ((p.scale (Real.cos x)).add ((a.cross p).scale (Real.sin x))).add
        (a.scale (a.dot p * (1 - Real.cos x))) := by
  have hc : Real.cos x = Real.cos (x / (1 + 1)) ^ 2 - Real.sin (x / (1 + 1)) ^ 2 := by
    have : x = 2 * (x / (1 + 1)) := by ring
    conv_lhs => rw [this, Real.cos_two_mul]
    linear_combination Real.sin_sq_add_cos_sq (x / (1 + 1))
  have hs : Real.sin x = 2 * Real.sin (x / (1 + 1)) * Real.cos (x / (1 + 1)) := by
    have : x = 2 * (x / (1 + 1)) := by ring
    conv_lhs => rw [this, Real.sin_two_mul]
  have hsc := Real.sin_sq_add_cos_sq (x / (1 + 1))
  simp only [V3.IsUnit] at ha
  rw [hc, hs]
  generalize hC : Real.cos (x / (1 + 1)) = C at *
  generalize hS : Real.sin (x / (1 + 1)) = S at *
  have hs' : Scalar.sin (x / (1 + 1)) = S := hS
  have hc' : Scalar.cos (x / (1 + 1)) = C := hC
  ext <;> simp only [Quat.rotate, Quat.fromAxisAngle, Quat.vec, V3.cross, V3.add, V3.scale, V3.dot,
    hs', hc']
  · linear_combination (-2 * S ^ 2 * p.x) * ha -
      (p.x - a.x * (a.x * p.x + a.y * p.y + a.z * p.z)) * hsc
  · linear_combination (-2 * S ^ 2 * p.y) * ha -
      (p.y - a.y * (a.x * p.x + a.y * p.y + a.z * p.z)) * hsc
  · linear_combination (-2 * S ^ 2 * p.z) * ha -
      (p.z - a.z * (a.x * p.x + a.y * p.y + a.z * p.z)) * hsc

/-- turning about a unit axis moves a point with angular velocity `a` -/
theorem hasDeriv_fromAxisAngle {a : V3 ℝ} (ha : a.IsUnit) (x : ℝ) (p : V3 ℝ) :
    V3.HasDeriv (fun t => (Quat.fromAxisAngle a t).rotate p)
      (a.cross ((Quat.fromAxisAngle a x).rotate p)) x := by
  have one : ∀ u v w : ℝ, HasDerivAt (fun t => u * Real.cos t + v * Real.sin t + w * (1 - Real.cos t))
      (-u * Real.sin x + v * Real.cos x + w * Real.sin x) x := fun u v w => by
    have := (((Real.hasDerivAt_cos x).const_mul u).add ((Real.hasDerivAt_sin x).const_mul v)).add
      (((Real.hasDerivAt_cos x).const_sub 1).const_mul w)
    refine this.congr_deriv ?_
    ring
  simp only [rotate_fromAxisAngle ha]
  simp only [V3.IsUnit] at ha
  refine ⟨?_, ?_, ?_⟩
  · simp only [V3.add, V3.scale, V3.cross, V3.dot]
    refine ((one p.x (a.y * p.z - a.z * p.y) (a.x * (a.x * p.x + a.y * p.y + a.z * p.z))).congr_deriv
      ?_).congr_of_eventuallyEq (.of_eq (funext fun t => ?_))
    · linear_combination (p.x * Real.sin x) * ha
    · ring
  · simp only [V3.add, V3.scale, V3.cross, V3.dot]
    refine ((one p.y (a.z * p.x - a.x * p.z) (a.y * (a.x * p.x + a.y * p.y + a.z * p.z))).congr_deriv
      ?_).congr_of_eventuallyEq (.of_eq (funext fun t => ?_))
    · linear_combination (p.y * Real.sin x) * ha
    · ring
  · simp only [V3.add, V3.scale, V3.cross, V3.dot]
    refine ((one p.z (a.x * p.y - a.y * p.x) (a.z * (a.x * p.x + a.y * p.y + a.z * p.z))).congr_deriv
      ?_).congr_of_eventuallyEq (.of_eq (funext fun t => ?_))
    · linear_combination (p.z * Real.sin x) * ha
    · ring

theorem fromAxisAngle_rotate_axis (a : V3 ℝ) (x : ℝ) : (Quat.fromAxisAngle a x).rotate a = a := by
  ext <;> simp only [Quat.fromAxisAngle, Quat.rotate, Quat.vec, V3.cross, V3.add, V3.scale] <;> ring

/-- the joint with another position -/
def Joint.at (j : Joint ℝ) (x : ℝ) : Joint ℝ := { j with position := x }

theorem Joint.IsRigid.at {j : Joint ℝ} (r : j.IsRigid) (x : ℝ) : (j.at x).IsRigid := r

/-- Let `T x = A * L(x) * B`, `L(x)` the local transform of the joint at position `x`.  The column for
the pose `A * L(x₀)` and the true end point is the derivative of the end position and the angular
velocity of the end. -/
theorem column_deriv (A B : Iso ℝ) (j : Joint ℝ) (hA : A.IsRigid) (hB : B.IsRigid) (hj : j.IsRigid)
    (pn : V3 ℝ) (col : List ℝ)
    (hc : jacobianColumn pn j (A.mul j.localTransform) = .ok col) :
    ∃ d w : V3 ℝ, col = [(d.add (w.cross (pn.sub ((A.mul j.localTransform).mul B).trans))).x,
        (d.add (w.cross (pn.sub ((A.mul j.localTransform).mul B).trans))).y,
        (d.add (w.cross (pn.sub ((A.mul j.localTransform).mul B).trans))).z, w.x, w.y, w.z] ∧
      V3.HasDeriv (fun x => ((A.mul (j.at x).localTransform).mul B).trans) d j.position ∧
      ∀ v : V3 ℝ, V3.HasDeriv (fun x => ((A.mul (j.at x).localTransform).mul B).rot.rotate v)
        (w.cross (((A.mul j.localTransform).mul B).rot.rotate v)) j.position := by
  have ht : ∀ x, ((A.mul (j.at x).localTransform).mul B).trans =
      A.apply (j.origin.apply ((j.at x).jointTransform.apply B.trans)) := by
    intro x
    have r := Joint.localTransform_isRigid (hj.at x)
    show (A.mul (j.at x).localTransform).apply B.trans = _
    rw [Iso.apply_mul hA r, Joint.localTransform,
      Iso.apply_mul (hj.at x).1 (Joint.jointTransform_isRigid (hj.at x))]
    rfl
  have hr : ∀ x v, ((A.mul (j.at x).localTransform).mul B).rot.rotate v =
      A.rot.rotate (j.origin.rot.rotate ((j.at x).jointTransform.rot.rotate (B.rot.rotate v))) := by
    intro x v
    have r := Joint.localTransform_isRigid (hj.at x)
    show (Quat.mul _ B.rot).rotate v = _
    rw [Quat.rotate_mul (hA.mul r) hB]
    show (Quat.mul A.rot _).rotate _ = _
    rw [Quat.rotate_mul hA r]
    show A.rot.rotate ((Quat.mul j.origin.rot _).rotate _) = _
    rw [Quat.rotate_mul hj.1 (Joint.jointTransform_isRigid (hj.at x))]
  have hj0 : j.at j.position = j := rfl
  have hrot : (A.mul j.localTransform).rot = A.rot.mul (j.origin.rot.mul j.jointTransform.rot) := rfl
  have u1 : j.jointTransform.rot.IsUnit := Joint.jointTransform_isRigid hj
  have u2 : (j.origin.rot.mul j.jointTransform.rot).IsUnit := Quat.IsUnit.mul hj.1 u1
  unfold jacobianColumn at hc
  cases e : j.jointType with
  | fixed => rw [e] at hc; cases hc
  | linear axis =>
    rw [e] at hc
    cases hc
    refine ⟨(A.mul j.localTransform).rot.rotate axis, V3.zero, ?_, ?_, fun v => ?_⟩
    · simp [V3.cross, V3.zero, V3.add]
    · simp only [ht]
      have : ∀ x, (j.at x).jointTransform.apply B.trans = (axis.scale x).add B.trans := by
        intro x
        have e' : (j.at x).jointType = .linear axis := e
        simp only [Joint.jointTransform, e', Iso.apply, Quat.rotate_one]
        rfl
      simp only [this]
      rw [hrot, Quat.rotate_mul hA u2, Quat.rotate_mul hj.1 u1]
      have e1 : j.jointTransform.rot = Quat.one := by simp [Joint.jointTransform, e]
      rw [e1, Quat.rotate_one]
      exact (((V3.hasDeriv_scale axis _).add_const _).apply _).apply _
    · simp only [hr]
      have : ∀ x, (j.at x).jointTransform.rot = Quat.one := by
        intro x
        have e' : (j.at x).jointType = .linear axis := e
        simp only [Joint.jointTransform, e']
      simp only [this]
      have z : ∀ u : V3 ℝ, V3.zero.cross u = V3.zero := by
        intro u; ext <;> simp [V3.cross, V3.zero]
      rw [z]
      exact V3.hasDeriv_const _ _
  | rotational axis =>
    rw [e] at hc
    cases hc
    have ua : axis.IsUnit := by have := hj.2; rw [e] at this; exact this
    have e1 : ∀ x, (j.at x).jointTransform = ⟨V3.zero, Quat.fromAxisAngle axis x⟩ := by
      intro x
      have e' : (j.at x).jointType = .rotational axis := e
      simp only [Joint.jointTransform, e']
      rfl
    have e0 : j.jointTransform = ⟨V3.zero, Quat.fromAxisAngle axis j.position⟩ := e1 j.position
    have hw : (A.mul j.localTransform).rot.rotate axis = A.rot.rotate (j.origin.rot.rotate axis) := by
      rw [hrot, Quat.rotate_mul hA u2, Quat.rotate_mul hj.1 u1, e0, fromAxisAngle_rotate_axis]
    refine ⟨((A.mul j.localTransform).rot.rotate axis).cross
      (((A.mul j.localTransform).mul B).trans.sub (A.mul j.localTransform).trans),
      (A.mul j.localTransform).rot.rotate axis, ?_, ?_, fun v => ?_⟩
    · simp only [V3.cross, V3.add, V3.sub]
      refine congrArg₂ _ ?_ (congrArg₂ _ ?_ (congrArg₂ _ ?_ rfl)) <;> ring
    · simp only [ht]
      have d0 := ((((hasDeriv_fromAxisAngle ua j.position B.trans).const_add V3.zero).apply j.origin).apply A)
      have : ((A.mul j.localTransform).rot.rotate axis).cross
          (((A.mul j.localTransform).mul B).trans.sub (A.mul j.localTransform).trans) =
          A.rot.rotate (j.origin.rot.rotate
            (axis.cross ((Quat.fromAxisAngle axis j.position).rotate B.trans))) := by
        rw [← Quat.rotate_cross hj.1, ← Quat.rotate_cross hA, hw]
        congr 1
        have : ((A.mul j.localTransform).mul B).trans.sub (A.mul j.localTransform).trans =
            (A.mul j.localTransform).rot.rotate B.trans := by
          ext <;> simp only [Iso.mul, V3.add, V3.sub] <;> ring
        rw [this, hrot, Quat.rotate_mul hA u2, Quat.rotate_mul hj.1 u1, e0]
      rw [this]
      simp only [e1]
      exact d0
    · simp only [hr]
      have d0 := (((hasDeriv_fromAxisAngle ua j.position (B.rot.rotate v)).rotate j.origin.rot).rotate A.rot)
      have : ((A.mul j.localTransform).rot.rotate axis).cross
          (((A.mul j.localTransform).mul B).rot.rotate v) =
          A.rot.rotate (j.origin.rot.rotate
            (axis.cross ((Quat.fromAxisAngle axis j.position).rotate (B.rot.rotate v)))) := by
        rw [← Quat.rotate_cross hj.1, ← Quat.rotate_cross hA, hw]
        congr 1
        have := hr j.position v
        rw [hj0, e0] at this
        exact this
      rw [this]
      simp only [e1]
      exact d0

end K
