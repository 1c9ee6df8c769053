import Verif.Lemmas.Newton
import Verif.Lemmas.PathDeriv
import Verif.Props.Reach
import Mathlib.Analysis.SpecialFunctions.Trigonometric.Deriv
import Mathlib.Analysis.Calculus.ContDiff.RCLike
/-!
# Forward kinematics is smooth, and the derivative of the pose difference at the target
-/

namespace K
open Filter Topology

noncomputable section
variable {V : Type*} [NormedAddCommGroup V] [NormedSpace ℝ V]

/-- the coordinates are continuously differentiable -/
structure V3.C1 (f : V → V3 ℝ) : Prop where
  x : ContDiff ℝ 1 fun p => (f p).x
  y : ContDiff ℝ 1 fun p => (f p).y
  z : ContDiff ℝ 1 fun p => (f p).z

/-- the coordinates are continuously differentiable -/
structure Quat.C1 (f : V → Quat ℝ) : Prop where
  w : ContDiff ℝ 1 fun p => (f p).w
  i : ContDiff ℝ 1 fun p => (f p).i
  j : ContDiff ℝ 1 fun p => (f p).j
  k : ContDiff ℝ 1 fun p => (f p).k

/-- the coordinates are continuously differentiable -/
structure Iso.C1 (f : V → Iso ℝ) : Prop where
  trans : V3.C1 fun p => (f p).trans
  rot : Quat.C1 fun p => (f p).rot

theorem V3.C1.const (a : V3 ℝ) : V3.C1 fun _ : V => a := ⟨contDiff_const, contDiff_const, contDiff_const⟩
theorem Quat.C1.const (a : Quat ℝ) : Quat.C1 fun _ : V => a :=
  ⟨contDiff_const, contDiff_const, contDiff_const, contDiff_const⟩
theorem Iso.C1.const (a : Iso ℝ) : Iso.C1 fun _ : V => a := ⟨.const _, .const _⟩

theorem V3.C1.add {f g : V → V3 ℝ} (hf : V3.C1 f) (hg : V3.C1 g) : V3.C1 fun p => (f p).add (g p) :=
  ⟨hf.x.add hg.x, hf.y.add hg.y, hf.z.add hg.z⟩
theorem V3.C1.sub {f g : V → V3 ℝ} (hf : V3.C1 f) (hg : V3.C1 g) : V3.C1 fun p => (f p).sub (g p) :=
  ⟨hf.x.sub hg.x, hf.y.sub hg.y, hf.z.sub hg.z⟩
theorem V3.C1.scale {f : V → V3 ℝ} {g : V → ℝ} (hf : V3.C1 f) (hg : ContDiff ℝ 1 g) :
    V3.C1 fun p => (f p).scale (g p) := ⟨hf.x.mul hg, hf.y.mul hg, hf.z.mul hg⟩
theorem V3.C1.cross {f g : V → V3 ℝ} (hf : V3.C1 f) (hg : V3.C1 g) : V3.C1 fun p => (f p).cross (g p) :=
  ⟨(hf.y.mul hg.z).sub (hf.z.mul hg.y), (hf.z.mul hg.x).sub (hf.x.mul hg.z),
    (hf.x.mul hg.y).sub (hf.y.mul hg.x)⟩
theorem Quat.C1.vec {f : V → Quat ℝ} (hf : Quat.C1 f) : V3.C1 fun p => (f p).vec := ⟨hf.i, hf.j, hf.k⟩
theorem Quat.C1.conj {f : V → Quat ℝ} (hf : Quat.C1 f) : Quat.C1 fun p => (f p).conj :=
  ⟨hf.w, hf.i.neg, hf.j.neg, hf.k.neg⟩
theorem Quat.C1.mul {f g : V → Quat ℝ} (hf : Quat.C1 f) (hg : Quat.C1 g) :
    Quat.C1 fun p => (f p).mul (g p) :=
  ⟨(((hf.w.mul hg.w).sub (hf.i.mul hg.i)).sub (hf.j.mul hg.j)).sub (hf.k.mul hg.k),
    (((hf.w.mul hg.i).add (hf.i.mul hg.w)).add (hf.j.mul hg.k)).sub (hf.k.mul hg.j),
    (((hf.w.mul hg.j).sub (hf.i.mul hg.k)).add (hf.j.mul hg.w)).add (hf.k.mul hg.i),
    (((hf.w.mul hg.k).add (hf.i.mul hg.j)).sub (hf.j.mul hg.i)).add (hf.k.mul hg.w)⟩
theorem Quat.C1.rotate {f : V → Quat ℝ} {g : V → V3 ℝ} (hf : Quat.C1 f) (hg : V3.C1 g) :
    V3.C1 fun p => (f p).rotate (g p) :=
  have t := (hf.vec.cross hg).scale (contDiff_const (c := (1 + 1 : ℝ)))
  ((t.scale hf.w).add (hf.vec.cross t)).add hg
theorem Iso.C1.mul {f g : V → Iso ℝ} (hf : Iso.C1 f) (hg : Iso.C1 g) : Iso.C1 fun p => (f p).mul (g p) :=
  ⟨hf.trans.add (hf.rot.rotate hg.trans), hf.rot.mul hg.rot⟩

theorem V3.C1.continuous {f : V → V3 ℝ} (hf : V3.C1 f) : (Continuous fun p => (f p).x) ∧
    (Continuous fun p => (f p).y) ∧ Continuous fun p => (f p).z :=
  ⟨hf.x.continuous, hf.y.continuous, hf.z.continuous⟩

/-- the local transform of a joint as its position changes -/
theorem Joint.c1 (j : Joint ℝ) {g : V → ℝ} (hg : ContDiff ℝ 1 g) :
    Iso.C1 fun p => (j.at (g p)).localTransform := by
  refine (Iso.C1.const j.origin).mul ?_
  have at' : ∀ x, (j.at x).jointTransform = match j.jointType with
      | .fixed => Iso.one
      | .rotational a => ⟨V3.zero, Quat.fromAxisAngle a x⟩
      | .linear a => ⟨a.scale x, Quat.one⟩ := by
    intro x; unfold Joint.jointTransform Joint.at; cases j.jointType <;> rfl
  simp only [at']
  cases j.jointType with
  | fixed => exact .const _
  | linear a => exact ⟨(V3.C1.const a).scale hg, .const _⟩
  | rotational a =>
    have hs : ContDiff ℝ 1 fun p => Real.sin (g p / (1 + 1)) := Real.contDiff_sin.comp (hg.div_const _)
    have hc : ContDiff ℝ 1 fun p => Real.cos (g p / (1 + 1)) := Real.contDiff_cos.comp (hg.div_const _)
    exact ⟨.const _, hc, contDiff_const.mul hs, contDiff_const.mul hs, contDiff_const.mul hs⟩

theorem prodAt_c1 (J : NodeId → Joint ℝ) (p : V → NodeId → ℝ) (ns : List NodeId)
    (hp : ∀ m ∈ ns, ContDiff ℝ 1 fun x => p x m) (X : V → Iso ℝ) (hX : Iso.C1 X) :
    Iso.C1 fun x => prodAt J (p x) (X x) ns := by
  induction ns generalizing X with
  | nil => exact hX
  | cons m ms ih =>
    exact ih (fun k hk => hp k (by simp [hk])) _ (hX.mul (Joint.c1 (J m) (hp m (by simp))))

theorem prodAt_isRigid (J : NodeId → Joint ℝ) (p : NodeId → ℝ) (ns : List NodeId)
    (hj : ∀ n ∈ ns, (J n).IsRigid) (X : Iso ℝ) (hX : X.IsRigid) : (prodAt J p X ns).IsRigid := by
  induction ns generalizing X with
  | nil => exact hX
  | cons m ms ih =>
    exact ih (fun k hk => hj k (by simp [hk])) _
      (hX.mul (Joint.localTransform_isRigid ((hj m (by simp)).at _)))

theorem colAng_continuous (j : Joint ℝ) {X : V → Iso ℝ} (hX : Iso.C1 X) :
    (Continuous fun p => (colAng j (X p)).x) ∧ (Continuous fun p => (colAng j (X p)).y) ∧
      Continuous fun p => (colAng j (X p)).z := by
  unfold colAng
  cases j.jointType with
  | fixed => exact (V3.C1.const (V := V) V3.zero).continuous
  | linear a => exact (V3.C1.const (V := V) V3.zero).continuous
  | rotational a => exact (hX.rot.rotate (.const a)).continuous

theorem colLin_continuous (j : Joint ℝ) {X : V → Iso ℝ} (hX : Iso.C1 X) {q : V → V3 ℝ} (hq : V3.C1 q) :
    (Continuous fun p => (colLin (q p) j (X p)).x) ∧ (Continuous fun p => (colLin (q p) j (X p)).y) ∧
      Continuous fun p => (colLin (q p) j (X p)).z := by
  unfold colLin
  cases j.jointType with
  | fixed => exact (V3.C1.const (V := V) V3.zero).continuous
  | linear a => exact (hX.rot.rotate (.const a)).continuous
  | rotational a => exact ((hX.rot.rotate (.const a)).cross (hq.sub hX.trans)).continuous

/-- the scaled axis of a unit quaternion -/
theorem Quat.scaledAxis_eq {q : Quat ℝ} (u : q.IsUnit) :
    q.scaledAxis = q.vec.scale ((if 0 ≤ q.w then 2 else -2) * arcRatio q.vec.norm) := by
  obtain ⟨t0, t1, hc, hs⟩ := Quat.angle_spec u
  by_cases c : q.vec = V3.zero
  · rw [(scaledAxis_eq_zero q).2 c, c]; simp [V3.zero, V3.scale]
  have p := (norm_pos_iff _).2 c
  have nn : q.vec.neg.norm = q.vec.norm := by simp [V3.norm, V3.neg]
  have pi := Real.pi_pos
  have ang : q.angle = 2 * (arcRatio q.vec.norm * q.vec.norm) := by
    rw [arcRatio_mul, ← hs, Real.arcsin_sin (by linarith) (by linarith)]; ring
  by_cases hw : 0 ≤ q.w
  · have h1 : Scalar.le 0 q.w = true := by simpa [Scalar.le] using hw
    have h2 : Scalar.lt 0 q.vec.norm = true := by simpa [Scalar.lt] using p
    simp only [Quat.scaledAxis, Quat.axis, h1, h2, if_true, if_pos hw, ang]
    have := p.ne'
    ext <;> simp only [V3.scale, V3.unscale] <;> field_simp
  · have h1 : Scalar.le 0 q.w = false := by simpa [Scalar.le] using hw
    have h2 : Scalar.lt 0 q.vec.norm = true := by simpa [Scalar.lt] using p
    simp only [Quat.scaledAxis, Quat.axis, h1, h2, if_true, if_neg hw, ang, Bool.false_eq_true, if_false, nn]
    have := p.ne'
    ext <;> simp only [V3.scale, V3.unscale, V3.neg] <;> field_simp

theorem V3.norm_sub_le (a b : V3 ℝ) : |a.norm - b.norm| ≤ |a.x - b.x| + |a.y - b.y| + |a.z - b.z| := by
  have one : ∀ a b : V3 ℝ, a.norm - b.norm ≤ |a.x - b.x| + |a.y - b.y| + |a.z - b.z| := by
    intro a b
    have n : a.norm ≤ b.norm + (a.sub b).norm := by
      have := V3.norm_add_le b (a.sub b)
      have e : b.add (a.sub b) = a := by ext <;> simp [V3.add, V3.sub]
      rwa [e] at this
    have m : (a.sub b).norm ≤ |a.x - b.x| + |a.y - b.y| + |a.z - b.z| := by
      have sq := norm_sq (a.sub b)
      have p := Real.sqrt_nonneg ((a.sub b).x * (a.sub b).x + (a.sub b).y * (a.sub b).y +
        (a.sub b).z * (a.sub b).z)
      refine le_of_sq_le_sq ?_ (by positivity)
      rw [sq]
      simp only [V3.sub]
      have h1 := sq_abs (a.x - b.x)
      have h2 := sq_abs (a.y - b.y)
      have h3 := sq_abs (a.z - b.z)
      nlinarith [mul_nonneg (abs_nonneg (a.x - b.x)) (abs_nonneg (a.y - b.y)),
        mul_nonneg (abs_nonneg (a.x - b.x)) (abs_nonneg (a.z - b.z)),
        mul_nonneg (abs_nonneg (a.y - b.y)) (abs_nonneg (a.z - b.z))]
    linarith
  rw [abs_le]
  have := one b a
  rw [abs_sub_comm b.x, abs_sub_comm b.y, abs_sub_comm b.z] at this
  exact ⟨by linarith, one a b⟩

theorem ContDiff.strict {f : V → ℝ} (hf : ContDiff ℝ 1 f) (x : V) : HasStrictFDerivAt f (fderiv ℝ f x) x :=
  hf.contDiffAt.hasStrictFDerivAt one_ne_zero

/-- near a quaternion for the identity the scaled axis is twice the imaginary part, up to the sign -/
theorem scaledAxis_strict {D : V → Quat ℝ} (hD : Quat.C1 D) (u : ∀ x, (D x).IsUnit) {x0 : V}
    (z : (D x0).vec = V3.zero) :
    HasStrictFDerivAt (fun x => (D x).scaledAxis.x)
      ((2 * (D x0).w) • fderiv ℝ (fun x => (D x).i) x0) x0 ∧
    HasStrictFDerivAt (fun x => (D x).scaledAxis.y)
      ((2 * (D x0).w) • fderiv ℝ (fun x => (D x).j) x0) x0 ∧
    HasStrictFDerivAt (fun x => (D x).scaledAxis.z)
      ((2 * (D x0).w) • fderiv ℝ (fun x => (D x).k) x0) x0 := by
  have zi : (D x0).i = 0 := congrArg V3.x z
  have zj : (D x0).j = 0 := congrArg V3.y z
  have zk : (D x0).k = 0 := congrArg V3.z z
  have w1 : (D x0).w = 1 ∨ (D x0).w = -1 := by
    have := u x0
    simp only [Quat.IsUnit, zi, zj, zk, mul_zero, add_zero] at this
    exact mul_self_eq_one_iff.1 this
  have sign : ∀ᶠ x in 𝓝 x0, (if 0 ≤ (D x).w then (2 : ℝ) else -2) = 2 * (D x0).w := by
    have c : ContinuousAt (fun x => (D x).w) x0 := hD.w.continuous.continuousAt
    rcases w1 with e | e
    · have : ∀ᶠ x in 𝓝 x0, 0 < (D x).w := c.eventually_const_lt (by show _ < _; beta_reduce; rw [e]; norm_num)
      filter_upwards [this] with x hx
      rw [if_pos hx.le, e]; norm_num
    · have : ∀ᶠ x in 𝓝 x0, (D x).w < 0 := c.eventually_lt_const (by show _ < _; beta_reduce; rw [e]; norm_num)
      filter_upwards [this] with x hx
      rw [if_neg (not_le.2 hx), e]; norm_num
  have n0 : (D x0).vec.norm = 0 := by rw [z]; simp [V3.norm, V3.zero, Scalar.sqrt]
  obtain ⟨Ki, hKi⟩ := (ContDiff.strict hD.i x0).isBigO_sub.bound
  obtain ⟨Kj, hKj⟩ := (ContDiff.strict hD.j x0).isBigO_sub.bound
  obtain ⟨Kk, hKk⟩ := (ContDiff.strict hD.k x0).isBigO_sub.bound
  have half : ∀ᶠ x in 𝓝 x0, (D x).vec.norm ≤ 1 / 2 := by
    have c : Continuous fun x => (D x).vec.norm := by
      have hi := hD.i.continuous
      have hj := hD.j.continuous
      have hk := hD.k.continuous
      exact Real.continuous_sqrt.comp (((hi.mul hi).add (hj.mul hj)).add (hk.mul hk))
    have : ∀ᶠ x in 𝓝 x0, (D x).vec.norm < 1 / 2 :=
      c.continuousAt.eventually_lt_const (by beta_reduce; rw [n0]; norm_num)
    exact this.mono fun _ h => h.le
  have lip : ∀ᶠ p : V × V in 𝓝 (x0, x0), |arcRatio (D p.1).vec.norm - arcRatio (D p.2).vec.norm| ≤
      (Ki + Kj + Kk) * ‖p.1 - p.2‖ := by
    filter_upwards [hKi, hKj, hKk, (continuous_fst.tendsto (x0, x0)).eventually half,
      (continuous_snd.tendsto (x0, x0)).eventually half] with p h1 h2 h3 h4 h5
    refine (arcRatio_lipschitz (Real.sqrt_nonneg _) h4 (Real.sqrt_nonneg _) h5).trans ?_
    refine (V3.norm_sub_le _ _).trans ?_
    simp only [Real.norm_eq_abs] at h1 h2 h3
    simp only [Quat.vec]
    linarith
  have g0 : arcRatio (D x0).vec.norm = 1 := by rw [n0, arcRatio_zero]
  refine ⟨?_, ?_, ?_⟩
  · have := (strict_mul_lipschitz (g := fun x => arcRatio (D x).vec.norm) (ContDiff.strict hD.i x0) zi g0
      lip).const_mul (2 * (D x0).w)
    refine this.congr_of_eventuallyEq ?_
    filter_upwards [sign] with x hx
    rw [Quat.scaledAxis_eq (u x), hx]
    simp only [V3.scale, Quat.vec]; ring
  · have := (strict_mul_lipschitz (g := fun x => arcRatio (D x).vec.norm) (ContDiff.strict hD.j x0) zj g0
      lip).const_mul (2 * (D x0).w)
    refine this.congr_of_eventuallyEq ?_
    filter_upwards [sign] with x hx
    rw [Quat.scaledAxis_eq (u x), hx]
    simp only [V3.scale, Quat.vec]; ring
  · have := (strict_mul_lipschitz (g := fun x => arcRatio (D x).vec.norm) (ContDiff.strict hD.k x0) zk g0
      lip).const_mul (2 * (D x0).w)
    refine this.congr_of_eventuallyEq ?_
    filter_upwards [sign] with x hx
    rw [Quat.scaledAxis_eq (u x), hx]
    simp only [V3.scale, Quat.vec]; ring

theorem line_deriv {f : V → ℝ} {x0 d : V} {f' : V →L[ℝ] ℝ} (hf : HasStrictFDerivAt f f' x0) :
    HasDerivAt (fun t : ℝ => f (x0 + t • d)) (f' d) 0 := by
  have l : HasDerivAt (fun t : ℝ => x0 + t • d) d 0 := by
    have := ((hasDerivAt_id (0 : ℝ)).smul_const d).const_add x0
    simpa using this
  have e : x0 + (0 : ℝ) • d = x0 := by simp
  have := HasFDerivAt.comp_hasDerivAt (x := (0 : ℝ)) (f := fun t : ℝ => x0 + t • d) (l := f)
    (l' := f') (by rw [e]; exact hf.hasFDerivAt) l
  exact this

/-- The pose difference to a target that is reached at `x0`: its derivative there is the negative twist of the
end. -/
theorem poseDiff_strict {target : Iso ℝ} (rt : target.IsRigid) {E : V → Iso ℝ} (hE : Iso.C1 E)
    (rE : ∀ x, (E x).IsRigid) {x0 : V} (same : ∀ p, target.apply p = (E x0).apply p)
    (A : Nat → V →L[ℝ] ℝ)
    (tw : ∀ d, Iso.HasTwist (fun t : ℝ => E (x0 + t • d)) ⟨A 0 d, A 1 d, A 2 d⟩ ⟨A 3 d, A 4 d, A 5 d⟩ 0) :
    ∀ i < 6, HasStrictFDerivAt (fun x => (calcPoseDiff target (E x)).getD i 0) (-A i) x0 := by
  have zero := (C37_zero_iff target (E x0) rt (rE x0)).2 same
  let D : V → Quat ℝ := fun x => (E x).rot.rotationTo target.rot
  have hD : Quat.C1 D := (Quat.C1.const target.rot).mul hE.rot.conj
  have uD : ∀ x, (D x).IsUnit := fun x => Quat.IsUnit.mul rt (rE x).conj
  have sa0 : (D x0).scaledAxis = V3.zero := by
    simp only [calcPoseDiff, List.cons.injEq] at zero
    exact V3.ext zero.2.2.2.1 zero.2.2.2.2.1 zero.2.2.2.2.2.1
  have vz := (scaledAxis_eq_zero (D x0)).1 sa0
  have zi : (D x0).i = 0 := congrArg V3.x vz
  have zj : (D x0).j = 0 := congrArg V3.y vz
  have zk : (D x0).k = 0 := congrArg V3.z vz
  have w1 : (D x0).w * (D x0).w = 1 := by
    have := uD x0
    simpa only [Quat.IsUnit, zi, zj, zk, mul_zero, add_zero] using this
  obtain ⟨si, sj, sk⟩ := scaledAxis_strict hD uD vz
  -- the inverse of the difference turns with the end
  have rot : ∀ (d : V) (b : V3 ℝ), V3.HasDeriv (fun t : ℝ => (D (x0 + t • d)).conj.rotate b)
      ((⟨A 3 d, A 4 d, A 5 d⟩ : V3 ℝ).cross b) 0 := by
    intro d b
    have e : ∀ x, (D x).conj.rotate b = (E x).rot.rotate (target.rot.conj.rotate b) := by
      intro x
      rw [← Quat.rotate_mul (rE x) rt.conj]
      congr 1
      ext <;> simp [D, Quat.rotationTo, Quat.conj, Quat.mul] <;> ring
    have := (tw d).2 (target.rot.conj.rotate b)
    simp only [zero_smul, add_zero] at this
    rw [← e, (vec_zero_iff (uD x0).conj).1 (by
      ext <;> simp [Quat.vec, Quat.conj, zi, zj, zk, V3.zero])] at this
    simpa only [e] using this
  have rate : ∀ d, fderiv ℝ (fun x => (D x).i) x0 d = - ((D x0).w * A 3 d / 2) ∧
      fderiv ℝ (fun x => (D x).j) x0 d = - ((D x0).w * A 4 d / 2) ∧
      fderiv ℝ (fun x => (D x).k) x0 d = - ((D x0).w * A 5 d / 2) := by
    intro d
    have dw := line_deriv (d := d) (ContDiff.strict hD.w x0)
    have di := line_deriv (d := d) (ContDiff.strict hD.i x0)
    have dj := line_deriv (d := d) (ContDiff.strict hD.j x0)
    have dk := line_deriv (d := d) (ContDiff.strict hD.k x0)
    have rx := rot d ⟨1, 0, 0⟩
    have ry := rot d ⟨0, 1, 0⟩
    have rz := rot d ⟨0, 0, 1⟩
    have key : ∀ (f g : ℝ → ℝ) (a b : ℝ), HasDerivAt f a 0 → HasDerivAt g b 0 →
        (∀ t, f t = g t) → a = b := by
      intro f g a b hf hg e
      rw [funext e] at hf
      exact hf.unique hg
    have solve : ∀ w' v' a : ℝ, w' * 0 + (D x0).w * v' = -(a / 2) → v' = - ((D x0).w * a / 2) := by
      intro w' v' a e
      linear_combination (D x0).w * e - v' * w1
    have x0e : x0 + (0 : ℝ) • d = x0 := by simp
    refine ⟨?_, ?_, ?_⟩
    · refine solve (fderiv ℝ (fun x => (D x).w) x0 d) _ _ ?_
      have l := (dw.mul di).const_mul (-4)
      have r := ry.2.2.sub rz.2.1
      have := key _ _ _ _ l r (fun t => by
        simp only [Pi.mul_apply, Pi.sub_apply, Quat.rotate, Quat.conj, Quat.vec, V3.cross, V3.add, V3.scale]; ring)
      simp only [x0e, zi, V3.cross] at this
      linarith
    · refine solve (fderiv ℝ (fun x => (D x).w) x0 d) _ _ ?_
      have l := (dw.mul dj).const_mul (-4)
      have r := rz.1.sub rx.2.2
      have := key _ _ _ _ l r (fun t => by
        simp only [Pi.mul_apply, Pi.sub_apply, Quat.rotate, Quat.conj, Quat.vec, V3.cross, V3.add, V3.scale]; ring)
      simp only [x0e, zj, V3.cross] at this
      linarith
    · refine solve (fderiv ℝ (fun x => (D x).w) x0 d) _ _ ?_
      have l := (dw.mul dk).const_mul (-4)
      have r := rx.2.1.sub ry.1
      have := key _ _ _ _ l r (fun t => by
        simp only [Pi.mul_apply, Pi.sub_apply, Quat.rotate, Quat.conj, Quat.vec, V3.cross, V3.add, V3.scale]; ring)
      simp only [x0e, zk, V3.cross] at this
      linarith
  have lin : ∀ d, fderiv ℝ (fun x => (E x).trans.x) x0 d = A 0 d ∧
      fderiv ℝ (fun x => (E x).trans.y) x0 d = A 1 d ∧ fderiv ℝ (fun x => (E x).trans.z) x0 d = A 2 d := by
    intro d
    obtain ⟨t1, t2, t3⟩ := (tw d).1
    exact ⟨(line_deriv (ContDiff.strict hE.trans.x x0)).unique t1,
      (line_deriv (ContDiff.strict hE.trans.y x0)).unique t2,
      (line_deriv (ContDiff.strict hE.trans.z x0)).unique t3⟩
  intro i hi
  match i, hi with
  | 0, _ =>
    refine ((ContDiff.strict hE.trans.x x0).const_sub target.trans.x).congr_fderiv ?_
    ext d; simp [(lin d).1]
  | 1, _ =>
    refine ((ContDiff.strict hE.trans.y x0).const_sub target.trans.y).congr_fderiv ?_
    ext d; simp [(lin d).2.1]
  | 2, _ =>
    refine ((ContDiff.strict hE.trans.z x0).const_sub target.trans.z).congr_fderiv ?_
    ext d; simp [(lin d).2.2]
  | 3, _ =>
    refine si.congr_fderiv ?_
    ext d
    simp only [smul_apply, neg_apply, (rate d).1, smul_eq_mul]
    linear_combination (-A 3 d) * w1
  | 4, _ =>
    refine sj.congr_fderiv ?_
    ext d
    simp only [smul_apply, neg_apply, (rate d).2.1, smul_eq_mul]
    linear_combination (-A 4 d) * w1
  | 5, _ =>
    refine sk.congr_fderiv ?_
    ext d
    simp only [smul_apply, neg_apply, (rate d).2.2, smul_eq_mul]
    linear_combination (-A 5 d) * w1

end
end K
