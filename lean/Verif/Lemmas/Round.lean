import Verif.Model.RoundScalar
import Verif.Props.Reach
import Mathlib.Analysis.SpecialFunctions.Pow.Real
/-!
# Rounding errors of vectors, quaternions and poses

`Near r m x̂ x` : the exact value `x` has size at most `m` and the computed `x̂` is off by at most `(r - 1) m`.
-/

namespace K
variable {A : Arith}

noncomputable section

/-! ## norms -/

theorem V3.norm_le_comp (v w : V3 ℝ) (c : ℝ) (c0 : 0 ≤ c) (hx : |v.x| ≤ c * |w.x|) (hy : |v.y| ≤ c * |w.y|)
    (hz : |v.z| ≤ c * |w.z|) : v.norm ≤ c * w.norm := by
  refine abs_le_of_sq_le_sq' ?_ (mul_nonneg c0 w.norm_nonneg') |>.2
  rw [mul_pow, norm_sq, norm_sq]
  have h : ∀ a b : ℝ, |a| ≤ c * |b| → a * a ≤ c ^ 2 * (b * b) := by
    intro a b hab
    have := mul_self_le_mul_self (abs_nonneg _) hab
    rw [abs_mul_abs_self, mul_mul_mul_comm, abs_mul_abs_self] at this
    linarith [sq c]
  nlinarith [h _ _ hx, h _ _ hy, h _ _ hz]

theorem V3.norm_le_two (v : V3 ℝ) (c : ℝ) (c0 : 0 ≤ c) (hx : |v.x| ≤ c) (hy : |v.y| ≤ c)
    (hz : |v.z| ≤ c) : v.norm ≤ 2 * c := by
  refine abs_le_of_sq_le_sq' ?_ (by linarith) |>.2
  rw [norm_sq]
  have h : ∀ a : ℝ, |a| ≤ c → a * a ≤ c * c := by
    intro a ha
    have := mul_self_le_mul_self (abs_nonneg _) ha
    rwa [abs_mul_abs_self] at this
  nlinarith [h _ hx, h _ hy, h _ hz, mul_self_nonneg c]

theorem V3.abs_x_le (v : V3 ℝ) : |v.x| ≤ v.norm := by
  refine abs_le_of_sq_le_sq ?_ v.norm_nonneg'
  rw [norm_sq]; nlinarith [mul_self_nonneg v.y, mul_self_nonneg v.z]

/-- length of a quaternion -/
def Quat.len (q : Quat ℝ) : ℝ := Real.sqrt (q.w * q.w + q.i * q.i + q.j * q.j + q.k * q.k)
/-- difference of quaternions -/
def Quat.diff (p q : Quat ℝ) : Quat ℝ := ⟨p.w - q.w, p.i - q.i, p.j - q.j, p.k - q.k⟩

theorem Quat.len_nonneg (q : Quat ℝ) : 0 ≤ q.len := Real.sqrt_nonneg _
theorem Quat.len_sq (q : Quat ℝ) : q.len ^ 2 = q.w * q.w + q.i * q.i + q.j * q.j + q.k * q.k :=
  Real.sq_sqrt (by nlinarith [mul_self_nonneg q.w, mul_self_nonneg q.i, mul_self_nonneg q.j, mul_self_nonneg q.k])

theorem Quat.IsUnit.len {q : Quat ℝ} (h : q.IsUnit) : q.len = 1 := by
  rw [Quat.len, h, Real.sqrt_one]

theorem Quat.len_mul (p q : Quat ℝ) : (p.mul q).len = p.len * q.len := by
  refine (pow_left_inj₀ (len_nonneg _) (mul_nonneg p.len_nonneg q.len_nonneg) two_ne_zero).1 ?_
  rw [mul_pow, len_sq, len_sq, len_sq]; simp only [Quat.mul]; ring

theorem Quat.len_le_two (q : Quat ℝ) (c : ℝ) (c0 : 0 ≤ c) (hw : |q.w| ≤ c) (hi : |q.i| ≤ c) (hj : |q.j| ≤ c)
    (hk : |q.k| ≤ c) : q.len ≤ 2 * c := by
  refine abs_le_of_sq_le_sq' ?_ (by linarith) |>.2
  rw [len_sq]
  have h : ∀ a : ℝ, |a| ≤ c → a * a ≤ c * c := by
    intro a ha
    have := mul_self_le_mul_self (abs_nonneg _) ha
    rwa [abs_mul_abs_self] at this
  nlinarith [h _ hw, h _ hi, h _ hj, h _ hk]

theorem cauchy4 (a b c d e f g h : ℝ) : |a| * |e| + |b| * |f| + |c| * |g| + |d| * |h| ≤
    Real.sqrt (a * a + b * b + c * c + d * d) * Real.sqrt (e * e + f * f + g * g + h * h) := by
  rw [← Real.sqrt_mul (by nlinarith [mul_self_nonneg a, mul_self_nonneg b, mul_self_nonneg c, mul_self_nonneg d])]
  refine Real.le_sqrt_of_sq_le ?_
  rw [← abs_mul_abs_self a, ← abs_mul_abs_self b, ← abs_mul_abs_self c, ← abs_mul_abs_self d,
    ← abs_mul_abs_self e, ← abs_mul_abs_self f, ← abs_mul_abs_self g, ← abs_mul_abs_self h]
  generalize |a| = a; generalize |b| = b; generalize |c| = c; generalize |d| = d
  generalize |e| = e; generalize |f| = f; generalize |g| = g; generalize |h| = h
  nlinarith [sq_nonneg (a * f - b * e), sq_nonneg (a * g - c * e), sq_nonneg (a * h - d * e),
    sq_nonneg (b * g - c * f), sq_nonneg (b * h - d * f), sq_nonneg (c * h - d * g)]

theorem Quat.len_diff_le (p q r : Quat ℝ) : (p.diff r).len ≤ (p.diff q).len + (q.diff r).len := by
  refine abs_le_of_sq_le_sq' ?_ (add_nonneg (len_nonneg _) (len_nonneg _)) |>.2
  have c := cauchy4 (p.diff q).w (p.diff q).i (p.diff q).j (p.diff q).k (q.diff r).w (q.diff r).i (q.diff r).j
    (q.diff r).k
  have e : ∀ x y : ℝ, x * y ≤ |x| * |y| := fun x y => by rw [← abs_mul]; exact le_abs_self _
  have e1 := e (p.diff q).w (q.diff r).w
  have e2 := e (p.diff q).i (q.diff r).i
  have e3 := e (p.diff q).j (q.diff r).j
  have e4 := e (p.diff q).k (q.diff r).k
  rw [add_sq, len_sq, len_sq, len_sq]
  have c' : |(p.diff q).w| * |(q.diff r).w| + |(p.diff q).i| * |(q.diff r).i| + |(p.diff q).j| * |(q.diff r).j| +
    |(p.diff q).k| * |(q.diff r).k| ≤ (p.diff q).len * (q.diff r).len := c
  simp only [diff] at *
  nlinarith

theorem Quat.len_le_diff (p q : Quat ℝ) : p.len ≤ q.len + (p.diff q).len := by
  have h := len_diff_le p q ⟨0, 0, 0, 0⟩
  simp only [diff, sub_zero] at h ⊢
  linarith

theorem Quat.norm_vec_le (q : Quat ℝ) : q.vec.norm ≤ q.len := by
  refine abs_le_of_sq_le_sq' ?_ q.len_nonneg |>.2
  rw [norm_sq, len_sq]; simp only [vec]; nlinarith [mul_self_nonneg q.w]

theorem Quat.abs_w_le (q : Quat ℝ) : |q.w| ≤ q.len := by
  refine abs_le_of_sq_le_sq ?_ q.len_nonneg
  rw [len_sq]; nlinarith [mul_self_nonneg q.i, mul_self_nonneg q.j, mul_self_nonneg q.k]

theorem Quat.len_le_parts (q : Quat ℝ) : q.len ≤ |q.w| + q.vec.norm := by
  refine abs_le_of_sq_le_sq' ?_ (add_nonneg (abs_nonneg _) (V3.norm_nonneg' _)) |>.2
  rw [len_sq, add_sq, sq_abs, norm_sq]
  have := mul_nonneg (abs_nonneg q.w) (V3.norm_nonneg' q.vec)
  simp only [vec] at *
  nlinarith

theorem V3.norm_le_sub (a b : V3 ℝ) : a.norm ≤ b.norm + (a.sub b).norm := by
  have := V3.norm_add_le b (a.sub b)
  have e : b.add (a.sub b) = a := by ext <;> simp [V3.add, V3.sub]
  rwa [e] at this

theorem V3.norm_sub_tri (a b c : V3 ℝ) : (a.sub c).norm ≤ (a.sub b).norm + (b.sub c).norm := by
  have := V3.norm_add_le (a.sub b) (b.sub c)
  have e : (a.sub b).add (b.sub c) = a.sub c := by ext <;> simp [V3.add, V3.sub]
  rwa [e] at this

theorem V3.norm_cross_le (a b : V3 ℝ) : (a.cross b).norm ≤ a.norm * b.norm := by
  refine abs_le_of_sq_le_sq' ?_ (mul_nonneg a.norm_nonneg' b.norm_nonneg') |>.2
  rw [mul_pow, norm_sq, norm_sq, norm_sq]
  simp only [cross]
  nlinarith [mul_self_nonneg (a.x * b.x + a.y * b.y + a.z * b.z)]

/-! ## scalars -/

theorem abs_tri (a b : ℝ) : |a| ≤ |b| + |a - b| := by
  have := abs_add_le b (a - b)
  rwa [add_sub_cancel] at this


/-- size at most `m`, error at most `(r - 1) m` -/
structure SNear (r m : ℝ) (a : Fl A) (x : ℝ) : Prop where
  size : |x| ≤ m
  err : |a.val - x| ≤ (r - 1) * m

theorem one_le_u : 1 ≤ 1 + A.u := by linarith [A.u_nonneg]

/-- from a relative to an accumulated error -/
theorem round_err {z w d e r m : ℝ} {u : ℝ} (u0 : 0 ≤ u) (r1 : 1 ≤ r) (hw : w ≤ m) (hz : z ≤ w + (r - 1) * m)
    (h1 : d ≤ u * z) (h2 : e ≤ d + (r - 1) * m) (m0 : 0 ≤ m) : e ≤ (r * (1 + u) - 1) * m := by
  have : u * z ≤ u * (r * m) := mul_le_mul_of_nonneg_left (by nlinarith) u0
  nlinarith

theorem SNear.nonneg {r m : ℝ} {a : Fl A} {x : ℝ} (h : SNear r m a x) : 0 ≤ m := (abs_nonneg _).trans h.size

theorem SNear.abs_le {r m : ℝ} {a : Fl A} {x : ℝ} (h : SNear r m a x) : |a.val| ≤ r * m := by
  have := abs_tri a.val x
  have h1 := h.size
  have h2 := h.err
  linarith

theorem SNear.mono {r r' m m' : ℝ} {a : Fl A} {x : ℝ} (h : SNear r m a x) (r1 : 1 ≤ r) (hr : r ≤ r') (hm : m ≤ m') :
    SNear r' m' a x := by
  refine ⟨h.size.trans hm, h.err.trans ?_⟩
  have := h.nonneg
  exact mul_le_mul (by linarith) hm this (by linarith)

/-- perturbed products -/
theorem prod_err {a b x y r s m n : ℝ} (r1 : 1 ≤ r) (hx : x ≤ m)
    (ha : a ≤ (r - 1) * m) (hy : y ≤ n) (hb : b ≤ (s - 1) * n) (x0 : 0 ≤ x) (a0 : 0 ≤ a) (b0 : 0 ≤ b) (y0 : 0 ≤ y) :
    a * y + (x + a) * b ≤ (r * s - 1) * (m * n) := by
  have m0 : 0 ≤ m := x0.trans hx
  have h1 : a * y ≤ (r - 1) * m * n := mul_le_mul ha hy y0 (mul_nonneg (by linarith) m0)
  have h2 : (x + a) * b ≤ (r * m) * ((s - 1) * n) :=
    mul_le_mul (by linarith) hb b0 (mul_nonneg (by linarith) m0)
  nlinarith

theorem SNear.mul {r s m n : ℝ} {a b : Fl A} {x y : ℝ} (h : SNear r m a x) (k : SNear s n b y) (r1 : 1 ≤ r)
    (s1 : 1 ≤ s) : SNear (r * s * (1 + A.u)) (m * n) (a * b) (x * y) := by
  have m0 := h.nonneg
  have n0 := k.nonneg
  refine ⟨by rw [abs_mul]; exact mul_le_mul h.size k.size (abs_nonneg _) m0, ?_⟩
  have e : |a.val * b.val - x * y| ≤ (r * s - 1) * (m * n) := by
    have : a.val * b.val - x * y = (a.val - x) * y + a.val * (b.val - y) := by ring
    rw [this]
    refine (abs_add_le _ _).trans ?_
    rw [abs_mul, abs_mul]
    have := prod_err r1 h.size h.err k.size k.err (abs_nonneg _) (abs_nonneg _) (abs_nonneg _) (abs_nonneg _)
    have t := abs_tri a.val x
    nlinarith [mul_le_mul_of_nonneg_right t (abs_nonneg (b.val - y))]
  have rs : 1 ≤ r * s := by nlinarith
  refine round_err (z := |a.val * b.val|) (w := |x * y|) A.u_nonneg rs ?_ ?_ (A.mul_err a.val b.val) ?_ (mul_nonneg m0 n0)
  · rw [abs_mul]; exact mul_le_mul h.size k.size (abs_nonneg _) m0
  · have := abs_tri (a.val * b.val) (x * y); linarith
  · rw [Fl.val_mul]
    have := abs_sub_le (A.mul a.val b.val) (a.val * b.val) (x * y); linarith

/-! ## vectors -/

/-- size at most `m`, error at most `(r - 1) m` -/
structure VNear (r m : ℝ) (a : V3 (Fl A)) (v : V3 ℝ) : Prop where
  size : v.norm ≤ m
  err : (a.val.sub v).norm ≤ (r - 1) * m

theorem VNear.nonneg {r m : ℝ} {a : V3 (Fl A)} {v : V3 ℝ} (h : VNear r m a v) : 0 ≤ m :=
  v.norm_nonneg'.trans h.size

theorem VNear.mono {r r' m m' : ℝ} {a : V3 (Fl A)} {v : V3 ℝ} (h : VNear r m a v) (r1 : 1 ≤ r) (hr : r ≤ r')
    (hm : m ≤ m') : VNear r' m' a v := by
  refine ⟨h.size.trans hm, h.err.trans ?_⟩
  have := h.nonneg
  exact mul_le_mul (by linarith) hm this (by linarith)

/-- from a relative rounding error of each component -/
theorem VNear.round {r m : ℝ} {a : V3 (Fl A)} {z v : V3 ℝ} (r1 : 1 ≤ r) (size : v.norm ≤ m)
    (err : (z.sub v).norm ≤ (r - 1) * m) (hx : |a.x.val - z.x| ≤ A.u * |z.x|) (hy : |a.y.val - z.y| ≤ A.u * |z.y|)
    (hz : |a.z.val - z.z| ≤ A.u * |z.z|) : VNear (r * (1 + A.u)) m a v := by
  refine ⟨size, ?_⟩
  have e : (a.val.sub z).norm ≤ A.u * z.norm := V3.norm_le_comp _ _ _ A.u_nonneg hx hy hz
  refine round_err (z := z.norm) (w := v.norm) A.u_nonneg r1 size ?_ e ?_ (v.norm_nonneg'.trans size)
  · have := V3.norm_le_sub z v; linarith
  · have := V3.norm_sub_tri a.val z v; linarith

theorem VNear.add {r m n : ℝ} {a b : V3 (Fl A)} {v w : V3 ℝ} (h : VNear r m a v) (k : VNear r n b w) (r1 : 1 ≤ r) :
    VNear (r * (1 + A.u)) (m + n) (a.add b) (v.add w) := by
  refine VNear.round (z := a.val.add b.val) r1 ?_ ?_ (A.add_err _ _) (A.add_err _ _) (A.add_err _ _)
  · exact (V3.norm_add_le v w).trans (add_le_add h.size k.size)
  · have e : (a.val.add b.val).sub (v.add w) = (a.val.sub v).add (b.val.sub w) := by
      ext <;> simp only [V3.add, V3.sub] <;> ring
    rw [e]
    have := V3.norm_add_le (a.val.sub v) (b.val.sub w)
    have h1 := h.err
    have h2 := k.err
    linarith

theorem V3.norm_neg (v : V3 ℝ) : v.neg.norm = v.norm := by
  simp [V3.norm, V3.neg]

theorem VNear.sub {r m n : ℝ} {a b : V3 (Fl A)} {v w : V3 ℝ} (h : VNear r m a v) (k : VNear r n b w) (r1 : 1 ≤ r) :
    VNear (r * (1 + A.u)) (m + n) (a.sub b) (v.sub w) := by
  have t : ∀ v w : V3 ℝ, (v.sub w).norm ≤ v.norm + w.norm := by
    intro v w
    have := V3.norm_add_le v w.neg
    rw [V3.norm_neg] at this
    have e : v.add w.neg = v.sub w := by ext <;> simp only [V3.add, V3.sub, V3.neg] <;> ring
    rwa [e] at this
  refine VNear.round (z := a.val.sub b.val) r1 ?_ ?_ (A.sub_err _ _) (A.sub_err _ _) (A.sub_err _ _)
  · exact (t v w).trans (add_le_add h.size k.size)
  · have e : (a.val.sub b.val).sub (v.sub w) = (a.val.sub v).sub (b.val.sub w) := by
      ext <;> simp only [V3.sub] <;> ring
    rw [e]
    have := t (a.val.sub v) (b.val.sub w)
    have h1 := h.err
    have h2 := k.err
    linarith

theorem VNear.scale {r s m n : ℝ} {a : V3 (Fl A)} {v : V3 ℝ} {b : Fl A} {y : ℝ} (h : VNear r m a v)
    (k : SNear s n b y) (r1 : 1 ≤ r) (s1 : 1 ≤ s) :
    VNear (r * s * (1 + A.u)) (m * n) (a.scale b) (v.scale y) := by
  have m0 := h.nonneg
  have n0 := k.nonneg
  have rs : 1 ≤ r * s := by nlinarith
  refine VNear.round (z := a.val.scale b.val) rs ?_ ?_ (A.mul_err _ _) (A.mul_err _ _) (A.mul_err _ _)
  · rw [V3.norm_scale]; exact mul_le_mul h.size k.size (abs_nonneg _) m0
  · have e : (a.val.scale b.val).sub (v.scale y) = ((a.val.sub v).scale y).add (a.val.scale (b.val - y)) := by
      ext <;> simp only [V3.add, V3.sub, V3.scale] <;> ring
    rw [e]
    refine (V3.norm_add_le _ _).trans ?_
    rw [V3.norm_scale, V3.norm_scale]
    have := prod_err r1 h.size h.err k.size k.err (V3.norm_nonneg' _) (V3.norm_nonneg' _) (abs_nonneg _)
      (abs_nonneg _)
    have t := V3.norm_le_sub a.val v
    nlinarith [mul_le_mul_of_nonneg_right t (abs_nonneg (b.val - y))]

theorem SNear.self (a : Fl A) : SNear 1 |a.val| a a.val := ⟨le_rfl, by simp⟩

theorem SNear.add {r m n : ℝ} {a b : Fl A} {x y : ℝ} (h : SNear r m a x) (k : SNear r n b y) (r1 : 1 ≤ r) :
    SNear (r * (1 + A.u)) (m + n) (a + b) (x + y) := by
  have h1 := h.size
  have h2 := h.err
  have k1 := k.size
  have k2 := k.err
  have s := abs_add_le x y
  have e : |a.val + b.val - (x + y)| ≤ (r - 1) * (m + n) := by
    have : a.val + b.val - (x + y) = (a.val - x) + (b.val - y) := by ring
    rw [this]
    have := abs_add_le (a.val - x) (b.val - y)
    linarith
  refine ⟨by linarith, round_err (z := |a.val + b.val|) (w := |x + y|) A.u_nonneg r1 (by linarith) ?_
    (A.add_err a.val b.val) ?_ (by linarith [h.nonneg, k.nonneg])⟩
  · have := abs_tri (a.val + b.val) (x + y); linarith
  · rw [Fl.val_add]
    have := abs_sub_le (A.add a.val b.val) (a.val + b.val) (x + y); linarith

theorem SNear.sub {r m n : ℝ} {a b : Fl A} {x y : ℝ} (h : SNear r m a x) (k : SNear r n b y) (r1 : 1 ≤ r) :
    SNear (r * (1 + A.u)) (m + n) (a - b) (x - y) := by
  have h1 := h.size
  have h2 := h.err
  have k1 := k.size
  have k2 := k.err
  have s := abs_sub x y
  have e : |a.val - b.val - (x - y)| ≤ (r - 1) * (m + n) := by
    have : a.val - b.val - (x - y) = (a.val - x) - (b.val - y) := by ring
    rw [this]
    have := abs_sub (a.val - x) (b.val - y)
    linarith
  refine ⟨by linarith, round_err (z := |a.val - b.val|) (w := |x - y|) A.u_nonneg r1 (by linarith) ?_
    (A.sub_err a.val b.val) ?_ (by linarith [h.nonneg, k.nonneg])⟩
  · have := abs_tri (a.val - b.val) (x - y); linarith
  · rw [Fl.val_sub]
    have := abs_sub_le (A.sub a.val b.val) (a.val - b.val) (x - y); linarith

/-- one rounded product -/
theorem SNear.prod (a b : Fl A) : SNear (1 + A.u) (|a.val| * |b.val|) (a * b) (a.val * b.val) := by
  have := (SNear.self a).mul (SNear.self b) le_rfl le_rfl
  simpa using this

theorem one_le_pow_u (k : ℕ) : 1 ≤ (1 + A.u) ^ k := one_le_pow₀ one_le_u
theorem pow_u_mono {k l : ℕ} (h : k ≤ l) : (1 + A.u) ^ k ≤ (1 + A.u) ^ l := pow_le_pow_right₀ one_le_u h

theorem V3.cross_sub (a b v w : V3 ℝ) :
    (a.cross b).sub (v.cross w) = ((a.sub v).cross w).add (a.cross (b.sub w)) := by
  ext <;> simp only [V3.add, V3.sub, V3.cross] <;> ring

/-- computed and exact cross product of the same operands -/
theorem cross_round (a b : V3 (Fl A)) : ((a.cross b).val.sub (a.val.cross b.val)).norm ≤
    2 * ((1 + A.u) ^ 2 - 1) * (a.val.norm * b.val.norm) := by
  have g0 : 0 ≤ (1 + A.u) ^ 2 - 1 := by linarith [one_le_pow_u (A := A) 2]
  have one : ∀ p q r s : Fl A, |(p * q - r * s).val - (p.val * q.val - r.val * s.val)| ≤
      ((1 + A.u) ^ 2 - 1) * |(|p.val| * |q.val| + |r.val| * |s.val|)| := by
    intro p q r s
    have := ((SNear.prod p q).sub (SNear.prod r s) one_le_u).err
    rw [abs_of_nonneg (a := |p.val| * |q.val| + |r.val| * |s.val|) (by positivity), sq]
    exact this
  let z : V3 ℝ := ⟨|a.y.val| * |b.z.val| + |a.z.val| * |b.y.val|, |a.z.val| * |b.x.val| + |a.x.val| * |b.z.val|,
    |a.x.val| * |b.y.val| + |a.y.val| * |b.x.val|⟩
  have h := V3.norm_le_comp ((a.cross b).val.sub (a.val.cross b.val)) z _ g0 (one _ _ _ _) (one _ _ _ _)
    (one _ _ _ _)
  have hz : z.norm ≤ 2 * (a.val.norm * b.val.norm) := by
    have n0 := mul_nonneg a.val.norm_nonneg' b.val.norm_nonneg'
    refine abs_le_of_sq_le_sq' ?_ (by linarith) |>.2
    rw [mul_pow, mul_pow, norm_sq, norm_sq, norm_sq]
    simp only [z, V3.val]
    rw [← abs_mul_abs_self a.x.val, ← abs_mul_abs_self a.y.val, ← abs_mul_abs_self a.z.val,
      ← abs_mul_abs_self b.x.val, ← abs_mul_abs_self b.y.val, ← abs_mul_abs_self b.z.val]
    generalize |a.x.val| = p; generalize |a.y.val| = q; generalize |a.z.val| = r
    generalize |b.x.val| = x; generalize |b.y.val| = y; generalize |b.z.val| = w
    nlinarith [sq_nonneg (q * w - r * y), sq_nonneg (r * x - p * w), sq_nonneg (p * y - q * x),
      mul_nonneg (sq_nonneg p) (sq_nonneg x), mul_nonneg (sq_nonneg q) (sq_nonneg y),
      mul_nonneg (sq_nonneg r) (sq_nonneg w), mul_nonneg (sq_nonneg p) (sq_nonneg y),
      mul_nonneg (sq_nonneg p) (sq_nonneg w), mul_nonneg (sq_nonneg q) (sq_nonneg x),
      mul_nonneg (sq_nonneg q) (sq_nonneg w), mul_nonneg (sq_nonneg r) (sq_nonneg x),
      mul_nonneg (sq_nonneg r) (sq_nonneg y)]
  have := mul_le_mul_of_nonneg_left hz g0
  linarith

/-- doubling a rounding error costs a square -/
theorem double_err {r g e E P m : ℝ} (r1 : 1 ≤ r) (g0 : 0 ≤ g) (m0 : 0 ≤ m) (hP : P ≤ r * m)
    (h1 : E ≤ 2 * g * P) (h2 : e ≤ E + (r - 1) * m) : e ≤ (r * (1 + g) ^ 2 - 1) * m := by
  have : 2 * g * P ≤ 2 * g * (r * m) := mul_le_mul_of_nonneg_left hP (by linarith)
  have : 0 ≤ g ^ 2 * (r * m) := mul_nonneg (sq_nonneg _) (mul_nonneg (by linarith) m0)
  nlinarith

theorem VNear.norm_le {r m : ℝ} {a : V3 (Fl A)} {v : V3 ℝ} (h : VNear r m a v) : a.val.norm ≤ r * m := by
  have := V3.norm_le_sub a.val v
  have h1 := h.size
  have h2 := h.err
  linarith

theorem VNear.cross {r s m n : ℝ} {a b : V3 (Fl A)} {v w : V3 ℝ} (h : VNear r m a v) (k : VNear s n b w)
    (r1 : 1 ≤ r) (s1 : 1 ≤ s) : VNear (r * s * (1 + A.u) ^ 4) (m * n) (a.cross b) (v.cross w) := by
  have m0 := h.nonneg
  have n0 := k.nonneg
  refine ⟨(V3.norm_cross_le v w).trans (mul_le_mul h.size k.size (V3.norm_nonneg' _) m0), ?_⟩
  have rs : 1 ≤ r * s := by nlinarith
  have e : ((a.val.cross b.val).sub (v.cross w)).norm ≤ (r * s - 1) * (m * n) := by
    rw [V3.cross_sub]
    refine (V3.norm_add_le _ _).trans ?_
    have := prod_err r1 h.size h.err k.size k.err (V3.norm_nonneg' _) (V3.norm_nonneg' _) (V3.norm_nonneg' _)
      (V3.norm_nonneg' _)
    have t := V3.norm_le_sub a.val v
    have c1 := V3.norm_cross_le (a.val.sub v) w
    have c2 := V3.norm_cross_le a.val (b.val.sub w)
    nlinarith [mul_le_mul_of_nonneg_right t (V3.norm_nonneg' (b.val.sub w))]
  have p4 : (1 + A.u) ^ 4 = (1 + ((1 + A.u) ^ 2 - 1)) ^ 2 := by ring
  rw [p4]
  refine double_err rs (by linarith [one_le_pow_u (A := A) 2]) (mul_nonneg m0 n0) ?_ (cross_round a b)
    (P := a.val.norm * b.val.norm) ?_
  · have := mul_le_mul h.norm_le k.norm_le (V3.norm_nonneg' _) (mul_nonneg (by linarith) m0)
    linarith
  · have := V3.norm_sub_tri (a.cross b).val (a.val.cross b.val) (v.cross w)
    linarith

/-! ## quaternions -/

/-- exact size at most 1, error at most `r - 1` -/
structure QNear (r : ℝ) (a : Quat (Fl A)) (q : Quat ℝ) : Prop where
  size : q.len ≤ 1
  err : (a.val.diff q).len ≤ r - 1

theorem QNear.mono {r r' : ℝ} {a : Quat (Fl A)} {q : Quat ℝ} (h : QNear r a q) (hr : r ≤ r') : QNear r' a q :=
  ⟨h.size, by linarith [h.err]⟩

theorem QNear.len_le {r : ℝ} {a : Quat (Fl A)} {q : Quat ℝ} (h : QNear r a q) : a.val.len ≤ r := by
  have := Quat.len_le_diff a.val q
  have h1 := h.size
  have h2 := h.err
  linarith

theorem QNear.vec {r : ℝ} {a : Quat (Fl A)} {q : Quat ℝ} (h : QNear r a q) : VNear r 1 a.vec q.vec := by
  refine ⟨q.norm_vec_le.trans h.size, ?_⟩
  have := (a.val.diff q).norm_vec_le
  have h2 := h.err
  have e : (a.val.diff q).vec = a.vec.val.sub q.vec := rfl
  rw [e] at this
  linarith

theorem QNear.w {r : ℝ} {a : Quat (Fl A)} {q : Quat ℝ} (h : QNear r a q) : SNear r 1 a.w q.w := by
  refine ⟨q.abs_w_le.trans h.size, ?_⟩
  have := (a.val.diff q).abs_w_le
  have h2 := h.err
  have e : (a.val.diff q).w = a.w.val - q.w := rfl
  rw [e] at this
  linarith

theorem QNear.of_parts {r s : ℝ} {a : Quat (Fl A)} {q : Quat ℝ} (size : q.len ≤ 1) (h : SNear r 1 a.w q.w)
    (k : VNear s 1 a.vec q.vec) (r1 : 1 ≤ r) (s1 : 1 ≤ s) : QNear (r * s) a q := by
  refine ⟨size, ?_⟩
  have := (a.val.diff q).len_le_parts
  have e : (a.val.diff q).vec = a.vec.val.sub q.vec := rfl
  have e2 : (a.val.diff q).w = a.w.val - q.w := rfl
  rw [e, e2] at this
  have h2 := h.err
  have k2 := k.err
  nlinarith

theorem Quat.mul_diff (a b p q : Quat ℝ) : ∃ c d : Quat ℝ, c = (a.diff p).mul q ∧ d = a.mul (b.diff q) ∧
    (a.mul b).diff (p.mul q) = ⟨c.w + d.w, c.i + d.i, c.j + d.j, c.k + d.k⟩ := by
  refine ⟨_, _, rfl, rfl, ?_⟩
  ext <;> simp only [Quat.mul, Quat.diff] <;> ring

theorem Quat.len_add_le (c d : Quat ℝ) : (⟨c.w + d.w, c.i + d.i, c.j + d.j, c.k + d.k⟩ : Quat ℝ).len ≤ c.len + d.len := by
  have := Quat.len_diff_le c ⟨0, 0, 0, 0⟩ ⟨-d.w, -d.i, -d.j, -d.k⟩
  simpa [Quat.diff] using this

/-- computed and exact product of the same quaternions -/
theorem mul_round (a b : Quat (Fl A)) : ((a.mul b).val.diff (a.val.mul b.val)).len ≤
    2 * ((1 + A.u) ^ 4 - 1) * (a.val.len * b.val.len) := by
  have g0 : 0 ≤ (1 + A.u) ^ 4 - 1 := by linarith [one_le_pow_u (A := A) 4]
  have u1 := one_le_u (A := A)
  have p2 := one_le_pow_u (A := A) 2
  have p3 := one_le_pow_u (A := A) 3
  -- the four products in the order of the terms
  have k2 : ∀ p q : Fl A, SNear ((1 + A.u) ^ 2) (|p.val| * |q.val|) (p * q) (p.val * q.val) := fun p q =>
    (SNear.prod p q).mono u1 (by nlinarith [A.u_nonneg]) le_rfl
  have k3 : ∀ p q : Fl A, SNear ((1 + A.u) ^ 3) (|p.val| * |q.val|) (p * q) (p.val * q.val) := fun p q =>
    (SNear.prod p q).mono u1 (by simpa using pow_u_mono (A := A) (k := 1) (l := 3) (by decide)) le_rfl
  have e2 : (1 + A.u) ^ 2 = (1 + A.u) * (1 + A.u) := by ring
  have e3 : (1 + A.u) ^ 3 = (1 + A.u) ^ 2 * (1 + A.u) := by ring
  have e4 : (1 + A.u) ^ 4 = (1 + A.u) ^ 3 * (1 + A.u) := by ring
  have t0 : 0 ≤ ((1 + A.u) ^ 4 - 1) * (a.val.len * b.val.len) :=
    mul_nonneg g0 (mul_nonneg (Quat.len_nonneg _) (Quat.len_nonneg _))
  have cs : ∀ S, S ≤ a.val.len * b.val.len → ((1 + A.u) ^ 4 - 1) * S ≤ ((1 + A.u) ^ 4 - 1) * (a.val.len * b.val.len) :=
    fun S hS => mul_le_mul_of_nonneg_left hS g0
  have hb : ∀ w x y z : ℝ, w * w + x * x + y * y + z * z =
      b.w.val * b.w.val + b.i.val * b.i.val + b.j.val * b.j.val + b.k.val * b.k.val →
      |a.w.val| * |w| + |a.i.val| * |x| + |a.j.val| * |y| + |a.k.val| * |z| ≤ a.val.len * b.val.len := by
    intro w x y z e
    have := cauchy4 a.w.val a.i.val a.j.val a.k.val w x y z
    rw [e] at this; exact this
  rw [mul_assoc]
  refine Quat.len_le_two _ _ t0 ?_ ?_ ?_ ?_
  · have := ((((SNear.prod a.w b.w).sub (SNear.prod a.i b.i) u1)).sub (e2 ▸ k2 a.j b.j) (e2 ▸ p2)).sub
      (e2 ▸ e3 ▸ k3 a.k b.k) (e2 ▸ e3 ▸ p3)
    have h := this.err
    rw [← e2, ← e3, ← e4] at h
    exact h.trans (cs _ (hb _ _ _ _ rfl))
  · have := ((((SNear.prod a.w b.i).add (SNear.prod a.i b.w) u1)).add (e2 ▸ k2 a.j b.k) (e2 ▸ p2)).sub
      (e2 ▸ e3 ▸ k3 a.k b.j) (e2 ▸ e3 ▸ p3)
    have h := this.err
    rw [← e2, ← e3, ← e4] at h
    exact h.trans (cs _ (hb _ _ _ _ (by ring)))
  · have := ((((SNear.prod a.w b.j).sub (SNear.prod a.i b.k) u1)).add (e2 ▸ k2 a.j b.w) (e2 ▸ p2)).add
      (e2 ▸ e3 ▸ k3 a.k b.i) (e2 ▸ e3 ▸ p3)
    have h := this.err
    rw [← e2, ← e3, ← e4] at h
    exact h.trans (cs _ (hb _ _ _ _ (by ring)))
  · have := ((((SNear.prod a.w b.k).add (SNear.prod a.i b.j) u1)).sub (e2 ▸ k2 a.j b.i) (e2 ▸ p2)).add
      (e2 ▸ e3 ▸ k3 a.k b.w) (e2 ▸ e3 ▸ p3)
    have h := this.err
    rw [← e2, ← e3, ← e4] at h
    exact h.trans (cs _ (hb _ _ _ _ (by ring)))

theorem QNear.mul {r s : ℝ} {a b : Quat (Fl A)} {p q : Quat ℝ} (h : QNear r a p) (k : QNear s b q) (r1 : 1 ≤ r)
    (s1 : 1 ≤ s) : QNear (r * s * (1 + A.u) ^ 8) (a.mul b) (p.mul q) := by
  have sz : (p.mul q).len ≤ 1 := by
    rw [Quat.len_mul]; exact mul_le_one₀ h.size (Quat.len_nonneg _) k.size
  refine ⟨sz, ?_⟩
  have rs : 1 ≤ r * s := by nlinarith
  have e : ((a.val.mul b.val).diff (p.mul q)).len ≤ (r * s - 1) * 1 := by
    obtain ⟨c, d, hc, hd, e⟩ := Quat.mul_diff a.val b.val p q
    rw [e]
    refine (Quat.len_add_le c d).trans ?_
    rw [hc, hd, Quat.len_mul, Quat.len_mul]
    have h2 := h.err
    have k2 := k.err
    have := prod_err (m := 1) (n := 1) (s := s) r1 h.size (by linarith) k.size (by linarith) (Quat.len_nonneg _)
      (Quat.len_nonneg (a.val.diff p)) (Quat.len_nonneg (b.val.diff q)) (Quat.len_nonneg _)
    have t := Quat.len_le_diff a.val p
    nlinarith [mul_le_mul_of_nonneg_right t (Quat.len_nonneg (b.val.diff q))]
  have p8 : (1 + A.u) ^ 8 = (1 + ((1 + A.u) ^ 4 - 1)) ^ 2 := by ring
  rw [p8]
  have := double_err (m := 1) (P := a.val.len * b.val.len) rs (by linarith [one_le_pow_u (A := A) 4] : 0 ≤ (1 + A.u) ^ 4 - 1)
    zero_le_one (by
      have := mul_le_mul h.len_le k.len_le (Quat.len_nonneg _) (by linarith)
      linarith) (mul_round a b) (e := ((a.mul b).val.diff (p.mul q)).len) (by
      have := Quat.len_diff_le (a.mul b).val (a.val.mul b.val) (p.mul q)
      linarith)
  linarith

theorem near_two : SNear (1 + A.u) 2 (1 + 1 : Fl A) (1 + 1) := by
  refine ⟨by norm_num, ?_⟩
  have := A.add_err 1 1
  norm_num at this ⊢
  rw [Fl.val_add]; norm_num
  linarith

/-- **rotating a vector** -/
theorem VNear.rotate {r s m : ℝ} {a : Quat (Fl A)} {q : Quat ℝ} {b : V3 (Fl A)} {v : V3 ℝ} (h : QNear r a q)
    (unit : q.IsUnit) (k : VNear s m b v) (r1 : 1 ≤ r) (s1 : 1 ≤ s) :
    VNear ((r ^ 2 * s * (1 + A.u) ^ 12) ^ 5) m (a.rotate b) (q.rotate v) := by
  have u0 := A.u_nonneg
  have u1 := one_le_u (A := A)
  have pk := one_le_pow_u (A := A)
  have m0 := k.nonneg
  have rs : 1 ≤ r * s := by nlinarith
  have c1 := h.vec.cross k r1 s1
  have g1 : 1 ≤ r * s * (1 + A.u) ^ 4 := by nlinarith [pk 4]
  have t := c1.scale near_two g1 u1
  have g2 : 1 ≤ r * s * (1 + A.u) ^ 4 * (1 + A.u) * (1 + A.u) := by nlinarith [mul_le_mul g1 u1 (by norm_num) (by linarith)]
  have x1 := t.scale h.w g2 r1
  have x2 := h.vec.cross t r1 g2
  have g3 : 1 ≤ r ^ 2 * s * (1 + A.u) ^ 10 := by
    have : 1 ≤ r ^ 2 * s := by nlinarith
    nlinarith [pk 10]
  have x1' := x1.mono (r' := r ^ 2 * s * (1 + A.u) ^ 10) (m' := 2 * m)
    (by nlinarith [mul_le_mul g2 r1 (by norm_num) (by linarith)]) (by
      have e : r * s * (1 + A.u) ^ 4 * (1 + A.u) * (1 + A.u) * r * (1 + A.u) = r ^ 2 * s * (1 + A.u) ^ 7 := by ring
      rw [e]
      exact mul_le_mul_of_nonneg_left (pow_u_mono (by decide)) (by nlinarith)) (by linarith)
  have x2' : VNear (r ^ 2 * s * (1 + A.u) ^ 10) (2 * m) _ _ := x2.mono (by nlinarith [mul_le_mul r1 g2 (by norm_num) (by linarith), pk 4]) (le_of_eq (by ring)) (by linarith)
  have x3 := x1'.add x2' g3
  have g4 : 1 ≤ r ^ 2 * s * (1 + A.u) ^ 10 * (1 + A.u) := by nlinarith
  have k' := k.mono (r' := r ^ 2 * s * (1 + A.u) ^ 10 * (1 + A.u)) (m' := m) s1 (by
    have : s ≤ r ^ 2 * s := by nlinarith
    nlinarith [pk 11]) le_rfl
  have x4 := x3.add k' g4
  have sz : (q.rotate v).norm ≤ m := by rw [Quat.norm_rotate unit]; exact k.size
  refine ⟨sz, ?_⟩
  have e := x4.err
  have g5 : 1 ≤ r ^ 2 * s * (1 + A.u) ^ 12 := by
    have : 1 ≤ r ^ 2 * s := by nlinarith
    nlinarith [pk 12]
  have bn := one_add_mul_le_pow (a := r ^ 2 * s * (1 + A.u) ^ 12 - 1) (by linarith) 5
  have e12 : r ^ 2 * s * (1 + A.u) ^ 10 * (1 + A.u) * (1 + A.u) = r ^ 2 * s * (1 + A.u) ^ 12 := by ring
  rw [e12] at e
  have e' : ((a.rotate b).val.sub (q.rotate v)).norm ≤ (r ^ 2 * s * (1 + A.u) ^ 12 - 1) * (2 * m + 2 * m + m) := e
  rw [add_sub_cancel] at bn
  push_cast at bn
  have := mul_le_mul_of_nonneg_right bn m0
  linarith

/-! ## poses -/

/-- rotation off by at most `r - 1`, position off by at most `(s - 1) m` -/
structure INear (r s m : ℝ) (a : Iso (Fl A)) (X : Iso ℝ) : Prop where
  rigid : X.IsRigid
  rot : QNear r a.rot X.rot
  trans : VNear s m a.trans X.trans

theorem INear.mul {i j k l : ℕ} {m n : ℝ} {a b : Iso (Fl A)} {X Y : Iso ℝ}
    (h : INear ((1 + A.u) ^ i) ((1 + A.u) ^ j) m a X) (g : INear ((1 + A.u) ^ k) ((1 + A.u) ^ l) n b Y) :
    INear ((1 + A.u) ^ (i + k + 8)) ((1 + A.u) ^ (max j (10 * i + 5 * l + 60) + 1)) (m + n) (a.mul b) (X.mul Y) := by
  have pk := one_le_pow_u (A := A)
  refine ⟨h.rigid.mul g.rigid, ?_, ?_⟩
  · have := h.rot.mul g.rot (pk _) (pk _)
    rw [← pow_add, ← pow_add] at this
    exact this
  · have r := VNear.rotate h.rot h.rigid g.trans (pk _) (pk _)
    have e : (((1 + A.u) ^ i) ^ 2 * (1 + A.u) ^ l * (1 + A.u) ^ 12) ^ 5 = (1 + A.u) ^ (10 * i + 5 * l + 60) := by
      rw [← pow_mul, ← pow_add, ← pow_add, ← pow_mul]; congr 1; ring
    rw [e] at r
    have r' := r.mono (pk _) (pow_u_mono (le_max_right j (10 * i + 5 * l + 60))) le_rfl
    have h' := h.trans.mono (pk _) (pow_u_mono (le_max_left j (10 * i + 5 * l + 60))) le_rfl
    have := h'.add r' (pk _)
    rw [← pow_succ] at this
    exact this

theorem INear.one : INear (A := A) ((1 + A.u) ^ 0) ((1 + A.u) ^ 0) 0 Iso.one Iso.one := by
  refine ⟨Iso.one_isRigid, ⟨?_, ?_⟩, ⟨?_, ?_⟩⟩ <;>
    simp [Iso.one, Quat.one, V3.zero, Quat.len, Quat.diff, Quat.val, V3.norm, V3.val, V3.sub, Scalar.sqrt]

theorem INear.mono {i i' j j' : ℕ} {m m' : ℝ} {a : Iso (Fl A)} {X : Iso ℝ}
    (h : INear ((1 + A.u) ^ i) ((1 + A.u) ^ j) m a X) (hi : i ≤ i') (hj : j ≤ j') (hm : m ≤ m') :
    INear ((1 + A.u) ^ i') ((1 + A.u) ^ j') m' a X :=
  ⟨h.rigid, h.rot.mono (pow_u_mono hi), h.trans.mono (one_le_pow_u _) (pow_u_mono hj) hm⟩

/-! ## joints -/

/-- half of an angle -/
theorem half_near {a : Fl A} {x m : ℝ} (h : SNear (1 + A.u) m a x) :
    SNear ((1 + A.u) ^ 4) (m / 2) (a / (1 + 1)) (x / (1 + 1)) := by
  have u0 := A.u_nonneg
  have u1 := A.u_le
  have m0 := h.nonneg
  have h1 := h.size
  have h2 := h.err
  have t := (near_two (A := A)).err
  rw [abs_le] at t
  have tl : 2 * (1 - A.u) ≤ (1 + 1 : Fl A).val := by linarith [t.1]
  have b0 : 0 < (1 + 1 : Fl A).val := by linarith
  have inv : |(1 + 1 : Fl A).val⁻¹ - 2⁻¹| ≤ ((1 + A.u) ^ 2 - 1) * 2⁻¹ := by
    have e : (1 + 1 : Fl A).val⁻¹ - 2⁻¹ = (2 - (1 + 1 : Fl A).val) / (2 * (1 + 1 : Fl A).val) := by
      field_simp
    rw [e, abs_div, abs_of_pos (by linarith : 0 < 2 * (1 + 1 : Fl A).val), div_le_iff₀ (by linarith)]
    have : |2 - (1 + 1 : Fl A).val| ≤ 2 * A.u := by rw [abs_le]; constructor <;> linarith [t.1, t.2]
    have : 0 ≤ A.u * (1 - 2 * A.u) := mul_nonneg u0 (by linarith)
    have q : A.u * 2 ≤ ((1 + A.u) ^ 2 - 1) * (1 + 1 : Fl A).val := by
      have : ((1 + A.u) ^ 2 - 1) * (2 * (1 - A.u)) ≤ ((1 + A.u) ^ 2 - 1) * (1 + 1 : Fl A).val :=
        mul_le_mul_of_nonneg_left tl (by nlinarith)
      nlinarith [mul_nonneg u0 u0, mul_nonneg (mul_nonneg u0 u0) u0]
    linarith
  have g : 1 ≤ (1 + A.u) ^ 2 := one_le_pow_u 2
  have e : |a.val / (1 + 1 : Fl A).val - x / (1 + 1)| ≤ ((1 + A.u) * (1 + A.u) ^ 2 - 1) * (m * 2⁻¹) := by
    have eq : a.val / (1 + 1 : Fl A).val - x / (1 + 1) =
        (a.val - x) * 2⁻¹ + a.val * ((1 + 1 : Fl A).val⁻¹ - 2⁻¹) := by
      norm_num [div_eq_mul_inv]; ring
    rw [eq]
    refine (abs_add_le _ _).trans ?_
    rw [abs_mul, abs_mul]
    have := prod_err (y := |(2⁻¹ : ℝ)|) (n := 2⁻¹) one_le_u h1 h2 (by norm_num) inv (abs_nonneg x)
      (abs_nonneg (a.val - x)) (abs_nonneg _) (abs_nonneg _)
    have t := abs_tri a.val x
    nlinarith [mul_le_mul_of_nonneg_right t (abs_nonneg ((1 + 1 : Fl A).val⁻¹ - 2⁻¹))]
  have sz : |x / (1 + 1)| ≤ m * 2⁻¹ := by
    rw [abs_div]; norm_num; linarith
  have g3 : 1 ≤ (1 + A.u) * (1 + A.u) ^ 2 := by nlinarith
  have := round_err (z := |a.val / (1 + 1 : Fl A).val|) (w := |x / (1 + 1)|) u0 g3 sz
    (by have := abs_tri (a.val / (1 + 1 : Fl A).val) (x / (1 + 1)); linarith)
    (A.div_err a.val _ b0.ne') (e := |(a / (1 + 1)).val - x / (1 + 1)|)
    (by
      rw [Fl.val_div]
      have := abs_sub_le (A.div a.val (1 + 1 : Fl A).val) (a.val / (1 + 1 : Fl A).val) (x / (1 + 1)); linarith)
    (by linarith)
  refine ⟨by linarith, ?_⟩
  have e4 : (1 + A.u) ^ 4 = (1 + A.u) * (1 + A.u) ^ 2 * (1 + A.u) := by ring
  rw [e4]; linarith

/-- the error of a function that moves no faster than its argument -/
theorem trig_near {f : ℝ → ℝ} {f' : ℝ → ℝ} (hf : ∀ a, |f' a - f a| ≤ A.u) (lip : ∀ a b, |f a - f b| ≤ |a - b|)
    (one : ∀ a, |f a| ≤ 1) {a : Fl A} {x : ℝ} {B : ℕ} (h : SNear ((1 + A.u) ^ 4) B a x) :
    SNear ((1 + A.u) ^ (4 * B + 1)) 1 (⟨f' a.val⟩ : Fl A) (f x) := by
  refine ⟨one x, ?_⟩
  have u0 := A.u_nonneg
  have t := abs_sub_le (f' a.val) (f a.val) (f x)
  have h1 := hf a.val
  have h2 := lip a.val x
  have h3 := h.err
  have b := one_add_mul_le_pow (a := (1 + A.u) ^ 4 - 1) (by linarith [one_le_pow_u (A := A) 4]) B
  rw [add_sub_cancel, ← pow_mul] at b
  have p := one_le_pow_u (A := A) (4 * B)
  rw [pow_succ]
  nlinarith

theorem sin_near {a : Fl A} {x : ℝ} {B : ℕ} (h : SNear ((1 + A.u) ^ 4) B a x) :
    SNear ((1 + A.u) ^ (4 * B + 1)) 1 (Scalar.sin a) (Scalar.sin x) :=
  trig_near A.sin_err Real.abs_sin_sub_sin_le Real.abs_sin_le_one h

theorem cos_near {a : Fl A} {x : ℝ} {B : ℕ} (h : SNear ((1 + A.u) ^ 4) B a x) :
    SNear ((1 + A.u) ^ (4 * B + 1)) 1 (Scalar.cos a) (Scalar.cos x) :=
  trig_near A.cos_err Real.abs_cos_sub_cos_le Real.abs_cos_le_one h

/-- **turning about an axis** -/
theorem axisAngle_near {a : V3 (Fl A)} {v : V3 ℝ} {p : Fl A} {x : ℝ} {B : ℕ} (unit : v.IsUnit)
    (ha : VNear (1 + A.u) 1 a v) (hp : SNear (1 + A.u) |x| p x) (hB : |x| ≤ 2 * B) :
    QNear ((1 + A.u) ^ (8 * B + 4)) (Quat.fromAxisAngle a p) (Quat.fromAxisAngle v x) := by
  have pk := one_le_pow_u (A := A)
  have h := (half_near hp).mono (pk 4) le_rfl (by linarith : |x| / 2 ≤ B)
  have w := cos_near h
  have s := ha.scale (sin_near h) one_le_u (pk _)
  have e : (1 + A.u) * (1 + A.u) ^ (4 * B + 1) * (1 + A.u) = (1 + A.u) ^ (4 * B + 3) := by ring
  rw [e, one_mul] at s
  have := QNear.of_parts (a := Quat.fromAxisAngle a p) (q := Quat.fromAxisAngle v x)
    (Quat.fromAxisAngle_isUnit unit x).len.le w s (pk _) (pk _)
  rw [← pow_add] at this
  have e2 : 4 * B + 1 + (4 * B + 3) = 8 * B + 4 := by ring
  rwa [e2] at this

/-- a joint in rounded numbers that stands for an ideal one: each number is the rounded ideal number, turning
angles are at most `2 B` -/
structure Joint.Rounds (B : ℕ) (a : Joint (Fl A)) (j : Joint ℝ) : Prop where
  rigid : j.IsRigid
  originTrans : (a.origin.trans.val.sub j.origin.trans).norm ≤ A.u * j.origin.trans.norm
  originRot : (a.origin.rot.val.diff j.origin.rot).len ≤ A.u
  kind : match a.jointType, j.jointType with
    | .fixed, .fixed => True
    | .rotational v, .rotational w => (v.val.sub w).norm ≤ A.u ∧ |j.position| ≤ 2 * B
    | .linear v, .linear w => (v.val.sub w).norm ≤ A.u
    | _, _ => False
  position : |a.position.val - j.position| ≤ A.u * |j.position|

theorem local_near {B : ℕ} {a : Joint (Fl A)} {j : Joint ℝ} (h : a.Rounds B j) :
    INear ((1 + A.u) ^ (8 * B + 13)) ((1 + A.u) ^ 86) (stepLength j) a.localTransform j.localTransform := by
  have u0 := A.u_nonneg
  have pos : SNear (1 + A.u) |j.position| a.position j.position := ⟨le_rfl, by linarith [h.position]⟩
  have ho : INear ((1 + A.u) ^ 1) ((1 + A.u) ^ 1) j.origin.trans.norm a.origin j.origin :=
    ⟨h.rigid.1, ⟨h.rigid.1.len.le, by linarith [h.originRot]⟩, ⟨le_rfl, by linarith [h.originTrans]⟩⟩
  have r := h.rigid.2
  have k := h.kind
  have hj : INear ((1 + A.u) ^ (8 * B + 4)) ((1 + A.u) ^ 3) (match j.jointType with
      | .linear _ => |j.position|
      | _ => 0) a.jointTransform j.jointTransform := by
    have z : VNear (A := A) ((1 + A.u) ^ 3) 0 V3.zero V3.zero :=
      (INear.one (A := A)).trans.mono (one_le_pow_u 0) (pow_u_mono (by decide)) le_rfl
    have o : QNear (A := A) ((1 + A.u) ^ (8 * B + 4)) Quat.one Quat.one :=
      (INear.one (A := A)).rot.mono (pow_u_mono (Nat.zero_le _))
    refine ⟨Joint.jointTransform_isRigid h.rigid, ?_, ?_⟩
    · revert r k
      unfold Joint.jointTransform
      cases a.jointType <;> cases j.jointType <;> intro r k <;> dsimp only at k r ⊢ <;> try exact k.elim
      · exact o
      · exact axisAngle_near r ⟨r.norm.le, by linarith [k.1]⟩ pos k.2
      · exact o
    · revert r k
      unfold Joint.jointTransform
      cases a.jointType <;> cases j.jointType <;> intro r k <;> dsimp only at k r ⊢ <;> try exact k.elim
      · exact z
      · exact z
      · have := VNear.scale (a := _) ⟨r.norm.le, by linarith⟩ pos one_le_u one_le_u
        have e : (1 + A.u) * (1 + A.u) * (1 + A.u) = (1 + A.u) ^ 3 := by ring
        rw [e, one_mul] at this
        exact this
  exact (ho.mul hj).mono (by omega) (by omega) le_rfl

end
end K
