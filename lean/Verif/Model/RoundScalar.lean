import Verif.Model.RealScalar
import Verif.Model.Geom
/-!
# Scalars: arithmetic with rounding errors

`Arith` is any arithmetic on the reals whose operations are correct up to a relative error `u` (for `sin` and
`cos` an absolute one), the standard model of floating point arithmetic without overflow and underflow: for
`f64` with results in the normal range `u = 2⁻⁵³`, for `f32` `u = 2⁻²⁴` (with a libm whose `sin` and `cos` are
as accurate; otherwise take `u` larger).  Nothing says that two evaluations round alike or that a result is
representable.  Negation, absolute value, comparisons, 0 and 1 are exact.
-/

namespace K

/-- arithmetic with relative error at most `u` -/
structure Arith where
  u : ℝ
  u_nonneg : 0 ≤ u
  u_le : u ≤ 1 / 2
  add : ℝ → ℝ → ℝ
  sub : ℝ → ℝ → ℝ
  mul : ℝ → ℝ → ℝ
  div : ℝ → ℝ → ℝ
  sin : ℝ → ℝ
  cos : ℝ → ℝ
  sqrt : ℝ → ℝ
  atan2 : ℝ → ℝ → ℝ
  lit : Nat → Nat → ℝ
  add_err : ∀ a b, |add a b - (a + b)| ≤ u * |a + b|
  sub_err : ∀ a b, |sub a b - (a - b)| ≤ u * |a - b|
  mul_err : ∀ a b, |mul a b - a * b| ≤ u * |a * b|
  div_err : ∀ a b, b ≠ 0 → |div a b - a / b| ≤ u * |a / b|
  sin_err : ∀ a, |sin a - Real.sin a| ≤ u
  cos_err : ∀ a, |cos a - Real.cos a| ≤ u
  sqrt_err : ∀ a, 0 ≤ a → |sqrt a - Real.sqrt a| ≤ u * Real.sqrt a
  lit_err : ∀ n d : Nat, |lit n d - n / d| ≤ u * (n / d)

/-- a number of the arithmetic `A` -/
@[ext] structure Fl (A : Arith) where
  val : ℝ

open Classical in
/-- the operations of `A` -/
noncomputable instance (A : Arith) : Scalar (Fl A) where
  zero := ⟨0⟩
  one := ⟨1⟩
  add a b := ⟨A.add a.val b.val⟩
  sub a b := ⟨A.sub a.val b.val⟩
  mul a b := ⟨A.mul a.val b.val⟩
  div a b := ⟨A.div a.val b.val⟩
  neg a := ⟨-a.val⟩
  lt a b := decide (a.val < b.val)
  le a b := decide (a.val ≤ b.val)
  eq a b := decide (a.val = b.val)
  sin a := ⟨A.sin a.val⟩
  cos a := ⟨A.cos a.val⟩
  sqrt a := ⟨A.sqrt a.val⟩
  abs a := ⟨|a.val|⟩
  atan2 a b := ⟨A.atan2 a.val b.val⟩
  lit n d := ⟨A.lit n d⟩

variable {A : Arith}
@[simp] theorem Fl.val_zero : (0 : Fl A).val = 0 := rfl
@[simp] theorem Fl.val_one : (1 : Fl A).val = 1 := rfl
theorem Fl.val_add (a b : Fl A) : (a + b).val = A.add a.val b.val := rfl
theorem Fl.val_sub (a b : Fl A) : (a - b).val = A.sub a.val b.val := rfl
theorem Fl.val_mul (a b : Fl A) : (a * b).val = A.mul a.val b.val := rfl
theorem Fl.val_div (a b : Fl A) : (a / b).val = A.div a.val b.val := rfl
@[simp] theorem Fl.val_neg (a : Fl A) : (-a).val = -a.val := rfl

/-- the values of a vector -/
def V3.val (v : V3 (Fl A)) : V3 ℝ := ⟨v.x.val, v.y.val, v.z.val⟩
/-- the values of a quaternion -/
def Quat.val (q : Quat (Fl A)) : Quat ℝ := ⟨q.w.val, q.i.val, q.j.val, q.k.val⟩
/-- the values of a pose -/
def Iso.val (a : Iso (Fl A)) : Iso ℝ := ⟨a.trans.val, a.rot.val⟩

end K
