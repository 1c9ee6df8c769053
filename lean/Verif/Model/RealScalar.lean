import Verif.Model.Scalar
import Mathlib.Data.Real.Basic
import Mathlib.Analysis.SpecialFunctions.Trigonometric.Basic
import Mathlib.Analysis.SpecialFunctions.Complex.Arg
/-!
# Scalars: exact reals, and reals with a NaN

`Real` is the exact-arithmetic reading of `f32`/`f64` used by the geometry theorems.  `NReal` adds one
absorbing NaN with IEEE comparison behaviour and is used to exhibit what the code does with NaN.
-/

namespace K

open Classical in
/-- Exact real arithmetic. -/
noncomputable instance : Scalar ℝ where
  lt a b := decide (a < b)
  le a b := decide (a ≤ b)
  eq a b := decide (a = b)
  sin := Real.sin
  cos := Real.cos
  sqrt := Real.sqrt
  abs x := |x|
  atan2 y x := Complex.arg ⟨x, y⟩
  lit n d := (n : ℝ) / (d : ℝ)

/-- Reals with one NaN. -/
inductive NReal where
  | num (x : ℝ)
  | nan

namespace NReal
/-- apply a real function, NaN is absorbing -/
def map1 (f : ℝ → ℝ) : NReal → NReal
  | num x => num (f x)
  | nan => nan
/-- apply a real operation, NaN is absorbing -/
def map2 (f : ℝ → ℝ → ℝ) : NReal → NReal → NReal
  | num x, num y => num (f x y)
  | _, _ => nan
open Classical in
/-- compare, `false` with NaN -/
noncomputable def cmp (r : ℝ → ℝ → Prop) : NReal → NReal → Bool
  | num x, num y => decide (r x y)
  | _, _ => false
end NReal

open NReal in
open Classical in
/-- NaN-absorbing arithmetic (division by zero is NaN). -/
noncomputable instance : Scalar NReal where
  zero := num 0
  one := num 1
  add := map2 (· + ·)
  sub := map2 (· - ·)
  mul := map2 (· * ·)
  div a b := match b with
    | num y => if y = 0 then nan else map1 (· / y) a
    | nan => nan
  neg := map1 (- ·)
  lt := cmp (· < ·)
  le := cmp (· ≤ ·)
  eq := cmp (· = ·)
  sin := map1 Real.sin
  cos := map1 Real.cos
  sqrt := map1 Real.sqrt
  abs := map1 (fun x => |x|)
  atan2 := map2 (fun y x => Complex.arg ⟨x, y⟩)
  lit n d := num ((n : ℝ) / (d : ℝ))

@[simp] theorem real_lt (a b : ℝ) : Scalar.lt a b = true ↔ a < b := by simp [Scalar.lt]
@[simp] theorem real_le (a b : ℝ) : Scalar.le a b = true ↔ a ≤ b := by simp [Scalar.le]
@[simp] theorem real_eq (a b : ℝ) : Scalar.eq a b = true ↔ a = b := by simp [Scalar.eq]
@[simp] theorem real_lt_false (a b : ℝ) : Scalar.lt a b = false ↔ b ≤ a := by simp [Scalar.lt]
@[simp] theorem real_le_false (a b : ℝ) : Scalar.le a b = false ↔ b < a := by simp [Scalar.le]
@[simp] theorem real_not_nan (a : ℝ) : ¬ IsNaN a := by simp [IsNaN]

/-- The reals satisfy the order laws. -/
instance : LawfulOrd ℝ where
  lt_irrefl a := by simp
  not_lt_of_le a b := by simp
  le_of_lt a b := by simpa using le_of_lt
  le_of_not_lt a b _ _ := by simp
  not_nan_left a b _ := by simp
  not_nan_right a b _ := by simp
  le_trans a b c := by simpa using le_trans

@[simp] theorem nreal_lt (a b : ℝ) : Scalar.lt (NReal.num a) (NReal.num b) = true ↔ a < b := by
  simp [Scalar.lt, NReal.cmp]
@[simp] theorem nreal_le (a b : ℝ) : Scalar.le (NReal.num a) (NReal.num b) = true ↔ a ≤ b := by
  simp [Scalar.le, NReal.cmp]
@[simp] theorem nreal_lt_false (a b : ℝ) :
    Scalar.lt (NReal.num a) (NReal.num b) = false ↔ b ≤ a := by simp [Scalar.lt, NReal.cmp]
@[simp] theorem nreal_le_false (a b : ℝ) :
    Scalar.le (NReal.num a) (NReal.num b) = false ↔ b < a := by simp [Scalar.le, NReal.cmp]
@[simp] theorem nreal_lt_nan_left (b : NReal) : Scalar.lt NReal.nan b = false := rfl
@[simp] theorem nreal_lt_nan_right (a : NReal) : Scalar.lt a NReal.nan = false := by cases a <;> rfl
@[simp] theorem nreal_le_nan_left (b : NReal) : Scalar.le NReal.nan b = false := rfl
@[simp] theorem nreal_le_nan_right (a : NReal) : Scalar.le a NReal.nan = false := by cases a <;> rfl
@[simp] theorem nreal_isNaN_nan : IsNaN NReal.nan := rfl
@[simp] theorem nreal_isNaN_num (a : ℝ) : ¬ IsNaN (NReal.num a) := by simp [IsNaN]

/-- Reals with NaN satisfy the order laws too. -/
instance : LawfulOrd NReal where
  lt_irrefl a := by cases a <;> simp
  not_lt_of_le a b := by cases a <;> cases b <;> simp
  le_of_lt a b := by cases a <;> cases b <;> simp; exact le_of_lt
  le_of_not_lt a b := by cases a <;> cases b <;> simp
  not_nan_left a b := by cases a <;> cases b <;> simp
  not_nan_right a b := by cases a <;> cases b <;> simp
  le_trans a b c := by cases a <;> cases b <;> cases c <;> simp; exact le_trans

end K
