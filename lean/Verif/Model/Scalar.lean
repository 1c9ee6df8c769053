/-!
# Scalars

`/repo/src` is generic over `T: RealField (+ SubsetOf<f64>)` (`src/joint/joint.rs:28`,
`src/chain.rs:85`, ...).  `Scalar T` lists the operations of that trait bound that the code uses.
It has **no laws**: a theorem about every `Scalar T` holds for `f32` and `f64`.
-/

namespace K

/-- Operations of `nalgebra::RealField` used by `/repo/src` (the trait itself is in simba/nalgebra,
not in `/repo`; the use sites are e.g. `src/joint/range.rs:57,70,72` for comparisons,
`src/joint/joint.rs:225` for `sin`/`cos`, `src/ik.rs:331` for `sqrt` inside `norm`,
`src/ik.rs:477` for literals). -/
class Scalar (T : Type) extends Zero T, One T, Add T, Sub T, Mul T, Div T, Neg T where
  /-- `PartialOrd::lt`, as a Boolean; every comparison with NaN is `false` for floats. -/
  lt : T → T → Bool
  /-- `PartialOrd::le`. -/
  le : T → T → Bool
  /-- `PartialEq::eq`. -/
  eq : T → T → Bool
  sin : T → T
  cos : T → T
  sqrt : T → T
  abs : T → T
  /-- `atan2 y x`. -/
  atan2 : T → T → T
  /-- `na::convert` of a decimal literal `num / den`. -/
  lit : Nat → Nat → T

/-- A scalar that does not compare to itself: NaN for floats. -/
def IsNaN {T : Type} [Scalar T] (x : T) : Prop := Scalar.le x x = false

/-- Order laws that hold for IEEE floats (NaN included) and for the reals.  They are *not* part of
`Scalar`: a theorem that needs them says so. -/
class LawfulOrd (T : Type) [Scalar T] : Prop where
  lt_irrefl : ∀ a : T, Scalar.lt a a = false
  /-- if `a ≤ b` then not `b < a`. -/
  not_lt_of_le : ∀ a b : T, Scalar.le a b = true → Scalar.lt b a = false
  /-- a strict comparison implies the weak one. -/
  le_of_lt : ∀ a b : T, Scalar.lt a b = true → Scalar.le a b = true
  /-- non-NaN values are totally ordered. -/
  le_of_not_lt : ∀ a b : T, ¬ IsNaN a → ¬ IsNaN b → Scalar.lt a b = false → Scalar.le b a = true
  /-- comparable values are not NaN. -/
  not_nan_left : ∀ a b : T, Scalar.le a b = true → ¬ IsNaN a
  not_nan_right : ∀ a b : T, Scalar.le a b = true → ¬ IsNaN b
  le_trans : ∀ a b c : T, Scalar.le a b = true → Scalar.le b c = true → Scalar.le a c = true

end K
