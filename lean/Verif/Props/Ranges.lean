import Verif.Model.Joint
import Verif.Model.RealScalar
import Verif.Lemmas.RealGeom
/-!
# C79: ranges
-/

namespace K
variable {T : Type} [Scalar T]

/-- **C79** (construction).  `Range::new(min, max)` gives the range with these bounds exactly when `min <= max`;
otherwise - also when a bound is NaN - it panics.  `(min..=max).into()` does the same. -/
theorem C79_new (a b : T) :
    (Scalar.le a b = true → Range.new a b = .ok ⟨a, b⟩ ∧ Range.ofInclusive a b = .ok ⟨a, b⟩) ∧
    (Scalar.le a b = false → (∃ m, Range.new a b = .error m) ∧ ∃ m, Range.ofInclusive a b = .error m) := by
  constructor <;> intro h <;> simp [Range.ofInclusive, Range.new, h]

/-- **C79** (NaN bounds). -/
theorem C79_nan [LawfulOrd T] (a b : T) (n : IsNaN a ∨ IsNaN b) : ∃ m, Range.new a b = .error m := by
  refine ((C79_new a b).2 ?_).1
  cases h : Scalar.le a b with
  | false => rfl
  | true =>
    rcases n with n | n
    · exact absurd n (LawfulOrd.not_nan_left a b h)
    · exact absurd n (LawfulOrd.not_nan_right a b h)

example : ∃ m, Range.new NReal.nan (NReal.num 1) = .error m :=
  C79_nan _ _ (.inl (by simp [IsNaN, Scalar.le, NReal.cmp]))

/-- **C79** (bounds).  A range made by `new` or `into` accepts both its bounds, and every value between them. -/
theorem C79_bounds [LawfulOrd T] (a b : T) (r : Range T) (h : Range.new a b = .ok r) :
    r.isValid a = true ∧ r.isValid b = true ∧
      ∀ x, r.isValid x = true ↔ Scalar.le a x = true ∧ Scalar.le x b = true := by
  unfold Range.new at h
  split at h
  · rename_i le
    cases h
    have na : Scalar.le a a = true := by
      have := LawfulOrd.not_nan_left a b le; simpa [IsNaN] using this
    have nb : Scalar.le b b = true := by
      have := LawfulOrd.not_nan_right a b le; simpa [IsNaN] using this
    refine ⟨by simp [Range.isValid, na, le], by simp [Range.isValid, nb, le], fun x => ?_⟩
    simp [Range.isValid, and_comm]
  · cases h

example : ∃ r, Range.new (0 : ℝ) 1 = .ok r ∧ r.isValid 0 = true := by
  have h : Range.new (0 : ℝ) 1 = .ok ⟨0, 1⟩ := ((C79_new 0 1).1 (by norm_num [Scalar.le])).1
  exact ⟨_, h, (C79_bounds 0 1 _ h).1⟩

/-- **C79** (clamping, over the reals).  The clamped value is the valid value nearest to the given one, and no other
valid value is as near; clamping keeps the order of values and does not move them apart. -/
theorem C79_clamp (r : Range ℝ) (p : r.min ≤ r.max) (x : ℝ) :
    r.isValid (r.clamp x) = true ∧
    (∀ y, r.isValid y = true → |r.clamp x - x| ≤ |y - x| ∧ (|y - x| = |r.clamp x - x| → y = r.clamp x)) ∧
    (∀ y, x ≤ y → r.clamp x ≤ r.clamp y) ∧
    ∀ y, |r.clamp x - r.clamp y| ≤ |x - y| := by
  have c : ∀ z, r.clamp z = max r.min (min z r.max) := by
    intro z
    simp only [Range.clamp, Scalar.lt, decide_eq_true_eq]
    split_ifs with h1 h2
    · rw [min_eq_left (by linarith), max_eq_left h1.le]
    · rw [min_eq_right h2.le, max_eq_right p]
    · rw [min_eq_left (by linarith), max_eq_right (by linarith)]
  have v : ∀ z, r.isValid z = true ↔ r.min ≤ z ∧ z ≤ r.max := by
    intro z; simp [Range.isValid, Scalar.le, and_comm]
  refine ⟨?_, fun y hy => ?_, fun y h => ?_, fun y => ?_⟩
  · rw [v, c]; exact ⟨le_max_left _ _, max_le p (min_le_right _ _)⟩
  · rw [v] at hy
    rw [c]
    rcases le_total x r.min with h1 | h1
    · rw [min_eq_left (by linarith), max_eq_left h1, abs_of_nonneg (by linarith), abs_of_nonneg (by linarith)]
      exact ⟨by linarith, fun e => by linarith⟩
    · rcases le_total x r.max with h2 | h2
      · rw [min_eq_left h2, max_eq_right h1, sub_self, abs_zero]
        exact ⟨abs_nonneg _, fun e => by have := abs_eq_zero.1 e; linarith⟩
      · rw [min_eq_right h2, max_eq_right p, abs_of_nonpos (by linarith), abs_of_nonpos (by linarith)]
        exact ⟨by linarith, fun e => by linarith⟩
  · rw [c, c]; exact max_le_max le_rfl (min_le_min h le_rfl)
  · rw [c, c]
    have h1 := abs_max_sub_max_le_abs (min x r.max) (min y r.max) r.min
    have h2 := abs_min_sub_min_le_max x r.max y r.max
    rw [sub_self, abs_zero, max_eq_left (abs_nonneg _)] at h2
    rw [max_comm r.min, max_comm r.min]
    exact h1.trans h2

example : (⟨0, 1⟩ : Range ℝ).clamp 5 = 1 := by norm_num [Range.clamp, Scalar.lt]

end K
