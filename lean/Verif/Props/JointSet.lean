import Verif.Spec.Limits
import Verif.Model.RealScalar
/-!
# C01, C02: setting one joint
-/

namespace K
variable {T : Type} [Scalar T]

/-- **C01** (success condition).  The checked setter answers `Ok` exactly when the joint is not Fixed
and the value is within the limits. -/
theorem C01_ok_iff (j : Joint T) (x : T) :
    (j.setJointPosition x).2 = .ok () ↔ j.jointType ≠ .fixed ∧ Within j.limits x := by
  unfold Joint.setJointPosition Joint.isMovable Within
  rcases j with ⟨nm, jt, p, v, lim, o, c1, c2⟩
  cases jt <;> cases lim <;> simp [Range.isValid]
  all_goals (split <;> simp_all; grind)

/-- **C01** (effect of success).  On `Ok` the position is the argument, both caches are cleared and
nothing else changes; `joint_position()` is the argument. -/
theorem C01_ok_effect (j : Joint T) (x : T) (ok : (j.setJointPosition x).2 = .ok ()) :
    (j.setJointPosition x).1 =
      { j with position := x, worldTransformCache := none, worldVelocityCache := none } ∧
    (j.setJointPosition x).1.jointPosition = some x ∧
    (j.setJointPosition x).1.worldTransform = none ∧
    (j.setJointPosition x).1.worldVelocity = none := by
  revert ok
  unfold Joint.setJointPosition Joint.isMovable Joint.jointPosition Joint.worldTransform
    Joint.worldVelocity
  rcases j with ⟨nm, jt, p, v, lim, o, c1, c2⟩
  cases jt <;> cases lim <;> simp
  all_goals split <;> simp_all

/-- **C01** (failure).  On `Err` the joint is unchanged; a Fixed joint answers `SetToFixedError` with
its name, any other failure is `OutOfLimitError` with the name, the value and both limits, and the
value violates one of them. -/
theorem C01_err (j : Joint T) (x : T) (e : KError T) (err : (j.setJointPosition x).2 = .error e) :
    (j.setJointPosition x).1 = j ∧
    ((j.jointType = .fixed ∧ e = .setToFixed j.name) ∨
     (j.jointType ≠ .fixed ∧ ∃ r, j.limits = some r ∧ e = .outOfLimit j.name x r.max r.min ∧
       ¬ (Scalar.le r.min x = true ∧ Scalar.le x r.max = true))) := by
  revert err
  unfold Joint.setJointPosition Joint.isMovable
  rcases j with ⟨nm, jt, p, v, lim, o, c1, c2⟩
  cases jt <;> cases lim <;> simp [Range.isValid]
  all_goals first
    | (split <;> simp_all <;> grind)
    | grind

/-- non-trivial instances of the three cases -/
example : ((({ (Joint.new "j" (.rotational ⟨0, 1, 0⟩) : Joint ℝ) with
    limits := some ⟨-1, 1⟩ }).setJointPosition 1).2 = .ok ()) := by
  rw [C01_ok_iff]; refine ⟨by simp [Joint.new], ?_⟩
  intro r hr; simp at hr; subst hr; simp
example : ∃ e, ((({ (Joint.new "j" (.rotational ⟨0, 1, 0⟩) : Joint ℝ) with
    limits := some ⟨-1, 1⟩ }).setJointPosition 2).2 = .error e) := by
  simp [Joint.setJointPosition, Joint.new, Joint.isMovable, Range.isValid]
example : ∃ e, (((Joint.new "j" .fixed : Joint ℝ).setJointPosition 2).2 = .error e) := by
  simp [Joint.setJointPosition, Joint.new, Joint.isMovable]

/-- **C02** (lands in the limits).  The clamped setter on a movable joint whose limits are an interval
stores a value within the limits, for every argument that is not NaN. -/
theorem C02_within [LawfulOrd T] (j : Joint T) (x : T) (mv : j.jointType ≠ .fixed)
    (proper : ∀ r, j.limits = some r → Scalar.le r.min r.max = true) (nn : ¬ IsNaN x) :
    Within (j.setJointPositionClamped x).limits (j.setJointPositionClamped x).position := by
  intro r hr
  unfold Joint.setJointPositionClamped Joint.isMovable Joint.setJointPositionUnchecked at *
  rcases j with ⟨nm, jt, p, v, lim, o, c1, c2⟩
  cases jt
  · simp at mv
  all_goals
    cases lim
    · simp at hr
    · rename_i r'
      simp at hr proper; subst hr
      simp only [Bool.not_true, Bool.false_eq_true, if_false, Range.clamp]
      have hmin := LawfulOrd.not_nan_left _ _ proper
      have hmax := LawfulOrd.not_nan_right _ _ proper
      have rmin : Scalar.le r'.min r'.min = true := by simpa [IsNaN] using hmin
      have rmax : Scalar.le r'.max r'.max = true := by simpa [IsNaN] using hmax
      split
      · exact ⟨rmin, proper⟩
      · split
        · exact ⟨proper, rmax⟩
        · exact ⟨LawfulOrd.le_of_not_lt _ _ nn hmin (by simp_all),
            LawfulOrd.le_of_not_lt _ _ hmax nn (by simp_all)⟩

/-- **C02** (which value).  With limits: the argument itself when it is within, the lower end when it
is below it, the upper end when it is above it. -/
theorem C02_value [LawfulOrd T] (j : Joint T) (x : T) (r : Range T) (mv : j.jointType ≠ .fixed)
    (hr : j.limits = some r) (proper : Scalar.le r.min r.max = true) :
    (Scalar.le r.min x = true ∧ Scalar.le x r.max = true →
      (j.setJointPositionClamped x).position = x) ∧
    (Scalar.lt x r.min = true → (j.setJointPositionClamped x).position = r.min) ∧
    (Scalar.lt r.max x = true → (j.setJointPositionClamped x).position = r.max) := by
  have key : (j.setJointPositionClamped x).position = r.clamp x := by
    unfold Joint.setJointPositionClamped Joint.isMovable Joint.setJointPositionUnchecked
    rcases j with ⟨nm, jt, p, v, lim, o, c1, c2⟩
    cases jt <;> simp_all
  rw [key]; unfold Range.clamp
  refine ⟨fun ⟨a, b⟩ => ?_, fun a => ?_, fun a => ?_⟩
  · simp [LawfulOrd.not_lt_of_le _ _ a, LawfulOrd.not_lt_of_le _ _ b]
  · simp [a]
  · have h1 : Scalar.le r.min x = true :=
      LawfulOrd.le_trans _ _ _ proper (LawfulOrd.le_of_lt _ _ a)
    simp [a, LawfulOrd.not_lt_of_le _ _ h1]

/-- **C02** (idempotent).  Clamping to the stored value again changes nothing. -/
theorem C02_idempotent [LawfulOrd T] (j : Joint T) (x : T)
    (proper : ∀ r, j.limits = some r → Scalar.le r.min r.max = true) (nn : ¬ IsNaN x) :
    (j.setJointPositionClamped x).setJointPositionClamped (j.setJointPositionClamped x).position =
      j.setJointPositionClamped x := by
  by_cases mv : j.jointType = .fixed
  · simp [Joint.setJointPositionClamped, Joint.isMovable, mv]
  · have w := C02_within j x mv proper nn
    have lim : (j.setJointPositionClamped x).limits = j.limits := by
      unfold Joint.setJointPositionClamped Joint.setJointPositionUnchecked; split <;> rfl
    have jt : (j.setJointPositionClamped x).jointType = j.jointType := by
      unfold Joint.setJointPositionClamped Joint.setJointPositionUnchecked; split <;> rfl
    have caches : (j.setJointPositionClamped x).worldTransformCache = none ∧
        (j.setJointPositionClamped x).worldVelocityCache = none := by
      unfold Joint.setJointPositionClamped Joint.setJointPositionUnchecked Joint.isMovable
      cases hj : j.jointType <;> simp_all
    generalize hj' : j.setJointPositionClamped x = j' at *
    have pos : (j'.setJointPositionClamped j'.position).position = j'.position := by
      cases hl : j'.limits with
      | none =>
        unfold Joint.setJointPositionClamped Joint.setJointPositionUnchecked
        split <;> simp [hl]
      | some r =>
        exact (C02_value j' j'.position r (by rw [jt]; exact mv) hl
          (proper r (by rw [← lim]; exact hl))).1 (w r hl)
    have : j'.setJointPositionClamped j'.position = { j' with
        position := (j'.setJointPositionClamped j'.position).position } := by
      unfold Joint.setJointPositionClamped Joint.setJointPositionUnchecked Joint.isMovable
      rcases j' with ⟨nm, jt, p, v, lim, o, c1, c2⟩
      simp at caches
      cases jt <;> simp_all
    rw [this, pos]

/-- **C02** (Fixed joints, joints without limits). -/
theorem C02_fixed (j : Joint T) (x : T) (fx : j.jointType = .fixed) :
    j.setJointPositionClamped x = j := by
  simp [Joint.setJointPositionClamped, Joint.isMovable, fx]
theorem C02_unlimited (j : Joint T) (x : T) (mv : j.jointType ≠ .fixed) (hl : j.limits = none) :
    (j.setJointPositionClamped x).position = x := by
  unfold Joint.setJointPositionClamped Joint.setJointPositionUnchecked Joint.isMovable
  rcases j with ⟨nm, jt, p, v, lim, o, c1, c2⟩
  cases jt <;> simp_all

/-- **C02** (NaN).  A NaN argument is stored as it is: no comparison with it succeeds. -/
theorem C02_nan (j : Joint T) (x : T) (mv : j.jointType ≠ .fixed)
    (nn : ∀ y : T, Scalar.lt x y = false ∧ Scalar.lt y x = false) :
    (j.setJointPositionClamped x).position = x := by
  unfold Joint.setJointPositionClamped Joint.setJointPositionUnchecked Joint.isMovable
  rcases j with ⟨nm, jt, p, v, lim, o, c1, c2⟩
  cases jt <;> cases lim <;> simp_all [Range.clamp]

/-- a limited joint, clamped from both sides -/
example : (({ (Joint.new "j" (.linear ⟨0, 0, 1⟩) : Joint ℝ) with
    limits := some ⟨-1, 1⟩ }).setJointPositionClamped 2).position = 1 := by
  refine (C02_value _ 2 ⟨-1, 1⟩ (by simp [Joint.new]) rfl ?_).2.2 ?_ <;> simp
/-- NaN escapes the limits (reals with NaN) -/
example : ¬ Within (some ⟨NReal.num (-1), NReal.num 1⟩)
    (({ (Joint.new "j" (.linear ⟨0, 0, 1⟩) : Joint NReal) with
      limits := some ⟨NReal.num (-1), NReal.num 1⟩ }).setJointPositionClamped NReal.nan).position := by
  rw [C02_nan _ _ (by simp [Joint.new]) (by simp)]
  intro h; simpa using h _ rfl

end K
