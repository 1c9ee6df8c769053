import Verif.Spec.Target
import Verif.Props.Ik
import Verif.Props.Geom
/-!
# C104: what inverse kinematics sees of its target
-/

namespace K
open Prog
variable {T : Type} [Scalar T]

/-- the same request gives the same error vector -/
theorem poseDiff_request {c : Constraints} {t t' : Iso T} (r : SameRequest c t t') (X : Iso T) :
    calcPoseDiffWithConstraints t' X (defineOperationalSpace c) =
      calcPoseDiffWithConstraints t X (defineOperationalSpace c) := by
  obtain ⟨px, py, pz, rx, ry, rz, names⟩ := c
  obtain ⟨x, y, z, rot⟩ := r
  have pos : ∀ (b : Bool) (p q : T) (fs : List Bool) (ps qs : List T), (b = true → q = p) →
      selectFlags fs qs = selectFlags fs ps → selectFlags (b :: fs) (q :: qs) = selectFlags (b :: fs) (p :: ps) := by
    intro b p q fs ps qs e r
    cases b with
    | true => simp only [selectFlags, e rfl, r]
    | false => simpa only [selectFlags] using r
  simp only [calcPoseDiffWithConstraints, calcPoseDiff, defineOperationalSpace]
  refine pos _ _ _ _ _ _ (fun b => by simp only [V3.sub, x b]) ?_
  refine pos _ _ _ _ _ _ (fun b => by simp only [V3.sub, y b]) ?_
  refine pos _ _ _ _ _ _ (fun b => by simp only [V3.sub, z b]) ?_
  refine pos _ _ _ _ _ _ (fun b => by rw [rot (.inl b)]) ?_
  refine pos _ _ _ _ _ _ (fun b => by rw [rot (.inr (.inl b))]) ?_
  exact pos _ _ _ _ _ _ (fun b => by rw [rot (.inr (.inr b))]) rfl

theorem tryLoop_request {c : Constraints} {t t' : Iso T} (r : SameRequest c t t') (s : IkSolver T) (arm : Chain)
    (ign : List Nat) (orig : List T) (left : Nat) (last : Option (V3 T × V3 T)) :
    tryLoop s arm t' (defineOperationalSpace c) ign orig left last =
      tryLoop s arm t (defineOperationalSpace c) ign orig left last := by
  have one : solveOneLoop s arm t' (defineOperationalSpace c) ign =
      solveOneLoop s arm t (defineOperationalSpace c) ign := by
    simp only [solveOneLoop, poseDiff_request r]
  induction left generalizing last with
  | zero => rfl
  | succ k ih => simp only [tryLoop, one, ih]

/-- **C104, unconstrained coordinates.**  Two targets that ask for the same under the constraint make
`solve_with_constraints` the same program: it takes the same steps in every execution, alone or with other
threads, and gives the same answer; for every scalar type, linear solver, nullspace function and chain. -/
theorem C104_same_request (s : IkSolver T) (arm : Chain) (c : Constraints) (t t' : Iso T)
    (r : SameRequest c t t') :
    solveWithConstraints s arm t' c = solveWithConstraints s arm t c := by
  simp only [solveWithConstraints, solveInternal, tryLoop_request r]

/-- the same error at every placement the solver can visit gives the same solve -/
theorem run_solve_congr [LawfulOrd T] {s : IkSolver T} {arm : Chain} {c : Constraints} {t t' : Iso T}
    (h : KHeap T) (u : h.Unlocked) (w : arm.Wf h) (p : ProperLimits h) (o : NoneOutside h arm.movableNodes)
    (same : ∀ g, SameBut h g → NoneOutside g arm.movableNodes →
      calcPoseDiffWithConstraints t' (endPose g arm.nodes) (defineOperationalSpace c) =
        calcPoseDiffWithConstraints t (endPose g arm.nodes) (defineOperationalSpace c)) :
    run (solveWithConstraints s arm t' c) h = run (solveWithConstraints s arm t c) h := by
  have one : ∀ (ign : List Nat) (g : KHeap T), SameBut h g → NoneOutside g arm.movableNodes →
      run (solveOneLoop s arm t' (defineOperationalSpace c) ign) g =
        run (solveOneLoop s arm t (defineOperationalSpace c) ign) g := by
    intro ign g sg og
    have ug := sg.unlocked u
    have wg := sg.chainWf w
    simp only [solveOneLoop, run_bind, run_jointPositions g ug arm wg, Res.bind_ok,
      run_endTransform _ _ ug, same g sg og]
    cases ej : run (jacobian arm) g with
    | ok jac g1 =>
      obtain ⟨ow, -⟩ := jacobian_ok arm g g1 ug jac ej
      have u1 := ow.unlocked ug
      simp only [Res.bind_ok]
      cases nextPositions s (defineOperationalSpace c) ign arm.dof jac
          (calcPoseDiffWithConstraints t (endPose g arm.nodes) (defineOperationalSpace c))
          (arm.movableNodes.map fun n => (g.get n).joint.position) with
      | error m => rfl
      | ok x =>
        simp only [run_ofExcept_ok, Res.bind_ok]
        cases x with
        | error e' => rfl
        | ok ps =>
          have m := moved_clamp_chain (h' := g1) wg ps
          have s2 := sg.trans (ow.moved.sameBut.trans m.sameBut)
          have o2 : NoneOutside (clampAll (arm.movableNodes.zip ps) g1) arm.movableNodes :=
            noneOutside_clampAll _ _ _ (properLimits_sameBut (sg.trans ow.moved.sameBut) p)
              (noneOutside_congr ow.moved.sameBut ow.position og)
          simp only [run_bind, run_setJointPositionsClamped _ _ _ u1, Res.bind_ok,
            run_endTransform _ _ (m.unlocked u1), run_pure, same _ s2 o2]
    | panic m g1 => rfl
    | blocked n => rfl
    | diverged => rfl
  have loop : ∀ (ign : List Nat) (orig : List T) (left : Nat) (last : Option (V3 T × V3 T)) (g : KHeap T),
      SameBut h g → NoneOutside g arm.movableNodes →
      run (tryLoop s arm t' (defineOperationalSpace c) ign orig left last) g =
        run (tryLoop s arm t (defineOperationalSpace c) ign orig left last) g := by
    intro ign orig left
    induction left with
    | zero => intros; rfl
    | succ k ih =>
      intro last g sg og
      have ug := sg.unlocked u
      have wg := sg.chainWf w
      simp only [tryLoop, run_bind, one ign g sg og]
      cases e : run (solveOneLoop s arm t (defineOperationalSpace c) ign) g with
      | ok r g1 =>
        cases r with
        | error e' => rfl
        | ok d =>
          simp only [Res.bind_ok]
          have m := solveOneLoop_moved _ _ _ _ _ _ _ ug wg _ e
          by_cases re : reached s (targetDiffToLenRotDiff d (defineOperationalSpace c)).1
              (targetDiffToLenRotDiff d (defineOperationalSpace c)).2 = true
          · simp only [if_pos re]
          · simp only [if_neg re]
            exact ih _ g1 (sg.trans m.sameBut)
              (solveOneLoop_noneOutside ug wg (properLimits_sameBut sg p) og e)
      | panic m g1 => rfl
      | blocked n => rfl
      | diverged => rfl
  have inner : run (solveInternal s arm t' c) h = run (solveInternal s arm t c) h := by
    simp only [solveInternal, run_bind, run_jointPositions h u arm w, Res.bind_ok]
    by_cases le : arm.dof < c.ignoredJointNames.length
    · rw [if_pos le, if_pos le]
    · rw [if_neg le, if_neg le]
      by_cases lt : arm.dof - c.ignoredJointNames.length < countTrue (defineOperationalSpace c)
      · rw [if_pos lt, if_pos lt]
      · rw [if_neg lt, if_neg lt]
        simp only [run_bind, run_ignoredIndices _ _ _ u]
        cases nameIndices h arm.movableNodes c.ignoredJointNames with
        | error a => rfl
        | ok is => exact loop _ _ _ _ h (SameBut.refl h) o
  simp only [solveWithConstraints, run_bind, run_jointPositions h u arm w, Res.bind_ok, inner]

/-! ## the sign of the target quaternion -/

/-- away from a half turn the sign of the target quaternion does not show in the error -/
theorem poseDiff_otherSign (t X : Iso ℝ) (n : ¬ HalfTurn X.rot t.rot) (ops : List Bool) :
    calcPoseDiffWithConstraints t.otherSign X ops = calcPoseDiffWithConstraints t X ops := by
  have sa : (X.rot.rotationTo t.otherSign.rot).scaledAxis = (X.rot.rotationTo t.rot).scaledAxis := by
    have e : X.rot.rotationTo t.otherSign.rot = (X.rot.rotationTo t.rot).neg := by
      ext <;> simp only [Quat.rotationTo, Iso.otherSign, Quat.mul, Quat.conj, Quat.neg] <;> ring
    have w : (X.rot.rotationTo t.rot).w ≠ 0 := by
      intro h
      refine n ?_
      simp only [Quat.rotationTo, Quat.mul, Quat.conj] at h
      simp only [HalfTurn]
      linarith
    rw [e]
    generalize X.rot.rotationTo t.rot = q at w
    have nn : q.neg.vec = q.vec.neg := by simp [Quat.vec, Quat.neg, V3.neg]
    have nv : q.vec.neg.norm = q.vec.norm := by simp [V3.norm, V3.neg]
    have an : q.neg.angle = q.angle := by
      simp only [Quat.angle, nn, nv]
      simp only [Quat.neg, Scalar.abs, abs_neg]
    have dn : q.vec.neg.neg = q.vec := by simp [V3.neg]
    have ax : q.neg.axis = q.axis := by
      simp only [Quat.axis, nn, dn]
      rcases lt_or_gt_of_ne w with l | l
      · have a : Scalar.le 0 q.neg.w = true := by
          simp only [Quat.neg, Scalar.le]; exact decide_eq_true (by linarith)
        have b : Scalar.le 0 q.w = false := by
          simp only [Scalar.le]; exact decide_eq_false (by linarith)
        simp [a, b]
      · have a : Scalar.le 0 q.neg.w = false := by
          simp only [Quat.neg, Scalar.le]; exact decide_eq_false (by linarith)
        have b : Scalar.le 0 q.w = true := by
          simp only [Scalar.le]; exact decide_eq_true (by linarith)
        simp [a, b]
    simp only [Quat.scaledAxis, ax, an]
  simp only [calcPoseDiffWithConstraints, calcPoseDiff, sa]
  rfl

/-- **C104, sign of the quaternion.**  A unit quaternion and its negative are the same orientation.  When no
placement of the arm inside its limits is exactly half a turn from the target, the solve does the same with
either: the same answer, the same final state, the same caches; whatever the linear solver, the nullspace
function, the constraint and the number of tries.  At a half turn it can differ (`C104_half_turn`). -/
theorem C104_sign (s : IkSolver ℝ) (arm : Chain) (c : Constraints) (t : Iso ℝ) (h : KHeap ℝ) (u : h.Unlocked)
    (w : arm.Wf h) (p : ProperLimits h) (o : NoneOutside h arm.movableNodes)
    (far : ∀ g X, SameBut h g → NoneOutside g arm.movableNodes → run arm.endTransform g = .ok X g →
      ¬ HalfTurn X.rot t.rot) :
    run (solveWithConstraints s arm t.otherSign c) h = run (solveWithConstraints s arm t c) h :=
  run_solve_congr h u w p o fun g sg og =>
    poseDiff_otherSign t _ (far g _ sg og (run_endTransform _ _ (sg.unlocked u))) _

end K
