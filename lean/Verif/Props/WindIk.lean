import Verif.Props.Wind
import Verif.Props.Sign
/-!
# C110: inverse kinematics with constrained orientation

A solve sees neither whole turns nor signs of quaternions, unless it passes a posture that is exactly half a turn from its
target.
-/

namespace K
open Prog

/-- the postures that the iteration of a solve passes, starting from `h`, with the number of steps -/
inductive Passes (s : IkSolver ℝ) (arm : Chain) (t : Iso ℝ) (ops : List Bool) (ign : List Nat) (h : KHeap ℝ) :
    Nat → KHeap ℝ → Prop
  | start : Passes s arm t ops ign h 0 h
  | step {n : Nat} {k k' : KHeap ℝ} {d : List ℝ} (p : Passes s arm t ops ign h n k)
      (e : run (solveOneLoop s arm t ops ign) k = .ok (.ok d) k') : Passes s arm t ops ign h (n + 1) k'

variable {W : Winding}

theorem poseDiff_seen {t t' X X' : Iso ℝ} (r : t.EitherSign t') (x : X.EitherSign X') (c : Constraints)
    (n : c.Turning → ¬ HalfTurn X.rot t.rot) :
    calcPoseDiffWithConstraints t' X' (defineOperationalSpace c) =
      calcPoseDiffWithConstraints t X (defineOperationalSpace c) := by
  by_cases h : c.Turning
  · exact poseDiff_eitherSign r x (n h) _
  · exact Signed.sees_of_not_turning r c h _ _ x

/-- **C110, inverse kinematics with any constraint.**  When none of the postures that a solve passes is exactly half a turn
from the target, the solve after the turns does the same: the same answer, the same panic, and the same final state but
for the turns and signs; whatever the linear solver, the nullspace function, the constraint and the number of tries. -/
theorem C110_solve {s s' : IkSolver ℝ} (arm : Chain) (hs : s.Wound W arm s') (c : Constraints) {t t' : Iso ℝ}
    (r : t.EitherSign t') {h g : KHeap ℝ} (e : Wound W h g) (u : h.Unlocked) (w : arm.Wf h)
    (far : ∀ is, run (ignoredIndices arm c.ignoredJointNames) h = .ok (.ok is) h → ∀ n ≤ s.numMaxTry, ∀ k X,
      Passes s arm t (defineOperationalSpace c) (sortedIndices is) h n k → run arm.endTransform k = .ok X k →
      c.Turning → ¬ HalfTurn X.rot t.rot) :
    (∀ a h', run (solveWithConstraints s arm t c) h = .ok a h' →
      ∃ g', run (solveWithConstraints s' arm t' c) g = .ok a g' ∧ Wound W h' g') ∧
    (∀ m h', run (solveWithConstraints s arm t c) h = .panic m h' →
      ∃ g', run (solveWithConstraints s' arm t' c) g = .panic m g' ∧ Wound W h' g') := by
  have mt : s'.numMaxTry = s.numMaxTry := by obtain ⟨f, rfl, -⟩ := hs; rfl
  have re : ∀ a b, reached s' a b = reached s a b := fun a b => by obtain ⟨f, rfl, -⟩ := hs; rfl
  have one : ∀ (is : List Nat), run (ignoredIndices arm c.ignoredJointNames) h = .ok (.ok is) h →
      ∀ (n : Nat) (k k' : KHeap ℝ), n < s.numMaxTry → SameBut h k →
      Passes s arm t (defineOperationalSpace c) (sortedIndices is) h n k → Wound W k k' →
      WoundOutcome W Winds.Id (run (solveOneLoop s arm t (defineOperationalSpace c) (sortedIndices is)) k)
        (run (solveOneLoop s' arm t' (defineOperationalSpace c) (sortedIndices is)) k') := by
    intro is eis n k k' hn sk pk ek
    have uk := sk.unlocked u
    have wk := sk.chainWf w
    refine ((Winds.jointPositions arm).outcome ek).bind fun ps ps' k1 k1' e1 x1 ek1 => ?_
    have e1' := e1
    rw [run_jointPositions k uk arm wk] at e1'
    injection e1' with _ e1'
    subst x1 e1'
    refine ((Winds.endTransform arm).outcome ek1).bind fun X X' k2 k2' e2 x2 ek2 => ?_
    have e2' := e2
    rw [run_endTransform _ _ uk] at e2'
    injection e2' with _ e2'
    subst e2'
    refine ((Winds.jacobian arm).outcome ek2).bind fun jac' jac k3 k3' e3 x3 ek3 => ?_
    subst x3
    obtain ⟨ow, -⟩ := jacobian_ok arm k k3 uk jac e3
    have u3 := ow.unlocked uk
    rw [poseDiff_seen r x2 c (far is eis n hn.le k X pk e2), Winds.nextPositions_wound arm hs]
    cases en : nextPositions s (defineOperationalSpace c) (sortedIndices is) arm.dof jac
        (calcPoseDiffWithConstraints t X (defineOperationalSpace c)) ps with
    | error m => exact ⟨rfl, ek3⟩
    | ok y =>
      cases y with
      | error e' => exact ⟨rfl, ek3⟩
      | ok qs =>
        have m := moved_clamp_chain (h' := k3) wk qs
        show WoundOutcome W Winds.Id (run (arm.setJointPositionsClamped qs >>= _) k3)
          (run (arm.setJointPositionsClamped (W.coords arm qs) >>= _) k3')
        refine ((Winds.setJointPositionsClamped arm qs).outcome ek3).bind fun _ _ k5 k5' e5 _ ek5 => ?_
        have e5' := e5
        rw [run_setJointPositionsClamped _ _ _ u3] at e5'
        injection e5' with _ e5'
        subst e5'
        refine ((Winds.endTransform arm).outcome ek5).bind fun Y Y' k6 k6' e6 x6 ek6 => ?_
        have e6' := e6
        rw [run_endTransform _ _ (m.unlocked u3)] at e6'
        injection e6' with _ e6'
        subst e6'
        have st : run (solveOneLoop s arm t (defineOperationalSpace c) (sortedIndices is)) k =
            .ok (.ok (calcPoseDiffWithConstraints t Y (defineOperationalSpace c)))
              (clampAll (arm.movableNodes.zip qs) k3) := by
          simp only [solveOneLoop, run_bind, e1, Res.bind_ok, e2, e3, en, run_ofExcept_ok, e5, e6, run_pure]
        exact ⟨by rw [Winds.Id, poseDiff_seen r x6 c (far is eis (n + 1) hn _ Y (pk.step st) e6)], ek6⟩
  have loop : ∀ (is : List Nat), run (ignoredIndices arm c.ignoredJointNames) h = .ok (.ok is) h →
      ∀ (orig : List ℝ) (left n : Nat) (last : Option (V3 ℝ × V3 ℝ)) (k k' : KHeap ℝ), n + left = s.numMaxTry →
      SameBut h k → Passes s arm t (defineOperationalSpace c) (sortedIndices is) h n k → Wound W k k' →
      WoundOutcome W Winds.Id (run (tryLoop s arm t (defineOperationalSpace c) (sortedIndices is) orig left last) k)
        (run (tryLoop s' arm t' (defineOperationalSpace c) (sortedIndices is) (W.coords arm orig) left last) k') := by
    intro is eis orig left
    induction left with
    | zero =>
      intro n last k k' hn sk pk ek
      refine ((Winds.setJointPositions arm orig).outcome ek).bind fun x' x k1 k1' _ ex ek1 => ?_
      subst ex
      cases x with
      | error e => exact ⟨rfl, ek1⟩
      | ok u =>
        refine Winds.outcome (Q := Winds.Id) ?_ ek1
        exact (Winds.expectSame last _).seq fun _ => .ret (by rw [Winds.Id, mt])
    | succ left ih =>
      intro n last k k' hn sk pk ek
      have uk := sk.unlocked u
      have wk := sk.chainWf w
      refine (one is eis n k k' (by omega) sk pk ek).bind fun x' x k1 k1' e1 ex ek1 => ?_
      subst ex
      cases x with
      | error e => exact ⟨rfl, ek1⟩
      | ok d =>
        have m := solveOneLoop_moved _ _ _ _ _ _ _ uk wk _ e1
        dsimp only
        rw [re]
        split
        · refine Winds.outcome (Q := Winds.Id) ?_ ek1
          refine (Winds.jointPositions arm).bind fun xs xs' e => ?_
          subst e
          exact (Winds.setJointPositionsClamped arm xs).seq fun _ => .ret rfl
        · exact ih (n + 1) _ k1 k1' (by omega) (sk.trans m.sameBut) (pk.step e1) ek1
  have inner : ∀ g, Wound W h g →
      WoundOutcome W Winds.Id (run (solveInternal s arm t c) h) (run (solveInternal s' arm t' c) g) := by
    intro g e
    refine ((Winds.jointPositions arm).outcome e).bind fun ps ps' k1 k1' e1 x1 ek1 => ?_
    rw [run_jointPositions h u arm w] at e1
    injection e1 with e1 e1'
    subst x1 e1'
    split
    · exact ⟨rfl, ek1⟩
    · dsimp only
      split
      · exact ⟨rfl, ek1⟩
      · refine ((Winds.ignoredIndices arm _).outcome ek1).bind fun is' is k2 k2' e2 x2 ek2 => ?_
        have e2' := e2
        rw [run_ignoredIndices _ _ _ u] at e2
        injection e2 with _ e2
        subst x2 e2
        cases is with
        | error e => exact ⟨rfl, ek2⟩
        | ok is =>
          dsimp only
          rw [mt]
          exact loop is e2' _ _ 0 _ _ _ (Nat.zero_add _) (SameBut.refl h) .start ek2
  have all : WoundOutcome W Winds.Id (run (solveWithConstraints s arm t c) h)
      (run (solveWithConstraints s' arm t' c) g) := by
    refine ((Winds.jointPositions arm).outcome e).bind fun ps ps' k1 k1' e1 x1 ek1 => ?_
    rw [run_jointPositions h u arm w] at e1
    injection e1 with e1 e1'
    subst x1 e1'
    refine (inner _ ek1).bind fun x' x k2 k2' _ ex ek2 => ?_
    subst ex
    cases x with
    | ok u => exact ⟨rfl, ek2⟩
    | error e =>
      refine ((Winds.setJointPositions arm ps).outcome ek2).bind fun y' y k3 k3' _ ey ek3 => ?_
      subst ey
      cases y <;> exact ⟨rfl, ek3⟩
  constructor
  all_goals
    intro a h' x
    rw [x] at all
    cases e' : run (solveWithConstraints s' arm t' c) g <;> rw [e'] at all <;> simp only [WoundOutcome] at all
    obtain ⟨rfl, y⟩ := all
    exact ⟨_, rfl, y⟩

/-! ## Concrete case -/

noncomputable section

/-- sixty degrees about z -/
def sixty : Iso ℝ := ⟨V3.zero, ⟨Real.cos (Real.pi / 3 / 2), 0, 0, Real.sin (Real.pi / 3 / 2)⟩⟩

theorem sixty_eq : Real.cos (Real.pi / 3 / 2) = √3 / 2 ∧ Real.sin (Real.pi / 3 / 2) = 1 / 2 := by
  rw [show Real.pi / 3 / 2 = Real.pi / 6 by ring]
  exact ⟨Real.cos_pi_div_six, Real.sin_pi_div_six⟩

theorem sixty_start :
    calcPoseDiffWithConstraints sixty (endPose (swing 0) swingArm.nodes) (defineOperationalSpace onlyTurn) =
      [Real.pi / 3] := by
  rw [swing_pose]
  obtain ⟨ec, es⟩ := sixty_eq
  have rt : Quat.rotationTo (atX (1 : ℝ)).rot sixty.rot = ⟨√3 / 2, 0, 0, 1 / 2⟩ := by
    ext <;> simp [Quat.rotationTo, Quat.mul, Quat.conj, Quat.one, atX, sixty, ec, es]
  have sq : √3 * √3 = (3 : ℝ) := Real.mul_self_sqrt (by norm_num)
  have u : (⟨√3 / 2, 0, 0, 1 / 2⟩ : Quat ℝ).IsUnit := by simp only [Quat.IsUnit]; nlinarith
  have n : (⟨√3 / 2, 0, 0, 1 / 2⟩ : Quat ℝ).vec.norm = 1 / 2 := by
    simp only [Quat.vec, V3.norm, Scalar.sqrt]
    rw [show (0 * 0 + 0 * 0 + 1 / 2 * (1 / 2) : ℝ) = (1 / 2) ^ 2 by ring]
    exact Real.sqrt_sq (by norm_num)
  have a : arcRatio (1 / 2) = Real.pi / 3 := by
    have := arcRatio_mul (1 / 2)
    rw [show Real.arcsin (1 / 2) = Real.pi / 6 from by
      rw [← Real.sin_pi_div_six]; exact Real.arcsin_sin (by linarith [Real.pi_pos]) (by linarith [Real.pi_pos])] at this
    linarith
  simp only [calcPoseDiffWithConstraints, calcPoseDiff, defineOperationalSpace, onlyTurn, selectFlags, rt]
  rw [Quat.scaledAxis_eq u, n, a, if_pos (show (0 : ℝ) ≤ √3 / 2 by positivity)]
  simp only [Quat.vec, V3.scale]
  congr 1
  ring

theorem sixty_stop (X : Iso ℝ) (e : X.rot = ⟨Real.cos (Real.pi / 3 / 2), 0, 0, Real.sin (Real.pi / 3 / 2)⟩) :
    calcPoseDiffWithConstraints sixty X (defineOperationalSpace onlyTurn) = [0] := by
  have zero : (⟨1, 0, 0, 0⟩ : Quat ℝ).scaledAxis = ⟨0, 0, 0⟩ := (scaledAxis_eq_zero _).2 rfl
  have sq := Real.sin_sq_add_cos_sq (Real.pi / 3 / 2)
  have : Quat.rotationTo X.rot sixty.rot = ⟨1, 0, 0, 0⟩ := by
    rw [e]
    ext <;> simp [Quat.rotationTo, Quat.mul, Quat.conj, sixty] <;> nlinarith
  simp only [calcPoseDiffWithConstraints, calcPoseDiff, defineOperationalSpace, onlyTurn, selectFlags, this, zero]

/-- asked for sixty degrees, an arm that was turned round `k` times turns by sixty degrees more, with either sign of the
target -/
theorem C110_sixty (k : Int) {t : Iso ℝ} (r : sixty.EitherSign t) :
    ∃ g, run (solveWithConstraints fullStep swingArm t onlyTurn) (swing (k * (2 * Real.pi))) = .ok (.ok ()) g ∧
      (g.get 0).joint.position = Real.pi / 3 + k * (2 * Real.pi) := by
  obtain ⟨h', e, p⟩ := swing_turn sixty _ sixty_start sixty_stop
  obtain ⟨k1, e1, s1, p1⟩ := swing_step sixty _ sixty_start sixty_stop
  have lg := swing_arm 0
  obtain ⟨ec, es⟩ := sixty_eq
  obtain ⟨g, e', wd⟩ := (C110_solve swingArm (.refl (firstTurned k) swingArm rfl) onlyTurn r (by have := C110_swing 0 k; rwa [zero_add] at this) lg.unlocked lg.wf
    (by
      intro is eis n hn k X pk eX _ half
      have : is = [] := by
        have : run (ignoredIndices swingArm onlyTurn.ignoredJointNames) (swing 0) = .ok (.ok []) (swing 0) := rfl
        rw [this] at eis; injection eis with eis _; injection eis with eis; exact eis.symm
      subst this
      cases pk with
      | start =>
        rw [run_endTransform _ _ lg.unlocked, swing_pose] at eX
        injection eX with eX _
        subst eX
        simp [HalfTurn, atX, Quat.one, sixty, ec] at half
      | step q e2 =>
        cases q with
        | start =>
          rw [e1] at e2
          injection e2 with _ e2
          subst e2
          rw [run_endTransform _ _ (s1.unlocked lg.unlocked)] at eX
          injection eX with eX _
          subst eX
          rw [swing_local _ _ s1 p1] at half
          simp only [HalfTurn, sixty] at half
          nlinarith [Real.sin_sq_add_cos_sq (Real.pi / 3 / 2)]
        | step _ _ => exact absurd hn (by simp [fullStep])))
    |>.1 _ _ e
  refine ⟨g, e', ?_⟩
  obtain ⟨j, l, ej, ⟨o, w, ew, -⟩, -⟩ := wd.node 0
  rw [ej, ew, ← p]
  simp [firstTurned]

end

/-! ## No turns: either sign only -/

/-- either sign is no turn at all -/
theorem wound_zero_iff {h g : KHeap ℝ} : Wound (fun _ => 0) h g ↔ EitherSign h g := by
  have e : ∀ x : ℝ, x + ((0 : Int) : ℝ) * (2 * Real.pi) = x := fun x => by simp
  constructor
  · intro r
    refine ⟨fun n => ?_, r.next, r.dead, r.held⟩
    obtain ⟨j, l, es, ⟨o, w, ej, a, b, -⟩, hl, -⟩ := r.node n
    exact ⟨j, l, es, ⟨o, w, by rw [ej, e], a, b⟩, hl⟩
  · intro r
    refine ⟨fun n => ?_, r.next, r.dead, r.held, fun _ _ => rfl⟩
    obtain ⟨j, l, es, ⟨o, w, ej, a, b⟩, hl⟩ := r.node n
    exact ⟨j, l, es, ⟨o, w, by rw [ej, e], a, b, fun x => absurd rfl x⟩, hl, fun _ _ => ⟨rfl, rfl⟩⟩

/-- a solver looks at no turns as it looks at the posture -/
theorem solver_wound_zero (s : IkSolver ℝ) (arm : Chain) : s.Wound (fun _ => 0) arm s := by
  have same : ∀ (ns : List NodeId) (xs : List ℝ), Winding.list (fun _ => 0) ns xs = xs := by
    intro ns
    induction ns with
    | nil => intro xs; cases xs <;> rfl
    | cons n ns ih =>
      intro xs
      cases xs with
      | nil => rfl
      | cons x xs => simp [Winding.list, Winding.coord, ih]
  refine ⟨s.nullspaceFunction, rfl, ?_⟩
  cases s.nullspaceFunction with
  | none => trivial
  | some f => exact fun xs => by rw [Winding.coords, same]

/-- **C109, inverse kinematics with any constraint**, for robots with or without limits: when none of the postures that a
solve passes is exactly half a turn from the target, the solve does the same with either sign of the orientations of the
robot and of the target. -/
theorem C109_passes (s : IkSolver ℝ) (arm : Chain) (c : Constraints) {t t' : Iso ℝ} (r : t.EitherSign t') {h g : KHeap ℝ}
    (e : EitherSign h g) (u : h.Unlocked) (w : arm.Wf h)
    (far : ∀ is, run (ignoredIndices arm c.ignoredJointNames) h = .ok (.ok is) h → ∀ n ≤ s.numMaxTry, ∀ k X,
      Passes s arm t (defineOperationalSpace c) (sortedIndices is) h n k → run arm.endTransform k = .ok X k →
      c.Turning → ¬ HalfTurn X.rot t.rot) :
    (∀ a h', run (solveWithConstraints s arm t c) h = .ok a h' →
      ∃ g', run (solveWithConstraints s arm t' c) g = .ok a g' ∧ EitherSign h' g') ∧
    (∀ m h', run (solveWithConstraints s arm t c) h = .panic m h' →
      ∃ g', run (solveWithConstraints s arm t' c) g = .panic m g' ∧ EitherSign h' g') := by
  have := C110_solve arm (solver_wound_zero s arm) c r (wound_zero_iff.2 e) u w far
  simpa only [wound_zero_iff] using this

end K
