import Verif.Props.IkEx
/-!
# C60: `solve`, the default solver and when the nullspace function matters
-/

namespace K
open Prog

variable {T : Type} [Scalar T]

/-- **C60, success of `solve`.**  All six coordinates are constrained: after `Ok` the distance to the
target position and the angle to the target rotation are below the tolerances of the solver. -/
theorem C60_solve [LawfulOrd T] (s : IkSolver T) (arm : Chain) (target : Iso T) (h h' : KHeap T)
    (u : h.Unlocked) (w : arm.Wf h) (p : ProperLimits h) (o : NoneOutside h arm.movableNodes)
    (e : run (solve s arm target) h = .ok (.ok ()) h') :
    ∃ X, run arm.endTransform h' = .ok X h' ∧
      Scalar.lt (target.trans.sub X.trans).norm s.allowableTargetDistance = true ∧
      Scalar.lt (X.rot.rotationTo target.rot).scaledAxis.norm s.allowableTargetAngle = true := by
  obtain ⟨⟨X, a, b, c⟩, -⟩ := C24_success (s := s) (c := Constraints.default) h h' u w p o e
  exact ⟨X, a, b, c⟩

/-- **C60, six joints are needed.**  With fewer than six movable joints `solve` returns
`PreconditionError` and moves nothing. -/
theorem C60_six (s : IkSolver T) (arm : Chain) (target : Iso T) (h : KHeap T) (u : h.Unlocked)
    (ol : OneLevel h) (w : arm.Wf h) (nd : arm.nodes.Nodup) (re : Restorable h arm)
    (lt : arm.movableNodes.length < 6) :
    ∃ h', run (solve s arm target) h =
        .ok (.error (.precondition arm.movableNodes.length 6)) h' ∧
      SameBut h h' ∧ ∀ k, posOf h' k = posOf h k := by
  have := C28_precondition (s := s) (target := target) (c := Constraints.default) h u ol w nd re
    (Nat.zero_le _) (by
      show arm.dof - 0 < 6
      rw [w.dof]; exact lt)
  rw [← w.dof]
  exact this

/-- **C60, the default solver.**  After `Ok` the position is less than 1/1000 and the angle less than
5/1000 off; `NotConvergedError` comes after 10 tries. -/
theorem C60_default (la : LinAlg ℝ) (arm : Chain) (target : Iso ℝ) (h h' : KHeap ℝ)
    (u : h.Unlocked) (w : arm.Wf h) (p : ProperLimits h) (o : NoneOutside h arm.movableNodes) :
    (run (solve (IkSolver.default la) arm target) h = .ok (.ok ()) h' →
      ∃ X, run arm.endTransform h' = .ok X h' ∧
        (target.trans.sub X.trans).norm < 1 / 1000 ∧
        (X.rot.rotationTo target.rot).scaledAxis.norm < 5 / 1000) ∧
    ∀ n dp dr, OneLevel h → arm.nodes.Nodup → Restorable h arm →
      run (solve (IkSolver.default la) arm target) h = .ok (.error (.notConverged n dp dr)) h' →
      n = 10 := by
  refine ⟨fun e => ?_, fun n dp dr ol nd re e =>
    (C29_not_converged (c := Constraints.default) h h' u w n dp dr e ol nd re).1⟩
  obtain ⟨X, a, b, c⟩ := C60_solve _ arm target h h' u w p o e
  refine ⟨X, a, ?_, ?_⟩
  · simpa [Scalar.lt, IkSolver.default, IkSolver.new, Scalar.lit] using b
  · simpa [Scalar.lt, IkSolver.default, IkSolver.new, Scalar.lit] using c

/-- the step does not use the nullspace function unless there are more joints than coordinates -/
theorem nextPositions_square (s s' : IkSolver T) (hla : s'.la = s.la)
    (hm : s'.jacobianMultiplier = s.jacobianMultiplier) (ops : List Bool) (ign : List Nat) (dof : Nat)
    (le : dof - ign.length ≤ countTrue ops) (jac : Mat T) (err orig : List T) :
    nextPositions s' ops ign dof jac err orig = nextPositions s ops ign dof jac err orig := by
  unfold nextPositions
  simp only [hla, hm, Nat.not_lt.2 le, gt_iff_lt, if_false]

theorem sortedIndices_length (is : List Nat) : (sortedIndices is).length = is.length := by
  simp [sortedIndices]

theorem nameIndices_length {h : KHeap T} {ns : List NodeId} {names : List String} {is : List Nat}
    (e : nameIndices h ns names = .ok is) : is.length = names.length := by
  induction names generalizing is with
  | nil => cases e; rfl
  | cons a names ih =>
    rw [nameIndices] at e
    split at e
    · cases e
    · split at e
      · rename_i e'; cases e; simp [ih e']
      · cases e

theorem tryLoop_square (s s' : IkSolver T) (hla : s'.la = s.la)
    (hm : s'.jacobianMultiplier = s.jacobianMultiplier)
    (hd : s'.allowableTargetDistance = s.allowableTargetDistance)
    (ha : s'.allowableTargetAngle = s.allowableTargetAngle) (hn : s'.numMaxTry = s.numMaxTry)
    (arm : Chain) (target : Iso T) (ops : List Bool) (ign : List Nat)
    (le : arm.dof - ign.length ≤ countTrue ops) (orig : List T) (left : Nat)
    (last : Option (V3 T × V3 T)) :
    tryLoop s' arm target ops ign orig left last = tryLoop s arm target ops ign orig left last := by
  induction left generalizing last with
  | zero => simp only [tryLoop, hn]
  | succ left ih =>
    have e : solveOneLoop s' arm target ops ign = solveOneLoop s arm target ops ign := by
      unfold solveOneLoop
      simp only [nextPositions_square s s' hla hm ops ign arm.dof le]
    have r : ∀ a b, reached s' a b = reached s a b := fun a b => by simp only [reached, hd, ha]
    unfold tryLoop
    rw [e]
    refine congrArg _ (funext fun x => ?_)
    cases x with
    | error e => rfl
    | ok diff => simp only [r, ih]

/-- **C60, the nullspace function is not used** when as many joints are left as coordinates are
constrained: setting or clearing it makes no difference at all. -/
theorem C60_nullspace_unused (s : IkSolver T) (f : List T → Except String (List T)) (arm : Chain)
    (target : Iso T) (c : Constraints) (h : KHeap T) (u : h.Unlocked) (w : arm.Wf h)
    (le : arm.movableNodes.length ≤ numConstrained c + c.ignoredJointNames.length) :
    run (solveWithConstraints (s.setNullspaceFunction f) arm target c) h =
      run (solveWithConstraints s arm target c) h ∧
    run (solveWithConstraints s.clearNullspaceFunction arm target c) h =
      run (solveWithConstraints s arm target c) h := by
  have key : ∀ s' : IkSolver T, s'.la = s.la → s'.jacobianMultiplier = s.jacobianMultiplier →
      s'.allowableTargetDistance = s.allowableTargetDistance →
      s'.allowableTargetAngle = s.allowableTargetAngle → s'.numMaxTry = s.numMaxTry →
      run (solveWithConstraints s' arm target c) h = run (solveWithConstraints s arm target c) h := by
    intro s' h1 h2 h3 h4 h5
    have : run (solveInternal s' arm target c) h = run (solveInternal s arm target c) h := by
      simp only [solveInternal, run_bind, run_jointPositions h u arm w, Res.bind_ok]
      split
      · rfl
      · split
        · rfl
        · simp only [run_bind, run_ignoredIndices _ _ _ u, Res.bind_ok]
          cases ni : nameIndices h arm.movableNodes c.ignoredJointNames with
          | error a => rfl
          | ok is =>
            simp only
            have := tryLoop_square s s' h1 h2 h3 h4 h5 arm target (defineOperationalSpace c)
              (sortedIndices is) (by
                rw [sortedIndices_length, nameIndices_length ni, (C30_count (T := T) c).1, w.dof]
                omega)
            unfold sortedIndices at this
            rw [this, h5]
    simp only [solveWithConstraints, run_bind, run_jointPositions h u arm w, Res.bind_ok, this]
  exact ⟨key _ rfl rfl rfl rfl rfl, key _ rfl rfl rfl rfl rfl⟩

/-- **C60, the last setting counts**: a function that was replaced or cleared has no effect, and a new
solver has none. -/
theorem C60_last (s : IkSolver T) (f g : List T → Except String (List T)) (la : LinAlg T)
    (dist angle mult : T) (tries : Nat) :
    (s.setNullspaceFunction f).setNullspaceFunction g = s.setNullspaceFunction g ∧
    (s.setNullspaceFunction f).clearNullspaceFunction = s.clearNullspaceFunction ∧
    (IkSolver.new la dist angle mult tries).clearNullspaceFunction = IkSolver.new la dist angle mult tries ∧
    (IkSolver.new la dist angle mult tries).nullspaceFunction = none ∧
    (s.setNullspaceFunction f).nullspaceFunction = some f := ⟨rfl, rfl, rfl, rfl, rfl⟩

/-- a chain of two sliders is too short for `solve` -/
example (la : LinAlg ℝ) : ∃ h', run (solve (IkSolver.default la) arm2 (atX 1)) (rail none none 0 0) =
    .ok (.error (.precondition 2 6)) h' := by
  have ol : OneLevel (rail none none 0 0) := by
    intro m k hk
    by_cases a : m = 0
    · subst a; simp [rail, NodeImpl.fresh] at hk
    · by_cases b : m = 1
      · subst b; simp [rail, NodeImpl.fresh] at hk
      · simp [rail, NodeImpl.fresh, a, b] at hk
  have nm : ∀ k, ((rail none none 0 0).get k).mimicParent = none ∧
      ((rail none none 0 0).get k).mimicChildren = [] ∧
      ∀ r, k = 0 ∨ k = 1 → ((rail none none 0 0).get k).joint.limits ≠ some r := by
    intro k
    by_cases a : k = 0
    · subst a; simp [rail, NodeImpl.fresh, slider]
    · by_cases b : k = 1
      · subst b; simp [rail, NodeImpl.fresh, slider]
      · simp [rail, NodeImpl.fresh, a, b]
  obtain ⟨h', e, -⟩ := C60_six (IkSolver.default la) arm2 (atX 1) (rail none none 0 0)
    (rail_unlocked _ _ _ _) ol (rail_sliders _ _ _ _).wf2 (by simp [arm2])
    ⟨fun n hn _ r hr => absurd hr ((nm n).2.2 r (by simpa [arm2] using hn)),
      fun n _ _ k hk => (by rw [(nm n).2.1] at hk; cases hk),
      fun n _ m hm => (by rw [(nm n).1] at hm; cases hm)⟩ (by simp [arm2])
  exact ⟨h', e⟩

end K
