import Verif.Props.Answers
import Verif.Props.IkLocalEx
/-!
# More tries and wider tolerances (C86)
-/

namespace K
open Prog

section
variable {T : Type} [Scalar T] {s : IkSolver T} {arm : Chain} {target : Iso T} {ops : List Bool} {ign : List Nat}
  {c : Constraints}

/-- the solver with another number of tries -/
def IkSolver.withTries (s : IkSolver T) (n : Nat) : IkSolver T := { s with numMaxTry := n }

/-- the solver with other tolerances -/
def IkSolver.withTolerances (s : IkSolver T) (d a : T) : IkSolver T :=
  { s with allowableTargetDistance := d, allowableTargetAngle := a }

theorem solveOneLoop_tries (n : Nat) : solveOneLoop (s.withTries n) arm target ops ign =
    solveOneLoop s arm target ops ign := rfl

theorem solveOneLoop_tolerances (d a : T) : solveOneLoop (s.withTolerances d a) arm target ops ign =
    solveOneLoop s arm target ops ign := rfl

/-- the number of tries matters only if all of them are used up -/
theorem tryLoop_tries (orig : List T) (m n left left' : Nat) (le : left ≤ left') (last last' : Option (V3 T × V3 T))
    (h : KHeap T) :
    (∃ h1 last1, Unreached s arm target ops ign left h last h1 last1) ∨
      run (tryLoop (s.withTries m) arm target ops ign orig left' last') h =
        run (tryLoop (s.withTries n) arm target ops ign orig left last) h := by
  induction left generalizing left' last last' h with
  | zero => exact .inl ⟨h, last, .nil _ _⟩
  | succ left ih =>
    obtain ⟨left', rfl⟩ : ∃ k, left' = k + 1 := ⟨left' - 1, by omega⟩
    simp only [tryLoop, run_bind, solveOneLoop_tries]
    cases e : run (solveOneLoop s arm target ops ign) h with
    | ok r h1 =>
      cases r with
      | error x => exact .inr rfl
      | ok diff =>
        simp only [Res.bind_ok]
        cases re : reached s (targetDiffToLenRotDiff diff ops).1 (targetDiffToLenRotDiff diff ops).2 with
        | true =>
          have re' : ∀ k, reached (s.withTries k) (targetDiffToLenRotDiff diff ops).1
              (targetDiffToLenRotDiff diff ops).2 = true := fun _ => re
          simp only [re', if_true]
          exact .inr trivial
        | false =>
          have re' : ∀ k, reached (s.withTries k) (targetDiffToLenRotDiff diff ops).1
              (targetDiffToLenRotDiff diff ops).2 = false := fun _ => re
          simp only [re', Bool.false_eq_true, if_false]
          rcases ih left' (by omega) (some (targetDiffToLenRotDiff diff ops))
            (some (targetDiffToLenRotDiff diff ops)) h1 with ⟨h2, l2, i⟩ | x
          · exact .inl ⟨h2, l2, .cons diff e re i⟩
          · exact .inr x
    | panic m h1 => exact .inr rfl
    | blocked m h1 => exact .inr rfl
    | diverged => exact .inr rfl

/-- the end of a call: an error restores the positions -/
def afterLoop (arm : Chain) (orig : List T) : Except (KError T) Unit → KProg T (Except (KError T) Unit)
  | .error e => do
    match ← arm.setJointPositions orig with
    | .error e' => return .error e'
    | .ok () => return .error e
  | .ok () => return .ok ()

/-- the call, up to the loop -/
theorem run_tries {h : KHeap T} {is : List Nat} (u : h.Unlocked) (wf : arm.Wf h)
    (ni : nameIndices h arm.movableNodes c.ignoredJointNames = .ok is)
    (le : c.ignoredJointNames.length ≤ arm.dof)
    (en : countTrue (defineOperationalSpace c) ≤ arm.dof - c.ignoredJointNames.length) :
    run (solveWithConstraints s arm target c) h =
      Res.bind (run (tryLoop s arm target (defineOperationalSpace c) (sortedIndices is)
        (posList h arm.movableNodes) s.numMaxTry none) h) fun re =>
          run (afterLoop arm (posList h arm.movableNodes) re) := by
  unfold sortedIndices posList
  simp only [solveWithConstraints, solveInternal, run_bind, run_jointPositions h u arm wf,
    Res.bind_ok, if_neg (Nat.not_lt.2 le), if_neg (Nat.not_lt.2 en), run_ignoredIndices _ _ _ u, ni]
  congr 1

/-- the cases of a call that are over before the first step -/
theorem solve_cases (h : KHeap T) (u : h.Unlocked) (w : arm.Wf h) (c : Constraints) :
    (∃ is, nameIndices h arm.movableNodes c.ignoredJointNames = .ok is ∧
      c.ignoredJointNames.length ≤ arm.dof ∧
      countTrue (defineOperationalSpace c) ≤ arm.dof - c.ignoredJointNames.length) ∨
    ∀ s s' : IkSolver T, run (solveWithConstraints s arm target c) h = run (solveWithConstraints s' arm target c) h := by
  by_cases le : arm.dof < c.ignoredJointNames.length
  · refine .inr fun s s' => ?_
    simp only [solveWithConstraints, solveInternal, run_bind, run_jointPositions h u arm w, Res.bind_ok, if_pos le]
  by_cases lt : arm.dof - c.ignoredJointNames.length < countTrue (defineOperationalSpace c)
  · refine .inr fun s s' => ?_
    simp only [solveWithConstraints, solveInternal, run_bind, run_jointPositions h u arm w, Res.bind_ok, if_neg le,
      if_pos lt]
  cases nm : nameIndices h arm.movableNodes c.ignoredJointNames with
  | error a =>
    refine .inr fun s s' => ?_
    simp only [solveWithConstraints, solveInternal, run_bind, run_jointPositions h u arm w, Res.bind_ok, if_neg le,
      if_neg lt, run_ignoredIndices _ _ _ u, nm]
  | ok is => exact .inl ⟨is, rfl, Nat.not_lt.1 le, Nat.not_lt.1 lt⟩

/-- **C86** (more tries).  Raising the number of tries from `n` to `m` changes nothing at all, neither the answer nor
the memory, unless the answer with `n` tries is `NotConvergedError`. -/
theorem C86_more_tries (h : KHeap T) (u : h.Unlocked) (ol : OneLevel h) (w : arm.Wf h) (nd : arm.nodes.Nodup)
    (re : Restorable h arm) (n m : Nat) (n0 : 0 < n) (le : n ≤ m) :
    run (solveWithConstraints (s.withTries m) arm target c) h =
        run (solveWithConstraints (s.withTries n) arm target c) h ∨
      ∃ d r h', run (solveWithConstraints (s.withTries n) arm target c) h =
        .ok (.error (.notConverged n d r)) h' := by
  rcases solve_cases (target := target) h u w c with ⟨is, ni, l1, l2⟩ | x
  · rw [run_tries u w ni l1 l2, run_tries u w ni l1 l2]
    rcases tryLoop_tries (s := s) (arm := arm) (target := target) (ops := defineOperationalSpace c)
      (ign := sortedIndices is) (posList h arm.movableNodes) m n n m le none none h with ⟨h1, last, i⟩ | x
    · right
      obtain ⟨h2, e2, sb2, pos2⟩ := restore u ol w nd re (i.moved u w).disturbed
      obtain ⟨h3, e3, -, -⟩ := restore u ol w nd re ⟨sb2, fun k _ => pos2 k⟩
      have run_all : ∀ {k : Nat} {g g' : KHeap T} {l l' : Option (V3 T × V3 T)},
          Unreached s arm target (defineOperationalSpace c) (sortedIndices is) k g l g' l' →
          run (tryLoop (s.withTries n) arm target (defineOperationalSpace c) (sortedIndices is)
            (posList h arm.movableNodes) k l) g =
          run (tryLoop (s.withTries n) arm target (defineOperationalSpace c) (sortedIndices is)
            (posList h arm.movableNodes) 0 l') g' := by
        intro k g g' l l' i
        induction i with
        | nil => rfl
        | cons diff e nr rest ih =>
          rw [← ih]
          have nr' : reached (s.withTries n) (targetDiffToLenRotDiff diff (defineOperationalSpace c)).1
              (targetDiffToLenRotDiff diff (defineOperationalSpace c)).2 = false := nr
          simp only [tryLoop, run_bind, solveOneLoop_tries, e, Res.bind_ok, nr', Bool.false_eq_true, if_false]
      obtain ⟨d, rfl⟩ : ∃ d, last = some d := by
        have : ∀ {k : Nat} {g g' : KHeap T} {l l' : Option (V3 T × V3 T)},
            Unreached s arm target (defineOperationalSpace c) (sortedIndices is) k g l g' l' →
            (0 < k ∨ ∃ d, l = some d) → ∃ d, l' = some d := by
          intro k g g' l l' i
          induction i with
          | nil =>
            rintro (x | x)
            · omega
            · exact x
          | cons diff e nr rest ih => exact fun _ => ih (.inr ⟨_, rfl⟩)
        exact this i (.inl n0)
      refine ⟨d.1, d.2, h3, ?_⟩
      rw [show (s.withTries n).numMaxTry = n from rfl, run_all i]
      simp only [tryLoop, run_bind, e2, Res.bind_ok, run_expect_some, run_pure, afterLoop, e3]
      rfl
    · left
      rw [show (s.withTries n).numMaxTry = n from rfl, show (s.withTries m).numMaxTry = m from rfl, x]
  · exact .inl (x _ _)

/-- **C86** (success stays).  A target found with `n` tries is found with more tries, in the same steps: the memory
afterwards is the same. -/
theorem C86_success_stays (h h' : KHeap T) (u : h.Unlocked) (w : arm.Wf h) (n m : Nat) (le : n ≤ m)
    (e : run (solveWithConstraints (s.withTries n) arm target c) h = .ok (.ok ()) h') :
    run (solveWithConstraints (s.withTries m) arm target c) h = .ok (.ok ()) h' := by
  rcases solve_cases (target := target) h u w c with ⟨is, ni, l1, l2⟩ | x
  · rw [run_tries u w ni l1 l2] at e ⊢
    rcases tryLoop_tries (s := s) (arm := arm) (target := target) (ops := defineOperationalSpace c)
      (ign := sortedIndices is) (posList h arm.movableNodes) m n n m le none none h with ⟨h1, last, i⟩ | x
    · exfalso
      have run_all : ∀ {k : Nat} {g g' : KHeap T} {l l' : Option (V3 T × V3 T)} (orig : List T),
          Unreached s arm target (defineOperationalSpace c) (sortedIndices is) k g l g' l' → ∀ g'',
          run (tryLoop (s.withTries n) arm target (defineOperationalSpace c) (sortedIndices is) orig k l) g ≠
            .ok (.ok ()) g'' := by
        intro k g g' l l' orig i g''
        induction i with
        | nil =>
          intro e
          simp only [tryLoop, run_bind] at e
          obtain ⟨rr, g1, -, e2⟩ := Res.bind_eq_ok e
          cases rr with
          | error x => cases e2
          | ok v =>
            simp only [run_bind] at e2
            obtain ⟨d, g2, -, e3⟩ := Res.bind_eq_ok e2
            cases e3
        | cons diff e nr rest ih =>
          have nr' : reached (s.withTries n) (targetDiffToLenRotDiff diff (defineOperationalSpace c)).1
              (targetDiffToLenRotDiff diff (defineOperationalSpace c)).2 = false := nr
          simp only [tryLoop, run_bind, solveOneLoop_tries, e, Res.bind_ok, nr', Bool.false_eq_true, if_false]
          exact ih
      obtain ⟨r, g, e1, e2⟩ := Res.bind_eq_ok e
      cases r with
      | error x =>
        simp only [run_bind, afterLoop] at e2
        obtain ⟨rr, g1, -, e3⟩ := Res.bind_eq_ok e2
        cases rr <;> cases e3
      | ok v => exact run_all _ i _ e1
    · rw [show (s.withTries n).numMaxTry = n from rfl] at e
      rw [show (s.withTries m).numMaxTry = m from rfl, x]
      exact e
  · rw [x (s.withTries m) (s.withTries n)]; exact e

/-- **C86** (fewer tries).  If the tries do not suffice, fewer tries do not suffice either. -/
theorem C86_fewer_tries (h h' : KHeap T) (u : h.Unlocked) (ol : OneLevel h) (w : arm.Wf h) (nd : arm.nodes.Nodup)
    (re : Restorable h arm) (n m k : Nat) (d r : V3 T) (n0 : 0 < n) (le : n ≤ m)
    (e : run (solveWithConstraints (s.withTries m) arm target c) h = .ok (.error (.notConverged k d r)) h') :
    ∃ d' r' h'', run (solveWithConstraints (s.withTries n) arm target c) h =
      .ok (.error (.notConverged n d' r')) h'' := by
  rcases C86_more_tries (s := s) (target := target) (c := c) h u ol w nd re n m n0 le with x | x
  · rw [e] at x
    have := (C29_not_converged h h' u w k d r x.symm ol nd re).1
    subst this
    exact ⟨d, r, h', x.symm⟩
  · exact x

theorem lt_of_lt_of_le' [LawfulOrd T] {a b d : T} (x : Scalar.lt a b = true) (y : Scalar.le b d = true) :
    Scalar.lt a d = true := by
  cases z : Scalar.lt a d with
  | true => rfl
  | false =>
    have na := LawfulOrd.not_nan_left a b (LawfulOrd.le_of_lt a b x)
    have := LawfulOrd.le_of_not_lt a d na (LawfulOrd.not_nan_right b d y) z
    have := LawfulOrd.not_lt_of_le b a (LawfulOrd.le_trans b d a y this)
    rw [x] at this; cases this

/-- **C86** (wider tolerances).  A target found with some tolerances is found with wider ones. -/
theorem C86_wider [LawfulOrd T] (h h' : KHeap T) (u : h.Unlocked) (w : arm.Wf h) (d a : T)
    (ld : Scalar.le s.allowableTargetDistance d = true) (la : Scalar.le s.allowableTargetAngle a = true)
    (e : run (solveWithConstraints s arm target c) h = .ok (.ok ()) h') :
    ∃ h'', run (solveWithConstraints (s.withTolerances d a) arm target c) h = .ok (.ok ()) h'' := by
  rcases solve_cases (target := target) h u w c with ⟨is, ni, l1, l2⟩ | x
  · rw [run_tries u w ni l1 l2] at e ⊢
    obtain ⟨r, g, e1, e2⟩ := Res.bind_eq_ok e
    cases r with
    | error x =>
      simp only [run_bind, afterLoop] at e2
      obtain ⟨rr, g1, -, e3⟩ := Res.bind_eq_ok e2
      cases rr <;> cases e3
    | ok v =>
      have key : ∀ (orig : List T) (left : Nat) (last last' : Option (V3 T × V3 T)) (h g : KHeap T),
          h.Unlocked → arm.Wf h →
          run (tryLoop s arm target (defineOperationalSpace c) (sortedIndices is) orig left last) h =
            .ok (.ok ()) g →
          ∃ g', run (tryLoop (s.withTolerances d a) arm target (defineOperationalSpace c) (sortedIndices is) orig
            left last') h = .ok (.ok ()) g' := by
        intro orig left
        induction left with
        | zero =>
          intro last last' h g u w e
          simp only [tryLoop, run_bind] at e
          obtain ⟨rr, g1, -, e2⟩ := Res.bind_eq_ok e
          cases rr with
          | error x => cases e2
          | ok v =>
            simp only [run_bind] at e2
            obtain ⟨d, g2, -, e3⟩ := Res.bind_eq_ok e2
            cases e3
        | succ left ih =>
          intro last last' h g u w e
          simp only [tryLoop, run_bind, solveOneLoop_tolerances] at e ⊢
          obtain ⟨rr, h1, e1, e2⟩ := Res.bind_eq_ok e
          rw [e1]
          have m := solveOneLoop_moved _ _ _ _ _ _ _ u w _ e1
          cases rr with
          | error x => cases e2
          | ok diff =>
            simp only [Res.bind_ok] at e2 ⊢
            have u1 := m.unlocked u
            have w1 := m.sameBut.chainWf w
            cases wide : reached (s.withTolerances d a)
                (targetDiffToLenRotDiff diff (defineOperationalSpace c)).1
                (targetDiffToLenRotDiff diff (defineOperationalSpace c)).2 with
            | true =>
              simp only [if_true, run_bind, run_jointPositions h1 u1 arm w1, Res.bind_ok,
                run_setJointPositionsClamped _ _ _ u1, run_pure]
              exact ⟨_, rfl⟩
            | false =>
              have narrow : reached s (targetDiffToLenRotDiff diff (defineOperationalSpace c)).1
                  (targetDiffToLenRotDiff diff (defineOperationalSpace c)).2 = false := by
                by_contra x
                rw [Bool.not_eq_false] at x
                simp only [reached, Bool.and_eq_true] at x
                have : reached (s.withTolerances d a) (targetDiffToLenRotDiff diff (defineOperationalSpace c)).1
                    (targetDiffToLenRotDiff diff (defineOperationalSpace c)).2 = true := by
                  simp only [reached, Bool.and_eq_true]
                  exact ⟨lt_of_lt_of_le' x.1 ld, lt_of_lt_of_le' x.2 la⟩
                rw [wide] at this; cases this
              simp only [narrow, Bool.false_eq_true, if_false] at e2 ⊢
              exact ih _ _ h1 g u1 w1 e2
      obtain ⟨g', e'⟩ := key _ _ none none h g u w e1
      refine ⟨g', ?_⟩
      rw [show (s.withTolerances d a).numMaxTry = s.numMaxTry from rfl, e']
      rfl
  · exact ⟨h', by rw [x (s.withTolerances d a) s]; exact e⟩

end

/-! ## At the target -/

/-- the linear solvers answer a zero right-hand side with zeros, if they answer -/
structure LinAlg.Homogeneous (la : LinAlg ℝ) : Prop where
  lu : ∀ J b x, (∀ v ∈ b, v = 0) → la.lu J b = some x → ∀ v ∈ x, v = 0
  svd : ∀ J b, (∀ v ∈ b, v = 0) → ∀ v ∈ la.svdSolve J b, v = 0

theorem insertZeros_zeros {is : List Nat} {xs ys : List ℝ} (hx : ∀ v ∈ xs, v = 0) (e : insertZeros is xs = .ok ys) :
    ∀ v ∈ ys, v = 0 := by
  induction is generalizing xs with
  | nil => cases e; exact hx
  | cons i is ih =>
    simp only [insertZeros] at e
    split at e
    · rename_i le
      refine ih (fun v hv => ?_) e
      rcases (List.mem_insertIdx le).1 hv with rfl | hv
      · rfl
      · exact hx v hv
    · cases e

theorem addPositions_zero (m : ℝ) (orig zs : List ℝ) (hz : ∀ v ∈ zs, v = 0) :
    ∃ k, addPositionsWithMultiplier m orig zs = orig.take k := by
  refine ⟨zs.length, ?_⟩
  induction orig generalizing zs with
  | nil => simp [addPositionsWithMultiplier]
  | cons x xs ih =>
    cases zs with
    | nil => simp [addPositionsWithMultiplier]
    | cons z zs =>
      have := ih zs fun v hv => hz v (by simp [hv])
      simp only [addPositionsWithMultiplier] at this
      simp [addPositionsWithMultiplier, this, hz z (by simp)]

/-- a step without error moves no joint -/
theorem nextPositions_zero {s : IkSolver ℝ} (hla : s.la.Homogeneous) (null : s.nullspaceFunction = none)
    {ops : List Bool} {ign : List Nat} {dof : Nat} {jac : Mat ℝ} {err orig ps : List ℝ} (z : ∀ v ∈ err, v = 0)
    (e : nextPositions s ops ign dof jac err orig = .ok (.ok ps)) : ∃ k, ps = orig.take k := by
  unfold nextPositions at e
  simp only [Bind.bind, Except.bind, null] at e
  split at e
  · cases e
  split at e
  · cases e
  split at e
  · split at e
    · cases e
    · split at e
      · cases e
      · rename_i zs hz
        cases e
        exact addPositions_zero _ _ _ (insertZeros_zeros (hla.svd _ _ z) hz)
  · split at e
    · rename_i x hx
      cases e
      exact addPositions_zero _ _ _ (hla.lu _ _ _ z hx)
    · cases e

theorem poseDiff_zero {c : Constraints} {target E : Iso ℝ} (zp : posError c target E = V3.zero)
    (zr : rotError c target E = V3.zero) :
    ∀ v ∈ calcPoseDiffWithConstraints target E (defineOperationalSpace c), v = 0 := by
  obtain ⟨px, py, pz, rx, ry, rz, ig⟩ := c
  simp only [posError, rotError, masked, V3.zero, V3.mk.injEq] at zp zr
  obtain ⟨a1, a2, a3⟩ := zp
  obtain ⟨b1, b2, b3⟩ := zr
  intro v hv
  simp only [calcPoseDiffWithConstraints, defineOperationalSpace, calcPoseDiff] at hv
  cases px <;> cases py <;> cases pz <;> cases rx <;> cases ry <;> cases rz <;>
    simp [selectFlags] at hv a1 a2 a3 b1 b2 b3
  all_goals
    rcases hv with hv
    simp_all

section
variable {s : IkSolver ℝ} {arm : Chain} {target : Iso ℝ} {c : Constraints} {ign : List Nat}

theorem step_at_target {h h1 : KHeap ℝ} (u : h.Unlocked) (w : arm.Wf h) (o : NoneOutside h arm.movableNodes)
    (hla : s.la.Homogeneous) (null : s.nullspaceFunction = none) (td : 0 < s.allowableTargetDistance)
    (ta : 0 < s.allowableTargetAngle) (zp : posError c target (endPose h arm.nodes) = V3.zero)
    (zr : rotError c target (endPose h arm.nodes) = V3.zero) {diff : List ℝ}
    (e : run (solveOneLoop s arm target (defineOperationalSpace c) ign) h = .ok (.ok diff) h1) :
    (∀ k, (h1.get k).joint.position = (h.get k).joint.position) ∧
      reached s (targetDiffToLenRotDiff diff (defineOperationalSpace c)).1
        (targetDiffToLenRotDiff diff (defineOperationalSpace c)).2 = true := by
  have m := solveOneLoop_moved _ _ _ _ _ _ _ u w _ e
  obtain ⟨h2, jac, x, ow, -, np, ⟨_, -, y, -⟩ | ⟨ps, rfl, rfl, y⟩⟩ := solveOneLoop_ok _ _ _ _ _ _ _ u w _ e
  · cases y
  cases y
  obtain ⟨k, rfl⟩ := nextPositions_zero hla null (poseDiff_zero zp zr) np
  have mem : ∀ p ∈ arm.movableNodes.zip ((posList h arm.movableNodes).take k),
      p ∈ arm.movableNodes.zip (posList h arm.movableNodes) := by
    intro p hp
    obtain ⟨i, hi⟩ := List.getElem?_of_mem hp
    rw [List.getElem?_zip_eq_some] at hi
    refine List.mem_of_getElem? (i := i) ?_
    rw [List.getElem?_zip_eq_some]
    refine ⟨hi.1, ?_⟩
    have := hi.2
    rw [List.getElem?_take] at this
    split at this
    · exact this
    · cases this
  have pos : ∀ n, ((clampAll (arm.movableNodes.zip ((posList h arm.movableNodes).take k)) h2).get n).joint.position =
      (h.get n).joint.position := by
    intro n
    rw [position_clampAll_same, ow.position]
    · intro p hp
      rw [ow.position]
      exact (zip_posList _ p (mem p hp)).2
    · intro p hp
      rw [ow.position, ow.moved.sameBut.limits]
      exact o _ (zip_posList _ p (mem p hp)).1
  refine ⟨pos, ?_⟩
  rw [endPose_congr m.sameBut _ fun n _ => pos n, C30_split, zp, zr]
  simp [reached, V3.norm, V3.zero, Scalar.sqrt, Scalar.lt, td, ta]

theorem count_eq (c : Constraints) : c.count = numConstrained c := by
  obtain ⟨px, py, pz, rx, ry, rz, ig⟩ := c
  cases px <;> cases py <;> cases pz <;> cases rx <;> cases ry <;> cases rz <;> rfl

/-- **C86** (at the target).  If the end is at the target before the call, in the constrained coordinates, the joints
stay where they are, and the answer is `Ok`, or `InverseMatrixError` if there are not more free joints than constrained
coordinates.  (Positions within the limits, no nullspace function, tolerances positive.) -/
theorem C86_at_target (h h' : KHeap ℝ) (u : h.Unlocked) (ol : OneLevel h) (w : arm.Wf h) (nd : arm.nodes.Nodup)
    (re : Restorable h arm) (o : NoneOutside h arm.movableNodes)
    (hla : s.la.Homogeneous) (null : s.nullspaceFunction = none) (td : 0 < s.allowableTargetDistance)
    (ta : 0 < s.allowableTargetAngle) (tries : 0 < s.numMaxTry)
    (enough : numConstrained c ≤ arm.dof - c.ignoredJointNames.length)
    (known : ∀ a ∈ c.ignoredJointNames, ∃ n ∈ arm.movableNodes, (h.get n).joint.name = a)
    (E : Iso ℝ) (pose : run arm.endTransform h = .ok E h)
    (zp : posError c target E = V3.zero) (zr : rotError c target E = V3.zero) (r : Except (KError ℝ) Unit)
    (e : run (solveWithConstraints s arm target c) h = .ok r h') :
    (∀ k, posOf h' k = posOf h k) ∧
      (r = .ok () ∨ r = .error .inverseMatrix ∧ numConstrained c = arm.dof - c.ignoredJointNames.length) := by
  rw [run_endTransform _ _ u] at pose
  cases pose
  have first : ∀ {ign : List Nat} {k : Nat} {h1 : KHeap ℝ} {last : Option (V3 ℝ × V3 ℝ)},
      Unreached s arm target (defineOperationalSpace c) ign k h none h1 last → k = 0 ∧ h1 = h := by
    intro ign k h1 last i
    cases i with
    | nil => exact ⟨rfl, rfl⟩
    | cons diff e nr rest =>
      rw [(step_at_target u w o hla null td ta zp zr e).2] at nr; cases nr
  cases r with
  | error er =>
    refine ⟨(C25_restores h h' u ol w nd re er e).2, .inr ?_⟩
    have sq := (C69_sequential h h' u (.solve s arm target c) _ e).2.1 _ rfl
    have set : ∀ {n x}, ¬ SetErr h n x .inverseMatrix := by
      rintro n x (⟨j, -, ⟨-, e⟩ | ⟨-, r, -, -, e⟩⟩ | ⟨c, j, m, -, ⟨-, e⟩ | ⟨-, r, -, -, e⟩⟩) <;> cases e
    rcases C29_error h h' u w er e ol nd re with ⟨lt, -⟩ | ⟨a, ha, no, -⟩ | ⟨is, k, h1, last, i, x⟩
    · omega
    · obtain ⟨n, hn, en⟩ := known a ha
      exact absurd en (no n hn)
    · obtain ⟨rfl, rfl⟩ := first i
      rcases x with ⟨z, -⟩ | ⟨-, rfl, h2, e2⟩
      · omega
      · refine ⟨rfl, ?_⟩
        cases sq with
        | inverse _ square _ => rw [← count_eq]; exact square.symm
        | restore n hn x e he => exact absurd he set
  | ok v =>
    refine ⟨?_, .inl rfl⟩
    rcases C29_bound h h' u w _ e with ⟨_, x⟩ | ⟨-, is, k, h1, last, diff, h2, -, i, e2, rfl⟩
    · cases x
    obtain ⟨rfl, rfl⟩ := first i
    obtain ⟨pos, -⟩ := step_at_target u w o hla null td ta zp zr e2
    have m := solveOneLoop_moved _ _ _ _ _ _ _ u w _ e2
    have same := position_clampAll_same (arm.movableNodes.zip (posList h2 arm.movableNodes)) h2
      (fun p hp => (zip_posList _ p hp).2) fun p hp => noneOutside_congr m.sameBut pos o _ (zip_posList _ p hp).1
    have m' := m.trans (moved_clamp_chain w (posList h2 arm.movableNodes))
    intro k
    simp only [posOf, Joint.jointPosition, m'.sameBut.jointType, same, pos]
end

end K
