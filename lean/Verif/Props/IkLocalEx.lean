import Verif.Props.IkLocal
import Verif.Props.IkEx
/-!
# C74: an exact linear solver, an arm that turns, and a singular start
-/

namespace K
open Prog Filter Topology Matrix

noncomputable section

/-- the inverse of a regular matrix, the shortest solution of a wide system, the pseudoinverse of a wide
matrix -/
def exactLa : LinAlg ℝ where
  lu J b := if (toMat b.length b.length J).det = 0 then none
    else some (List.ofFn ((toMat b.length b.length J)⁻¹ *ᵥ toVec b.length b))
  svdSolve J b := List.ofFn (((toMat b.length J.length J)ᵀ *
    (toMat b.length J.length J * (toMat b.length J.length J)ᵀ)⁻¹) *ᵥ toVec b.length b)
  pinv J := List.ofFn fun j : Fin (J.headD []).length => List.ofFn fun i : Fin J.length =>
    ((toMat (J.headD []).length J.length J)ᵀ *
      (toMat (J.headD []).length J.length J * (toMat (J.headD []).length J.length J)ᵀ)⁻¹) i j

theorem toVec_ofFn {n : Nat} (f : Fin n → ℝ) : toVec n (List.ofFn f) = f := by
  funext j; simp [toVec, List.getD_eq_getElem?_getD]

theorem sum_sq (n : Nat) (y : List ℝ) (ly : y.length = n) :
    (y.map (· ^ 2)).sum = toVec n y ⬝ᵥ toVec n y := by
  subst ly
  have : y.map (· ^ 2) = List.ofFn fun j : Fin y.length => toVec y.length y j * toVec y.length y j := by
    refine List.ext_getElem (by simp) fun k h1 h2 => ?_
    have hk : k < y.length := by simpa using h1
    simp [toVec, List.getD_eq_getElem?_getD, List.getElem?_eq_getElem hk, sq]
  rw [this, List.sum_ofFn]; rfl

/-- the assumption of `C74_full_rank` can be met -/
theorem exactLa_exact : exactLa.Exact where
  lu := by
    intro r J lJ cJ d b lb
    subst lb
    refine ⟨_, if_neg d, by simp, fun i hi => ?_⟩
    rw [rowSum_mulVec b.length b.length J _ lJ (by simp) ⟨i, hi⟩, toVec_ofFn, Matrix.mulVec_mulVec,
      Matrix.mul_nonsing_inv _ (isUnit_iff_ne_zero.2 d), Matrix.one_mulVec]
    rfl
  svd := by
    intro r n J lJ cJ d b lb
    subst lb lJ
    have ax : toMat b.length J.length J *ᵥ (((toMat b.length J.length J)ᵀ *
        (toMat b.length J.length J * (toMat b.length J.length J)ᵀ)⁻¹) *ᵥ toVec b.length b) =
        toVec b.length b := by
      rw [Matrix.mulVec_mulVec, ← Matrix.mul_assoc, Matrix.mul_nonsing_inv _ (isUnit_iff_ne_zero.2 d),
        Matrix.one_mulVec]
    refine ⟨by simp [exactLa], fun i hi => ?_, fun y ly sy => ?_⟩
    · rw [rowSum_mulVec b.length J.length J _ rfl (by simp [exactLa]) ⟨i, hi⟩]
      show (_ *ᵥ toVec J.length (List.ofFn _)) _ = _
      rw [toVec_ofFn, ax]
      rfl
    · rw [sum_sq J.length y ly, sum_sq J.length _ (by simp [exactLa])]
      show toVec J.length (List.ofFn _) ⬝ᵥ toVec J.length (List.ofFn _) ≤ _
      rw [toVec_ofFn]
      have ay : toMat b.length J.length J *ᵥ toVec J.length y = toVec b.length b := by
        funext i
        rw [← rowSum_mulVec b.length J.length J y rfl ly i]
        exact sy i i.2
      generalize toMat b.length J.length J = A at *
      generalize hx : (Aᵀ * (A * Aᵀ)⁻¹) *ᵥ toVec b.length b = x at *
      generalize toVec J.length y = z at *
      -- `x` is orthogonal to `z - x`
      have o : x ⬝ᵥ (z - x) = 0 := by
        have az : A *ᵥ (z - x) = 0 := by rw [Matrix.mulVec_sub, ax, ay, sub_self]
        generalize z - x = v at az
        rw [← hx, ← Matrix.mulVec_mulVec, dotProduct_comm, Matrix.dotProduct_mulVec,
          Matrix.vecMul_transpose, az, zero_dotProduct]
      have p : 0 ≤ (z - x) ⬝ᵥ (z - x) := Finset.sum_nonneg fun i _ => mul_self_nonneg _
      have e : z ⬝ᵥ z = x ⬝ᵥ x + 2 * (x ⬝ᵥ (z - x)) + (z - x) ⬝ᵥ (z - x) := by
        have c := dotProduct_comm x z
        simp only [dotProduct_sub, sub_dotProduct, c]
        ring
      rw [e, o]; linarith

/-! ## an arm of length one that turns about z -/

/-- node 0 turns about z, the tip (node 1) is fixed to it at distance 1 -/
def swing (q : ℝ) : KHeap ℝ :=
  { get := fun n =>
      if n = 0 then { NodeImpl.fresh { Joint.new "a" (.rotational ⟨0, 0, 1⟩) with position := q } with
        children := [1] }
      else if n = 1 then { NodeImpl.fresh { Joint.new "tip" .fixed with origin := atX 1 } with
        parent := some 0 }
      else NodeImpl.fresh (Joint.new "c" .fixed)
    next := 2, dead := fun _ => false, held := fun _ => false }

def swingArm : Chain := ⟨[0, 1], [0], 1⟩

/-- only y is constrained -/
def onlyY : Constraints := ⟨false, true, false, false, false, false, []⟩

def swingSolver (tries : Nat) : IkSolver ℝ := ⟨1 / 100, 1 / 100, 1 / 2, tries, none, exactLa⟩

theorem swing_arm (q : ℝ) : RootedArm (swing q) swingArm where
  unlocked := fun _ => rfl
  wf := ⟨by simp [swingArm, swing, Movable, NodeImpl.fresh, Joint.new], rfl⟩
  root := ⟨0, [1], rfl, by simp [liveParent, swing, NodeImpl.fresh]⟩
  serial := by
    intro pre a b post e
    rcases pre with _ | ⟨c, pre⟩
    · simp [swingArm] at e
      obtain ⟨rfl, rfl, -⟩ := e
      simp [liveParent, swing]
    · have := congrArg List.length e
      simp [swingArm] at this
      omega
  nodup := by simp [swingArm]
  rigid := by
    intro n hn
    have : n = 0 ∨ n = 1 := by simpa [swingArm] using hn
    rcases this with rfl | rfl
    · exact ⟨by simp [swing, NodeImpl.fresh, Joint.new, Iso.IsRigid, Iso.one, Quat.one_isUnit],
        by simp [swing, NodeImpl.fresh, Joint.new, V3.IsUnit]⟩
    · exact ⟨by simp [swing, NodeImpl.fresh, Joint.new, Iso.IsRigid, atX, Quat.one_isUnit],
        by simp [swing, NodeImpl.fresh, Joint.new]⟩

theorem swing_same (q r : ℝ) : SameBut (swing q) (swing r) := by
  refine ⟨rfl, rfl, rfl, fun k => ?_⟩
  by_cases h0 : k = 0
  · subst h0; exact ⟨r, none, none, by simp [swing, NodeImpl.fresh, Joint.new]⟩
  · refine ⟨((swing q).get k).joint.position, ((swing q).get k).joint.worldTransformCache,
      ((swing q).get k).joint.worldVelocityCache, ?_⟩
    simp only [swing, if_neg h0]

theorem swing_local0 : ((swing 0).get 0).joint.localTransform = Iso.one := by
  have : ((swing 0).get 0).joint = Joint.new "a" (.rotational ⟨0, 0, 1⟩) := by
    simp [swing, NodeImpl.fresh, Joint.new]
  rw [this]
  show Iso.one.mul ⟨V3.zero, Quat.fromAxisAngle ⟨0, 0, 1⟩ 0⟩ = _
  rw [Iso.one_mul']
  simp [Iso.one, Quat.fromAxisAngle, Quat.one, Scalar.cos, Scalar.sin]

theorem swing_pose : endPose (swing 0) swingArm.nodes = atX 1 := by
  have l1 : ((swing 0).get 1).joint.localTransform = atX 1 := by
    have : ((swing 0).get 1).joint = { Joint.new "tip" .fixed with origin := atX 1 } := by
      simp [swing, NodeImpl.fresh]
    rw [this]
    show (atX 1).mul Iso.one = _
    rw [Iso.mul_one']
  simp only [endPose, swingArm, List.foldl_cons, List.foldl_nil, swing_local0, l1, Iso.one_mul']

theorem swing_jac : ∃ g, run (jacobian swingArm) (swing 0) = .ok [[0, 1, 0, 0, 0, 1]] g := by
  obtain ⟨g, e⟩ := (swing_arm 0).jacobian (SameBut.refl _)
  refine ⟨g, ?_⟩
  rw [e]
  have p := (swing_arm 0).endPose (SameBut.refl _)
  rw [swing_pose] at p
  have n := (swing_arm 0).prod (SameBut.refl _) Iso.one [0] (by simp [swingArm])
  have n' : nodeAt (swing 0) swingArm (coordOf (swing 0) swingArm) 0 = Iso.one := by
    refine Eq.trans n.symm ?_
    show Iso.one.mul ((swing 0).get 0).joint.localTransform = _
    rw [swing_local0, Iso.one_mul']
  have jt : (jointsOf (swing 0) 0).jointType = .rotational ⟨0, 0, 1⟩ := by
    simp [jointsOf, swing, NodeImpl.fresh, Joint.new]
  show Res.ok [colAt _ _ _ 0] g = _
  rw [colAt, ← p, n']
  simp [twist, colLin, colAng, jt, Iso.one, atX, Quat.one, Quat.rotate, Quat.vec, V3.cross, V3.sub, V3.add, V3.zero, V3.scale]

theorem swing_reduced (cs : Constraints) : reducedJac (defineOperationalSpace cs) [] [[0, 1, 0, 0, 0, 1]] =
    [selectFlags (defineOperationalSpace cs) [(0 : ℝ), 1, 0, 0, 0, 1]] := by
  simp [reducedJac, dropIdx]

/-- stretched along x, with only y constrained, the arm is at a solution for the target `(1, 0, 0)` -/
theorem swing_solution : Solution swingArm (atX 1) onlyY (swing 0) [] (atX 1) where
  pose := by rw [run_endTransform _ _ (swing_arm 0).unlocked, swing_pose]
  rigid := Quat.one_isUnit
  pos := by simp [posError, masked, onlyY, atX, V3.zero, V3.sub]
  rot := by simp [onlyY]
  inside := by
    intro n hn r hr
    have : n = 0 := by simpa [swingArm] using hn
    subst this
    simp [swing, NodeImpl.fresh, Joint.new] at hr
  names := by simp [onlyY]
  found := by simp [onlyY]
  sorted := by simp
  ignored := by simp [onlyY]
  constrained := by decide
  enough := by left; decide

theorem swing_reliable (n : Nat) : Reliable (swingSolver n) swingArm onlyY (swing 0) [] := by
  obtain ⟨g, e⟩ := swing_jac
  refine C74_full_rank (swing_arm 0) swing_solution exactLa_exact (fun _ => rfl) e ?_
  rw [swing_reduced]
  have : selectFlags (defineOperationalSpace onlyY) [(0 : ℝ), 1, 0, 0, 0, 1] = [1] := rfl
  rw [this]
  show ((toMat 1 1 [[(1 : ℝ)]]) * (toMat 1 1 [[(1 : ℝ)]])ᵀ).det ≠ 0
  simp [toMat, Matrix.mul_apply]

/-- the hypotheses of `C74_converges` and `C74_full_rank` hold for the turning arm: from all angles close to
zero the solver, with half steps, finds it back -/
theorem C74_swing : ∃ ε, 0 < ε ∧ ∃ N, ∀ n, N ≤ n → ∀ q : ℝ, |q| < ε →
    ∃ h', run (solveWithConstraints (swingSolver n) swingArm (atX 1) onlyY) (swing q) = .ok (.ok ()) h' ∧
      |(h'.get 0).joint.position| < 1 / 10 := by
  obtain ⟨ε, ε0, N, f⟩ := C74_converges (swing_arm 0) swing_solution (swing_reliable 0)
    (by norm_num [swingSolver]) (by norm_num [swingSolver]) (by norm_num [swingSolver])
    (by norm_num [swingSolver]) (1 / 10) (by norm_num)
  have p0 : ((swing 0).get 0).joint.position = 0 := by simp [swing, NodeImpl.fresh]
  refine ⟨ε, ε0, N, fun n hn q hq => ?_⟩
  have near : PosWithin ε swingArm (swing 0) (swing q) := by
    intro m hm
    have : m = 0 := by simpa [swingArm] using hm
    subst this
    rw [p0, sub_zero]
    simpa [swing, NodeImpl.fresh] using hq
  obtain ⟨h', X, e, w, -⟩ := f n hn (swing q) (swing_same 0 q) near
  refine ⟨h', e, ?_⟩
  have := w 0 (by simp [swingArm])
  rwa [p0, sub_zero] at this

/-- from the stretched arm with only x constrained the solver gives up at once, whatever the target -/
theorem swing_gives_up (n : Nat) (n0 : 0 < n) (target : Iso ℝ) :
    ∃ h', run (solveWithConstraints (swingSolver n) swingArm target (onlyX [])) (swing 0) =
      .ok (.error .inverseMatrix) h' ∧ ∀ k, posOf h' k = posOf (swing 0) k := by
  have u := (swing_arm 0).unlocked
  have w := (swing_arm 0).wf
  obtain ⟨g, ej⟩ := swing_jac
  obtain ⟨ow, -⟩ := jacobian_ok swingArm (swing 0) g u _ ej
  have np : ∀ err orig, err.length = 1 → nextPositions (swingSolver n) (defineOperationalSpace (onlyX [])) [] swingArm.dof
      [[0, 1, 0, 0, 0, 1]] err orig = .ok (.error .inverseMatrix) := by
    intro err orig le
    simp only [nextPositions, onlyX_count]
    rw [removeRows_onlyX [] _ (by simp)]
    have : exactLa.lu [[0]] err = none := by
      refine if_pos ?_
      rw [le]
      simp [toMat]
    simp [Bind.bind, Except.bind, removeIndices, swingArm, swingSolver, this]
  have nomc : ∀ m, ((swing 0).get m).mimicChildren = [] := by
    intro m; simp only [swing]; split
    · rfl
    · split <;> rfl
  have re : Restorable (swing 0) swingArm := by
    refine ⟨fun n hn _ r hr => ?_, fun n _ _ k hk => ?_, fun n hn m hm => ?_⟩
    · simp only [swingArm, List.mem_singleton] at hn
      subst hn
      simp [swing, NodeImpl.fresh, Joint.new] at hr
    · rw [nomc] at hk; cases hk
    · simp only [swingArm, List.mem_singleton] at hn
      subst hn; cases hm
  have ol : OneLevel (swing 0) := by
    intro m c hc; rw [nomc] at hc; cases hc
  obtain ⟨h2, r2, -, pos⟩ := restore (arm := swingArm) u ol w (swing_arm 0).nodup re ow.moved.disturbed
  refine ⟨h2, ?_, pos⟩
  rw [run_to_loop u w (is := []) rfl (by decide) (by decide)]
  obtain ⟨k, rfl⟩ := Nat.exists_eq_add_of_lt n0
  have e1 : run (solveOneLoop (swingSolver (0 + k + 1)) swingArm target (defineOperationalSpace (onlyX []))
      (sortedIndices [])) (swing 0) = .ok (.error .inverseMatrix) g := by
    simp only [solveOneLoop, run_bind, run_jointPositions _ u _ w, Res.bind_ok, run_endTransform _ _ u, ej]
    rw [show sortedIndices [] = ([] : List Nat) by simp [sortedIndices], np _ _ (by rfl)]
    rfl
  show Res.bind (run (tryLoop _ _ _ _ _ _ (0 + k + 1) none) _) _ = _
  simp only [tryLoop, run_bind, e1, Res.bind_ok, run_pure, r2]

/-- the rank condition is needed: with x instead of y constrained and the target `(1/2, 0, 0)`, which the arm
reaches at 60 degrees, the solver started from the stretched arm gives up at once with
`InverseMatrixError`, whatever the number of tries. -/
theorem C74_singular_start (n : Nat) (n0 : 0 < n) :
    (∃ g, run (jacobian swingArm) (swing 0) = .ok [[0, 1, 0, 0, 0, 1]] g) ∧
    (∃ E, run swingArm.endTransform (swing (Real.pi / 3)) = .ok E (swing (Real.pi / 3)) ∧ E.trans.x = 1 / 2) ∧
    ∃ h', run (solveWithConstraints (swingSolver n) swingArm (atX (1 / 2)) (onlyX [])) (swing 0) =
      .ok (.error .inverseMatrix) h' ∧ ∀ k, posOf h' k = posOf (swing 0) k := by
  refine ⟨swing_jac, ?_, swing_gives_up n n0 _⟩
  · rw [run_endTransform _ _ (swing_arm _).unlocked]
    refine ⟨_, rfl, ?_⟩
    have j0 : ((swing (Real.pi / 3)).get 0).joint.localTransform =
        ⟨V3.zero, Quat.fromAxisAngle ⟨0, 0, 1⟩ (Real.pi / 3)⟩ := by
      have : ((swing (Real.pi / 3)).get 0).joint =
          { Joint.new "a" (.rotational ⟨0, 0, 1⟩) with position := Real.pi / 3 } := by
        simp [swing, NodeImpl.fresh, Joint.new]
      rw [this]
      show Iso.one.mul ⟨V3.zero, Quat.fromAxisAngle ⟨0, 0, 1⟩ (Real.pi / 3)⟩ = _
      rw [Iso.one_mul']
    have j1 : ((swing (Real.pi / 3)).get 1).joint.localTransform = atX 1 := by
      have : ((swing (Real.pi / 3)).get 1).joint = { Joint.new "tip" .fixed with origin := atX 1 } := by
        simp [swing, NodeImpl.fresh]
      rw [this]
      show (atX 1).mul Iso.one = _
      rw [Iso.mul_one']
    simp only [endPose, swingArm, List.foldl_cons, List.foldl_nil, j0, j1, Iso.one_mul']
    have s : Real.sin (Real.pi / 3 / 2) = 1 / 2 := by
      rw [show Real.pi / 3 / 2 = Real.pi / 6 by ring, Real.sin_pi_div_six]
    simp [Iso.mul, Quat.fromAxisAngle, Quat.rotate, Quat.vec, Scalar.sin, V3.cross, V3.add, V3.scale, V3.zero, atX]
    norm_num [s]

end
end K
