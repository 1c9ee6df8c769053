import Verif.Lemmas.ArmCoord
import Mathlib.Topology.Instances.Matrix
import Mathlib.Analysis.Normed.Group.Constructions
/-!
# C74: convergence of the solver near a solution
-/

namespace K
open Prog Filter Topology Matrix

noncomputable section

/-- What is assumed of nalgebra for a matrix `J` with `r` rows and `n` columns: every linear system with this
matrix is solved, by SVD if there are more columns than rows and by LU otherwise, and the solution is at most
`C` times as large as the right-hand side. -/
def LinAlg.Stable (la : LinAlg ℝ) (r n : Nat) (C : ℝ) (J : Mat ℝ) : Prop :=
  ∀ b : List ℝ, b.length = r → ∃ x, (if r < n then some (la.svdSolve J b) else la.lu J b) = some x ∧
    x.length = n ∧ (∀ i < r, rowSum J i x = b.getD i 0) ∧
    ∀ B, (∀ y ∈ b, |y| ≤ B) → ∀ y ∈ x, |y| ≤ C * B

theorem insertZeros_mem : ∀ (is : List Nat) (ys zs : List ℝ), insertZeros is ys = .ok zs →
    ∀ z ∈ zs, z ∈ ys ∨ z = 0
  | [], ys, zs, e, z, hz => by cases e; exact .inl hz
  | i :: is, ys, zs, e, z, hz => by
    rw [insertZeros] at e
    split at e
    · rcases insertZeros_mem is _ zs e z hz with h | h
      · rcases (List.mem_insertIdx ‹_›).1 h with h | h
        · exact .inr h
        · exact .inl h
      · exact .inr h
    · cases e

/-- the next positions, from a stable solver -/
theorem nextPositions_stable (s : IkSolver ℝ) (cs : Constraints) (ign : List Nat)
    (jac : Mat ℝ) (full orig : List ℝ) {C : ℝ} (C0 : 0 ≤ C)
    (srt : ign.Pairwise (· < ·)) (lt : ∀ j ∈ ign, j < orig.length)
    (lj : jac.length = orig.length) (hj : ∀ col ∈ jac, col.length = 6) (lf : full.length = 6)
    (la : s.la.Stable (countTrue (defineOperationalSpace cs)) (orig.length - ign.length) C
      (reducedJac (defineOperationalSpace cs) ign jac))
    (some : 0 < countTrue (defineOperationalSpace cs))
    (enough : countTrue (defineOperationalSpace cs) ≤ orig.length - ign.length)
    (branch : ign = [] ∨ countTrue (defineOperationalSpace cs) < orig.length - ign.length)
    (null : countTrue (defineOperationalSpace cs) < orig.length - ign.length → s.nullspaceFunction = none) :
    ∃ zs : List ℝ, zs.length = orig.length ∧
      nextPositions s (defineOperationalSpace cs) ign orig.length jac
        (selectFlags (defineOperationalSpace cs) full) orig =
          .ok (.ok (addPositionsWithMultiplier s.jacobianMultiplier orig zs)) ∧
      (∀ i : Nat, (defineOperationalSpace cs)[i]? = .some true → rowSum jac i zs = full.getD i 0) ∧
      ∀ B, 0 ≤ B → (∀ i : Nat, (defineOperationalSpace cs)[i]? = .some true → |full.getD i 0| ≤ B) →
        ∀ y ∈ zs, |y| ≤ C * B := by
  generalize hops : defineOperationalSpace cs = ops at *
  have ho : ops.length = 6 := by rw [← hops]; rfl
  have rr : removeRows ops 0 0 jac = .ok (jac.map (selectFlags ops)) := by
    rw [removeRows_eq ops 0 0 jac (Nat.le_refl _) (by intro col hc; rw [hj col hc, ho])]
    simp
  have ri : removeIndices ign 0 (jac.map (selectFlags ops)) = .ok (reducedJac ops ign jac) := by
    rw [removeIndices_ok ign 0 _ srt (by simp) (by simpa [lj] using lt)]
    simp [reducedJac, dropIdx_eq]
  have il : ign.length ≤ orig.length := by
    have := removeIndices_length _ _ _ _ ri
    simp only [List.length_map, lj] at this; omega
  have lerr : (selectFlags ops full).length = countTrue ops :=
    selectFlags_length ops full (by rw [lf, ho])
  have ebound : ∀ B, (∀ i : Nat, ops[i]? = .some true → |full.getD i 0| ≤ B) →
      ∀ y ∈ selectFlags ops full, |y| ≤ B := by
    intro B hB y hy
    obtain ⟨k, hk, e⟩ := List.getElem_of_mem hy
    obtain ⟨i, hi, ek⟩ := countTrue_take_surj ops k (by rw [← lerr]; exact hk)
    have := selectFlags_getD ops full i hi
    rw [ek, List.getD_eq_getElem?_getD, List.getElem?_eq_getElem hk, Option.getD_some, e] at this
    rw [this]; exact hB i hi
  obtain ⟨x, ex, lx, sx, bx⟩ := la _ lerr
  obtain ⟨zs, ez, dz, lz, zz, -⟩ := insertZeros_ok ign x srt (fun j hj => by have := lt j hj; omega)
  have mz := insertZeros_mem ign x zs ez
  refine ⟨zs, by omega, ?_, fun i hi => ?_, fun B B0 hB y hy => ?_⟩
  · simp only [nextPositions, rr, ri, Bind.bind, Except.bind]
    by_cases gt : orig.length - ign.length > countTrue ops
    · rw [if_pos gt] at ex ⊢
      cases ex
      rw [if_neg (by omega), null gt]
      simp only [ez]
    · rw [if_neg gt] at ex ⊢
      have : ign = [] := by
        rcases branch with b | b
        · exact b
        · omega
      subst this
      cases ez
      simp only [ex]
  · rw [rowSum_reduced ops ign jac zs zz i hi, dz, sx _ (countTrue_take_lt ops i hi),
      selectFlags_getD ops full i hi]
  · rcases mz y hy with h | h
    · exact bx B (ebound B hB) y h
    · rw [h, abs_zero]; exact mul_nonneg C0 B0

section local_
variable {h : KHeap ℝ} {arm : Chain}

/-- the constrained part of the pose difference, as a function of the joint positions -/
def errAt (h : KHeap ℝ) (arm : Chain) (target : Iso ℝ) (cs : Constraints) (x : Coord arm) : Fin 6 → ℝ :=
  fun i => if (defineOperationalSpace cs)[i.1]? = some true then
    (calcPoseDiff target (poseAt h arm x)).getD i 0 else 0

/-- all joints are inside their limits -/
def InLimits (h : KHeap ℝ) (arm : Chain) (x : Coord arm) : Prop :=
  ∀ k : Fin arm.movableNodes.length, ∀ r, (h.get arm.movableNodes[k]).joint.limits = some r →
    r.min ≤ x k ∧ x k ≤ r.max

theorem clamped_inside (j : Joint ℝ) (x : ℝ) (mv : j.jointType ≠ .fixed)
    (o : ∀ r, j.limits = some r → r.min ≤ x ∧ x ≤ r.max) : (j.setJointPositionClamped x).position = x := by
  have mv : j.isMovable = true := (isMovable_iff _).2 mv
  simp only [Joint.setJointPositionClamped, mv]
  cases hl : j.limits with
  | none => rfl
  | some r =>
    obtain ⟨a, b⟩ := o r hl
    simp [Joint.setJointPositionUnchecked, Range.clamp, Scalar.lt, not_lt.2 a, not_lt.2 b]

theorem RootedArm.clamp {g : KHeap ℝ} (l : RootedArm h arm) (sb : SameBut h g) (ps : List ℝ) (x : Coord arm)
    (lp : ps.length = arm.movableNodes.length) (hx : ∀ k, x k = ps.getD k 0) (il : InLimits h arm x) :
    coordOf (clampAll (arm.movableNodes.zip ps) g) arm = x := by
  funext k
  have hk : k.1 < ps.length := by rw [lp]; exact k.2
  have mem : (arm.movableNodes[k], x k) ∈ arm.movableNodes.zip ps := by
    refine List.mem_of_getElem? (i := k.1) ?_
    rw [List.getElem?_zip_eq_some, hx, List.getD_eq_getElem?_getD, List.getElem?_eq_getElem hk]
    exact ⟨List.getElem?_eq_getElem k.2, rfl⟩
  have lg := l.same sb
  unfold coordOf
  rw [clampAll_get _ _ (l.movableNodup.sublist (zip_fst_sublist _ _)) _ mem]
  exact clamped_inside _ _ (lg.movable (List.getElem_mem _)) fun r hr => il k r (by rw [← sb.limits]; exact hr)

/-- one iteration, with a stable linear solver -/
theorem RootedArm.step {g : KHeap ℝ} (l : RootedArm h arm) (sb : SameBut h g) (sv : IkSolver ℝ) (target : Iso ℝ)
    (cs : Constraints) (ign : List Nat) {C : ℝ} (C0 : 0 ≤ C)
    (srt : ign.Pairwise (· < ·)) (lt : ∀ j ∈ ign, j < arm.dof)
    (la : sv.la.Stable (countTrue (defineOperationalSpace cs)) (arm.dof - ign.length) C
      (reducedJac (defineOperationalSpace cs) ign (jacAt h arm (coordOf g arm))))
    (some : 0 < countTrue (defineOperationalSpace cs))
    (enough : countTrue (defineOperationalSpace cs) ≤ arm.dof - ign.length)
    (branch : ign = [] ∨ countTrue (defineOperationalSpace cs) < arm.dof - ign.length)
    (null : countTrue (defineOperationalSpace cs) < arm.dof - ign.length → sv.nullspaceFunction = none) :
    ∃ d : Coord arm,
      (∀ i : Nat, (defineOperationalSpace cs)[i]? = .some true → rowAt h arm (coordOf g arm) i d =
        (calcPoseDiff target (poseAt h arm (coordOf g arm))).getD i 0) ∧
      ‖d‖ ≤ C * ‖errAt h arm target cs (coordOf g arm)‖ ∧
      (InLimits h arm (coordOf g arm + sv.jacobianMultiplier • d) →
        ∃ g1, run (solveOneLoop sv arm target (defineOperationalSpace cs) ign) g =
            .ok (.ok (calcPoseDiffWithConstraints target (poseAt h arm (coordOf g1 arm))
              (defineOperationalSpace cs))) g1 ∧
          Moved arm.nodes g g1 ∧ coordOf g1 arm = coordOf g arm + sv.jacobianMultiplier • d) := by
  have lg := l.same sb
  have u := lg.unlocked
  have w := lg.wf
  have lo : (posList g arm.movableNodes).length = arm.dof := by simp [posList, w.dof]
  have lm : arm.dof = arm.movableNodes.length := w.dof
  have lj : (jacAt h arm (coordOf g arm)).length = (posList g arm.movableNodes).length := by
    simp [jacAt, posList]
  have hj : ∀ col ∈ jacAt h arm (coordOf g arm), col.length = 6 := by
    intro col hcol
    obtain ⟨k, -, rfl⟩ := List.mem_map.1 hcol
    rfl
  obtain ⟨zs, lz, np, rows, bd⟩ := nextPositions_stable sv cs ign (jacAt h arm (coordOf g arm))
    (calcPoseDiff target (poseAt h arm (coordOf g arm))) (posList g arm.movableNodes) C0 srt
    (by rw [lo]; exact lt) lj hj rfl (by rw [lo]; exact la) some (by rw [lo]; exact enough)
    (by rw [lo]; exact branch) (by rw [lo]; exact null)
  rw [lo] at lz
  let d : Coord arm := fun k => zs.getD k 0
  refine ⟨d, fun i hi => ?_, ?_, fun il => ?_⟩
  · rw [← rows i hi]
    exact (rowSum_jacAt h arm _ d i zs (by omega) fun _ => rfl).symm
  · refine (pi_norm_le_iff_of_nonneg (by positivity)).2 fun k => ?_
    refine bd _ (norm_nonneg _) (fun i hi => ?_) _ ?_
    · have h6 : i < 6 := by
        by_contra hc
        rw [List.getElem?_eq_none (by simp [defineOperationalSpace]; omega)] at hi; cases hi
      have := norm_le_pi_norm (errAt h arm target cs (coordOf g arm)) ⟨i, h6⟩
      simpa only [errAt, hi, if_true, Real.norm_eq_abs] using this
    · have hk : k.1 < zs.length := by rw [lz, lm]; exact k.2
      simp only [d, List.getD_eq_getElem?_getD, List.getElem?_eq_getElem hk, Option.getD_some]
      exact List.getElem_mem _
  · obtain ⟨g', hjac⟩ := l.jacobian sb
    obtain ⟨ow, -⟩ := jacobian_ok arm g g' u _ hjac
    have u1 := ow.unlocked u
    let ps := addPositionsWithMultiplier sv.jacobianMultiplier (posList g arm.movableNodes) zs
    have m := moved_clamp_chain (h' := g') w ps
    have sb' := sb.trans ow.moved.sameBut
    have co : coordOf (clampAll (arm.movableNodes.zip ps) g') arm =
        coordOf g arm + sv.jacobianMultiplier • d := by
      refine l.clamp sb' ps _ (by simp [ps, addPositionsWithMultiplier, posList, lz, lm]) (fun k => ?_) il
      have hk : k.1 < zs.length := by rw [lz, lm]; exact k.2
      simp [ps, addPositionsWithMultiplier, posList, coordOf, d, List.getD_eq_getElem?_getD,
        List.getElem?_eq_getElem hk, List.getElem?_zipWith]
    refine ⟨clampAll (arm.movableNodes.zip ps) g', ?_, ow.moved.trans m, co⟩
    rw [lo] at np
    have np' : nextPositions sv (defineOperationalSpace cs) ign arm.dof (jacAt h arm (coordOf g arm))
        (calcPoseDiffWithConstraints target (K.endPose g arm.nodes) (defineOperationalSpace cs))
        (arm.movableNodes.map fun n => (g.get n).joint.position) = .ok (.ok ps) := by
      rw [l.endPose sb]; exact np
    simp only [solveOneLoop, run_bind, run_jointPositions g u arm w, Res.bind_ok,
      run_endTransform _ _ u, hjac, np', run_ofExcept_ok, run_setJointPositionsClamped _ _ _ u1,
      run_endTransform _ _ (m.unlocked u1), run_pure]
    rw [l.endPose (sb'.trans m.sameBut)]

/-- near the solution, steps of a stable solver shrink the error by a constant factor -/
theorem RootedArm.contracts (l : RootedArm h arm) {target : Iso ℝ} (rt : target.IsRigid) {cs : Constraints}
    (rot : cs.rotationX = true ∨ cs.rotationY = true ∨ cs.rotationZ = true →
      ∀ v, target.rot.rotate v = (K.endPose h arm.nodes).rot.rotate v)
    (zero : errAt h arm target cs (coordOf h arm) = 0) {m C : ℝ} (m0 : 0 < m) (m2 : m < 2) (C0 : 0 ≤ C) :
    ContinuousAt (errAt h arm target cs) (coordOf h arm) ∧
    ∃ ρ, 0 ≤ ρ ∧ ρ < 1 ∧ ∀ᶠ x in 𝓝 (coordOf h arm), ∀ d,
      ((∀ i : Nat, (defineOperationalSpace cs)[i]? = .some true →
        rowAt h arm x i d = (calcPoseDiff target (poseAt h arm x)).getD i 0) ∧
        ‖d‖ ≤ C * ‖errAt h arm target cs x‖) →
      ‖errAt h arm target cs (x + m • d)‖ ≤ ρ * ‖errAt h arm target cs x‖ := by
  let L : Coord arm →L[ℝ] (Fin 6 → ℝ) := ContinuousLinearMap.pi fun i =>
    if (defineOperationalSpace cs)[i.1]? = some true then -rowAt h arm (coordOf h arm) i else 0
  have hF : HasStrictFDerivAt (errAt h arm target cs) L (coordOf h arm) := by
    refine hasStrictFDerivAt_pi'.2 fun i => ?_
    have e : (ContinuousLinearMap.proj i).comp L = if (defineOperationalSpace cs)[i.1]? = some true then
        -rowAt h arm (coordOf h arm) i else 0 := by
      ext d; simp [L]
    rw [e]
    by_cases hi : (defineOperationalSpace cs)[i.1]? = some true
    · simp only [errAt, hi, if_true]
      refine l.diff_strict rt i.2 fun i3 => rot ?_
      obtain ⟨i, i6⟩ := i
      match i, i6, i3 with
      | 3, _, _ => exact .inl (by simpa [defineOperationalSpace] using hi)
      | 4, _, _ => exact .inr (.inl (by simpa [defineOperationalSpace] using hi))
      | 5, _, _ => exact .inr (.inr (by simpa [defineOperationalSpace] using hi))
    · simp only [errAt, hi, if_false]
      exact hasStrictFDerivAt_const _ _
  refine ⟨hF.continuousAt, newton_contracts hF zero m0 m2 C0 (fun x d =>
    (∀ i : Nat, (defineOperationalSpace cs)[i]? = .some true →
      rowAt h arm x i d = (calcPoseDiff target (poseAt h arm x)).getD i 0) ∧
      ‖d‖ ≤ C * ‖errAt h arm target cs x‖) ?_ (Eventually.of_forall fun x d hd => hd.2)⟩
  intro η η0
  have near : ∀ᶠ x in 𝓝 (coordOf h arm), ∀ i : Fin 6,
      ‖rowAt h arm x i - rowAt h arm (coordOf h arm) i‖ < η / (C + 1) := by
    rw [eventually_all]
    intro i
    have c : ContinuousAt (fun x => ‖rowAt h arm x i - rowAt h arm (coordOf h arm) i‖) (coordOf h arm) :=
      ((rowAt_continuous h arm i).sub continuous_const).norm.continuousAt
    refine c.eventually_lt_const ?_
    simp only [sub_self, norm_zero]
    positivity
  filter_upwards [near] with x hx d hd
  refine (pi_norm_le_iff_of_nonneg (by positivity)).2 fun i => ?_
  by_cases hi : (defineOperationalSpace cs)[i.1]? = some true
  · have e : (errAt h arm target cs x + L d) i = (rowAt h arm x i - rowAt h arm (coordOf h arm) i) d := by
      simp only [Pi.add_apply, errAt, hi, if_true, L, ContinuousLinearMap.pi_apply, _root_.neg_apply, _root_.sub_apply,
        hd.1 i hi]
      ring
    rw [e]
    refine (ContinuousLinearMap.le_opNorm _ _).trans ?_
    calc _ ≤ η / (C + 1) * (C * ‖errAt h arm target cs x‖) :=
          mul_le_mul (hx i).le hd.2 (norm_nonneg _) (by positivity)
      _ = η * (C / (C + 1)) * ‖errAt h arm target cs x‖ := by ring
      _ ≤ η * 1 * ‖errAt h arm target cs x‖ := by
          gcongr
          rw [div_le_one (by positivity)]; linarith
      _ = _ := by ring
  · have e : (errAt h arm target cs x + L d) i = 0 := by
      simp [Pi.add_apply, errAt, hi, L]
    rw [e, norm_zero]; positivity

end local_

theorem norm3_le (v : V3 ℝ) (B : ℝ) (B0 : 0 ≤ B) (x : |v.x| ≤ B) (y : |v.y| ≤ B) (z : |v.z| ≤ B) :
    v.norm ≤ 2 * B := by
  refine le_of_sq_le_sq ?_ (by linarith)
  rw [norm_sq]
  have h1 := mul_self_le_mul_self (abs_nonneg _) x
  have h2 := mul_self_le_mul_self (abs_nonneg _) y
  have h3 := mul_self_le_mul_self (abs_nonneg _) z
  rw [abs_mul_abs_self] at h1 h2 h3
  nlinarith [mul_self_nonneg B]

theorem errors_le (h : KHeap ℝ) (arm : Chain) (target : Iso ℝ) (cs : Constraints) (x : Coord arm) :
    (posError cs target (poseAt h arm x)).norm ≤ 2 * ‖errAt h arm target cs x‖ ∧
    (rotError cs target (poseAt h arm x)).norm ≤ 2 * ‖errAt h arm target cs x‖ := by
  have n := fun i => norm_le_pi_norm (errAt h arm target cs x) i
  have n0 := n 0
  have n1 := n 1
  have n2 := n 2
  have n3 := n 3
  have n4 := n 4
  have n5 := n 5
  generalize ‖errAt h arm target cs x‖ = B at *
  have B0 : 0 ≤ B := (norm_nonneg _).trans n0
  simp only [errAt, Real.norm_eq_abs, defineOperationalSpace, calcPoseDiff, V3.sub] at n0 n1 n2 n3 n4 n5
  constructor <;> refine norm3_le _ _ B0 ?_ ?_ ?_ <;> simp only [posError, rotError, masked, V3.sub]
  · simpa using n0
  · simpa using n1
  · simpa using n2
  · simpa using n3
  · simpa using n4
  · simpa using n5

/-- `h` is a solution of the problem: the end is at `E`, where the constrained position coordinates are those
of the target and, if any rotation coordinate is constrained, the orientation is that of the target; no movable
joint is at its limits.  `ign` are the indices of the ignored joints; no joint is ignored or more joints remain
than coordinates are constrained. -/
structure Solution (arm : Chain) (target : Iso ℝ) (cs : Constraints) (h : KHeap ℝ) (ign : List Nat)
    (E : Iso ℝ) : Prop where
  pose : run arm.endTransform h = .ok E h
  rigid : target.IsRigid
  pos : posError cs target E = V3.zero
  rot : cs.rotationX = true ∨ cs.rotationY = true ∨ cs.rotationZ = true →
    ∀ v, target.rot.rotate v = E.rot.rotate v
  inside : ∀ n ∈ arm.movableNodes, ∀ r, (h.get n).joint.limits = some r →
    r.min < (h.get n).joint.position ∧ (h.get n).joint.position < r.max
  names : cs.ignoredJointNames.Nodup
  found : ∀ a ∈ cs.ignoredJointNames, ∃ n ∈ arm.movableNodes, (h.get n).joint.name = a
  sorted : ign.Pairwise (· < ·)
  ignored : ∀ i, i ∈ ign ↔ ∃ a ∈ cs.ignoredJointNames,
    arm.movableNodes.findIdx? (fun n => (h.get n).joint.name == a) = some i
  constrained : 0 < numConstrained cs
  enough : cs.ignoredJointNames = [] ∧ numConstrained cs ≤ arm.dof ∨
    numConstrained cs < arm.dof - cs.ignoredJointNames.length

/-- the movable joints of `arm` are less than `ε` from where they are in `h` -/
def PosWithin (ε : ℝ) (arm : Chain) (h g : KHeap ℝ) : Prop :=
  ∀ n ∈ arm.movableNodes, |(g.get n).joint.position - (h.get n).joint.position| < ε

theorem posWithin_iff {ε : ℝ} (ε0 : 0 < ε) (arm : Chain) (h g : KHeap ℝ) :
    PosWithin ε arm h g ↔ dist (coordOf g arm) (coordOf h arm) < ε := by
  rw [dist_pi_lt_iff ε0]
  constructor
  · intro w k
    exact w _ (List.getElem_mem _)
  · intro w n hn
    obtain ⟨i, hi, rfl⟩ := List.getElem_of_mem hn
    exact w ⟨i, hi⟩

/-- the solver can be relied on near the solution `h`: wherever the joints are less than `r` from there, the
linear systems with the reduced Jacobian are solved, the solutions being at most `C` times as large as the error;
with more free joints than constrained coordinates there is no nullspace function -/
structure Reliable (sv : IkSolver ℝ) (arm : Chain) (cs : Constraints) (h : KHeap ℝ) (ign : List Nat) : Prop where
  near : ∃ C r, 0 ≤ C ∧ 0 < r ∧ ∀ g, SameBut h g → PosWithin r arm h g → ∀ jac g', run (jacobian arm) g = .ok jac g' →
    sv.la.Stable (numConstrained cs) (arm.dof - ign.length) C (reducedJac (defineOperationalSpace cs) ign jac)
  null : numConstrained cs < arm.dof - ign.length → sv.nullspaceFunction = none

section converge
variable {sv : IkSolver ℝ} {arm : Chain} {target : Iso ℝ} {cs : Constraints} {h : KHeap ℝ}
    {ign : List Nat} {E : Iso ℝ}

/-- the joints are near the solution and the error has been multiplied by `ρ ^ k` -/
structure Nearing (arm : Chain) (target : Iso ℝ) (cs : Constraints) (h h0 : KHeap ℝ) (a ρ R M : ℝ) (k : Nat)
    (g : KHeap ℝ) : Prop where
  moved : Moved arm.nodes h0 g
  dist : dist (coordOf g arm) (coordOf h arm) + a * ‖errAt h arm target cs (coordOf g arm)‖ < R
  err : ‖errAt h arm target cs (coordOf g arm)‖ ≤ ρ ^ k * M

/-- **C74.**  Near a solution, with a multiplier strictly between 0 and 2 and positive tolerances, the solver
converges: for every `δ` there are an `ε` and a number of tries `N` such that from all positions less than `ε`
from the solution, and with at least `N` tries, it returns `Ok`, the joints are then less than `δ` from the
solution, the remaining constrained errors are below the tolerances, and no node outside the arm has been
touched. -/
theorem C74_converges (l : RootedArm h arm) (p : Solution arm target cs h ign E) (q : Reliable sv arm cs h ign)
    (ang : 0 < sv.allowableTargetAngle) (dis : 0 < sv.allowableTargetDistance)
    (m0 : 0 < sv.jacobianMultiplier) (m2 : sv.jacobianMultiplier < 2) (δ : ℝ) (δ0 : 0 < δ) :
    ∃ ε, 0 < ε ∧ ∃ N, ∀ n, N ≤ n → ∀ h0, SameBut h h0 → PosWithin ε arm h h0 →
      ∃ h' X, run (solveWithConstraints { sv with numMaxTry := n } arm target cs) h0 = .ok (.ok ()) h' ∧
        PosWithin δ arm h h' ∧ run arm.endTransform h' = .ok X h' ∧
        (posError cs target X).norm < sv.allowableTargetDistance ∧
        (rotError cs target X).norm < sv.allowableTargetAngle ∧
        ∀ n, n ∉ arm.nodes → h'.get n = h0.get n := by
  have hE : E = endPose h arm.nodes := by
    have := p.pose
    rw [run_endTransform _ _ l.unlocked] at this
    injection this with a _
    exact a.symm
  subst hE
  have hc : countTrue (defineOperationalSpace cs) = numConstrained cs := (C30_count (T := ℝ) cs).1
  obtain ⟨is0, -, -, len, lt⟩ := ignored_indices l.wf p.names p.found p.sorted p.ignored
  have branch : numConstrained cs ≤ arm.dof - ign.length ∧
      (ign = [] ∨ numConstrained cs < arm.dof - ign.length) ∧ cs.ignoredJointNames.length ≤ arm.dof := by
    rw [len]
    have := p.constrained
    rcases p.enough with ⟨a, b⟩ | b
    · rw [a] at len ⊢
      exact ⟨by simpa using b, .inl (List.length_eq_zero_iff.1 len), Nat.zero_le _⟩
    · exact ⟨by omega, .inr b, by omega⟩
  obtain ⟨en, br, le⟩ := branch
  obtain ⟨C, r, C0, r0, stable⟩ := q.near
  have ep := l.endPose (SameBut.refl h)
  -- the error vanishes at the solution
  have zero : errAt h arm target cs (coordOf h arm) = 0 := by
    funext i
    by_cases hi : (defineOperationalSpace cs)[i.1]? = some true
    · simp only [errAt, hi, if_true, Pi.zero_apply]
      rw [← ep]
      have px := congrArg V3.x p.pos
      have py := congrArg V3.y p.pos
      have pz := congrArg V3.z p.pos
      simp only [posError, masked, V3.zero] at px py pz
      have rr : ∀ (_ : cs.rotationX = true ∨ cs.rotationY = true ∨ cs.rotationZ = true),
          ((endPose h arm.nodes).rot.rotationTo target.rot).scaledAxis = V3.zero := by
        intro hr
        have := (C37_zero_iff ⟨(endPose h arm.nodes).trans, target.rot⟩ (endPose h arm.nodes) p.rigid
          (ep ▸ l.pose_rigid _)).2 (fun v => by simp only [Iso.apply]; rw [p.rot hr])
        simp only [calcPoseDiff, List.cons.injEq] at this
        exact V3.ext this.2.2.2.1 this.2.2.2.2.1 this.2.2.2.2.2.1
      obtain ⟨i, i6⟩ := i
      simp only [defineOperationalSpace] at hi
      match i, i6 with
      | 0, _ => simpa [calcPoseDiff, show cs.positionX = true by simpa using hi] using px
      | 1, _ => simpa [calcPoseDiff, show cs.positionY = true by simpa using hi] using py
      | 2, _ => simpa [calcPoseDiff, show cs.positionZ = true by simpa using hi] using pz
      | 3, _ => exact congrArg V3.x (rr (.inl (by simpa using hi)))
      | 4, _ => exact congrArg V3.y (rr (.inr (.inl (by simpa using hi))))
      | 5, _ => exact congrArg V3.z (rr (.inr (.inr (by simpa using hi))))
    · simp [errAt, hi]
  obtain ⟨cont, ρ, ρ0, ρ1, con⟩ := l.contracts p.rigid p.rot zero m0 m2 C0
  have lim : ∀ᶠ x in 𝓝 (coordOf h arm), InLimits h arm x := by
    unfold InLimits
    rw [eventually_all]
    intro k
    cases hl : (h.get arm.movableNodes[k]).joint.limits with
    | none => exact Eventually.of_forall fun x r hr => by cases hr
    | some rg =>
      obtain ⟨a, b⟩ := p.inside _ (List.getElem_mem _) rg hl
      have ca : ContinuousAt (fun x : Coord arm => x k) (coordOf h arm) := (continuous_apply k).continuousAt
      filter_upwards [ca.eventually_const_lt a, ca.eventually_lt_const b] with x h1 h2 r hr
      cases hr
      exact ⟨h1.le, h2.le⟩
  obtain ⟨r1, r10, hr1⟩ := Metric.eventually_nhds_iff.1 (con.and lim)
  set R := min δ (min r r1) with hR
  have R0 : 0 < R := lt_min δ0 (lt_min r0 r10)
  set a := sv.jacobianMultiplier * C / (1 - ρ) with ha
  have ρp : 0 < 1 - ρ := by linarith
  have a0 : 0 ≤ a := by positivity
  -- where to start
  have start : ∀ᶠ x in 𝓝 (coordOf h arm), dist x (coordOf h arm) + a * ‖errAt h arm target cs x‖ < R ∧
      ‖errAt h arm target cs x‖ < 1 := by
    have n0 : ContinuousAt (fun x => ‖errAt h arm target cs x‖) (coordOf h arm) := cont.norm
    have d0 : ContinuousAt (fun x => dist x (coordOf h arm) + a * ‖errAt h arm target cs x‖) (coordOf h arm) :=
      (continuous_id.dist continuous_const).continuousAt.add (n0.const_mul a)
    refine (d0.eventually_lt_const ?_).and (n0.eventually_lt_const ?_)
    · simp only [dist_self, zero, norm_zero, mul_zero, add_zero]; exact R0
    · simp only [zero, norm_zero]; norm_num
  obtain ⟨ε, ε0, hε⟩ := Metric.eventually_nhds_iff.1 start
  have pw := (tendsto_pow_atTop_nhds_zero_of_lt_one ρ0 ρ1).const_mul 2
  rw [mul_zero] at pw
  obtain ⟨N, hN⟩ := (pw.eventually (gt_mem_nhds (lt_min ang dis))).exists_forall_of_atTop
  refine ⟨ε, ε0, N + 1, fun n hn h0 sb0 w0 => ?_⟩
  generalize hsv : ({ sv with numMaxTry := n } : IkSolver ℝ) = sv'
  have v1 : sv'.la = sv.la := by rw [← hsv]
  have v2 : sv'.jacobianMultiplier = sv.jacobianMultiplier := by rw [← hsv]
  have v3 : sv'.nullspaceFunction = sv.nullspaceFunction := by rw [← hsv]
  have v4 : sv'.allowableTargetAngle = sv.allowableTargetAngle := by rw [← hsv]
  have v5 : sv'.allowableTargetDistance = sv.allowableTargetDistance := by rw [← hsv]
  have v6 : sv'.numMaxTry = n := by rw [← hsv]
  obtain ⟨s1, s2⟩ := hε ((posWithin_iff ε0 arm h h0).1 w0)
  have init : Nearing arm target cs h h0 a ρ R 1 0 h0 := ⟨.refl _ _, s1, by simpa using s2.le⟩
  -- one step
  have next : ∀ k g, Nearing arm target cs h h0 a ρ R 1 k g → ∃ g1,
      run (solveOneLoop sv' arm target (defineOperationalSpace cs) ign) g =
        .ok (.ok (calcPoseDiffWithConstraints target (poseAt h arm (coordOf g1 arm))
          (defineOperationalSpace cs))) g1 ∧ Nearing arm target cs h h0 a ρ R 1 (k + 1) g1 := by
    intro k g ng
    have sb := sb0.trans ng.moved.sameBut
    have nn := norm_nonneg (errAt h arm target cs (coordOf g arm))
    have dR : dist (coordOf g arm) (coordOf h arm) < R := by
      have := ng.dist
      have := mul_nonneg a0 nn
      linarith
    have wr : PosWithin r arm h g := (posWithin_iff r0 arm h g).2 (dR.trans_le ((min_le_right _ _).trans (min_le_left _ _)))
    obtain ⟨g2, hj⟩ := l.jacobian sb
    obtain ⟨d, d1, d2, d3⟩ := l.step sb sv' target cs ign C0 p.sorted lt
      (by rw [hc, v1]; exact stable g sb wr _ _ hj) (by rw [hc]; exact p.constrained) (by rw [hc]; exact en)
      (by rw [hc]; exact br) (by rw [hc, v3]; exact q.null)
    obtain ⟨c1, -⟩ := hr1 (dR.trans_le ((min_le_right _ _).trans (min_le_right _ _)))
    have c2 := c1 d ⟨d1, d2⟩
    rw [v2] at d3
    have md : ‖sv.jacobianMultiplier • d‖ ≤ sv.jacobianMultiplier * C * ‖errAt h arm target cs (coordOf g arm)‖ := by
      rw [norm_smul, Real.norm_of_nonneg m0.le, mul_assoc]
      exact mul_le_mul_of_nonneg_left d2 m0.le
    have dd : dist (coordOf g arm + sv.jacobianMultiplier • d) (coordOf h arm) ≤
        dist (coordOf g arm) (coordOf h arm) + ‖sv.jacobianMultiplier • d‖ := by
      have := dist_triangle (coordOf g arm + sv.jacobianMultiplier • d) (coordOf g arm) (coordOf h arm)
      rw [dist_eq_norm (coordOf g arm + sv.jacobianMultiplier • d) (coordOf g arm), add_sub_cancel_left] at this
      linarith
    have aeq : sv.jacobianMultiplier * C = a * (1 - ρ) := by rw [ha]; field_simp
    have nd : dist (coordOf g arm + sv.jacobianMultiplier • d) (coordOf h arm) +
        a * ‖errAt h arm target cs (coordOf g arm + sv.jacobianMultiplier • d)‖ < R := by
      refine lt_of_le_of_lt ?_ ng.dist
      rw [aeq] at md
      have := mul_le_mul_of_nonneg_left c2 a0
      nlinarith
    have dl : dist (coordOf g arm + sv.jacobianMultiplier • d) (coordOf h arm) < R := by
      have := mul_nonneg a0 (norm_nonneg (errAt h arm target cs (coordOf g arm + sv.jacobianMultiplier • d)))
      linarith
    obtain ⟨g1, e1, m1, co⟩ := d3 (hr1 (dl.trans_le ((min_le_right _ _).trans (min_le_right _ _)))).2
    refine ⟨g1, e1, ng.moved.trans m1, by rw [co]; exact nd, ?_⟩
    rw [co]
    refine c2.trans ?_
    rw [pow_succ, mul_comm (ρ ^ k) ρ, mul_assoc]
    exact mul_le_mul_of_nonneg_left ng.err ρ0
  -- when the test is passed
  have test : ∀ g : KHeap ℝ, reached sv' (posError cs target (poseAt h arm (coordOf g arm)))
      (rotError cs target (poseAt h arm (coordOf g arm))) = true ↔
      (posError cs target (poseAt h arm (coordOf g arm))).norm < sv.allowableTargetDistance ∧
      (rotError cs target (poseAt h arm (coordOf g arm))).norm < sv.allowableTargetAngle := by
    intro g
    simp [reached, Scalar.lt, v4, v5]
  have hit : ∀ k g, Nearing arm target cs h h0 a ρ R 1 k g → N ≤ k →
      reached sv' (posError cs target (poseAt h arm (coordOf g arm)))
        (rotError cs target (poseAt h arm (coordOf g arm))) = true := by
    intro k g ng hk
    obtain ⟨e1, e2⟩ := errors_le h arm target cs (coordOf g arm)
    have := ng.err
    have := hN k hk
    obtain ⟨t1, t2⟩ := lt_min_iff.1 this
    rw [test]
    constructor <;> linarith
  have loop : ∀ left k g last, Nearing arm target cs h h0 a ρ R 1 k g → 1 ≤ left → N ≤ k + left →
      ∃ g', run (tryLoop sv' arm target (defineOperationalSpace cs) ign (posList h0 arm.movableNodes) left last) g =
        .ok (.ok ()) g' ∧ Moved arm.nodes h0 g' ∧ dist (coordOf g' arm) (coordOf h arm) < R ∧
        (posError cs target (poseAt h arm (coordOf g' arm))).norm < sv.allowableTargetDistance ∧
        (rotError cs target (poseAt h arm (coordOf g' arm))).norm < sv.allowableTargetAngle := by
    intro left
    induction left with
    | zero => intro k g last _ x; omega
    | succ left ih =>
      intro k g last ng _ hk
      obtain ⟨g1, e1, n1⟩ := next k g ng
      simp only [tryLoop, run_bind, e1, Res.bind_ok, C30_split]
      by_cases rc : reached sv' (posError cs target (poseAt h arm (coordOf g1 arm)))
        (rotError cs target (poseAt h arm (coordOf g1 arm))) = true
      · rw [if_pos rc]
        have sb1 := sb0.trans n1.moved.sameBut
        have l1 := l.same sb1
        have m := moved_clamp_chain (h' := g1) l.wf (posList g1 arm.movableNodes)
        have dR : dist (coordOf g1 arm) (coordOf h arm) < R := by
          have := n1.dist
          have := mul_nonneg a0 (norm_nonneg (errAt h arm target cs (coordOf g1 arm)))
          linarith
        have co : coordOf (clampAll (arm.movableNodes.zip (posList g1 arm.movableNodes)) g1) arm = coordOf g1 arm := by
          refine l.clamp sb1 _ _ (by simp [posList]) (fun k => ?_)
            (hr1 (dR.trans_le ((min_le_right _ _).trans (min_le_right _ _)))).2
          simp [posList, coordOf, List.getD_eq_getElem?_getD]
        refine ⟨clampAll (arm.movableNodes.zip (posList g1 arm.movableNodes)) g1, ?_, n1.moved.trans m, ?_, ?_⟩
        · rw [run_bind, run_jointPositions g1 l1.unlocked arm l1.wf, Res.bind_ok, run_bind,
            run_setJointPositionsClamped _ _ _ l1.unlocked]
          rfl
        · rw [co]; exact dR
        · rw [co]; exact (test g1).1 rc
      · rw [if_neg rc]
        have l1 : 1 ≤ left := by
          by_contra hl
          exact rc (hit (k + 1) g1 n1 (by omega))
        exact ih (k + 1) g1 _ n1 l1 (by omega)
  obtain ⟨h', e, mv, dR, t1, t2⟩ := loop n 0 h0 none init (by omega) (by omega)
  have sb' := sb0.trans mv.sameBut
  refine ⟨h', _, ?_, (posWithin_iff δ0 arm h h').2 (dR.trans_le (min_le_left _ _)),
    run_endTransform _ _ (mv.unlocked (sb0.unlocked l.unlocked)), ?_, ?_, mv.outside⟩
  · obtain ⟨is, ni, eq, -, -⟩ := ignored_indices (h := h0) (sb0.chainWf l.wf) p.names
      (fun a ha => by
        obtain ⟨n, hn, e⟩ := p.found a ha
        exact ⟨n, hn, by rw [sb0.name]; exact e⟩) p.sorted
      (fun i => by simp only [sb0.name]; exact p.ignored i)
    rw [run_to_loop (sb0.unlocked l.unlocked) (sb0.chainWf l.wf) ni le (by rw [hc, ← len]; exact en), eq, v6, e]
    rfl
  · rw [l.endPose sb']; exact t1
  · rw [l.endPose sb']; exact t2

end converge

/-! ## full rank at the solution is enough -/

/-- What is assumed of nalgebra's solvers for matrices of full row rank: LU solves non-singular square systems,
and the SVD solution of a system with independent rows is the shortest solution. -/
structure LinAlg.Exact (la : LinAlg ℝ) : Prop where
  lu : ∀ (r : Nat) (J : Mat ℝ), J.length = r → (∀ col ∈ J, col.length = r) → (toMat r r J).det ≠ 0 →
    ∀ b, b.length = r → ∃ x, la.lu J b = some x ∧ x.length = r ∧ ∀ i < r, rowSum J i x = b.getD i 0
  svd : ∀ (r n : Nat) (J : Mat ℝ), J.length = n → (∀ col ∈ J, col.length = r) →
    (toMat r n J * (toMat r n J)ᵀ).det ≠ 0 → ∀ b, b.length = r →
      (la.svdSolve J b).length = n ∧ (∀ i < r, rowSum J i (la.svdSolve J b) = b.getD i 0) ∧
      ∀ y, y.length = n → (∀ i < r, rowSum J i y = b.getD i 0) →
        ((la.svdSolve J b).map (· ^ 2)).sum ≤ (y.map (· ^ 2)).sum

/-- the matrix the solver works with, as a function of the joint positions -/
def matAt (h : KHeap ℝ) (arm : Chain) (cs : Constraints) (ign : List Nat) (r n : Nat) (x : Coord arm) :
    Matrix (Fin r) (Fin n) ℝ := toMat r n (reducedJac (defineOperationalSpace cs) ign (jacAt h arm x))

theorem matAt_continuous (h : KHeap ℝ) (arm : Chain) (cs : Constraints) (ign : List Nat) (r n : Nat)
    (hr : r = countTrue (defineOperationalSpace cs)) : Continuous (matAt h arm cs ign r n) := by
  refine continuous_matrix fun i j => ?_
  have e : ∀ x : Coord arm, reducedJac (defineOperationalSpace cs) ign (jacAt h arm x) =
      (dropIdx ign arm.movableNodes).map fun k => selectFlags (defineOperationalSpace cs) (colAt h arm x k) := by
    intro x
    rw [reducedJac, jacAt, List.map_map, dropIdx_eq, dropFrom_map, dropIdx_eq]; rfl
  simp only [matAt, toMat, Matrix.of_apply, e]
  obtain ⟨i', hi', ei⟩ := countTrue_take_surj (defineOperationalSpace cs) i.1 (hr ▸ i.2)
  by_cases hj : j.1 < (dropIdx ign arm.movableNodes).length
  · have g : ∀ x : Coord arm, (((dropIdx ign arm.movableNodes).map fun k =>
        selectFlags (defineOperationalSpace cs) (colAt h arm x k)).getD j []).getD i 0 =
        (colAt h arm x (dropIdx ign arm.movableNodes)[j.1]).getD i' 0 := by
      intro x
      rw [← selectFlags_getD _ _ i' hi', ei]
      simp [List.getD_eq_getElem?_getD, List.getElem?_eq_getElem hj]
    simp only [g]
    exact colAt_continuous h arm _ _
  · have g : ∀ x : Coord arm, (((dropIdx ign arm.movableNodes).map fun k =>
        selectFlags (defineOperationalSpace cs) (colAt h arm x k)).getD j []).getD i 0 = 0 := by
      intro x
      rw [List.getD_eq_getElem?_getD (i := j.1), List.getElem?_eq_none (by simpa using not_lt.1 hj)]
      simp
    simp only [g]
    exact continuous_const

theorem entries_bounded {X : Type} [TopologicalSpace X] {r n : Nat} {P : X → Matrix (Fin r) (Fin n) ℝ} {x0 : X}
    (hP : ContinuousAt P x0) : ∃ K, 0 ≤ K ∧ ∀ᶠ x in 𝓝 x0, ∀ i j, |P x i j| ≤ K := by
  refine ⟨∑ i, ∑ j, (|P x0 i j| + 1), by positivity, ?_⟩
  have : ∀ᶠ x in 𝓝 x0, ∀ i j, |P x i j| < |P x0 i j| + 1 := by
    rw [eventually_all]; intro i
    rw [eventually_all]; intro j
    have c : ContinuousAt (fun x => |P x i j|) x0 := by
      have c1 : ContinuousAt (fun M : Matrix (Fin r) (Fin n) ℝ => M i j) (P x0) :=
        (continuous_id.matrix_elem i j).continuousAt
      have c2 : ContinuousAt (fun x => P x i j) x0 := ContinuousAt.comp (f := P) (x := x0) c1 hP
      exact c2.abs
    exact c.eventually_lt_const (by linarith)
  filter_upwards [this] with x hx i j
  refine (hx i j).le.trans ?_
  have h1 : |P x0 i j| + 1 ≤ ∑ j, (|P x0 i j| + 1) :=
    Finset.single_le_sum (f := fun j => |P x0 i j| + 1) (fun j _ => by positivity) (Finset.mem_univ j)
  exact h1.trans (Finset.single_le_sum (f := fun i => ∑ j, (|P x0 i j| + 1)) (fun i _ => by positivity)
    (Finset.mem_univ i))

theorem mulVec_bound {r n : Nat} (P : Matrix (Fin n) (Fin r) ℝ) {K : ℝ} (hP : ∀ i j, |P i j| ≤ K) (b : Fin r → ℝ)
    {B : ℝ} (hb : ∀ j, |b j| ≤ B) (i : Fin n) : |(P *ᵥ b) i| ≤ r * K * B := by
  have : ∀ j, |P i j * b j| ≤ K * B := by
    intro j
    rw [abs_mul]
    exact mul_le_mul (hP i j) (hb j) (abs_nonneg _) ((abs_nonneg _).trans (hP i j))
  have e : (P *ᵥ b) i = ∑ j, P i j * b j := rfl
  rw [e]
  refine (Finset.abs_sum_le_sum_abs _ _).trans ((Finset.sum_le_sum fun j _ => this j).trans ?_)
  simp [mul_assoc]

theorem inv_continuousAt {X : Type} [TopologicalSpace X] {r : Nat} {P : X → Matrix (Fin r) (Fin r) ℝ} {x0 : X}
    (hP : Continuous P) (d : (P x0).det ≠ 0) : ContinuousAt (fun x => (P x)⁻¹) x0 := by
  have c : ContinuousAt Ring.inverse (P x0).det := by
    rw [Ring.inverse_eq_inv']
    exact continuousAt_inv₀ d
  exact ContinuousAt.comp (f := P) (x := x0) (continuousAt_matrix_inv _ c) hP.continuousAt

theorem toVec_abs {r : Nat} {b : List ℝ} (lb : b.length = r) {B : ℝ} (hB : ∀ y ∈ b, |y| ≤ B) (j : Fin r) :
    |toVec r b j| ≤ B := by
  have hj : j.1 < b.length := by rw [lb]; exact j.2
  simp only [toVec, List.getD_eq_getElem?_getD, List.getElem?_eq_getElem hj, Option.getD_some]
  exact hB _ (List.getElem_mem _)

/-- **C74, full rank.**  With exact solvers it is enough that the Jacobian, restricted to the constrained
coordinates and the joints that are not ignored, has independent rows at the solution. -/
theorem C74_full_rank {sv : IkSolver ℝ} {arm : Chain} {target : Iso ℝ} {cs : Constraints} {h : KHeap ℝ}
    {ign : List Nat} {E : Iso ℝ} (l : RootedArm h arm) (p : Solution arm target cs h ign E) (ex : sv.la.Exact)
    (null : numConstrained cs < arm.dof - ign.length → sv.nullspaceFunction = none)
    {jac : Mat ℝ} {g : KHeap ℝ} (hj : run (jacobian arm) h = .ok jac g)
    (rank : (toMat (numConstrained cs) (arm.dof - ign.length) (reducedJac (defineOperationalSpace cs) ign jac) *
      (toMat (numConstrained cs) (arm.dof - ign.length) (reducedJac (defineOperationalSpace cs) ign jac))ᵀ).det ≠ 0) :
    Reliable sv arm cs h ign := by
  have hc : countTrue (defineOperationalSpace cs) = numConstrained cs := (C30_count (T := ℝ) cs).1
  obtain ⟨is0, -, -, len, lt⟩ := ignored_indices l.wf p.names p.found p.sorted p.ignored
  have en : numConstrained cs ≤ arm.dof - ign.length := by
    rw [len]
    rcases p.enough with ⟨a, b⟩ | b
    · rw [a]; simpa using b
    · omega
  obtain ⟨g0, ej⟩ := l.jacobian (SameBut.refl h)
  rw [hj] at ej; cases ej
  have shape : ∀ x : Coord arm,
      (reducedJac (defineOperationalSpace cs) ign (jacAt h arm x)).length = arm.dof - ign.length ∧
      ∀ col ∈ reducedJac (defineOperationalSpace cs) ign (jacAt h arm x), col.length = numConstrained cs := by
    intro x
    have lj : (jacAt h arm x).length = arm.dof := by simp [jacAt, l.wf.dof]
    have hl : ∀ j ∈ ign, j - 0 < ((jacAt h arm x).map (selectFlags (defineOperationalSpace cs))).length := by
      simpa [lj] using lt
    have ri := removeIndices_ok ign 0 ((jacAt h arm x).map (selectFlags (defineOperationalSpace cs))) p.sorted
      (by simp) (by simpa [lj] using lt)
    have rl := removeIndices_length _ _ _ _ ri
    simp only [Nat.sub_zero, List.map_id', List.length_map, lj] at rl
    rw [reducedJac, dropIdx_eq]
    refine ⟨by omega, fun col hcol => ?_⟩
    have := dropFrom_subset 0 ign _ col hcol
    obtain ⟨y, hy, rfl⟩ := List.mem_map.1 this
    obtain ⟨k, -, rfl⟩ := List.mem_map.1 hy
    rw [← hc]
    exact selectFlags_length _ _ rfl
  refine ⟨?_, null⟩
  clear null
  generalize hr : numConstrained cs = r at *
  generalize hn : arm.dof - ign.length = n at *
  have cM : Continuous (matAt h arm cs ign r n) := matAt_continuous h arm cs ign r n hc.symm
  have cG : Continuous fun x => matAt h arm cs ign r n x * (matAt h arm cs ign r n x)ᵀ :=
    cM.matrix_mul cM.matrix_transpose
  have regular : ∀ᶠ x in 𝓝 (coordOf h arm),
      (matAt h arm cs ign r n x * (matAt h arm cs ign r n x)ᵀ).det ≠ 0 :=
    cG.matrix_det.continuousAt.eventually_ne rank
  have cP : ContinuousAt (fun x => (matAt h arm cs ign r n x)ᵀ *
      (matAt h arm cs ign r n x * (matAt h arm cs ign r n x)ᵀ)⁻¹) (coordOf h arm) := by
    have c1 := inv_continuousAt cG rank
    have c2 : ContinuousAt (fun x => (matAt h arm cs ign r n x)ᵀ) (coordOf h arm) :=
      cM.matrix_transpose.continuousAt
    have mul : Continuous fun q : Matrix (Fin n) (Fin r) ℝ × Matrix (Fin r) (Fin r) ℝ => q.1 * q.2 :=
      continuous_fst.matrix_mul continuous_snd
    exact ContinuousAt.comp (f := fun x => ((matAt h arm cs ign r n x)ᵀ,
      (matAt h arm cs ign r n x * (matAt h arm cs ign r n x)ᵀ)⁻¹)) (x := coordOf h arm)
      mul.continuousAt (c2.prodMk c1)
  obtain ⟨K, K0, hK⟩ := entries_bounded cP
  obtain ⟨ρ, ρ0, hρ⟩ := Metric.eventually_nhds_iff.1 (regular.and hK)
  refine ⟨n * (r * K) + r * K, ρ, by positivity, ρ0, fun g' sb w jac' g'' ej' => ?_⟩
  obtain ⟨g3, ej3⟩ := l.jacobian sb
  rw [ej'] at ej3; cases ej3
  obtain ⟨reg, bd⟩ := hρ ((posWithin_iff ρ0 arm h g').1 w)
  obtain ⟨lJ, cJ⟩ := shape (coordOf g' arm)
  set J := reducedJac (defineOperationalSpace cs) ign (jacAt h arm (coordOf g' arm)) with hJ
  have hM : matAt h arm cs ign r n (coordOf g' arm) = toMat r n J := rfl
  rw [hM] at reg bd
  intro b lb
  -- a solution that is not too long
  let y : List ℝ := List.ofFn (((toMat r n J)ᵀ * (toMat r n J * (toMat r n J)ᵀ)⁻¹) *ᵥ toVec r b)
  have ly : y.length = n := by simp [y]
  have vy : toVec n y = ((toMat r n J)ᵀ * (toMat r n J * (toMat r n J)ᵀ)⁻¹) *ᵥ toVec r b := by
    funext j
    simp [toVec, y, List.getD_eq_getElem?_getD]
  have solve : ∀ i < r, rowSum J i y = b.getD i 0 := by
    intro i hi
    rw [rowSum_mulVec r n J y lJ ly ⟨i, hi⟩, vy, Matrix.mulVec_mulVec, ← Matrix.mul_assoc,
      Matrix.mul_nonsing_inv _ (isUnit_iff_ne_zero.2 reg), Matrix.one_mulVec]
    rfl
  have ybd : ∀ B, (∀ z ∈ b, |z| ≤ B) → ∀ j, |toVec n y j| ≤ r * K * B := by
    intro B hB j
    rw [vy]
    exact mulVec_bound _ bd _ (toVec_abs lb hB) j
  by_cases sq : r < n
  · rw [if_pos sq]
    obtain ⟨lx, sx, short⟩ := ex.svd r n J lJ cJ reg b lb
    refine ⟨_, rfl, lx, sx, fun B hB z hz => ?_⟩
    have sh := short y ly solve
    generalize la : sv.la.svdSolve J b = x at *
    have B0 : 0 ≤ r * K * B := by
      have := ybd B hB ⟨0, by omega⟩
      exact (abs_nonneg _).trans this
    have zz : z ^ 2 ≤ (x.map (· ^ 2)).sum :=
      List.single_le_sum (by simp only [List.mem_map]; rintro _ ⟨w, -, rfl⟩; positivity) _
        (List.mem_map.2 ⟨z, hz, rfl⟩)
    have ys : (y.map (· ^ 2)).sum ≤ n * (r * K * B) ^ 2 := by
      have : ∀ w ∈ y.map (· ^ 2), w ≤ (r * K * B) ^ 2 := by
        intro w hw
        obtain ⟨v, hv, rfl⟩ := List.mem_map.1 hw
        obtain ⟨j, hj, rfl⟩ := List.getElem_of_mem hv
        have := ybd B hB ⟨j, by rw [← ly]; exact hj⟩
        simp only [toVec, List.getD_eq_getElem?_getD, List.getElem?_eq_getElem hj, Option.getD_some] at this
        exact sq_le_sq' (by linarith [(abs_le.1 this).1]) (abs_le.1 this).2
      have := List.sum_le_card_nsmul _ _ this
      simpa [ly] using this
    have n1 : (1 : ℝ) ≤ n := by
      have : 1 ≤ n := by omega
      exact_mod_cast this
    have fin : z ^ 2 ≤ (n * (r * K * B)) ^ 2 := by
      have : (n : ℝ) * (r * K * B) ^ 2 ≤ (n * (r * K * B)) ^ 2 := by
        have := mul_self_nonneg (r * K * B)
        nlinarith
      linarith
    have := abs_le_of_sq_le_sq fin (by positivity)
    refine this.trans ?_
    nlinarith
  · have sqe : r = n := by omega
    subst sqe
    rw [if_neg sq]
    have dJ : (toMat r r J).det ≠ 0 := by
      intro z
      rw [Matrix.det_mul, z, zero_mul] at reg
      exact reg rfl
    obtain ⟨x, e, lx, sx⟩ := ex.lu r J lJ cJ dJ b lb
    refine ⟨x, e, lx, sx, fun B hB z hz => ?_⟩
    have xy : toVec r x = toVec r y := by
      have h1 : toMat r r J *ᵥ toVec r x = toMat r r J *ᵥ toVec r y := by
        funext i
        rw [← rowSum_mulVec r r J x lJ lx i, ← rowSum_mulVec r r J y lJ ly i, sx i i.2, solve i i.2]
      have h2 := congrArg ((toMat r r J)⁻¹ *ᵥ ·) h1
      simpa [Matrix.mulVec_mulVec, Matrix.nonsing_inv_mul _ (isUnit_iff_ne_zero.2 dJ)] using h2
    obtain ⟨j, hj, rfl⟩ := List.getElem_of_mem hz
    have h3 := ybd B hB ⟨j, by rw [← lx]; exact hj⟩
    rw [← xy] at h3
    have B0 := (abs_nonneg _).trans h3
    simp only [toVec, List.getD_eq_getElem?_getD, List.getElem?_eq_getElem hj, Option.getD_some] at h3
    have n0 : (0 : ℝ) ≤ r := by positivity
    nlinarith

end
end K
