import Verif.Props.Tries
import Verif.Props.FrameEx
/-!
# C86: concrete cases
-/

namespace K
open Prog Matrix

noncomputable section

theorem gantry_noMimic (m : NodeId) : (gantry.get m).mimicChildren = [] := by
  simp only [gantry]
  split
  · rfl
  · split
    · rfl
    · split <;> rfl

theorem gantry_noMimicParent (m : NodeId) : (gantry.get m).mimicParent = none := by
  simp only [gantry]
  split
  · rfl
  · split
    · rfl
    · split <;> rfl

theorem gantry_oneLevel : OneLevel gantry := by
  intro m c hc; rw [gantry_noMimic] at hc; cases hc

theorem gantry_noLimits {n : NodeId} (hn : n ∈ gantryArm.nodes) : (gantry.get n).joint.limits = none := by
  rcases gantry_nodes hn with ⟨-, e⟩ | ⟨-, e⟩ | ⟨-, e⟩ <;> rw [e] <;> rfl

theorem gantry_restorable : Restorable gantry gantryArm := by
  refine ⟨fun n hn _ r hr => ?_, fun n _ _ k hk => ?_, fun n hn m hm => ?_⟩
  · rw [gantry_noLimits hn] at hr; cases hr
  · rw [gantry_noMimic] at hk; cases hk
  · rw [gantry_noMimicParent] at hm; cases hm

/-- Three sliders and a target at distance 1, tolerance 1/100: six tries are too few, from seven on every number
of tries gives the same `Ok` with the same joint positions. -/
theorem C86_gantry (t : V3 ℝ) (ht : t.norm = 1) :
    (∃ d r h', run (solveWithConstraints ((swingSolver 0).withTries 6) gantryArm ⟨t, Quat.one⟩ onlyPosition) gantry =
      .ok (.error (.notConverged 6 d r)) h') ∧
    ∃ h', ∀ m, 7 ≤ m →
      run (solveWithConstraints ((swingSolver 0).withTries m) gantryArm ⟨t, Quat.one⟩ onlyPosition) gantry =
        .ok (.ok ()) h' := by
  have one : (posError onlyPosition ⟨t, Quat.one⟩ Iso.one).norm = 1 := by
    rw [← ht]
    simp [posError, masked, onlyPosition, V3.sub, Iso.one, V3.zero, V3.norm]
  constructor
  · obtain ⟨h', e, -⟩ := C70_fails gantry_sliding (gantry_posed t 6) (by norm_num [swingSolver])
      (by norm_num [swingSolver]) (fun i i1 i6 => by
        rw [one]
        have : i ≤ 6 := i6
        rcases (by omega : i = 1 ∨ i = 2 ∨ i = 3 ∨ i = 4 ∨ i = 5 ∨ i = 6) with rfl | rfl | rfl | rfl | rfl | rfl <;>
          norm_num [swingSolver, abs_of_pos]) gantry_oneLevel gantry_restorable
    exact ⟨_, _, h', e⟩
  · obtain ⟨h', e⟩ := (C70_iff gantry_sliding (gantry_posed t 7) (by norm_num [swingSolver])).2 ⟨7, by omega, Nat.le_refl _, by
      rw [one]; norm_num [swingSolver, abs_of_pos]⟩
    exact ⟨h', fun m hm => C86_success_stays gantry h' gantry_arm.unlocked gantry_arm.wf 7 m hm e⟩

/-- seven tries are enough for the tolerances 1/100, hence also for greater ones -/
example (t : V3 ℝ) (ht : t.norm = 1) (d a : ℝ) (ld : 1 / 100 ≤ d) (la : 1 / 100 ≤ a) :
    ∃ h', run (solveWithConstraints ((swingSolver 7).withTolerances d a) gantryArm ⟨t, Quat.one⟩ onlyPosition) gantry =
      .ok (.ok ()) h' := by
  obtain ⟨-, h', e⟩ := C86_gantry t ht
  exact C86_wider gantry h' gantry_arm.unlocked gantry_arm.wf d a (by simpa [Scalar.le, swingSolver] using ld)
    (by simpa [Scalar.le, swingSolver] using la) (e 7 (by omega))

/-- the exact linear solver takes zeros to zeros -/
theorem exactLa_homogeneous : exactLa.Homogeneous where
  lu := by
    intro J b x z e
    have zb : toVec b.length b = 0 := by
      funext i; simp only [toVec, List.getD_eq_getElem?_getD, Pi.zero_apply]
      rw [List.getElem?_eq_getElem i.2]; exact z _ (List.getElem_mem _)
    simp only [exactLa] at e
    split at e
    · cases e
    · cases e
      rw [zb, Matrix.mulVec_zero]
      intro v hv
      obtain ⟨i, rfl⟩ := List.mem_ofFn.1 hv
      rfl
  svd := by
    intro J b z v hv
    have zb : toVec b.length b = 0 := by
      funext i; simp only [toVec, List.getD_eq_getElem?_getD, Pi.zero_apply]
      rw [List.getElem?_eq_getElem i.2]; exact z _ (List.getElem_mem _)
    simp only [exactLa] at hv
    rw [zb, Matrix.mulVec_zero] at hv
    obtain ⟨i, rfl⟩ := List.mem_ofFn.1 hv
    rfl

/-- the gantry asked to go where it is answers `Ok` and stays -/
theorem C86_gantry_stays (n : Nat) (n0 : 0 < n) :
    ∃ h', run (solveWithConstraints (swingSolver n) gantryArm Iso.one onlyPosition) gantry = .ok (.ok ()) h' ∧
      ∀ k, posOf h' k = posOf gantry k := by
  have zp : posError onlyPosition (Iso.one : Iso ℝ) Iso.one = V3.zero := by
    simp [posError, masked, onlyPosition, V3.sub, Iso.one, V3.zero]
  obtain ⟨h', e⟩ := (C70_iff gantry_sliding (gantry_posed V3.zero n) (by norm_num [swingSolver])).2
    ⟨1, by omega, n0, by
      rw [show (⟨V3.zero, Quat.one⟩ : Iso ℝ) = Iso.one from rfl, zp]
      norm_num [swingSolver, V3.norm, V3.zero, Scalar.sqrt]⟩
  refine ⟨h', e, (C86_at_target gantry h' gantry_arm.unlocked gantry_oneLevel gantry_arm.wf gantry_arm.nodup
    gantry_restorable ?_ exactLa_homogeneous rfl (by norm_num [swingSolver]) (by norm_num [swingSolver]) n0 (by decide)
    (by intro a ha; cases ha) Iso.one (gantry_posed V3.zero n).pose zp ?_ (.ok ()) e).1⟩
  · intro m hm r hr
    rw [gantry_noLimits hm] at hr; cases hr
  · simp [rotError, masked, onlyPosition, V3.zero]

/-- **C86**: the second answer of `C86_at_target` occurs.  The end of the stretched arm is at the target, exactly, and
the solver answers `InverseMatrixError`, whatever the number of tries: whether the target is reached is asked only
after a step. -/
theorem C86_at_target_gives_up (n : Nat) (n0 : 0 < n) :
    run swingArm.endTransform (swing 0) = .ok (atX 1) (swing 0) ∧
    ∃ h', run (solveWithConstraints (swingSolver n) swingArm (atX 1) (onlyX [])) (swing 0) =
      .ok (.error .inverseMatrix) h' ∧ ∀ k, posOf h' k = posOf (swing 0) k := by
  refine ⟨?_, swing_gives_up n n0 _⟩
  rw [run_endTransform _ _ (swing_arm 0).unlocked, swing_pose]

end
end K
