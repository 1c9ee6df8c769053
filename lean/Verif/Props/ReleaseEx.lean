import Verif.Props.Release
import Verif.Props.IkEx
import Verif.Props.Drops
/-!
# C77: concrete cases
-/

namespace K
open Prog

noncomputable section

/-- on a rail with joints "a" and "b", naming "a" three times: index `2^64 - 1` -/
theorem C77_three_names (p q : ℝ) :
    (∃ h', run (solveWithConstraints (railSolver 1) arm2 (atX 1) (onlyX ["a", "b", "a"])) (rail none none p q) =
      .panic overflow h') ∧
    ∃ h', run (solveWithConstraintsR (2 ^ 64) (fun _ k _ => .panic (toString k)) (railSolver 1) arm2 (atX 1)
      (onlyX ["a", "b", "a"])) (rail none none p q) = .panic "18446744073709551615" h' := by
  have s := rail_sliders none none p q
  obtain ⟨a, m, rest, h', e⟩ := C77_wrapped (s := railSolver 1) (target := atX 1) (c := onlyX ["a", "b", "a"]) (2 ^ 64) _
    (rail_unlocked none none p q) s.wf2 (rail_ready2 _ _ _ _) (by simp [railSolver])
    (by simp [onlyX, arm2, rail, slider, NodeImpl.fresh, Joint.new])
    (by simp [onlyX, arm2, numConstrained, wrappingSub]) 2
    (by simp [namesAmong, onlyX, arm2, rail, slider, NodeImpl.fresh, Joint.new])
  refine ⟨a, h', ?_⟩
  rw [e]
  rfl

/-- the same through the API: the client that makes this call -/
theorem C77_three_names_call (p q : ℝ) :
    let k : Client ℝ (Except (KError ℝ) Unit) :=
      .call (.solve (railSolver 1) arm2 (atX 1) (onlyX ["a", "b", "a"])) .done
    (∃ h', run k.prog (rail none none p q) = .panic overflow h') ∧
    ∃ h', run (k.progR (2 ^ 64) (fun _ i _ => .panic (toString i))) (rail none none p q) =
      .panic "18446744073709551615" h' := by
  obtain ⟨⟨h1, e1⟩, h2, e2⟩ := C77_three_names p q
  refine ⟨⟨h1, ?_⟩, h2, ?_⟩
  · simp only [Client.prog, Call.prog]
    rw [run_bind, e1]
    rfl
  · simp only [Client.progR, Call.progR]
    rw [run_bind, e2]
    rfl

/-- the same with fewer names than joints: "a" twice, no coordinate constrained -/
example (p q : ℝ) : ∃ h', run (solveWithConstraintsR (2 ^ 64) (fun _ k _ => .panic (toString k)) (railSolver 1) arm2
      (atX 1) ⟨false, false, false, false, false, false, ["a", "a"]⟩) (rail none none p q) =
    .panic "18446744073709551615" h' := by
  have s := rail_sliders none none p q
  obtain ⟨-, m, rest, h', e⟩ := C77_wrapped (s := railSolver 1) (target := atX 1)
    (c := ⟨false, false, false, false, false, false, ["a", "a"]⟩) (2 ^ 64) _
    (rail_unlocked none none p q) s.wf2 (rail_ready2 _ _ _ _) (by simp [railSolver])
    (by simp [arm2, rail, slider, NodeImpl.fresh, Joint.new])
    (by simp [arm2, numConstrained, wrappingSub]) 1
    (by simp [namesAmong, arm2, rail, slider, NodeImpl.fresh, Joint.new])
  refine ⟨h', ?_⟩
  rw [e]
  rfl

/-- two names, one of them unknown, on one joint: an error instead of a panic -/
example (wr : Wrapped ℝ) : ∃ h', run (solveWithConstraintsR (2 ^ 64) wr (railSolver 1) arm1 (atX 1) (onlyX ["a", "z"]))
    (rail (some ⟨0, 2⟩) none 0 0) = .ok (.error (.invalidJointName "z")) h' := by
  have s := rail_sliders (some ⟨0, 2⟩) none 0 0
  have nomc : ∀ m, ((rail (some ⟨0, 2⟩) none 0 0).get m).mimicChildren = [] := by
    intro m; simp only [rail]; split
    · rfl
    · split <;> rfl
  have re : Restorable (rail (some ⟨0, 2⟩) none 0 0) arm1 := by
    refine ⟨fun n hn _ r hr => ?_, fun n _ _ k hk => ?_, fun n hn m hm => ?_⟩
    · simp only [arm1, List.mem_singleton] at hn
      subst hn
      cases hr
      simp [rail, slider, Joint.new, NodeImpl.fresh, Scalar.le]
    · rw [nomc] at hk; cases hk
    · simp only [arm1, List.mem_singleton] at hn
      subst hn; cases hm
  obtain ⟨-, h', e, -⟩ := C77_unknown (s := railSolver 1) (target := atX 1) (c := onlyX ["a", "z"]) (2 ^ 64) wr _
    (rail_unlocked _ _ _ _) (fun m c hc => by rw [nomc] at hc; cases hc) s.wf1 (by simp [arm1]) re
    (by simp [onlyX, arm1]) (by simp [onlyX]) ["a"] [] "z" rfl
    (by simp [arm1, rail, slider, NodeImpl.fresh, Joint.new])
    (by simp [arm1, rail, slider, NodeImpl.fresh, Joint.new])
  exact ⟨h', e⟩

/-- distinct names, as in `C77_nodup` -/
example (wr : Wrapped ℝ) (p q : ℝ) :
    run (solveWithConstraintsR (2 ^ 64) wr (railSolver 1) arm2 (atX 1) (onlyX ["b"])) (rail none none p q) =
      run (solveWithConstraints (railSolver 1) arm2 (atX 1) (onlyX ["b"])) (rail none none p q) :=
  C77_nodup _ _ _ (rail_unlocked _ _ _ _) (rail_sliders _ _ _ _).wf2 (by simp [onlyX]) (by simp [onlyX, arm2])

/-- nodes freed while a thread runs: the torn update of C83 happens in a release build, too -/
theorem C77_torn (wr : Wrapped ℝ) : ∃ d : Config (NodeImpl ℝ) (List (Iso ℝ)),
    DSteps ⟨exForked, [((.call (.updateTransforms forks) .done : Client ℝ _)).progR (2 ^ 64) wr]⟩ d ∧
      d.threads[0]? = some (.ret [shifted, Iso.one]) := by
  obtain ⟨e, st, et, -⟩ := C83_torn
  obtain ⟨d, sd, -, r⟩ := C77_drops_back (2 ^ 64) wr [.call (.updateTransforms forks) .done] exForked e st
    (fun i hi => by
      rw [et] at hi
      rcases i with _ | i
      · cases hi
      · simp at hi)
  exact ⟨d, sd, (r 0 _).1 (by rw [et]; rfl)⟩

/-- and from that run of the release build back to the debug build -/
example (wr : Wrapped ℝ) (d : Config (NodeImpl ℝ) (List (Iso ℝ)))
    (st : DSteps ⟨exForked, [((.call (.updateTransforms forks) .done : Client ℝ _)).progR (2 ^ 64) wr]⟩ d) :=
  C77_drops (2 ^ 64) wr [.call (.updateTransforms forks) .done] exForked d st

end
end K
