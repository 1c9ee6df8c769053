import Verif.Props.Singular
import Verif.Props.Crash
/-! Further concrete cases: theorems of the other modules applied to robots that meet their hypotheses. -/

namespace K

/-- **C48** (period): a full turn of the shoulder moves no point of the tip of the planar arm. -/
example (q r : ℝ) (X X' : Iso ℝ) (w : World (planar q r) 2 X) (w' : World (planar (q + 2 * Real.pi) r) 2 X')
    (p : V3 ℝ) : X'.apply p = X.apply p := by
  refine C48_period (planar q r) (planar (q + 2 * Real.pi) r) ⟨rfl, rfl, rfl, fun k => ?_⟩ rfl 0 ⟨0, 0, 1⟩ rfl rfl ?_ 2 X X'
    w w' p
  · by_cases h0 : k = 0
    · subst h0; exact ⟨q + 2 * Real.pi, none, none, rfl⟩
    · refine ⟨((planar q r).get k).joint.position, ((planar q r).get k).joint.worldTransformCache,
        ((planar q r).get k).joint.worldVelocityCache, ?_⟩
      simp only [planar, if_neg h0]
  · intro n hn
    simp only [planar, if_neg hn]

/-- **C80** (frozen): in the state that `C80_spreads` reaches, joint 0 stays where the panicked thread has put it and
joint 1 behind, whatever happens afterwards, and the mimic relation between them never holds again. -/
example (x : ℝ) : ∃ d : PConfig (NodeImpl ℝ) Unit, ∀ e, PDSteps d e →
    e.poisoned 0 = true ∧ e.poisoned 1 = true ∧ (e.heap.get 0).joint.position = x ∧ (e.heap.get 1).joint.position = 0 := by
  obtain ⟨d, st, -, b1, b0, p0, p1⟩ := C80_spreads x
  refine ⟨d, fun e se => ?_⟩
  have ok : ∀ t ∈ ([.take 1 <| .crash "user", .call (.setJointPosition 0 x) fun _ => .done (),
      .call (.jointPosition 0) fun _ => .done ()] : List (GClient ℝ Unit)), t.Ok [] [] := by
    intro t ht
    simp only [List.mem_cons, List.not_mem_nil, or_false] at ht
    rcases ht with rfl | rfl | rfl
    · trivial
    · exact fun _ => rfl
    · exact fun _ => rfl
  have nx : 2 ≤ d.heap.next := by
    clear se b0 b1 p0 p1
    induction st with
    | refl => exact Nat.le_refl _
    | tail _ s ih =>
      cases s with
      | poison => exact ih
      | unwind => exact ih
      | run j p p' h' hj hs ok' =>
        cases p with
        | ret a => cases hs
        | panic m => cases hs
        | lock m k => simp only [step1] at hs; split at hs <;> cases hs; exact ih
        | alloc s k => cases hs; exact Nat.le_succ_of_le ih
        | _ => cases hs; exact ih
  obtain ⟨x0, -, y0⟩ := C80_frozen exMaster (fun _ => rfl) _ ok d e st.drops 0 b0 (by omega) se
  obtain ⟨x1, -, y1⟩ := C80_frozen exMaster (fun _ => rfl) _ ok d e st.drops 1 b1 (by omega) se
  exact ⟨x0, x1, by rw [y0]; exact p0, by rw [y1]; exact p1⟩

end K
