import Verif.Props.Unseen
import Verif.Props.TriesEx
/-!
# C87: concrete cases
-/

namespace K
open Prog

noncomputable section

/-- a memory with all cached values thrown away -/
def Heap.forget (h : KHeap ℝ) : KHeap ℝ := { h with get := fun n => { h.get n with joint := { (h.get n).joint with
  worldTransformCache := none, worldVelocityCache := none } } }

theorem upToCaches_forget (h : KHeap ℝ) : UpToCaches ∅ h h.forget :=
  ⟨rfl, rfl, rfl, fun _ => ⟨⟨none, none, rfl⟩, fun x => absurd x (Set.notMem_empty _),
    fun x => absurd x (Set.notMem_empty _)⟩⟩

/-- a memory with nonsense in all cached values -/
def Heap.garble (h : KHeap ℝ) (t : Iso ℝ) (v : Velocity ℝ) : KHeap ℝ := { h with get := fun n => { h.get n with
  joint := { (h.get n).joint with worldTransformCache := some t, worldVelocityCache := some v } } }

theorem upToCaches_garble (h : KHeap ℝ) (t : Iso ℝ) (v : Velocity ℝ) : UpToCaches ∅ h (h.garble t v) :=
  ⟨rfl, rfl, rfl, fun _ => ⟨⟨some t, some v, rfl⟩, fun x => absurd x (Set.notMem_empty _),
    fun x => absurd x (Set.notMem_empty _)⟩⟩

theorem gantry_known (C : Slots) (K : Set CacheKind) : CachesKnown gantry C K gantryArm.nodes := by
  intro pre n post e
  match pre, e with
  | [], e => cases e; exact ⟨by decide, fun w hw => by cases hw⟩
  | [_], e => cases e; exact ⟨by decide, fun w hw => by cases hw; exact .inr (.inl (by simp))⟩
  | [_, _], e => cases e; exact ⟨by decide, fun w hw => by cases hw; exact .inr (.inl (by simp))⟩
  | _ :: _ :: _ :: pre, e =>
    simp only [gantryArm, List.cons_append, List.cons.injEq] at e
    have := e.2.2.2
    cases pre <;> simp at this

/-- moves a joint, has the world transforms computed, asks where the tool is, and for the center of mass and Jacobian -/
def askTool (x : ℝ) : Client ℝ (Option (Iso ℝ) × V3 ℝ × Mat ℝ) :=
  .call (.setJointPosition 1 x) fun _ => .call (.updateTransforms gantryArm) fun _ =>
    .call (.worldTransform 2) fun t => .call (.centerOfMass gantryArm) fun m => .call (.jacobian gantryArm) fun j =>
      .done (t, m, j)

theorem askTool_steady (x : ℝ) : (askTool x).Steady gantry ∅ :=
  ⟨trivial, id, fun _ _ _ => rfl, fun _ => ⟨gantry_known _ _, id, fun _ _ _ => rfl, fun _ =>
    ⟨.inr ⟨by simp [gantryArm], rfl⟩, id, fun _ _ e => by rw [show _ = _ from e], fun _ =>
      ⟨gantry_known _ _, id, fun _ _ e => by rw [show _ = _ from e], fun _ =>
        ⟨⟨gantry_known _ _, fun _ h => h⟩, id, fun _ _ e => by rw [show _ = _ from e], fun _ => trivial⟩⟩⟩⟩⟩

/-- The three sliders with nothing and with nonsense in the caches: two threads that move them and ask get, in
corresponding interleavings, the same answers. -/
theorem C87_tool (x y : ℝ) (t : Iso ℝ) (v : Velocity ℝ) (d : Config (NodeImpl ℝ) (Option (Iso ℝ) × V3 ℝ × Mat ℝ))
    (st : DSteps ⟨gantry, [askTool x, askTool y].map Client.prog⟩ d) :
    ∃ d', DSteps ⟨gantry.garble t v, [askTool x, askTool y].map Client.prog⟩ d' ∧
      ∀ (i : Nat) a, d.threads[i]? = some (Prog.ret a) ↔ d'.threads[i]? = some (Prog.ret a) := by
  obtain ⟨d', a, -, b, -⟩ := C87_threads [askTool x, askTool y] ∅ gantry (gantry.garble t v) (upToCaches_garble _ t v)
    (fun _ h => absurd h (Set.notMem_empty _)) (fun p hp => by
      rcases List.mem_cons.1 hp with rfl | hp
      · exact askTool_steady x
      · rw [List.mem_singleton.1 hp]; exact askTool_steady y) d st
  exact ⟨d', a, b⟩

/-- Not so for a client that asks for a world transform that nobody has had computed. -/
theorem C87_uncomputed (t : Iso ℝ) (v : Velocity ℝ) :
    run (Node.worldTransform 2) gantry.forget = .ok none gantry.forget ∧
    run (Node.worldTransform 2) (gantry.garble t v) = .ok (some t) (gantry.garble t v) :=
  ⟨run_Node_worldTransform 2 gantry.forget rfl, run_Node_worldTransform 2 (gantry.garble t v) rfl⟩

/-- Nor for `update_transforms` of a chain cut out of a tree: whether it panics, and what it answers, depends on what is
cached at the parent outside the chain. -/
theorem C87_cut (t : Iso ℝ) (v : Velocity ℝ) : ∃ h' h'',
    run (Chain.updateTransforms ⟨[2], [2], 1⟩) gantry.forget = .panic "cache must exist" h' ∧
    run (Chain.updateTransforms ⟨[2], [2], 1⟩) (gantry.garble t v) =
      .ok [t.mul (gantry.get 2).joint.localTransform] h'' := by
  have p1 : run (Node.parentWorldTransform 2) gantry.forget = .ok none gantry.forget :=
    run_Node_parentWorldTransform 2 gantry.forget fun _ => rfl
  have p2 : run (Node.parentWorldTransform 2) (gantry.garble t v) = .ok (some t) (gantry.garble t v) :=
    run_Node_parentWorldTransform 2 (gantry.garble t v) fun _ => rfl
  refine ⟨gantry.forget, (gantry.garble t v).modify 2 fun s => { s with
    joint := s.joint.setWorldTransform (t.mul (gantry.get 2).joint.localTransform) }, ?_, ?_⟩
  · simp [Chain.updateTransforms, Chain.updateTransform, mapList, p1, Res.bind]
  · simp only [Chain.updateTransforms, Chain.updateTransform, mapList, run_bind, p2, Res.bind_ok, run_expect_some,
      run_Node_joint 2 (gantry.garble t v) rfl, run_poke 2 _ (gantry.garble t v) rfl, run_pure, run_ret]
    rfl

/-- With a target out of reach for six tries, six tries again - and again - fail with the same error. -/
theorem C87_gantry (t : V3 ℝ) (ht : t.norm = 1) : ∃ d r, ∀ k, ∃ h',
    run (Client.retry ((swingSolver 0).withTries 6) gantryArm ⟨t, Quat.one⟩ onlyPosition k).prog gantry =
      .ok (.error (.notConverged 6 d r)) h' := by
  obtain ⟨⟨d, r, h', e⟩, -⟩ := C86_gantry t ht
  refine ⟨d, r, fun k => ?_⟩
  obtain ⟨h'', a, -⟩ := C87_retry gantry_arm.unlocked gantry_oneLevel gantry_arm.wf gantry_arm.nodup
    gantry_restorable (gantry_known _ _) e k
  exact ⟨h'', a⟩

end
end K
