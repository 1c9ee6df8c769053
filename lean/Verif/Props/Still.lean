import Verif.Lemmas.Invariant
import Verif.Spec.Velocity
import Verif.Props.LinkVel
/-!
# C71: no node ever has a velocity
-/

set_option linter.unusedSectionVars false

namespace K
open Prog
variable {T : Type} [Scalar T] {α β : Type} {h : KHeap T}

/-- the invariant: no velocity, and the types of the joints of `h` are as they were -/
private def Quiet (h : KHeap T) (n : NodeId) (s : NodeImpl T) : Prop :=
  s.joint.Still ∧ (n < h.next → s.joint.jointType = (h.get n).joint.jointType)

private theorem quiet_of {n : NodeId} {s : NodeImpl T} (q : Quiet h n s) (s' : NodeImpl T)
    (v : s'.joint.worldVelocity = s.joint.worldVelocity ∨ s'.joint.worldVelocity = none)
    (t : s'.joint.jointType = s.joint.jointType) : Quiet h n s' := by
  refine ⟨fun w hw => ?_, fun hn => t.trans (q.2 hn)⟩
  rcases v with v | v
  · exact q.1 w (v ▸ hw)
  · rw [v] at hw; cases hw

private theorem quiet_set (n : NodeId) (y : T) :
    Pres (Quiet h) n fun s => { s with joint := (s.joint.setJointPosition y).1 } := by
  intro s q
  have : (s.joint.setJointPosition y).1 = s.joint ∨ (s.joint.setJointPosition y).1 =
      { s.joint with position := y, worldTransformCache := none, worldVelocityCache := none } := by
    unfold Joint.setJointPosition
    split
    · exact .inl rfl
    · split
      · split
        · exact .inl rfl
        · exact .inr rfl
      · exact .inr rfl
  rcases this with e | e
  · exact quiet_of q _ (.inl (by simp only [e])) (by simp only [e])
  · exact quiet_of q _ (.inr (by simp only [e]; rfl)) (by simp only [e])

private theorem quiet_clamped (n : NodeId) (y : T) :
    Pres (Quiet h) n fun s => { s with joint := s.joint.setJointPositionClamped y } := by
  intro s q
  unfold Joint.setJointPositionClamped
  by_cases e : s.joint.isMovable = true
  · exact quiet_of q _ (.inr (by simp only [e]; rfl)) (by simp only [e]; rfl)
  · exact quiet_of q _ (.inl (by simp [e])) (by simp [e])

private theorem quiet_unchecked (n : NodeId) (y : T) :
    Pres (Quiet h) n fun s => { s with joint := s.joint.setJointPositionUnchecked y } :=
  fun _ q => quiet_of q _ (.inr rfl) rfl
private theorem quiet_origin (n : NodeId) (t : Iso T) :
    Pres (Quiet h) n fun s => { s with joint := s.joint.setOrigin t } :=
  fun _ q => quiet_of q _ (.inl rfl) rfl
private theorem quiet_world (n : NodeId) (t : Iso T) :
    Pres (Quiet h) n fun s => { s with joint := s.joint.setWorldTransform t } :=
  fun _ q => quiet_of q _ (.inl rfl) rfl
private theorem quiet_same (n : NodeId) (f : NodeImpl T → NodeImpl T) (e : ∀ s, (f s).joint = s.joint) :
    Pres (Quiet h) n f := fun s q => quiet_of q _ (.inl (by rw [e])) (by rw [e])

private abbrev any : List NodeId → NodeId → Prop := fun _ _ => True
private abbrev anyP : List NodeId → Prop := fun _ => True

private theorem holds_joint (n : NodeId) {L : List NodeId} :
    Holds h.next (Quiet h) L (fun j => j.Still) (Node.joint n) :=
  holds_peek.bind fun _ hs => holds_pure hs.1

private theorem holds_worldVelocity (n : NodeId) {L : List NodeId} :
    Holds h.next (Quiet h) L (fun o => ∀ v, o = some v → v = Velocity.zero) (Node.worldVelocity n) :=
  (holds_joint n).bind fun _ hj => holds_pure hj

/-- one round of `update_velocities` returns for a Fixed joint only -/
private theorem holds_updateVelocity (n : NodeId) :
    Holds h.next (Quiet h) [] (fun v => v = Velocity.zero ∧ (n < h.next → (h.get n).joint.jointType = .fixed))
      (Chain.updateVelocity n) := by
  refine Holds.inv (Keep.holds (A := any) (pk := anyP)
    (keep_Node_parentWorldTransform (fun _ => trivial) n)) fun _ _ => ?_
  refine Holds.inv holds_expect fun _ _ => ?_
  refine Holds.inv (Q := fun o => ∀ v, o = some v → v = Velocity.zero) ?_ fun o ho => ?_
  · refine Holds.inv (Keep.holds (A := any) (pk := anyP) (keep_Node_parent trivial)) fun o _ => ?_
    cases o with
    | none => exact holds_pure fun v e => by cases e; rfl
    | some p => exact holds_worldVelocity p
  refine Holds.inv holds_expect fun v hv => ?_
  have hv := ho v hv
  intro _ s hs
  show Inv _ _ _ (Bind.bind (match s.joint.jointType with
    | .fixed => pure v
    | .rotational axis => _
    | .linear axis => _) _) _
  cases ty : s.joint.jointType with
  | fixed =>
    refine Holds.inv (holds_pure (Q := fun w => w = Velocity.zero) hv) fun w hw => ?_
    refine inv_unlock (Holds.inv (holds_poke ?_) fun _ _ => holds_pure ⟨hw, fun hn => ?_⟩)
    · exact fun s q => ⟨fun x hx => by cases hx; exact hw, q.2⟩
    · rw [← hs.2 hn, ty]
  | rotational axis =>
    exact fun nn => absurd (by simp) nn
  | linear axis =>
    exact fun nn => absurd (by simp) nn

private theorem holds_call (c : Call T β) (hc : c.Still) :
    Holds h.next (Quiet h) [] (StillAnswer h c) c.prog := by
  have mc : ∀ (n : NodeId) (s : NodeImpl T), Quiet h n s → s.mimicParent = none → ∀ c ∈ s.mimicChildren,
      True ∧ ∀ s' : NodeImpl T, Quiet h c s' → s'.mimic = none → True ∧ True :=
    fun _ _ _ _ _ _ => ⟨trivial, fun _ _ _ => ⟨trivial, trivial⟩⟩
  have a0 : ∀ _ : NodeId, True := fun _ => trivial
  have k : ∀ {γ : Type} {p : KProg T γ},
      Keep any anyP h.next (Quiet h) (Pres (Quiet h)) [] (fun _ => True) p →
      Holds h.next (Quiet h) [] (fun _ => True) p := fun x => x.holds
  have q : ∀ n f, (∀ s, (f s).joint = s.joint) → Pres (Quiet h) n f := quiet_same
  cases c with
  | newNode j => exact fun m hm => ⟨⟨hc, fun hn => absurd hn (Nat.not_lt.2 hm)⟩, rfl, trivial⟩
  | setParent n p =>
    exact k (keep_Node_setParent trivial trivial (q _ _ fun _ => rfl) (q _ _ fun _ => rfl))
  | removeParent n p =>
    exact k (keep_Node_removeParent trivial trivial (q _ _ fun _ => rfl) (q _ _ fun _ => rfl))
  | setMimicParent n p m =>
    exact k (keep_Node_setMimicParent trivial trivial (q _ _ fun _ => rfl) (q _ _ fun _ => rfl)
      (q _ _ fun _ => rfl))
  | setLink n l => exact k (keep_poke trivial (q _ _ fun _ => rfl))
  | setOrigin n t => exact k (keep_poke trivial (quiet_origin n t))
  | setJointPosition n x => exact k (keep_Node_setJointPosition trivial (mc n) quiet_set)
  | setJointPositionClamped n x => exact k (keep_poke trivial (quiet_clamped n x))
  | setJointPositionUnchecked n x => exact k (keep_poke trivial (quiet_unchecked n x))
  | joint n => exact holds_joint n
  | jointPosition n => exact k (keep_Node_jointPosition trivial)
  | parent n => exact k (keep_Node_parent trivial)
  | mimicParent n => exact k (keep_Node_mimicParent trivial)
  | children n => exact k (keep_Node_children trivial)
  | link n => exact k (keep_Node_link trivial)
  | isRoot n => exact k (keep_Node_isRoot trivial)
  | isEnd n => exact k (keep_Node_isEnd trivial)
  | origin n => exact k (keep_Node_origin trivial)
  | worldTransform n => exact k (keep_Node_worldTransform trivial)
  | worldVelocity n => exact holds_worldVelocity n
  | iterAncestors fuel n => exact k (keep_ancestors a0 _ _)
  | iterDescendants fuel n => exact k (keep_descendants a0 _ _)
  | fromNodes ns => exact k (Chain.keep_fromNodes a0 ns)
  | fromRoot fuel n => exact k (Chain.keep_fromRoot a0 _ _)
  | fromEnd fuel n => exact k (Chain.keep_fromEnd a0 _ _)
  | fromEndToRoot fuel e r => exact k (Chain.keep_fromEndToRoot a0 _ _ _)
  | chainSetOrigin c t => exact k (Chain.keep_setOrigin a0 trivial c t fun n _ => quiet_origin n t)
  | chainOrigin c => exact k (Chain.keep_origin a0 trivial c)
  | iterJoints c =>
    refine (holds_mapList (Q := fun _ j => j.Still) fun n _ => holds_joint n).mono fun js hjs j hj => ?_
    generalize c.movableNodes = ns at hjs
    induction hjs with
    | nil => cases hj
    | cons a _ ih =>
      rcases List.mem_cons.1 hj with rfl | hj
      · exact a
      · exact ih hj
  | iterLinks c => exact k (Chain.keep_iterLinks a0 (fun _ => trivial) c)
  | find c name => exact k (Chain.keep_find a0 c name)
  | jointPositions c => exact k (Chain.keep_jointPositions a0 (fun _ => trivial) c)
  | setJointPositions c xs => exact k (Chain.keep_setJointPositions a0 c xs mc quiet_set)
  | setJointPositionsClamped c xs =>
    exact k (Chain.keep_setJointPositionsClamped a0 c xs fun n _ y _ => quiet_clamped n y)
  | setJointPositionsUnchecked c xs =>
    exact k (Chain.keep_setJointPositionsUnchecked a0 c xs fun n _ y _ => quiet_unchecked n y)
  | updateTransforms c => exact k (Chain.keep_updateTransforms a0 trivial c quiet_world)
  | updateVelocities c =>
    refine (k (Chain.keep_updateTransforms a0 trivial c quiet_world)).bind fun _ _ => ?_
    refine (holds_mapList fun n _ => holds_updateVelocity n).mono fun vs hvs => ?_
    show vs = c.nodes.map (fun _ => Velocity.zero) ∧
      ∀ n ∈ c.nodes, n < h.next → (h.get n).joint.jointType = .fixed
    generalize c.nodes = ns at hvs
    induction hvs with
    | nil => simp
    | cons a _ ih =>
      refine ⟨by rw [a.1, ih.1]; rfl, fun n hn => ?_⟩
      rcases List.mem_cons.1 hn with rfl | hn
      · exact a.2
      · exact ih.2 n hn
  | updateLinkTransforms c =>
    exact k (Chain.keep_updateLinkTransforms a0 trivial c quiet_world fun n t => q _ _ fun _ => rfl)
  | cloneChain f c =>
    exact k (Chain.keep_clone a0 trivial c f (fun _ _ _ _ => trivial)
      (fun _ _ _ _ hs hm => ⟨hs.1, fun hn => absurd hn (Nat.not_lt.2 hm)⟩)
      (fun m f _ e => q m f e) fun _ _ _ _ _ _ _ _ => trivial)
  | tryNew c => exact k (Chain.keep_tryNew a0 trivial c)
  | endTransform c => exact k (Chain.keep_endTransform a0 c)
  | display fuel c =>
    exact k (Chain.keep_display trivial c (fun _ _ => True) (fun _ _ _ => trivial)
      (fun _ _ _ _ _ _ _ => trivial) a0 fuel)
  | jacobian c => exact k (keep_jacobian a0 trivial (fun _ => trivial) c quiet_world)
  | centerOfMass c => exact k (keep_centerOfMass a0 trivial c quiet_world)
  | solve s c t cs =>
    exact k (keep_solveWithConstraints a0 trivial (fun _ => trivial) s c t cs quiet_world
      quiet_clamped mc quiet_set)

private theorem holds_client {Q : α → Prop} (cl : Client T α) (st : cl.Still h)
    (y : cl.Yields (StillAnswer h) Q) : Holds h.next (Quiet h) [] Q cl.prog := by
  induction cl with
  | done a => exact ⟨rfl, y⟩
  | call c k ih => exact (holds_call c st.1).bind fun r hr => ih r (st.2 r hr) (y r hr)

private theorem yields_true' (cl : Client T α) (φ : ∀ {β : Type}, Call T β → β → Prop) :
    cl.Yields φ fun _ => True := by
  induction cl with
  | done a => trivial
  | call c k ih => exact fun r _ => ih r

/-- **C71.**  If no node has a velocity to begin with and no client brings one along, then at every moment of every
interleaving of the clients no node has a velocity other than zero. -/
theorem C71_still (h : KHeap T) (z : ∀ n, (h.get n).joint.Still) (ts : List (Client T α))
    (hs : ∀ cl ∈ ts, cl.Still h) (d : Config (NodeImpl T) α) (st : DSteps ⟨h, ts.map Client.prog⟩ d)
    (n : NodeId) : (d.heap.get n).joint.Still := by
  refine ((steps_inv (lo := h.next) (P := Quiet h) (Q := fun _ _ _ => True) st
    ⟨Nat.le_refl _, fun n => ⟨z n, fun _ => rfl⟩⟩ fun i p hp => ?_).1.2 n).1
  rw [List.getElem?_map] at hp
  obtain ⟨cl, hj, rfl⟩ := Option.map_eq_some_iff.1 hp
  exact Inv.mono (holds_client cl (hs cl (List.mem_of_getElem? hj)) (yields_true' cl _)) fun _ _ _ => trivial

/-- **C71**, what the clients see: whatever follows from the contracts of the calls is what they return. -/
theorem C71_contracts (h : KHeap T) (z : ∀ n, (h.get n).joint.Still) (ts : List (Client T α))
    (hs : ∀ cl ∈ ts, cl.Still h) (d : Config (NodeImpl T) α) (st : DSteps ⟨h, ts.map Client.prog⟩ d)
    (i : Nat) (cl : Client T α) (hi : ts[i]? = some cl)
    (Q : α → Prop) (y : cl.Yields (StillAnswer h) Q) (a : α) (r : d.threads[i]? = some (.ret a)) : Q a := by
  suffices sp : ∀ j p, (ts.map Client.prog)[j]? = some p →
      Inv h.next (Quiet h) (fun _ a => j = i → Q a) p [] by
    obtain ⟨_, q⟩ := (steps_inv (lo := h.next) (P := Quiet h) (Q := fun j _ a => j = i → Q a) st
      ⟨Nat.le_refl _, fun n => ⟨z n, fun _ => rfl⟩⟩ sp).2 i a r
    exact q rfl
  · intro j p hp
    rw [List.getElem?_map] at hp
    obtain ⟨cl', hj, rfl⟩ := Option.map_eq_some_iff.1 hp
    have hs' := hs cl' (List.mem_of_getElem? hj)
    by_cases e : j = i
    · subst e
      rw [hi] at hj; cases hj
      exact Inv.mono (holds_client cl hs' y) fun _ _ q _ => q.2
    · exact Inv.mono (holds_client cl' hs' (yields_true' cl' _)) fun _ _ _ e' => absurd e' e

private theorem yields_andThen' {γ : Type} {φ : ∀ {β : Type}, Call T β → β → Prop} {Q : α → Prop}
    (p : Client T γ) (f : γ → Client T α) (hf : ∀ g, (f g).Yields φ Q) : (p.andThen f).Yields φ Q := by
  induction p with
  | done a => exact hf a
  | call c k ih => exact fun r _ => ih r

/-- **C71**, one call: after anything at all (`pre` chooses the call), it tells of no velocity. -/
theorem C71_answer (h : KHeap T) (z : ∀ n, (h.get n).joint.Still) (ts : List (Client T (Call T β × β)))
    (hs : ∀ cl ∈ ts, cl.Still h) (d : Config (NodeImpl T) (Call T β × β))
    (st : DSteps ⟨h, ts.map Client.prog⟩ d) (i : Nat) (pre : Client T (Call T β))
    (hi : ts[i]? = some (pre.andThen fun c => .call c fun r => .done (c, r)))
    (c : Call T β) (r : β) (e : d.threads[i]? = some (.ret (c, r))) : StillAnswer h c r :=
  C71_contracts h z ts hs d st i _ hi (fun cr => StillAnswer h cr.1 cr.2)
    (yields_andThen' _ _ fun _ _ hr => hr) _ e

/-- **C71**: `update_velocities` returns in no interleaving if the chain has a movable joint of `h`. -/
theorem C71_update (h : KHeap T) (z : ∀ n, (h.get n).joint.Still)
    (ts : List (Client T (List (Velocity T)))) (hs : ∀ cl ∈ ts, cl.Still h)
    (d : Config (NodeImpl T) (List (Velocity T))) (st : DSteps ⟨h, ts.map Client.prog⟩ d)
    (i : Nat) {γ : Type} (pre : Client T γ) (c : Chain)
    (hi : ts[i]? = some (pre.andThen fun _ => .call (.updateVelocities c) .done))
    (n : NodeId) (hn : n ∈ c.nodes) (old : n < h.next) (mv : (h.get n).joint.jointType ≠ .fixed)
    (vs : List (Velocity T)) : d.threads[i]? ≠ some (.ret vs) := fun e =>
  mv (C71_contracts h z ts hs d st i _ hi
    (fun _ => ∀ n ∈ c.nodes, n < h.next → (h.get n).joint.jointType = .fixed)
    (yields_andThen' _ _ fun _ _ hr => hr.2) vs e n hn old)

/-- a Fixed joint (0) with a movable child (1) -/
def exStill : KHeap T where
  get := fun n =>
    if n = 0 then { NodeImpl.fresh (Joint.new "base" .fixed) with children := [1] }
    else { NodeImpl.fresh (Joint.new "slide" (.linear ⟨1, 0, 0⟩)) with parent := some 0 }
  next := 2
  dead := fun _ => false
  held := fun _ => false

theorem exStill_still (n : NodeId) : ((exStill (T := T)).get n).joint.Still := by
  intro v hv
  by_cases e : n = 0 <;> simp [exStill, e, NodeImpl.fresh, Joint.new, Joint.worldVelocity] at hv

/-- one thread copies a joint of the tree into a new node while another updates the velocity of the base: the copy
tells of no velocity -/
example (ts : List (Client T (Option (Velocity T)))) (hs : ∀ cl ∈ ts, cl.Still exStill)
    (d : Config (NodeImpl T) (Option (Velocity T)))
    (st : DSteps ⟨exStill, (Client.call (.joint 1) fun j => .call (.newNode j) fun m =>
        .call (.worldVelocity m) .done) ::
      (Client.call (.updateVelocities ⟨[0], [], 0⟩) fun _ => .call (.worldVelocity 0) .done) :: ts
      |>.map Client.prog⟩ d)
    (v : Velocity T) (i : Nat) (hi : i = 0 ∨ i = 1) (e : d.threads[i]? = some (.ret (some v))) :
    v = Velocity.zero := by
  have hs' : ∀ cl ∈ (Client.call (.joint 1) fun j => .call (.newNode j) fun m =>
        .call (.worldVelocity m) .done) ::
      (Client.call (.updateVelocities ⟨[0], [], 0⟩) fun _ => .call (.worldVelocity 0) .done) :: ts,
      cl.Still (exStill (T := T)) := by
    intro cl hc
    rcases List.mem_cons.1 hc with rfl | hc
    · exact ⟨trivial, fun j hj => ⟨hj, fun _ _ => ⟨trivial, fun _ _ => trivial⟩⟩⟩
    · rcases List.mem_cons.1 hc with rfl | hc
      · exact ⟨trivial, fun _ _ => ⟨trivial, fun _ _ => trivial⟩⟩
      · exact hs cl hc
  rcases hi with rfl | rfl
  · exact C71_contracts exStill exStill_still _ hs' d st 0 _ rfl
      (fun o => ∀ v, o = some v → v = Velocity.zero) (fun _ _ _ _ o ho => ho) _ e v rfl
  · exact C71_contracts exStill exStill_still _ hs' d st 1 _ rfl
      (fun o => ∀ v, o = some v → v = Velocity.zero) (fun _ _ o ho => ho) _ e v rfl

/-- the update of the base does return, with the velocity zero -/
example : ∃ h', run (Chain.updateVelocities ⟨[0], [], 0⟩) (exStill (T := T)) = .ok [Velocity.zero] h' := by
  obtain ⟨h', e, -⟩ := C16_fixed (T := T) exStill (fun _ => rfl) ⟨[0], [], 0⟩
    (fun pre n post e => by
      have : n = 0 := by
        match pre, e with
        | [], e => cases e; rfl
        | [x], e => simp at e
        | x :: y :: pre, e => simp at e
      subst this
      exact .inl (by simp [liveParent, exStill, NodeImpl.fresh]))
    (fun n hn => by simp at hn; subst hn; rfl)
  exact ⟨h', e⟩

end K
