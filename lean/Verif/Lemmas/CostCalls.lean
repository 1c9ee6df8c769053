import Verif.Lemmas.Cost
/-!
# Lock acquisitions of the calls
-/

set_option linter.unusedSectionVars false

namespace K
open Prog

variable {T α : Type} [Scalar T] {M : Nat}

/-- at most `M` mimic children -/
def Few (M : Nat) (s : NodeImpl T) : Prop := s.mimicChildren.length ≤ M

namespace Takes
variable {C : NodeImpl T → Prop}

theorem joint (n : NodeId) : Takes C 1 1 (Node.joint n : KProg T _) := (takes_peek n).map
theorem jointPosition (n : NodeId) : Takes C 1 1 (Node.jointPosition n : KProg T _) := (takes_peek n).map
theorem children (n : NodeId) : Takes C 1 1 (Node.children n : KProg T _) := (takes_peek n).map
theorem link (n : NodeId) : Takes C 1 1 (Node.link n : KProg T _) := (takes_peek n).map
theorem isRoot (n : NodeId) : Takes C 1 1 (Node.isRoot n : KProg T _) := (takes_peek n).map
theorem isEnd (n : NodeId) : Takes C 1 1 (Node.isEnd n : KProg T _) := (takes_peek n).map
theorem origin (n : NodeId) : Takes C 1 1 (Node.origin n : KProg T _) := (joint n).map
theorem worldTransform (n : NodeId) : Takes C 1 1 (Node.worldTransform n : KProg T _) := (joint n).map
theorem worldVelocity (n : NodeId) : Takes C 1 1 (Node.worldVelocity n : KProg T _) := (joint n).map

theorem parent (n : NodeId) : Takes C 1 1 (Node.parent n : KProg T _) := fun L k U P hu hp => by
  simp only [Node.parent, cost_bind, cost_doLock, cost_doRead]
  refine fun _ => ⟨hu _ (Nat.le_refl _), fun s _ => ?_⟩
  split
  · simp only [cost_bind, cost_doUpgrade, cost_doUnlock, List.erase_cons_head]
    exact fun b => ⟨List.mem_cons_self, hp _ _ (Nat.le_refl _) (Nat.le_refl _)⟩
  · simp only [cost_bind, cost_doUnlock, List.erase_cons_head]
    exact ⟨List.mem_cons_self, hp _ _ (Nat.le_refl _) (Nat.le_refl _)⟩

theorem mimicParent (n : NodeId) : Takes C 1 1 (Node.mimicParent n : KProg T _) := fun L k U P hu hp => by
  simp only [Node.mimicParent, cost_bind, cost_doLock, cost_doRead]
  refine fun _ => ⟨hu _ (Nat.le_refl _), fun s _ => ?_⟩
  split
  · simp only [cost_bind, cost_doUpgrade, cost_doUnlock, List.erase_cons_head]
    exact fun b => ⟨List.mem_cons_self, hp _ _ (Nat.le_refl _) (Nat.le_refl _)⟩
  · simp only [cost_bind, cost_doUnlock, List.erase_cons_head]
    exact ⟨List.mem_cons_self, hp _ _ (Nat.le_refl _) (Nat.le_refl _)⟩

theorem setParent (n p : NodeId) : Takes C 2 2 (Node.setParent n p : KProg T _) :=
  (takes_poke n _).bind fun _ => takes_poke p _
theorem removeParent (n p : NodeId) : Takes C 2 2 (Node.removeParent n p : KProg T _) :=
  (takes_poke n _).bind fun _ => takes_poke p _
theorem setMimicParent (n p : NodeId) (m : Mimic T) : Takes C 3 3 (Node.setMimicParent n p m) :=
  (takes_poke n _).bind fun _ => (takes_poke p _).bind fun _ => takes_poke n _

theorem parentWorldTransform (n : NodeId) : Takes C 1 2 (Node.parentWorldTransform n : KProg T _) :=
  (parent n).bind (lo' := 0) (hi' := 1) fun o => by
    cases o with
    | none => exact (takes_pure _).mono (Nat.le_refl _) (by omega)
    | some p => exact (worldTransform p).mono (by omega) (Nat.le_refl _)

theorem parentWorldVelocity (n : NodeId) : Takes C 1 2 (Node.parentWorldVelocity n : KProg T _) :=
  (parent n).bind (lo' := 0) (hi' := 1) fun o => by
    cases o with
    | none => exact (takes_pure _).mono (Nat.le_refl _) (by omega)
    | some p => exact (worldVelocity p).mono (by omega) (Nat.le_refl _)

/-- the loop over the mimic children, while the joint is locked: one lock each -/
theorem _root_.K.cost_mimics {n : NodeId} {x : T} {U : Nat → Prop}
    {P : Except (KError T) Unit → List NodeId → Nat → Prop} (cs : List NodeId) {L : List NodeId} {k : Nat}
    (hn : n ∈ L) (hu : ∀ j, j ≤ k + cs.length → U j)
    (hp : ∀ a j, k ≤ j → j ≤ k + cs.length → P a L j) :
    Cost C U P (tryEach cs (Node.setMimicChild n x)) L k := by
  induction cs generalizing k with
  | nil => exact hp _ _ (Nat.le_refl _) (Nat.le_refl _)
  | cons c cs ih =>
    simp only [List.length_cons] at hu hp
    simp only [tryEach, Node.setMimicChild, cost_bind, cost_doLock, cost_doRead]
    refine fun _ => ⟨hu _ (by omega), fun s _ => ?_⟩
    split
    · simp only [cost_bind, cost_doWrite, cost_doUnlock, cost_pure, List.erase_cons_head]
      refine ⟨List.mem_cons_self, ?_⟩
      split
      · exact hp _ _ (by omega) (by omega)
      · exact ih (fun j hj => hu j (by omega)) fun a j h1 h2 => hp a j (by omega) (by omega)
    · simp only [Node.joint, cost_bind, cost_peek]
      exact fun h => absurd (List.mem_cons_of_mem _ hn) h

theorem setJointPosition (n : NodeId) (x : T) : Takes (Few M) 1 (1 + M) (Node.setJointPosition n x) :=
  fun L k U P hu hp => by
    simp only [Node.setJointPosition, cost_bind, cost_doLock, cost_doRead]
    refine fun _ => ⟨hu _ (by omega), fun s hs => ?_⟩
    split
    · simp only [cost_bind, cost_doUnlock, cost_pure, List.erase_cons_head]
      exact ⟨List.mem_cons_self, hp _ _ (by omega) (by omega)⟩
    · simp only [cost_bind, cost_doWrite]
      split
      · simp only [cost_bind, cost_doUnlock, cost_pure, List.erase_cons_head]
        exact ⟨List.mem_cons_self, hp _ _ (by omega) (by omega)⟩
      · simp only [cost_bind, cost_doUnlock, cost_pure]
        have hs : s.mimicChildren.length ≤ M := hs
        refine cost_mimics s.mimicChildren List.mem_cons_self (fun j hj => hu j (by omega)) fun a j h1 h2 => ?_
        rw [List.erase_cons_head]
        exact ⟨List.mem_cons_self, hp _ _ (by omega) (by omega)⟩

theorem jointPositions (c : Chain) :
    Takes C c.movableNodes.length c.movableNodes.length (c.jointPositions : KProg T _) := by
  refine (takes_mapList (lo := 1) (hi := 1) _ fun n => ?_).mono (by omega) (by omega)
  intro L k U P hu hp
  simp only [cost_bind, cost_doLock, cost_doRead, cost_expect, cost_doUnlock, cost_pure, List.erase_cons_head]
  exact fun _ => ⟨hu _ (Nat.le_refl _), fun s _ a _ => ⟨List.mem_cons_self, hp _ _ (Nat.le_refl _) (Nat.le_refl _)⟩⟩

theorem setJointPositionsClamped (c : Chain) (xs : List T) :
    Takes C (min c.movableNodes.length xs.length) (min c.movableNodes.length xs.length)
      (c.setJointPositionsClamped xs) := by
  refine (takes_forEach (lo := 1) (hi := 1) _ fun n => takes_poke _ _).mono ?_ ?_ <;> simp

theorem setJointPositionsUnchecked (c : Chain) (xs : List T) :
    Takes C (min c.movableNodes.length xs.length) (min c.movableNodes.length xs.length)
      (c.setJointPositionsUnchecked xs) := by
  refine (takes_forEach (lo := 1) (hi := 1) _ fun n => takes_poke _ _).mono ?_ ?_ <;> simp

theorem _root_.K.cost_setJointPositions (c : Chain) (xs : List T) {U : Nat → Prop}
    {P : Except (KError T) Unit → List NodeId → Nat → Prop} {L : List NodeId} {k : Nat}
    (hu : ∀ j, j ≤ k + min c.movableNodes.length xs.length * (1 + M) → U j)
    (hp : ∀ a j, k ≤ j → j ≤ k + min c.movableNodes.length xs.length * (1 + M) →
      (if xs.length = c.dof then (a = .ok () → k + min c.movableNodes.length xs.length ≤ j) else j = k) →
      P a L j) :
    Cost (Few M) U P (c.setJointPositions xs) L k := by
  unfold Chain.setJointPositions
  split
  · rename_i ne
    exact hp _ _ (Nat.le_refl _) (by omega) (by rw [if_neg ne])
  · rename_i ne
    refine cost_tryEach (lo := 1) (hi := 1 + M) _ (fun jp => setJointPosition _ _) ?_ ?_
    · rw [List.length_zip, Nat.mul_comm]; exact hu
    · rw [List.length_zip, Nat.mul_comm (1 + M)]
      intro a j h1 h2 h3
      refine hp a j h1 h2 ?_
      rw [if_pos (Classical.byContradiction ne)]
      exact fun e => by have := h3 e; omega

theorem setJointPositions (c : Chain) (xs : List T) :
    Takes (Few M) 0 (c.movableNodes.length * (1 + M)) (c.setJointPositions xs) := fun L k U P hu hp => by
  have : min c.movableNodes.length xs.length * (1 + M) ≤ c.movableNodes.length * (1 + M) :=
    Nat.mul_le_mul_right _ (Nat.min_le_left _ _)
  exact cost_setJointPositions c xs (fun j hj => hu j (by omega)) fun a j h1 h2 _ => hp a j (by omega) (by omega)

theorem updateTransforms (c : Chain) :
    Takes C (3 * c.nodes.length) (4 * c.nodes.length) (c.updateTransforms : KProg T _) := by
  refine takes_mapList _ fun n => ?_
  exact (parentWorldTransform n).bind fun _ => (takes_expect _ _).bind (lo' := 2) (hi' := 2) fun _ =>
    (joint n).bind fun _ => (takes_poke n _).bind fun _ => takes_pure _

theorem endTransform (c : Chain) :
    Takes C c.nodes.length c.nodes.length (c.endTransform : KProg T _) := by
  unfold Chain.endTransform
  generalize (Iso.one : Iso T) = t
  induction c.nodes generalizing t with
  | nil => exact takes_ret _
  | cons n ns ih =>
    refine ((joint n).bind fun _ => ih _).mono ?_ ?_ <;> rw [List.length_cons] <;> omega

theorem updateVelocity (n : NodeId) : Takes C 4 6 (Chain.updateVelocity n : KProg T _) := by
  refine (parentWorldTransform n).bind (lo' := 3) (hi' := 4) fun _ => (takes_expect _ _).bind fun _ =>
    (parentWorldVelocity n).bind (lo' := 2) (hi' := 2) fun _ => (takes_expect _ _).bind (lo' := 2) (hi' := 2)
      fun pv => ?_
  intro L k U P hu hp
  simp only [cost_bind, cost_doLock, cost_doRead]
  refine fun hn => ⟨hu _ (by omega), fun s _ => ?_⟩
  split
  · simp only [cost_pure, cost_doUnlock, cost_poke, List.erase_cons_head]
    exact ⟨List.mem_cons_self, fun _ => ⟨hu _ (by omega), hp _ _ (by omega) (by omega)⟩⟩
  · simp only [Node.parent, cost_bind, cost_doLock]
    exact fun h => absurd List.mem_cons_self h
  · simp only [Node.worldTransform, Node.joint, cost_bind, cost_peek]
    exact fun h => absurd List.mem_cons_self h

theorem updateVelocities (c : Chain) :
    Takes C (7 * c.nodes.length) (10 * c.nodes.length) (c.updateVelocities : KProg T _) := by
  refine ((updateTransforms c).bind fun _ => takes_mapList _ updateVelocity).mono ?_ ?_ <;> omega

theorem updateLinkTransforms (c : Chain) :
    Takes C (5 * c.nodes.length) (7 * c.nodes.length) (c.updateLinkTransforms : KProg T _) := by
  refine ((updateTransforms c).bind fun _ => takes_forEach (lo := 2) (hi := 3) _ fun n => ?_).mono ?_ ?_
  · exact (parentWorldTransform n).bind (lo' := 1) (hi' := 1) fun _ => (takes_expect _ _).bind
      (lo' := 1) (hi' := 1) fun _ => takes_poke n _
  · omega
  · omega

theorem fromNodes (ns : List NodeId) : Takes C ns.length ns.length (Chain.fromNodes ns : KProg T _) := by
  refine ((takes_filterList (lo := 1) (hi := 1) ns fun n => (joint n).map).bind fun _ =>
    takes_pure _).mono ?_ ?_ <;> omega

theorem jacobian (c : Chain) :
    Takes C (4 * c.nodes.length + c.movableNodes.length) (5 * c.nodes.length + c.movableNodes.length)
      (jacobian c : KProg T _) := by
  refine ((endTransform c).bind fun _ => (updateTransforms c).bind fun _ =>
    takes_mapList (lo := 1) (hi := 1) _ fun n => ?_).mono ?_ ?_
  · intro L k U P hu hp
    simp only [cost_bind, cost_doLock, cost_doRead, cost_expect, cost_ofExcept, cost_doUnlock, cost_pure,
      List.erase_cons_head]
    exact fun _ => ⟨hu _ (Nat.le_refl _), fun s _ a _ b _ =>
      ⟨List.mem_cons_self, hp _ _ (Nat.le_refl _) (Nat.le_refl _)⟩⟩
  · omega
  · omega

theorem comLoop (ns : List NodeId) (acc : ComAcc T) : Takes C ns.length (2 * ns.length) (comLoop ns acc) := by
  induction ns generalizing acc with
  | nil => exact takes_ret _
  | cons n ns ih =>
    rw [List.length_cons]
    refine ((worldTransform n).bind (lo' := ns.length) (hi' := 1 + 2 * ns.length) fun o => ?_).mono
      (by omega) (by omega)
    cases o with
    | none => exact (ih _).mono (by omega) (by omega)
    | some t => exact ((link n).bind fun _ => ih _).mono (by omega) (by omega)

theorem centerOfMass (c : Chain) :
    Takes C (4 * c.nodes.length) (6 * c.nodes.length) (centerOfMass c : KProg T _) :=
  ((updateTransforms c).bind fun _ => (comLoop c.nodes _).map).mono (by omega) (by omega)

/-- one try: one more look at the end if it does not fail -/
theorem _root_.K.cost_solveOneLoop (s : IkSolver T) (arm : Chain) (target : Iso T) (ops : List Bool)
    (ign : List Nat) {U : Nat → Prop} {P : Except (KError T) (List T) → List NodeId → Nat → Prop}
    {L : List NodeId} {k : Nat}
    (hu : ∀ j, j ≤ k + (7 * arm.nodes.length + 3 * arm.movableNodes.length) → U j)
    (hp : ∀ a j, k ≤ j → j ≤ k + (7 * arm.nodes.length + 3 * arm.movableNodes.length) →
      ((∃ d, a = .ok d) → k + 6 * arm.nodes.length + 2 * arm.movableNodes.length ≤ j) → P a L j) :
    Cost C U P (solveOneLoop s arm target ops ign) L k := by
  unfold solveOneLoop
  refine cost_bind.2 (jointPositions arm L k _ _ (fun j hj => hu j (by omega)) fun a j h1 h2 => ?_)
  refine cost_bind.2 (endTransform arm L j _ _ (fun j hj => hu j (by omega)) fun a j h3 h4 => ?_)
  simp only
  refine cost_bind.2 (jacobian arm L j _ _ (fun j hj => hu j (by omega)) fun a j h5 h6 => ?_)
  simp only [cost_bind, cost_ofExcept]
  intro x _
  match x with
  | .error e => exact hp _ _ (by omega) (by omega) fun ⟨_, e⟩ => by cases e
  | .ok ps =>
    have := Nat.min_le_left arm.movableNodes.length ps.length
    simp only
    refine cost_bind.2 (setJointPositionsClamped arm ps L j _ _ (fun j hj => hu j (by omega))
      fun a j h7 h8 => ?_)
    refine cost_bind.2 (endTransform arm L j _ _ (fun j hj => hu j (by omega)) fun a j h9 h10 => ?_)
    exact hp _ _ (by omega) (by omega) fun _ => by omega

theorem jointIndex (name : String) (ns : List NodeId) : Takes C 0 ns.length (jointIndex name ns : KProg T _) := by
  induction ns with
  | nil => exact takes_ret _
  | cons n ns ih =>
    rw [List.length_cons]
    refine ((joint n).bind (lo' := 0) (hi' := ns.length) fun _ => ?_).mono (by omega) (by omega)
    split
    · exact (takes_pure _).mono (Nat.le_refl _) (by omega)
    · exact ih.map

theorem ignoredIndices (arm : Chain) (names : List String) :
    Takes C 0 (names.length * arm.movableNodes.length) (ignoredIndices arm names : KProg T _) := by
  induction names with
  | nil => exact (takes_ret _).mono (Nat.le_refl _) (Nat.zero_le _)
  | cons a as ih =>
    rw [List.length_cons, Nat.succ_mul]
    refine ((jointIndex a _).bind (lo' := 0) (hi' := as.length * arm.movableNodes.length) fun x => ?_).mono
      (by omega) (by omega)
    split
    · exact (ih.bind (lo' := 0) (hi' := 0) fun y => by cases y <;> exact takes_pure _).mono (by omega) (by omega)
    · exact (takes_pure _).mono (Nat.le_refl _) (by omega)

end Takes

/-- the loop of the solver: at least one try and a last look at the positions if it succeeds -/
theorem cost_tryLoop (s : IkSolver T) (arm : Chain) (target : Iso T) (ops : List Bool) (ign : List Nat)
    (orig : List T) {U : Nat → Prop} {P : Except (KError T) Unit → List NodeId → Nat → Prop}
    {L : List NodeId} (left : Nat) (last : Option (V3 T × V3 T)) {k : Nat}
    (hu : ∀ j, j ≤ k + left * (7 * arm.nodes.length + 3 * arm.movableNodes.length) +
      arm.movableNodes.length * (1 + M) + arm.movableNodes.length → U j)
    (he : ∀ e j, k ≤ j → j ≤ k + left * (7 * arm.nodes.length + 3 * arm.movableNodes.length) +
      arm.movableNodes.length * (1 + M) → P (.error e) L j)
    (hk : ∀ j, k + 6 * arm.nodes.length + 3 * arm.movableNodes.length ≤ j →
      j ≤ k + left * (7 * arm.nodes.length + 3 * arm.movableNodes.length) + 2 * arm.movableNodes.length →
      P (.ok ()) L j) :
    Cost (Few M) U P (tryLoop s arm target ops ign orig left last) L k := by
  have ge : arm.movableNodes.length ≤ arm.movableNodes.length * (1 + M) := Nat.le_mul_of_pos_right _ (by omega)
  induction left generalizing k last with
  | zero =>
    unfold tryLoop
    refine cost_bind.2 (Takes.setJointPositions arm orig L k _ _ (fun j hj => hu j (by omega)) fun a j h1 h2 => ?_)
    match a with
    | .error e => exact he _ _ (by omega) (by omega)
    | .ok () =>
      simp only [cost_bind, cost_expect, cost_pure]
      exact fun _ _ => he _ _ (by omega) (by omega)
  | succ left ih =>
    rw [Nat.succ_mul left] at hu he hk
    unfold tryLoop
    refine cost_bind.2 (cost_solveOneLoop s arm target ops ign (fun j hj => hu j (by omega))
      fun a j h1 h2 h0 => ?_)
    match a with
    | .error e => exact he _ _ (by omega) (by omega)
    | .ok diff =>
      have h0 := h0 ⟨_, rfl⟩
      simp only
      split
      · refine cost_bind.2 (Takes.jointPositions arm L j _ _ (fun i hi => hu i (by omega)) fun b i h3 h4 => ?_)
        have := Nat.min_le_left arm.movableNodes.length b.length
        refine cost_bind.2 (Takes.setJointPositionsClamped arm b L i _ _ (fun l hl => hu l (by omega))
          fun _ l h5 h6 => ?_)
        exact hk l (by omega) (by omega)
      · exact ih _ (fun i hi => hu i (by omega)) (fun e i h3 h4 => he e i (by omega) (by omega))
          fun i h3 h4 => hk i (by omega) (by omega)

theorem cost_solve (s : IkSolver T) (arm : Chain) (target : Iso T) (c : Constraints) {U : Nat → Prop}
    {P : Except (KError T) Unit → List NodeId → Nat → Prop} {L : List NodeId} {k : Nat}
    (hu : ∀ j, j ≤ k + solvePrice M s.numMaxTry arm.nodes.length arm.movableNodes.length
      c.ignoredJointNames.length → U j)
    (hp : ∀ r j, k + arm.movableNodes.length ≤ j →
      j ≤ k + solvePrice M s.numMaxTry arm.nodes.length arm.movableNodes.length c.ignoredJointNames.length →
      (r = .ok () → k + 6 * arm.nodes.length + 5 * arm.movableNodes.length ≤ j) → P r L j) :
    Cost (Few M) U P (solveWithConstraints s arm target c) L k := by
  have ge : arm.movableNodes.length ≤ arm.movableNodes.length * (1 + M) := Nat.le_mul_of_pos_right _ (by omega)
  unfold solvePrice at hu hp
  unfold solveWithConstraints solveInternal
  refine cost_bind.2 (Takes.jointPositions arm L k _ _ (fun j hj => hu j (by omega)) fun p₀ j h1 h2 => ?_)
  -- putting the positions back after an error
  have back : ∀ (e : KError T) (i : Nat), k + arm.movableNodes.length ≤ i →
      i ≤ k + 2 * arm.movableNodes.length + c.ignoredJointNames.length * arm.movableNodes.length +
        s.numMaxTry * (7 * arm.nodes.length + 3 * arm.movableNodes.length) +
        arm.movableNodes.length * (1 + M) →
      Cost (Few M) U P (do
        match ← arm.setJointPositions p₀ with
        | .error e' => return .error e'
        | .ok () => return .error e) L i := by
    intro e i l u
    refine cost_bind.2 (Takes.setJointPositions arm p₀ L i _ _ (fun j hj => hu j (by omega)) fun a j h3 h4 => ?_)
    match a with
    | .error e' => exact hp _ _ (by omega) (by omega) fun x => by cases x
    | .ok () => exact hp _ _ (by omega) (by omega) fun x => by cases x
  simp only [cost_bind]
  refine Takes.jointPositions arm L j _ _ (fun j hj => hu j (by omega)) fun orig i h3 h4 => ?_
  split
  · trivial
  · split
    · exact back _ _ (by omega) (by omega)
    · simp only [cost_bind]
      refine Takes.ignoredIndices arm _ L i _ _ (fun j hj => hu j (by omega)) fun ig l h5 h6 => ?_
      match ig with
      | .error e => exact back _ _ (by omega) (by omega)
      | .ok ign =>
        refine cost_tryLoop s arm target _ _ orig _ _ (fun j hj => hu j (by omega)) (fun e m h7 h8 => ?_)
          fun m h7 h8 => ?_
        · exact back _ _ (by omega) (by omega)
        · exact hp _ _ (by omega) (by omega) fun _ => by omega

/-! ## Calls that walk along the links -/

section walk
variable {C : NodeImpl T → Prop} {U : Nat → Prop} {L : List NodeId} {k : Nat}

theorem cost_ancestors (hu : ∀ j, U j) (fuel : Nat) (o : Option NodeId) {P : List NodeId → List NodeId → Nat → Prop}
    (hp : ∀ r, P r L (k + r.length)) : Cost C U P (ancestors fuel o : KProg T _) L k := by
  induction fuel generalizing o k P with
  | zero => cases o with
    | none => exact hp []
    | some n => trivial
  | succ fuel ih => cases o with
    | none => exact hp []
    | some n =>
      refine cost_bind.2 (Takes.parent n L k _ _ (fun j _ => hu j) fun o j h1 h2 => ?_)
      obtain rfl : j = k + 1 := by omega
      refine cost_bind.2 (ih o fun r => ?_)
      have := hp (n :: r)
      rw [List.length_cons] at this
      rwa [show k + 1 + r.length = k + (r.length + 1) by omega]

theorem cost_ancestorsUntil (hu : ∀ j, U j) (stop : NodeId) (fuel : Nat) (o : Option NodeId)
    {P : List NodeId → List NodeId → Nat → Prop}
    (hp : ∀ r, P r L (k + r.length)) : Cost C U P (ancestorsUntil stop fuel o : KProg T _) L k := by
  induction fuel generalizing o k P with
  | zero => cases o with
    | none => exact hp []
    | some n => trivial
  | succ fuel ih => cases o with
    | none => exact hp []
    | some n =>
      refine cost_bind.2 (Takes.parent n L k _ _ (fun j _ => hu j) fun o j h1 h2 => ?_)
      obtain rfl : j = k + 1 := by omega
      split
      · exact hp [n]
      · refine cost_bind.2 (ih o fun r => ?_)
        have := hp (n :: r)
        rw [List.length_cons] at this
        rwa [show k + 1 + r.length = k + (r.length + 1) by omega]

theorem cost_descendants (hu : ∀ j, U j) (fuel : Nat) (o : List NodeId) {P : List NodeId → List NodeId → Nat → Prop}
    (hp : ∀ r, P r L (k + r.length)) : Cost C U P (descendants fuel o : KProg T _) L k := by
  induction fuel generalizing o k P with
  | zero => cases o with
    | nil => exact hp []
    | cons n _ => trivial
  | succ fuel ih => cases o with
    | nil => exact hp []
    | cons n st =>
      refine cost_bind.2 (Takes.children n L k _ _ (fun j _ => hu j) fun o j h1 h2 => ?_)
      obtain rfl : j = k + 1 := by omega
      refine cost_bind.2 (ih _ fun r => ?_)
      have := hp (n :: r)
      rw [List.length_cons] at this
      rwa [show k + 1 + r.length = k + (r.length + 1) by omega]

theorem cost_fromNodes (hu : ∀ j, U j) (ns : List NodeId) {P : Chain → List NodeId → Nat → Prop}
    (hp : ∀ r : Chain, r.nodes = ns → P r L (k + ns.length)) :
    Cost C U P (Chain.fromNodes ns : KProg T _) L k := by
  refine cost_bind.2 (takes_filterList (lo := 1) (hi := 1) ns (fun n => (Takes.joint n).map) L k _ _
    (fun j _ => hu j) fun a j h1 h2 => ?_)
  obtain rfl : j = k + ns.length := by omega
  exact hp _ rfl

theorem cost_fromRoot (hu : ∀ j, U j) (fuel : Nat) (n : NodeId) {P : Chain → List NodeId → Nat → Prop}
    (hp : ∀ r : Chain, P r L (k + 2 * r.nodes.length)) :
    Cost C U P (Chain.fromRoot fuel n : KProg T _) L k := by
  refine cost_bind.2 (cost_descendants hu _ _ fun r => cost_fromNodes hu _ fun c e => ?_)
  have := hp c
  rwa [e, show k + 2 * r.length = k + r.length + r.length by omega] at this

theorem cost_fromEnd (hu : ∀ j, U j) (fuel : Nat) (n : NodeId) {P : Chain → List NodeId → Nat → Prop}
    (hp : ∀ r : Chain, P r L (k + 2 * r.nodes.length)) :
    Cost C U P (Chain.fromEnd fuel n : KProg T _) L k := by
  refine cost_bind.2 (cost_ancestors hu _ _ fun r => cost_fromNodes hu _ fun c e => ?_)
  have := hp c
  rw [List.length_reverse]
  rwa [e, List.length_reverse, show k + 2 * r.length = k + r.length + r.length by omega] at this

theorem cost_fromEndToRoot (hu : ∀ j, U j) (fuel : Nat) (n m : NodeId) {P : Chain → List NodeId → Nat → Prop}
    (hp : ∀ r : Chain, P r L (k + 2 * r.nodes.length)) :
    Cost C U P (Chain.fromEndToRoot fuel n m : KProg T _) L k := by
  refine cost_bind.2 (cost_ancestorsUntil hu _ _ _ fun r => cost_fromNodes hu _ fun c e => ?_)
  have := hp c
  rw [List.length_reverse]
  rwa [e, List.length_reverse, show k + 2 * r.length = k + r.length + r.length by omega] at this

theorem takes_cloneNode (n : NodeId) : Takes C 3 3 (Chain.cloneNode n : KProg T _) := fun L k U P hu hp => by
  simp only [Chain.cloneNode, Node.new, Node.setLink, cost_bind, cost_doLock, cost_doRead, cost_doAlloc,
    cost_doUnlock, cost_poke, cost_pure, List.erase_cons_head]
  exact fun _ => ⟨hu _ (by omega), fun s _ m => ⟨List.mem_cons_self, fun _ => ⟨hu _ (by omega), fun s _ _ =>
    ⟨hu _ (by omega), List.mem_cons_self, hp _ _ (by omega) (by omega)⟩⟩⟩⟩

theorem takes_cloneConnect (ns ns' : List NodeId) (nn : NodeId × NodeId) :
    Takes C 2 8 (Chain.cloneConnect ns ns' nn : KProg T _) := by
  have second : Takes C 1 5 (do
      match ← Node.mimicParent nn.1 with
      | some m =>
        let i ← expect (position m ns) "called `Option::unwrap()` on a `None` value"
        let m' ← expect ns'[i]? "index out of bounds"
        doLock nn.1
        let s ← doRead nn.1
        let mimic ← expect s.mimic "called `Option::unwrap()` on a `None` value"
        Node.setMimicParent nn.2 m' mimic
        doUnlock nn.1
      | none => pure () : KProg T Unit) := by
    refine (Takes.mimicParent nn.1).bind (lo' := 0) (hi' := 4) fun o => ?_
    cases o with
    | none => exact (takes_pure _).mono (Nat.le_refl _) (by omega)
    | some m =>
      refine ((takes_expect _ _).bind (lo' := 0) (hi' := 4) fun i =>
        (takes_expect _ _).bind (lo' := 0) (hi' := 4) fun m' => ?_).mono (by omega) (by omega)
      intro L k U P hu hp
      simp only [cost_bind, cost_doLock, cost_doRead, cost_expect, cost_doUnlock]
      refine fun _ => ⟨hu _ (by omega), fun s _ mi _ => ?_⟩
      refine Takes.setMimicParent _ _ _ _ _ _ _ (fun j hj => hu j (by omega)) fun _ j h1 h2 => ?_
      rw [List.erase_cons_head]
      exact ⟨List.mem_cons_self, hp _ _ (by omega) (by omega)⟩
  refine (Takes.parent nn.1).bind (lo' := 1) (hi' := 7) fun o => ?_
  cases o with
  | none => exact second.mono (Nat.le_refl _) (by omega)
  | some p =>
    exact ((takes_expect _ _).bind (lo' := 3) (hi' := 7) fun i =>
      (takes_expect _ _).bind (lo' := 3) (hi' := 7) fun p' =>
        (Takes.setParent _ _).bind fun _ => second).mono (by omega) (by omega)

theorem cost_clone (hu : ∀ j, U j) (c : Chain) (fuel : Nat) {P : Chain → List NodeId → Nat → Prop}
    (hp : ∀ (r : Chain) j, (if c.nodes = [] then j = k else k + (2 + 5 * c.nodes.length + 2 * r.nodes.length) ≤ j ∧
      j ≤ k + (2 + 11 * c.nodes.length + 2 * r.nodes.length)) → P r L j) :
    Cost C U P (c.clone fuel : KProg T _) L k := by
  unfold Chain.clone
  split
  · rename_i e
    exact hp _ _ (by rw [if_pos e])
  · rename_i n0 rest e
    have ne : c.nodes ≠ [] := by simp [e]
    simp only [if_neg ne] at hp
    refine cost_bind.2 (Takes.isRoot n0 L k _ _ (fun j _ => hu j) fun b j h1 h2 => ?_)
    split
    · trivial
    · refine cost_bind.2 ?_
      have len : ∀ (xs : List NodeId) {k : Nat} {P : List NodeId → List NodeId → Nat → Prop},
          (∀ ys : List NodeId, ys.length = xs.length → P ys L (k + 3 * xs.length)) →
          Cost C U P (mapList xs (Chain.cloneNode (T := T))) L k := by
        intro xs
        induction xs with
        | nil => exact fun hp => hp [] rfl
        | cons x xs ih =>
          intro k P hp
          refine cost_bind.2 (takes_cloneNode x L k _ _ (fun j _ => hu j) fun y j h1 h2 => ?_)
          obtain rfl : j = k + 3 := by omega
          refine cost_bind.2 (ih fun ys e => ?_)
          have := hp (y :: ys) (by simp [e])
          rwa [List.length_cons, show k + 3 * (xs.length + 1) = k + 3 + 3 * xs.length by omega] at this
      refine len c.nodes fun ys ly => ?_
      refine cost_bind.2 (takes_forEach (lo := 2) (hi := 8) _ (takes_cloneConnect c.nodes ys) L _ _ _
        (fun j _ => hu j) fun _ i h3 h4 => ?_)
      rw [List.length_zip, ly, Nat.min_self] at h3 h4
      simp only [cost_bind, cost_expect]
      intro r _
      refine Takes.isRoot r L i _ _ (fun j _ => hu j) fun b l h5 h6 => ?_
      split
      · trivial
      · exact cost_fromRoot hu _ _ fun d => hp d _ ⟨by omega, by omega⟩

theorem cost_fmt (hu : ∀ j, U j) (c : Chain) (fuel level : Nat) (n : NodeId)
    {P : List String → List NodeId → Nat → Prop} (hp : ∀ r j, k ≤ j → P r L j) :
    Cost C U P (c.fmtWithIndentLevel fuel level n : KProg T _) L k := by
  induction fuel generalizing level n k L P with
  | zero => trivial
  | succ fuel ih =>
    unfold Chain.fmtWithIndentLevel
    refine cost_bind.2 ?_
    have rest : ∀ (here : List String) (i : Nat), k ≤ i → Cost C U P (do
        doLock n
        let s ← doRead n
        let below ← mapList s.children (c.fmtWithIndentLevel fuel (level + 1))
        doUnlock n
        return here ++ below.flatten) L i := by
      intro here i hi
      simp only [cost_bind, cost_doLock, cost_doRead]
      refine fun _ => ⟨hu _, fun s _ => ?_⟩
      have all : ∀ (xs : List NodeId) {k : Nat} {Q : List (List String) → List NodeId → Nat → Prop},
          (∀ r j, k ≤ j → Q r (n :: L) j) →
          Cost C U Q (mapList xs (c.fmtWithIndentLevel (T := T) fuel (level + 1))) (n :: L) k := by
        intro xs
        induction xs with
        | nil => exact fun hq => hq _ _ (Nat.le_refl _)
        | cons x xs ihx =>
          intro k Q hq
          refine cost_bind.2 (ih _ _ fun r j h1 => cost_bind.2 (ihx fun r' j' h2 => ?_))
          exact hq _ _ (Nat.le_trans h1 h2)
      refine all _ fun r j h1 => ?_
      rw [cost_doUnlock, List.erase_cons_head]
      exact ⟨List.mem_cons_self, hp _ _ (by omega)⟩
    split
    · exact cost_bind.2 (cost_peek.2 fun _ => ⟨hu _, fun s _ => rest _ _ (by omega)⟩)
    · exact rest _ _ (Nat.le_refl _)

end walk

theorem cost_iterLinks {C : NodeImpl T → Prop} {U : Nat → Prop} {L : List NodeId} {k : Nat} (c : Chain)
    (hu : ∀ j, j ≤ k + 2 * c.nodes.length → U j) {P : List (Link T) → List NodeId → Nat → Prop}
    (hp : ∀ r : List (Link T), P r L (k + (c.nodes.length + r.length))) : Cost C U P (c.iterLinks : KProg T _) L k := by
  unfold Chain.iterLinks
  rw [cost_bind]
  have all : ∀ (xs : List NodeId) (k : Nat) (Q : List (Option (Link T)) → List NodeId → Nat → Prop),
      (∀ j, j ≤ k + 2 * xs.length → U j) →
      (∀ r : List (Option (Link T)), r.length = xs.length → Q r L (k + (xs.length + (r.filterMap id).length))) →
      Cost C U Q (mapList xs fun n => (do
        if (← Node.link n).isSome then
          doLock n
          let s ← doRead n
          let l ← expect s.link "called `Option::unwrap()` on a `None` value"
          doUnlock n
          return some l
        else return none : KProg T (Option (Link T)))) L k := by
    intro xs
    induction xs with
    | nil => exact fun k Q _ hq => hq [] rfl
    | cons x xs ih =>
      intro k Q hu hq
      simp only [List.length_cons] at hu hq
      refine cost_bind.2 (cost_bind.2 (Takes.link x L k _ _ (fun j hj => hu j (by omega)) fun o j h1 h2 => ?_))
      obtain rfl : j = k + 1 := by omega
      split
      · simp only [cost_bind, cost_doLock, cost_doRead, cost_expect, cost_doUnlock, cost_pure,
          List.erase_cons_head]
        refine fun _ => ⟨hu _ (by omega), fun s _ l _ => ⟨List.mem_cons_self, ?_⟩⟩
        refine ih _ _ (fun j hj => hu j (by omega)) fun r e => ?_
        have := hq (some l :: r) (by simp [e])
        simp only [List.filterMap_cons, id, List.length_cons] at this
        rwa [show k + (xs.length + 1 + ((r.filterMap id).length + 1)) =
          k + 1 + 1 + (xs.length + (r.filterMap id).length) by omega] at this
      · simp only [cost_bind, cost_pure]
        refine ih _ _ (fun j hj => hu j (by omega)) fun r e => ?_
        have := hq (none :: r) (by simp [e])
        simp only [List.filterMap_cons, id] at this
        rwa [show k + (xs.length + 1 + (r.filterMap id).length) =
          k + 1 + (xs.length + (r.filterMap id).length) by omega] at this
  exact all _ _ _ hu fun r _ => hp _

/-! ## All calls -/

/-- the budget of a call -/
def Budget (U : Nat → Prop) (k : Nat) : Option Nat → Prop
  | some b => ∀ j, j ≤ k + b → U j
  | none => ∀ j, U j

theorem Takes.cost {C : NodeImpl T → Prop} {lo hi : Nat} {p : KProg T α} (h : Takes C lo hi p)
    {U : Nat → Prop} {L : List NodeId} {k : Nat} {P : α → List NodeId → Nat → Prop}
    (hu : ∀ j, j ≤ k + hi → U j) (hp : ∀ a i, lo ≤ i → i ≤ hi → P a L (k + i)) : Cost C U P p L k :=
  h L k U P hu fun a j h1 h2 => by
    obtain ⟨i, rfl⟩ : ∃ i, j = k + i := ⟨j - k, by omega⟩
    exact hp a i (by omega) (by omega)

theorem cost_call {β : Type} (c : Call T β) {U : Nat → Prop} {L : List NodeId} {k : Nat}
    {P : β → List NodeId → Nat → Prop} (hu : Budget U k (c.Most M))
    (hp : ∀ r j, c.Locks M r j → P r L (k + j)) : Cost (Few M) U P c.prog L k := by
  cases c with
  | newNode j => exact fun m => hp m 0 rfl
  | setParent n p => exact (Takes.setParent n p).cost hu fun a i h1 h2 => hp a i (Nat.le_antisymm h2 h1)
  | removeParent n p => exact (Takes.removeParent n p).cost hu fun a i h1 h2 => hp a i (Nat.le_antisymm h2 h1)
  | setMimicParent n p m => exact (Takes.setMimicParent n p m).cost hu fun a i h1 h2 => hp a i (Nat.le_antisymm h2 h1)
  | setLink n l => exact (takes_poke n _).cost hu fun a i h1 h2 => hp a i (Nat.le_antisymm h2 h1)
  | setOrigin n t => exact (takes_poke n _).cost hu fun a i h1 h2 => hp a i (Nat.le_antisymm h2 h1)
  | setJointPosition n x => exact (Takes.setJointPosition n x).cost hu fun a i h1 h2 => hp a i ⟨h1, h2⟩
  | setJointPositionClamped n x => exact (takes_poke n _).cost hu fun a i h1 h2 => hp a i (Nat.le_antisymm h2 h1)
  | setJointPositionUnchecked n x => exact (takes_poke n _).cost hu fun a i h1 h2 => hp a i (Nat.le_antisymm h2 h1)
  | joint n => exact (Takes.joint n).cost hu fun a i h1 h2 => hp a i (Nat.le_antisymm h2 h1)
  | jointPosition n => exact (Takes.jointPosition n).cost hu fun a i h1 h2 => hp a i (Nat.le_antisymm h2 h1)
  | parent n => exact (Takes.parent n).cost hu fun a i h1 h2 => hp a i (Nat.le_antisymm h2 h1)
  | mimicParent n => exact (Takes.mimicParent n).cost hu fun a i h1 h2 => hp a i (Nat.le_antisymm h2 h1)
  | children n => exact (Takes.children n).cost hu fun a i h1 h2 => hp a i (Nat.le_antisymm h2 h1)
  | link n => exact (Takes.link n).cost hu fun a i h1 h2 => hp a i (Nat.le_antisymm h2 h1)
  | isRoot n => exact (Takes.isRoot n).cost hu fun a i h1 h2 => hp a i (Nat.le_antisymm h2 h1)
  | isEnd n => exact (Takes.isEnd n).cost hu fun a i h1 h2 => hp a i (Nat.le_antisymm h2 h1)
  | origin n => exact (Takes.origin n).cost hu fun a i h1 h2 => hp a i (Nat.le_antisymm h2 h1)
  | worldTransform n => exact (Takes.worldTransform n).cost hu fun a i h1 h2 => hp a i (Nat.le_antisymm h2 h1)
  | worldVelocity n => exact (Takes.worldVelocity n).cost hu fun a i h1 h2 => hp a i (Nat.le_antisymm h2 h1)
  | iterAncestors fuel n => exact cost_ancestors hu _ _ fun r => hp r _ rfl
  | iterDescendants fuel n => exact cost_descendants hu _ _ fun r => hp r _ rfl
  | fromNodes ns => exact (Takes.fromNodes ns).cost hu fun a i h1 h2 => hp a i (Nat.le_antisymm h2 h1)
  | fromRoot fuel n => exact cost_fromRoot hu _ _ fun r => hp r _ rfl
  | fromEnd fuel n => exact cost_fromEnd hu _ _ fun r => hp r _ rfl
  | fromEndToRoot fuel e r => exact cost_fromEndToRoot hu _ _ _ fun r => hp r _ rfl
  | chainSetOrigin c t =>
    show Cost _ _ _ (c.setOrigin t) _ _
    unfold Chain.setOrigin
    split
    · trivial
    · exact (takes_poke _ _).cost hu fun a i h1 h2 => hp a i (Nat.le_antisymm h2 h1)
  | chainOrigin c =>
    show Cost _ _ _ c.origin _ _
    unfold Chain.origin
    split
    · trivial
    · exact (Takes.origin _).cost hu fun a i h1 h2 => hp a i (Nat.le_antisymm h2 h1)
  | iterJoints c =>
    refine (takes_mapList (lo := 1) (hi := 1) _ Takes.joint).cost ?_ fun a i h1 h2 => hp a i ?_
    · rw [Nat.one_mul]; exact hu
    · rw [Nat.one_mul] at h1 h2; exact Nat.le_antisymm h2 h1
  | iterLinks c => exact cost_iterLinks c hu fun r => hp r _ rfl
  | find c name =>
    refine cost_findFirst _ (fun n => (Takes.joint n).map) hu (hp none _ rfl) fun i x e => ?_
    exact hp (some x) (i + 1) ⟨i, rfl, e⟩
  | jointPositions c => exact (Takes.jointPositions c).cost hu fun a i h1 h2 => hp a i (Nat.le_antisymm h2 h1)
  | setJointPositions c xs =>
    refine cost_setJointPositions c xs hu fun a j h1 h2 h3 => ?_
    obtain ⟨i, rfl⟩ : ∃ i, j = k + i := ⟨j - k, by omega⟩
    refine hp a i ?_
    simp only [Call.Locks]
    split at h3
    · rename_i e
      rw [if_pos e]
      exact ⟨⟨Nat.zero_le _, by omega⟩, fun e => by have := h3 e; omega⟩
    · rename_i e
      rw [if_neg e]; omega
  | setJointPositionsClamped c xs =>
    exact (Takes.setJointPositionsClamped c xs).cost hu fun a i h1 h2 => hp a i (Nat.le_antisymm h2 h1)
  | setJointPositionsUnchecked c xs =>
    exact (Takes.setJointPositionsUnchecked c xs).cost hu fun a i h1 h2 => hp a i (Nat.le_antisymm h2 h1)
  | updateTransforms c => exact (Takes.updateTransforms c).cost hu fun a i h1 h2 => hp a i ⟨h1, h2⟩
  | updateVelocities c => exact (Takes.updateVelocities c).cost hu fun a i h1 h2 => hp a i ⟨h1, h2⟩
  | updateLinkTransforms c => exact (Takes.updateLinkTransforms c).cost hu fun a i h1 h2 => hp a i ⟨h1, h2⟩
  | cloneChain fuel c =>
    refine cost_clone hu c fuel fun r j h => ?_
    split at h
    · rename_i e
      subst h
      exact hp r 0 (by simp [Call.Locks, e])
    · rename_i e
      obtain ⟨i, rfl⟩ : ∃ i, j = k + i := ⟨j - k, by omega⟩
      exact hp r i (by simp only [Call.Locks, if_neg e]; exact ⟨by omega, by omega⟩)
  | tryNew c =>
    show Cost _ _ _ c.tryNew _ _
    have hu : ∀ j, j ≤ k + (c.nodes.length - 1) → U j := hu
    have hn : ∀ j, Between 1 (c.nodes.length - 1) j → P none L (k + j) := fun j => hp none j
    have hs : ∀ d j, j = c.nodes.length - 1 → P (some d) L (k + j) := fun d j => hp (some d) j
    unfold Chain.tryNew
    split
    · trivial
    · rename_i m e
      have lt : (c.nodes.take m).length = m := by rw [List.length_take, e]; omega
      rw [e, Nat.succ_sub_one] at hu hn hs
      rw [cost_bind]
      refine cost_findFirst _ (fun n => (Takes.children n).map) (by rw [lt]; exact hu) ?_ fun i x ex => ?_
      · exact hs c _ lt
      · have : i < m := by rw [← lt]; exact (List.getElem?_eq_some_iff.1 ex).1
        exact hn (i + 1) ⟨by omega, by omega⟩
  | endTransform c => exact (Takes.endTransform c).cost hu fun a i h1 h2 => hp a i (Nat.le_antisymm h2 h1)
  | display fuel c =>
    show Cost _ _ _ (c.display fuel) _ _
    unfold Chain.display
    split
    · trivial
    · refine cost_bind.2 (cost_fmt hu _ _ _ _ fun r j h => ?_)
      obtain ⟨i, rfl⟩ : ∃ i, j = k + i := ⟨j - k, by omega⟩
      exact hp _ i trivial
  | jacobian c => exact (Takes.jacobian c).cost hu fun a i h1 h2 => hp a i ⟨h1, h2⟩
  | centerOfMass c => exact (Takes.centerOfMass c).cost hu fun a i h1 h2 => hp a i ⟨h1, h2⟩
  | solve s c t cs =>
    refine cost_solve s c t cs hu fun r j h1 h2 h3 => ?_
    obtain ⟨i, rfl⟩ : ∃ i, j = k + i := ⟨j - k, by omega⟩
    exact hp r i ⟨⟨by omega, by omega⟩, fun e => by have := h3 e; omega⟩

theorem cost_client (cl : Client T α) {U : Nat → Prop} {k : Nat} {P : α → Nat → Prop}
    (hu : (∀ j, U j) ∨ ∃ b, cl.Most M b ∧ ∀ j, j ≤ k + b → U j)
    (hp : ∀ a j, cl.Locks M a j → P a (k + j)) :
    Cost (Few M) U (fun a L k => L = [] ∧ P a k) cl.prog [] k := by
  induction cl generalizing k with
  | done a => exact ⟨rfl, hp a 0 ⟨rfl, rfl⟩⟩
  | call c f ih =>
    refine cost_bind.2 (cost_call c ?_ fun r j hj => ih r ?_ fun a i hi => ?_)
    · rcases hu with hu | ⟨b, ⟨b', e, le, -⟩, hu⟩
      · cases c.Most M with
        | none => exact hu
        | some b => exact fun j _ => hu j
      · rw [e]
        exact fun j hj => hu j (by omega)
    · rcases hu with hu | ⟨b, ⟨b', e, le, hb⟩, hu⟩
      · exact .inl hu
      · obtain ⟨b₂, le₂, hb⟩ := hb r j hj
        exact .inr ⟨b₂, hb, fun i hi => hu i (by omega)⟩
    · have := hp a (j + i) ⟨r, j, i, hj, hi, rfl⟩
      rwa [← Nat.add_assoc] at this

end K
