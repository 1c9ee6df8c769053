import Verif.Spec.Limits
import Verif.Lemmas.Safe
import Verif.Props.JointSet
/-!
# C03, C04: joint limits along every history and every interleaving
-/

namespace K
variable {T : Type} [Scalar T]

/-- The calls of C03: everything except the unchecked setters.  Clamped setters need arguments that are
not NaN, new nodes must start within proper limits, and the IK solver (which feeds computed values to
the clamped setter) needs a scalar type without NaN. -/
def LimitCall {β : Type} : Call T β → Prop
  | .newNode j => Within j.limits j.position ∧
      ∀ r, j.limits = some r → Scalar.le r.min r.max = true
  | .setJointPositionClamped _ x => ¬ IsNaN x
  | .setJointPositionsClamped _ xs => ∀ x ∈ xs, ¬ IsNaN x
  | .setJointPositionUnchecked _ _ => False
  | .setJointPositionsUnchecked _ _ => False
  | .solve _ _ _ _ => ∀ x : T, ¬ IsNaN x
  | _ => True

/-- the per-node invariant -/
private def LimOK (_ : NodeId) (s : NodeImpl T) : Prop :=
  Within s.joint.limits s.joint.position ∧
    ∀ r, s.joint.limits = some r → Scalar.le r.min r.max = true

private theorem limOK_set (c : NodeId) (y : T) (s : NodeImpl T) (h : LimOK c s) :
    LimOK c { s with joint := (s.joint.setJointPosition y).1 } := by
  cases e : (s.joint.setJointPosition y).2 with
  | error e' => rw [(C01_err _ _ _ e).1]; exact h
  | ok u =>
    have w := (C01_ok_iff s.joint y).1 e
    have f := (C01_ok_effect s.joint y e).1
    unfold LimOK; rw [f]; exact ⟨w.2, h.2⟩

private theorem limOK_clamp [LawfulOrd T] (c : NodeId) (y : T) (nn : ¬ IsNaN y) (s : NodeImpl T)
    (h : LimOK c s) : LimOK c { s with joint := s.joint.setJointPositionClamped y } := by
  by_cases fx : s.joint.jointType = .fixed
  · rw [C02_fixed _ _ fx]; exact h
  · refine ⟨C02_within s.joint y fx h.2 nn, ?_⟩
    have : (s.joint.setJointPositionClamped y).limits = s.joint.limits := by
      unfold Joint.setJointPositionClamped Joint.setJointPositionUnchecked; split <;> rfl
    rw [this]; exact h.2

private theorem safe_call [LawfulOrd T] {β : Type} (c : Call T β) (a : LimitCall c) :
    Safe 0 (LimOK (T := T)) (fun _ => True) c.prog := by
  cases c with
  | newNode j => exact (safe_doAlloc fun _ _ => a).true
  | setParent n p =>
    exact (safe_poke fun _ h => h).bind fun _ _ => safe_poke fun _ h => h
  | removeParent n p =>
    exact (safe_poke fun _ h => h).bind fun _ _ => safe_poke fun _ h => h
  | setMimicParent n p m =>
    exact (safe_poke fun _ h => h).bind fun _ _ => (safe_poke fun _ h => h).bind fun _ _ =>
      safe_poke fun _ h => h
  | setLink n l => exact safe_poke fun _ h => h
  | setOrigin n t => exact safe_poke fun _ h => h
  | setJointPosition n x => exact safe_Node_setJointPosition n x (.all limOK_set n)
  | setJointPositionClamped n x => exact safe_poke (limOK_clamp n x a)
  | setJointPositionUnchecked n x => exact a.elim
  | joint n => exact (safe_Node_joint n).true
  | jointPosition n => exact safe_Node_jointPosition n
  | parent n => exact safe_Node_parent n
  | mimicParent n => exact safe_Node_mimicParent n
  | children n => exact safe_Node_children n
  | link n => exact safe_Node_link n
  | isRoot n => exact safe_Node_isRoot n
  | isEnd n => exact safe_Node_isEnd n
  | origin n => exact safe_Node_origin n
  | worldTransform n => exact safe_Node_worldTransform n
  | worldVelocity n => exact safe_Node_worldVelocity n
  | iterAncestors fuel n => exact safe_ancestors _ _
  | iterDescendants fuel n => exact safe_descendants _ _
  | fromNodes ns => exact Chain.safe_fromNodes ns
  | fromRoot fuel n => exact Chain.safe_fromRoot _ _
  | fromEnd fuel n => exact Chain.safe_fromEnd _ _
  | fromEndToRoot fuel e r => exact Chain.safe_fromEndToRoot _ _ _
  | chainSetOrigin c t =>
    show Safe _ _ _ (c.setOrigin t)
    unfold Chain.setOrigin; split
    · trivial
    · exact safe_poke fun _ h => h
  | chainOrigin c =>
    show Safe _ _ _ c.origin
    unfold Chain.origin; split
    · trivial
    · exact safe_Node_origin _
  | iterJoints c => exact Chain.safe_iterJoints c
  | iterLinks c => exact Chain.safe_iterLinks c
  | find c name => exact Chain.safe_find c name
  | jointPositions c => exact Chain.safe_jointPositions' c
  | setJointPositions c xs => exact Chain.safe_setJointPositions c xs fun n _ => .all limOK_set n
  | setJointPositionsClamped c xs =>
    exact Chain.safe_setJointPositionsClamped c xs fun n _ y hy => limOK_clamp n y (a y hy)
  | setJointPositionsUnchecked c xs => exact a.elim
  | updateTransforms c => exact Chain.safe_updateTransforms c fun _ _ _ _ h => h
  | updateVelocities c =>
    exact Chain.safe_updateVelocities c (fun _ _ _ _ h => h) fun _ _ _ _ h => h
  | updateLinkTransforms c =>
    exact Chain.safe_updateLinkTransforms c (fun _ _ _ _ h => h) fun _ _ _ _ h => h
  | cloneChain fuel c =>
    exact Chain.safe_clone c fuel (fun _ _ h _ _ => h) (fun _ _ _ _ h => h) (fun _ _ _ _ h => h)
      (fun _ _ _ _ _ h => h) (fun _ _ _ _ h => h) (fun _ _ _ _ _ h => h) fun _ _ _ _ h => h
  | tryNew c => exact Chain.safe_tryNew c
  | endTransform c => exact Chain.safe_endTransform c
  | display fuel c => exact Chain.safe_display c fuel
  | jacobian c => exact safe_jacobian c fun _ _ _ _ h => h
  | centerOfMass c => exact safe_centerOfMass c fun _ _ _ _ h => h
  | solve s c target cs =>
    exact safe_solveWithConstraints s c target cs (fun _ _ _ _ h => h)
      (fun n _ y => limOK_clamp n y (a y)) fun n _ => .all limOK_set n

private theorem safe_client [LawfulOrd T] {α : Type} (cl : Client T α)
    (a : cl.Only LimitCall) : Safe 0 (LimOK (T := T)) (fun _ => True) cl.prog := by
  induction cl with
  | done x => trivial
  | call c k ih => exact (safe_call c a.1).bind fun r _ => ih r (a.2 r)

/-- **C03**.  Let every limited joint be within proper limits.  Whatever a client does with the calls
of `LimitCall` (checked and clamped setters on nodes and chains, mimic masters included, topology and
origin changes, kinematics, cloning, inverse kinematics, ...), in whatever order and depending on
whatever results, and however it ends - returned, panicked or blocked - every limited joint is within
its limits. -/
theorem C03_limits_along_history [LawfulOrd T] {α : Type} (cl : Client T α)
    (a : cl.Only LimitCall) (h : KHeap T) (w : AllWithin h) (pl : ProperLimits h) :
    match run cl.prog h with
    | .ok _ h' => AllWithin h'
    | .panic _ h' => AllWithin h'
    | .blocked _ h' => AllWithin h'
    | .diverged => True := by
  have i : HeapInv 0 LimOK h :=
    ⟨Nat.zero_le _, fun n => ⟨w n, fun r hr => pl n r hr⟩⟩
  have := run_safe (safe_client cl a) i
  cases e : run cl.prog h with
  | ok x h' => rw [e] at this; exact fun n => (this.2.2 n).1
  | panic m h' => rw [e] at this; exact fun n => (this.2 n).1
  | blocked m h' => rw [e] at this; exact fun n => (this.2 n).1
  | diverged => trivial

/-- **C04**.  The same for any number of client threads on shared nodes, after any number of
individual lock / read / write / unlock steps in any interleaving. -/
theorem C04_limits_under_interleaving [LawfulOrd T] {α : Type} (cls : List (Client T α))
    (a : ∀ cl ∈ cls, cl.Only LimitCall) (h : KHeap T) (w : AllWithin h) (pl : ProperLimits h)
    (d : Config (NodeImpl T) α) (st : DSteps ⟨h, cls.map Client.prog⟩ d) :
    AllWithin d.heap := by
  have i : HeapInv 0 LimOK h :=
    ⟨Nat.zero_le _, fun n => ⟨w n, fun r hr => pl n r hr⟩⟩
  have := (steps_safe (Q := fun _ => True) st (fun p hp => by
    obtain ⟨cl, hcl, rfl⟩ := List.mem_map.1 hp
    exact safe_client cl (a cl hcl)) i).2
  exact fun n => (this.2 n).1

/-! ### non-vacuity -/

/-- a heap of two limited joints, the second mimicking the first -/
noncomputable def exHeap : KHeap ℝ :=
  { get := fun n =>
      let j : Joint ℝ := { Joint.new "j" (.rotational ⟨0, 1, 0⟩) with limits := some ⟨-1, 1⟩ }
      if n = 0 then { NodeImpl.fresh j with mimicChildren := [1] }
      else { NodeImpl.fresh j with mimicParent := some 0, mimic := some ⟨1, 0⟩ }
    next := 2, dead := fun _ => false, held := fun _ => false }

example : AllWithin exHeap ∧ ProperLimits exHeap := by
  constructor
  · intro n r hr
    simp only [exHeap] at hr ⊢
    split at hr <;> simp [NodeImpl.fresh, Joint.new] at hr <;> subst hr <;> split <;>
      simp [NodeImpl.fresh, Joint.new]
  · intro n r hr
    simp only [exHeap] at hr
    split at hr <;> simp [NodeImpl.fresh, Joint.new] at hr <;> subst hr <;> simp

/-- the initial state and a client making checked, clamped and IK calls meet the hypotheses -/
noncomputable example (s : IkSolver ℝ) (t : Iso ℝ) :
    (Client.call (.setJointPosition 0 5) fun _ => .call (.setJointPositionsClamped ⟨[0], [0], 1⟩ [7])
      fun _ => .call (.solve s ⟨[0], [0], 1⟩ t Constraints.default) fun _ => .done () :
        Client ℝ Unit).Only LimitCall :=
  ⟨trivial, fun _ => ⟨fun _ _ => real_not_nan _, fun _ => ⟨fun _ => real_not_nan _,
    fun _ => trivial⟩⟩⟩

/-- a clamped NaN does break the limits: the exclusion is needed -/
theorem C03_nan_breaks_limits : ∃ (h h' : KHeap NReal) (n : NodeId),
    AllWithin h ∧ ProperLimits h ∧
    run (Node.setJointPositionClamped n NReal.nan) h = .ok () h' ∧ ¬ AllWithin h' := by
  let j : Joint NReal := { Joint.new "j" (.rotational ⟨0, 1, 0⟩) with
    limits := some ⟨NReal.num (-1), NReal.num 1⟩ }
  let h : KHeap NReal := ⟨fun _ => NodeImpl.fresh j, 1, fun _ => false, fun _ => false⟩
  have z : (0 : NReal) = NReal.num 0 := rfl
  refine ⟨h, _, 0, ?_, ?_, run_Node_setJointPositionClamped 0 _ h (fun _ => rfl), ?_⟩
  · intro n r hr
    simp [h, j, NodeImpl.fresh, Joint.new] at hr ⊢
    subst hr; simp [z]
  · intro n r hr
    simp [h, j, NodeImpl.fresh] at hr
    subst hr; simp
  · intro w
    have := w 0 ⟨NReal.num (-1), NReal.num 1⟩ (by
      simp [h, j, NodeImpl.fresh, Joint.setJointPositionClamped, Joint.setJointPositionUnchecked,
        Joint.isMovable, Joint.new])
    simp [h, j, NodeImpl.fresh, Joint.setJointPositionClamped, Joint.setJointPositionUnchecked,
        Joint.isMovable, Joint.new, Range.clamp] at this

end K
