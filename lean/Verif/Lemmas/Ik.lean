import Verif.Lemmas.Fk
import Verif.Lemmas.SetAll
import Verif.Props.ChainSet
import Verif.Model.Ik
/-!
# Sequential effect of the inverse kinematics loop
-/

set_option linter.unusedSectionVars false

namespace K
open Prog
variable {T : Type} [Scalar T]

/-- the positions of a list of nodes -/
def posList (h : KHeap T) (ns : List NodeId) : List T := ns.map fun n => (h.get n).joint.position

/-- effect of the loop of `set_joint_positions_clamped` -/
def clampAll (ps : List (NodeId × T)) (h : KHeap T) : KHeap T :=
  ps.foldl (fun h p => h.modify p.1 fun s =>
    { s with joint := s.joint.setJointPositionClamped p.2 }) h

theorem run_setJointPositionsClamped (c : Chain) (xs : List T) (h : KHeap T) (u : h.Unlocked) :
    run (c.setJointPositionsClamped xs) h = .ok () (clampAll (c.movableNodes.zip xs) h) :=
  run_forEach_modify u fun p _ h' u' => run_Node_setJointPositionClamped p.1 p.2 h' u'

theorem setJointPositionClamped_shape (j : Joint T) (x : T) : ∃ p wt wv,
    j.setJointPositionClamped x =
      { j with position := p, worldTransformCache := wt, worldVelocityCache := wv } := by
  unfold Joint.setJointPositionClamped Joint.setJointPositionUnchecked; split
  · exact ⟨_, _, _, rfl⟩
  · split <;> exact ⟨_, _, _, rfl⟩

/-- between `h` and `h'` only positions and caches of nodes in `ns` changed -/
structure Moved (ns : List NodeId) (h h' : KHeap T) : Prop where
  sameBut : SameBut h h'
  outside : ∀ k, k ∉ ns → h'.get k = h.get k

namespace Moved
variable {ns ms : List NodeId} {h h' h'' : KHeap T}
theorem refl (ns : List NodeId) (h : KHeap T) : Moved ns h h := ⟨.refl h, fun _ _ => rfl⟩
theorem trans (a : Moved ns h h') (b : Moved ns h' h'') : Moved ns h h'' :=
  ⟨a.sameBut.trans b.sameBut, fun k hk => (b.outside k hk).trans (a.outside k hk)⟩
theorem mono (a : Moved ns h h') (s : ∀ n ∈ ns, n ∈ ms) : Moved ms h h' :=
  ⟨a.sameBut, fun k hk => a.outside k fun m => hk (s k m)⟩
theorem unlocked (a : Moved ns h h') (u : h.Unlocked) : h'.Unlocked := a.sameBut.unlocked u
end Moved

theorem OnlyWorld.moved {ns : List NodeId} {h h' : KHeap T} (a : OnlyWorld ns h h') :
    Moved ns h h' := by
  refine ⟨⟨a.next, a.dead, a.held, fun k => ?_⟩, a.outside⟩
  have := a.same k
  unfold SameButWorld at this
  exact ⟨_, _, _, by rw [this]⟩

theorem moved_clampAll (ps : List (NodeId × T)) (ns : List NodeId) (hs : ∀ p ∈ ps, p.1 ∈ ns)
    (h : KHeap T) : Moved ns h (clampAll ps h) := by
  induction ps generalizing h with
  | nil => exact .refl _ _
  | cons p ps ih =>
    refine Moved.trans ⟨sameBut_modify h p.1 (fun j => j.setJointPositionClamped p.2)
      (setJointPositionClamped_shape _ _), fun k hk => ?_⟩
      (ih (fun q hq => hs q (by simp [hq])) _)
    rw [Heap.get_modify_of_ne]
    exact fun e => hk (e ▸ hs p (by simp))

theorem zip_fst_mem {α β : Type} {xs : List α} {ys : List β} : ∀ p ∈ xs.zip ys, p.1 ∈ xs :=
  fun _ hp => (List.of_mem_zip hp).1

theorem Chain.Wf.sub {h : KHeap T} {c : Chain} (w : c.Wf h) : ∀ n ∈ c.movableNodes, n ∈ c.nodes := by
  intro n hn; rw [w.movable] at hn; exact (List.mem_filter.1 hn).1

theorem moved_clamp_chain {h h' : KHeap T} {c : Chain} (w : c.Wf h) (xs : List T) :
    Moved c.nodes h' (clampAll (c.movableNodes.zip xs) h') :=
  moved_clampAll _ _ (fun p hp => w.sub _ (zip_fst_mem p hp)) _

/-! ## `jacobian` -/

theorem updateTransforms_ok (c : Chain) (h h' : KHeap T) (u : h.Unlocked) (ts : List (Iso T))
    (e : run c.updateTransforms h = .ok ts h') : OnlyWorld c.nodes h h' := by
  unfold Chain.updateTransforms at e
  suffices ∀ (ns ms : List NodeId) (h : KHeap T) (ts : List (Iso T)), h.Unlocked → (∀ n ∈ ns, n ∈ ms) →
      run (mapList ns Chain.updateTransform) h = .ok ts h' → OnlyWorld ms h h' from
    this _ _ h ts u (fun _ hn => hn) e
  clear e u
  intro ns ms
  induction ns with
  | nil => intro h ts _ _ e; cases e; exact .refl _ _
  | cons n ns ih =>
    intro h ts u hs e
    rw [run_mapList_cons, run_updateTransform n h u] at e
    cases p : pwt h n with
    | none => simp [p] at e
    | some t =>
      simp only [p, Res.bind_ok] at e
      obtain ⟨ys, h1, e1, e2⟩ := Res.bind_eq_ok e
      cases e2
      have o := OnlyWorld.set (ns := ms) h (hs n (by simp)) (t.mul (h.get n).joint.localTransform)
      exact o.trans (ih _ _ (o.unlocked u) (fun m hm => hs m (by simp [hm])) e1)

/-- the column of a node -/
def IsColumn (h : KHeap T) (pn : V3 T) (n : NodeId) (col : List T) : Prop :=
  ∃ ti, (h.get n).joint.worldTransformCache = some ti ∧
    jacobianColumn pn (h.get n).joint ti = .ok col

theorem jacobian_ok (arm : Chain) (h h' : KHeap T) (u : h.Unlocked) (jac : Mat T)
    (e : run (jacobian arm) h = .ok jac h') :
    OnlyWorld arm.nodes h h' ∧
      List.Forall₂ (IsColumn h' (endPose h arm.nodes).trans) arm.movableNodes jac := by
  simp only [jacobian, run_bind, run_endTransform _ _ u, Res.bind_ok] at e
  obtain ⟨ts, h1, e1, e2⟩ := Res.bind_eq_ok e
  have o := updateTransforms_ok arm h h1 u ts e1
  suffices ∀ (ns : List NodeId) (jac : Mat T), run (mapList ns fun n => (do
      doLock n
      let s ← doRead n
      let ti ← expect s.joint.worldTransform "called `Option::unwrap()` on a `None` value"
      let col ← ofExcept (jacobianColumn (endPose h arm.nodes).trans s.joint ti)
      doUnlock n
      return col : KProg T (List T))) h1 = .ok jac h' →
      h' = h1 ∧ List.Forall₂ (IsColumn h1 (endPose h arm.nodes).trans) ns jac by
    obtain ⟨rfl, f⟩ := this _ _ e2
    exact ⟨o, f⟩
  have u1 := o.unlocked u
  intro ns
  induction ns with
  | nil => intro jac e; cases e; exact ⟨rfl, .nil⟩
  | cons n ns ih =>
    intro jac e
    rw [run_mapList_cons] at e
    simp only [run_bind, run_doLock_free _ _ (u1 n), Res.bind_ok, run_doRead, Heap.get_setHeld] at e
    cases w : (h1.get n).joint.worldTransform with
    | none => simp [w] at e
    | some ti =>
      cases jc : jacobianColumn (endPose h arm.nodes).trans (h1.get n).joint ti with
      | error m => simp [w, jc] at e
      | ok col =>
        simp only [w, jc, run_expect_some, run_ofExcept_ok, Res.bind_ok, run_doUnlock, run_pure,
          Heap.setHeld_setHeld_false _ _ (u1 n)] at e
        obtain ⟨ys, h2, e1, e2⟩ := Res.bind_eq_ok e
        cases e2
        obtain ⟨a, b⟩ := ih _ e1
        exact ⟨a, .cons ⟨ti, w, jc⟩ b⟩

theorem isColumn_length {h : KHeap T} {pn : V3 T} {n : NodeId} {col : List T}
    (c : IsColumn h pn n col) : col.length = 6 := by
  obtain ⟨ti, -, e⟩ := c
  unfold jacobianColumn at e
  split at e <;> cases e <;> rfl

/-! ## one step -/

/-- what one call of `solve_one_loop_with_constraints` that returned has done -/
theorem solveOneLoop_ok (s : IkSolver T) (arm : Chain) (target : Iso T) (ops : List Bool)
    (ign : List Nat) (h h' : KHeap T) (u : h.Unlocked) (w : arm.Wf h)
    (r : Except (KError T) (List T)) (e : run (solveOneLoop s arm target ops ign) h = .ok r h') :
    ∃ h1 jac x, OnlyWorld arm.nodes h h1 ∧
      List.Forall₂ (IsColumn h1 (endPose h arm.nodes).trans) arm.movableNodes jac ∧
      nextPositions s ops ign arm.dof jac
        (calcPoseDiffWithConstraints target (endPose h arm.nodes) ops)
        (posList h arm.movableNodes) = .ok x ∧
      ((∃ e', x = .error e' ∧ r = .error e' ∧ h' = h1) ∨
        ∃ ps, x = .ok ps ∧ h' = clampAll (arm.movableNodes.zip ps) h1 ∧
          r = .ok (calcPoseDiffWithConstraints target (endPose h' arm.nodes) ops)) := by
  simp only [solveOneLoop, run_bind, run_jointPositions h u arm w, Res.bind_ok,
    run_endTransform _ _ u] at e
  obtain ⟨jac, h1, e1, e2⟩ := Res.bind_eq_ok e
  obtain ⟨o, cols⟩ := jacobian_ok arm h h1 u jac e1
  have u1 := o.unlocked u
  refine ⟨h1, jac, ?_⟩
  cases n : nextPositions s ops ign arm.dof jac
      (calcPoseDiffWithConstraints target (endPose h arm.nodes) ops)
      (posList h arm.movableNodes) with
  | error m => unfold posList at n; simp [n] at e2
  | ok x =>
    refine ⟨x, o, cols, rfl, ?_⟩
    unfold posList at n
    simp only [n, run_ofExcept_ok, Res.bind_ok] at e2
    cases x with
    | error e' => cases e2; exact .inl ⟨e', rfl, rfl, rfl⟩
    | ok ps =>
      have m := moved_clamp_chain (h' := h1) w ps
      simp only [run_bind, run_setJointPositionsClamped _ _ _ u1, Res.bind_ok,
        run_endTransform _ _ (m.unlocked u1), run_pure] at e2
      cases e2
      exact .inr ⟨ps, rfl, rfl, rfl⟩

theorem solveOneLoop_moved (s : IkSolver T) (arm : Chain) (target : Iso T) (ops : List Bool)
    (ign : List Nat) (h h' : KHeap T) (u : h.Unlocked) (w : arm.Wf h)
    (r : Except (KError T) (List T)) (e : run (solveOneLoop s arm target ops ign) h = .ok r h') :
    Moved arm.nodes h h' := by
  obtain ⟨h1, jac, x, o, -, -, ⟨e', -, -, rfl⟩ | ⟨ps, -, rfl, -⟩⟩ :=
    solveOneLoop_ok s arm target ops ign h h' u w r e
  · exact o.moved
  · exact o.moved.trans (moved_clamp_chain w ps)

/-! ## the loop -/

/-- `k` steps of the solver, none of which reaches the target, lead from `h` to `h'`; the last masked
difference goes from `last` to `last'` -/
inductive Unreached (s : IkSolver T) (arm : Chain) (target : Iso T) (ops : List Bool)
    (ign : List Nat) : Nat → KHeap T → Option (V3 T × V3 T) → KHeap T → Option (V3 T × V3 T) → Prop
  | nil (h : KHeap T) (last : Option (V3 T × V3 T)) : Unreached s arm target ops ign 0 h last h last
  | cons {k : Nat} {h h1 h' : KHeap T} {last last' : Option (V3 T × V3 T)} (diff : List T)
      (e : run (solveOneLoop s arm target ops ign) h = .ok (.ok diff) h1)
      (nr : reached s (targetDiffToLenRotDiff diff ops).1 (targetDiffToLenRotDiff diff ops).2 = false)
      (rest : Unreached s arm target ops ign k h1 (some (targetDiffToLenRotDiff diff ops)) h' last') :
      Unreached s arm target ops ign (k + 1) h last h' last'

variable {s : IkSolver T} {arm : Chain} {target : Iso T} {ops : List Bool} {ign : List Nat}

theorem Unreached.moved {k : Nat} {h h' : KHeap T} {last last' : Option (V3 T × V3 T)}
    (i : Unreached s arm target ops ign k h last h' last') (u : h.Unlocked) (w : arm.Wf h) :
    Moved arm.nodes h h' := by
  induction i with
  | nil => exact .refl _ _
  | cons diff e nr rest ih =>
    have m := solveOneLoop_moved s arm target ops ign _ _ u w _ e
    exact m.trans (ih (m.unlocked u) (m.sameBut.chainWf w))

theorem tryLoop_ok (orig : List T) (left : Nat) (last : Option (V3 T × V3 T)) (h h' : KHeap T)
    (u : h.Unlocked) (w : arm.Wf h) (r : Except (KError T) Unit)
    (e : run (tryLoop s arm target ops ign orig left last) h = .ok r h') :
    ∃ k h1 last1, Unreached s arm target ops ign k h last h1 last1 ∧
      ((k = left ∧ ∃ rr, run (arm.setJointPositions orig) h1 = .ok rr h' ∧
          ((∃ e', rr = .error e' ∧ r = .error e') ∨
            rr = .ok () ∧ ∃ d, last1 = some d ∧ r = .error (.notConverged s.numMaxTry d.1 d.2))) ∨
        (k < left ∧ ∃ e', run (solveOneLoop s arm target ops ign) h1 = .ok (.error e') h' ∧
          r = .error e') ∨
        (k < left ∧ ∃ diff h2, run (solveOneLoop s arm target ops ign) h1 = .ok (.ok diff) h2 ∧
          reached s (targetDiffToLenRotDiff diff ops).1 (targetDiffToLenRotDiff diff ops).2 = true ∧
          h' = clampAll (arm.movableNodes.zip (posList h2 arm.movableNodes)) h2 ∧ r = .ok ())) := by
  induction left generalizing h last with
  | zero =>
    refine ⟨0, h, last, .nil _ _, .inl ⟨rfl, ?_⟩⟩
    simp only [tryLoop, run_bind] at e
    obtain ⟨rr, h1, e1, e2⟩ := Res.bind_eq_ok e
    cases rr with
    | error e' => cases e2; exact ⟨_, e1, .inl ⟨e', rfl, rfl⟩⟩
    | ok v =>
      cases last with
      | none => cases e2
      | some d => cases e2; exact ⟨_, e1, .inr ⟨rfl, d, rfl, rfl⟩⟩
  | succ left ih =>
    simp only [tryLoop, run_bind] at e
    obtain ⟨rr, h1, e1, e2⟩ := Res.bind_eq_ok e
    have m := solveOneLoop_moved s arm target ops ign _ _ u w _ e1
    cases rr with
    | error e' =>
      cases e2
      exact ⟨0, h, last, .nil _ _, .inr (.inl ⟨Nat.succ_pos _, e', e1, rfl⟩)⟩
    | ok diff =>
      simp only at e2
      cases re : reached s (targetDiffToLenRotDiff diff ops).1 (targetDiffToLenRotDiff diff ops).2 with
      | true =>
        simp only [re, if_true] at e2
        have u1 := m.unlocked u
        rw [run_bind, run_jointPositions h1 u1 arm (m.sameBut.chainWf w)] at e2
        simp only [Res.bind_ok, run_bind, run_setJointPositionsClamped _ _ _ u1, run_pure] at e2
        cases e2
        exact ⟨0, h, last, .nil _ _, .inr (.inr ⟨Nat.succ_pos _, diff, h1, e1, re, rfl, rfl⟩)⟩
      | false =>
        simp only [re, Bool.false_eq_true, if_false] at e2
        obtain ⟨k, h2, last1, i, rest⟩ := ih _ h1 (m.unlocked u) (m.sameBut.chainWf w) e2
        refine ⟨k + 1, h2, last1, .cons diff e1 re i, ?_⟩
        rcases rest with ⟨rfl, a⟩ | ⟨lt, a⟩ | ⟨lt, a⟩
        · exact .inl ⟨rfl, a⟩
        · exact .inr (.inl ⟨Nat.succ_lt_succ lt, a⟩)
        · exact .inr (.inr ⟨Nat.succ_lt_succ lt, a⟩)

/-! ## names -/

theorem run_jointIndex (name : String) (ns : List NodeId) (h : KHeap T) (u : h.Unlocked) :
    run (jointIndex name ns) h =
      .ok (ns.findIdx? fun n => (h.get n).joint.name == name) h := by
  induction ns with
  | nil => rfl
  | cons n ns ih =>
    simp only [jointIndex, run_bind, run_Node_joint _ _ (u n), Res.bind_ok, List.findIdx?_cons]
    cases (h.get n).joint.name == name
    · simp [ih]
    · simp

/-- indices of the ignored names, or the first name that is no movable joint of the arm -/
def nameIndices (h : KHeap T) (ns : List NodeId) : List String → Except String (List Nat)
  | [] => .ok []
  | a :: as =>
    match ns.findIdx? fun n => (h.get n).joint.name == a with
    | none => .error a
    | some i =>
      match nameIndices h ns as with
      | .ok is => .ok (i :: is)
      | .error b => .error b

theorem run_ignoredIndices (arm : Chain) (names : List String) (h : KHeap T) (u : h.Unlocked) :
    run (ignoredIndices arm names) h = .ok (match nameIndices h arm.movableNodes names with
      | .ok is => .ok is
      | .error a => .error (.invalidJointName a)) h := by
  induction names with
  | nil => rfl
  | cons a as ih =>
    simp only [ignoredIndices, run_bind, run_jointIndex _ _ _ u, Res.bind_ok, nameIndices]
    cases arm.movableNodes.findIdx? fun n => (h.get n).joint.name == a with
    | none => rfl
    | some i =>
      simp only [run_bind, ih, Res.bind_ok]
      cases nameIndices h arm.movableNodes as <;> rfl

/-! ## the whole call -/

/-- sorted indices of the ignored joints -/
def sortedIndices (is : List Nat) : List Nat := is.mergeSort fun a b => decide (a ≤ b)

/-- inversion of a solve that returned -/
theorem solve_ok (c : Constraints) (h h' : KHeap T) (u : h.Unlocked) (w : arm.Wf h)
    (r : Except (KError T) Unit) (e : run (solveWithConstraints s arm target c) h = .ok r h') :
    c.ignoredJointNames.length ≤ arm.dof ∧
    ∃ r1 h1, (r1 = .ok () ∧ r = .ok () ∧ h' = h1 ∨
        ∃ e1 rr, r1 = .error e1 ∧
          run (arm.setJointPositions (posList h arm.movableNodes)) h1 = .ok rr h' ∧
          ((∃ e2, rr = .error e2 ∧ r = .error e2) ∨ rr = .ok () ∧ r = .error e1)) ∧
      (arm.dof - c.ignoredJointNames.length < countTrue (defineOperationalSpace c) ∧ h1 = h ∧
          r1 = .error (.precondition (arm.dof - c.ignoredJointNames.length)
            (countTrue (defineOperationalSpace c))) ∨
        countTrue (defineOperationalSpace c) ≤ arm.dof - c.ignoredJointNames.length ∧
          ((∃ a, nameIndices h arm.movableNodes c.ignoredJointNames = .error a ∧ h1 = h ∧
              r1 = .error (.invalidJointName a)) ∨
            ∃ is, nameIndices h arm.movableNodes c.ignoredJointNames = .ok is ∧
              run (tryLoop s arm target (defineOperationalSpace c) (sortedIndices is)
                (posList h arm.movableNodes) s.numMaxTry none) h = .ok r1 h1)) := by
  simp only [solveWithConstraints, run_bind, run_jointPositions h u arm w, Res.bind_ok] at e
  obtain ⟨r1, h1, e1, e2⟩ := Res.bind_eq_ok e
  simp only [solveInternal, run_bind, run_jointPositions h u arm w, Res.bind_ok] at e1
  by_cases le : arm.dof < c.ignoredJointNames.length
  · rw [if_pos le] at e1; cases e1
  refine ⟨Nat.not_lt.1 le, r1, h1, ?_, ?_⟩
  · cases r1 with
    | ok v => cases e2; exact .inl ⟨rfl, rfl, rfl⟩
    | error x =>
      simp only [run_bind] at e2
      obtain ⟨rr, h2, e3, e4⟩ := Res.bind_eq_ok e2
      refine .inr ⟨x, rr, rfl, ?_⟩
      cases rr with
      | error y => cases e4; exact ⟨e3, .inl ⟨y, rfl, rfl⟩⟩
      | ok v => cases e4; exact ⟨e3, .inr ⟨rfl, rfl⟩⟩
  · rw [if_neg le] at e1
    by_cases lt : arm.dof - c.ignoredJointNames.length < countTrue (defineOperationalSpace c)
    · rw [if_pos lt] at e1; cases e1
      exact .inl ⟨lt, rfl, rfl⟩
    · rw [if_neg lt] at e1
      refine .inr ⟨Nat.not_lt.1 lt, ?_⟩
      rw [run_bind, run_ignoredIndices _ _ _ u] at e1
      cases nm : nameIndices h arm.movableNodes c.ignoredJointNames with
      | error a => simp only [nm, Res.bind_ok] at e1; cases e1; exact .inl ⟨a, rfl, rfl, rfl⟩
      | ok is => simp only [nm, Res.bind_ok] at e1; exact .inr ⟨is, rfl, e1⟩

/-! ## forward direction, for concrete runs -/

theorem run_jacobian (arm : Chain) (h : KHeap T) (u : h.Unlocked) (w : arm.Wf h)
    (pr : ParentsReady h arm.nodes) :
    ∃ jac h', run (jacobian arm) h = .ok jac h' ∧ OnlyWorld arm.nodes h h' ∧
      (∀ n ∈ arm.nodes, ∃ X, WorldIn h (· ∈ arm.nodes) n X ∧
        (h'.get n).joint.worldTransformCache = some X) ∧
      List.Forall₂ (IsColumn h' (endPose h arm.nodes).trans) arm.movableNodes jac := by
  obtain ⟨Xs, h1, e1, o, cache, -⟩ := run_updateTransforms h u arm pr
  have u1 := o.unlocked u
  suffices ∀ ns : List NodeId, (∀ n ∈ ns, n ∈ arm.movableNodes) → ∃ jac, run (mapList ns fun n => (do
      doLock n
      let s ← doRead n
      let ti ← expect s.joint.worldTransform "called `Option::unwrap()` on a `None` value"
      let col ← ofExcept (jacobianColumn (endPose h arm.nodes).trans s.joint ti)
      doUnlock n
      return col : KProg T (List T))) h1 = .ok jac h1 ∧
      List.Forall₂ (IsColumn h1 (endPose h arm.nodes).trans) ns jac by
    obtain ⟨jac, a, b⟩ := this _ (fun _ hn => hn)
    refine ⟨jac, h1, ?_, o, cache, b⟩
    simp only [jacobian, run_bind, run_endTransform _ _ u, Res.bind_ok, e1]
    exact a
  intro ns hs
  induction ns with
  | nil => exact ⟨[], rfl, .nil⟩
  | cons n ns ih =>
    obtain ⟨jac, a, b⟩ := ih fun m hm => hs m (by simp [hm])
    have hn := hs n (by simp)
    obtain ⟨X, -, c⟩ := cache n (w.sub n hn)
    have mv : (h1.get n).joint.jointType ≠ .fixed := by
      rw [(o.same n).jointType]
      rw [w.movable, List.mem_filter] at hn
      exact (decide_eq_true_iff (p := Movable h n)).1 hn.2
    obtain ⟨col, jc⟩ : ∃ col, jacobianColumn (endPose h arm.nodes).trans (h1.get n).joint X = .ok col := by
      unfold jacobianColumn
      split
      · exact ⟨_, rfl⟩
      · exact ⟨_, rfl⟩
      · rename_i f; exact absurd f mv
    refine ⟨col :: jac, ?_, .cons ⟨X, c, jc⟩ b⟩
    rw [run_mapList_cons]
    simp only [run_bind, run_doLock_free _ _ (u1 n), Res.bind_ok, run_doRead, Heap.get_setHeld,
      Joint.worldTransform, c, run_expect_some, jc, run_ofExcept_ok, run_doUnlock, run_pure,
      Heap.setHeld_setHeld_false _ _ (u1 n)]
    exact congrArg (fun r => Res.bind r _) a

/-- a step whose next positions are known -/
theorem run_solveOneLoop (h : KHeap T) (u : h.Unlocked) (w : arm.Wf h)
    (pr : ParentsReady h arm.nodes) (ps : List T)
    (np : ∀ jac : Mat T, jac.length = arm.movableNodes.length → (∀ col ∈ jac, col.length = 6) →
      nextPositions s ops ign arm.dof jac
        (calcPoseDiffWithConstraints target (endPose h arm.nodes) ops)
        (posList h arm.movableNodes) = .ok (.ok ps)) :
    ∃ h1, OnlyWorld arm.nodes h h1 ∧ run (solveOneLoop s arm target ops ign) h =
      .ok (.ok (calcPoseDiffWithConstraints target
        (endPose (clampAll (arm.movableNodes.zip ps) h1) arm.nodes) ops))
        (clampAll (arm.movableNodes.zip ps) h1) := by
  obtain ⟨jac, h1, e, o, -, f⟩ := run_jacobian arm h u w pr
  have u1 := o.unlocked u
  refine ⟨h1, o, ?_⟩
  have hl : ∀ col ∈ jac, col.length = 6 := by
    intro col hc
    obtain ⟨i, hi, rfl⟩ := List.getElem_of_mem hc
    exact isColumn_length (f.get (i := i) (by rw [f.length_eq]; exact hi) hi)
  have := np jac f.length_eq.symm hl
  unfold posList at this
  have m := moved_clamp_chain (h' := h1) w ps
  simp only [solveOneLoop, run_bind, run_jointPositions h u arm w, Res.bind_ok,
    run_endTransform _ _ u, e, this, run_ofExcept_ok, run_setJointPositionsClamped _ _ _ u1,
    run_endTransform _ _ (m.unlocked u1), run_pure]

end K
