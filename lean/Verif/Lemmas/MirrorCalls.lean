import Verif.Lemmas.Mirror
/-!
# Every call of the API treats all node objects alike
-/

set_option linter.unusedSectionVars false

namespace K
open Prog
variable {T : Type} [Scalar T] {α β γ δ ε : Type} {ρ : Equiv.Perm NodeId}

namespace Mirror

theorem beq_rename (x y : NodeId) : (ρ x == ρ y) = (x == y) := by
  by_cases e : x = y
  · simp [e]
  · have e' : ρ x ≠ ρ y := fun h => e (ρ.injective h)
    simp [e, e']

theorem new (j : Joint T) : Mirror ρ ρ (Node.new j) (Node.new j) := doAlloc rfl

theorem joint (n : NodeId) : Mirror ρ id (Node.joint n : KProg T _) (Node.joint (ρ n)) :=
  (peek n).bind fun _ => rfl
theorem jointPosition (n : NodeId) : Mirror ρ id (Node.jointPosition n : KProg T _) (Node.jointPosition (ρ n)) :=
  (peek n).bind fun _ => rfl
theorem children (n : NodeId) : Mirror ρ (List.map ρ) (Node.children n : KProg T _) (Node.children (ρ n)) :=
  (peek n).bind fun _ => rfl
theorem link (n : NodeId) : Mirror ρ id (Node.link n : KProg T _) (Node.link (ρ n)) :=
  (peek n).bind fun _ => rfl
theorem isRoot (n : NodeId) : Mirror ρ id (Node.isRoot n : KProg T _) (Node.isRoot (ρ n)) :=
  (peek n).bind fun s => pure (by cases e : s.parent <;> simp [NodeImpl.rename, e])
theorem isEnd (n : NodeId) : Mirror ρ id (Node.isEnd n : KProg T _) (Node.isEnd (ρ n)) :=
  (peek n).bind fun s => pure (by cases e : s.children <;> simp [NodeImpl.rename, e])
theorem origin (n : NodeId) : Mirror ρ id (Node.origin n : KProg T _) (Node.origin (ρ n)) :=
  (joint n).bind fun _ => rfl
theorem worldTransform (n : NodeId) : Mirror ρ id (Node.worldTransform n : KProg T _) (Node.worldTransform (ρ n)) :=
  (joint n).bind fun _ => rfl
theorem worldVelocity (n : NodeId) : Mirror ρ id (Node.worldVelocity n : KProg T _) (Node.worldVelocity (ρ n)) :=
  (joint n).bind fun _ => rfl

theorem parent (n : NodeId) : Mirror ρ (Option.map ρ) (Node.parent n : KProg T _) (Node.parent (ρ n)) := by
  refine (doLock n).bind fun _ => (doRead n).bind fun s => ?_
  cases e : s.parent with
  | none =>
    simp only [NodeImpl.rename, e, Option.map_none]
    exact (doUnlock n).bind fun _ => rfl
  | some w =>
    simp only [NodeImpl.rename, e, Option.map_some]
    exact (doUpgrade w).bind fun b => (doUnlock n).bind fun _ => pure (by cases b <;> rfl)

theorem mimicParent (n : NodeId) :
    Mirror ρ (Option.map ρ) (Node.mimicParent n : KProg T _) (Node.mimicParent (ρ n)) := by
  refine (doLock n).bind fun _ => (doRead n).bind fun s => ?_
  cases e : s.mimicParent with
  | none =>
    simp only [NodeImpl.rename, e, Option.map_none]
    exact (doUnlock n).bind fun _ => rfl
  | some w =>
    simp only [NodeImpl.rename, e, Option.map_some]
    exact (doUpgrade w).bind fun b => (doUnlock n).bind fun _ => pure (by cases b <;> rfl)

theorem setParent (n p : NodeId) : Mirror ρ id (Node.setParent n p : KProg T _) (Node.setParent (ρ n) (ρ p)) := by
  refine Mirror.bind (A := id) (poke fun _ => rfl) fun _ => ?_
  exact poke fun s => by simp [NodeImpl.rename]

theorem removeParent (n p : NodeId) :
    Mirror ρ id (Node.removeParent n p : KProg T _) (Node.removeParent (ρ n) (ρ p)) := by
  refine Mirror.bind (A := id) (poke fun _ => rfl) fun _ => ?_
  refine poke fun s => ?_
  have : ((fun x => x != ρ n) ∘ ρ) = fun x => x != n := by
    funext x
    exact congrArg (! ·) (beq_rename x n)
  simp [NodeImpl.rename, List.filter_map, this]

theorem setMimicParent (n p : NodeId) (m : Mimic T) :
    Mirror ρ id (Node.setMimicParent n p m) (Node.setMimicParent (ρ n) (ρ p) m) := by
  refine Mirror.bind (A := id) (poke fun _ => rfl) fun _ => ?_
  refine Mirror.bind (A := id) (poke fun s => by simp [NodeImpl.rename]) fun _ => ?_
  exact poke fun _ => rfl

theorem setLink (n : NodeId) (l : Option (Link T)) : Mirror ρ id (Node.setLink n l) (Node.setLink (ρ n) l) :=
  poke fun _ => rfl
theorem setOrigin (n : NodeId) (t : Iso T) : Mirror ρ id (Node.setOrigin n t) (Node.setOrigin (ρ n) t) :=
  poke fun _ => rfl
theorem setJointPositionClamped (n : NodeId) (x : T) :
    Mirror ρ id (Node.setJointPositionClamped n x) (Node.setJointPositionClamped (ρ n) x) := poke fun _ => rfl
theorem setJointPositionUnchecked (n : NodeId) (x : T) :
    Mirror ρ id (Node.setJointPositionUnchecked n x) (Node.setJointPositionUnchecked (ρ n) x) := poke fun _ => rfl

theorem setMimicChild (n : NodeId) (x : T) (c : NodeId) :
    Mirror ρ id (Node.setMimicChild n x c) (Node.setMimicChild (ρ n) x (ρ c)) := by
  refine (doLock c).bind fun _ => (doRead c).bind fun s => ?_
  rw [show (s.rename ρ).mimic = s.mimic from rfl]
  cases s.mimic with
  | none => exact (joint n).bind fun _ => (joint c).bind fun _ => (doUnlock c).bind fun _ => rfl
  | some m =>
    refine Mirror.bind (A := id) (doWrite fun _ => rfl) fun _ => ?_
    exact Mirror.bind (doUnlock c) fun _ => rfl

theorem setJointPosition (n : NodeId) (x : T) :
    Mirror ρ id (Node.setJointPosition n x) (Node.setJointPosition (ρ n) x) := by
  refine (doLock n).bind fun _ => (doRead n).bind fun s => ?_
  rw [show (s.rename ρ).mimicParent.isSome = s.mimicParent.isSome from by simp [NodeImpl.rename]]
  split
  · exact (doUnlock n).bind fun _ => rfl
  · refine Mirror.bind (A := id) (doWrite fun _ => rfl) fun _ => ?_
    rw [show (s.rename ρ).joint = s.joint from rfl]
    cases (s.joint.setJointPosition x).2 with
    | error e => exact (doUnlock n).bind fun _ => rfl
    | ok u => exact (tryEach (setMimicChild n x) s.mimicChildren).bind fun _ => (doUnlock n).bind fun _ => rfl

theorem parentWorldTransform (n : NodeId) :
    Mirror ρ id (Node.parentWorldTransform n : KProg T _) (Node.parentWorldTransform (ρ n)) :=
  (parent n).bind fun o => by
    cases o with
    | none => rfl
    | some p => exact worldTransform p

theorem parentWorldVelocity (n : NodeId) :
    Mirror ρ id (Node.parentWorldVelocity n : KProg T _) (Node.parentWorldVelocity (ρ n)) :=
  (parent n).bind fun o => by
    cases o with
    | none => rfl
    | some p => exact worldVelocity p

/-! ### iterators -/

theorem ancestors (fuel : Nat) (o : Option NodeId) :
    Mirror ρ (List.map ρ) (ancestors fuel o : KProg T _) (ancestors fuel (o.map ρ)) := by
  induction fuel generalizing o with
  | zero => cases o <;> rfl
  | succ fuel ih =>
    cases o with
    | none => rfl
    | some n => exact (parent n).bind fun p => (ih p).bind fun _ => rfl

theorem ancestorsUntil (stop : NodeId) (fuel : Nat) (o : Option NodeId) :
    Mirror ρ (List.map ρ) (ancestorsUntil stop fuel o : KProg T _) (ancestorsUntil (ρ stop) fuel (o.map ρ)) := by
  induction fuel generalizing o with
  | zero => cases o <;> rfl
  | succ fuel ih =>
    cases o with
    | none => rfl
    | some n =>
      refine (parent n).bind fun p => ?_
      by_cases e : n = stop
      · rw [if_pos e, if_pos (congrArg ρ e)]; rfl
      · rw [if_neg e, if_neg fun x => e (ρ.injective x)]
        exact (ih p).bind fun _ => rfl

theorem descendants (fuel : Nat) (st : List NodeId) :
    Mirror ρ (List.map ρ) (descendants fuel st : KProg T _) (descendants fuel (st.map ρ)) := by
  induction fuel generalizing st with
  | zero => cases st <;> rfl
  | succ fuel ih =>
    cases st with
    | nil => rfl
    | cons n st =>
      refine (children n).bind fun cs => ?_
      have := ih (cs.reverse ++ st)
      rw [List.map_append, List.map_reverse] at this
      exact this.bind fun _ => rfl

/-! ### chains -/

theorem fromNodes (ns : List NodeId) :
    Mirror ρ (Chain.rename ρ) (Chain.fromNodes ns : KProg T _) (Chain.fromNodes (ns.map ρ)) :=
  Mirror.bind (A := List.map ρ) (filterList (A := ρ) (fun n => by exact Mirror.bind (joint n) fun _ => rfl) ns)
    fun _ => pure (by simp [Chain.rename])

theorem fromRoot (fuel : Nat) (n : NodeId) :
    Mirror ρ (Chain.rename ρ) (Chain.fromRoot fuel n : KProg T _) (Chain.fromRoot fuel (ρ n)) :=
  (descendants fuel [n]).bind fun ns => fromNodes ns
theorem fromEnd (fuel : Nat) (n : NodeId) :
    Mirror ρ (Chain.rename ρ) (Chain.fromEnd fuel n : KProg T _) (Chain.fromEnd fuel (ρ n)) :=
  (ancestors fuel (some n)).bind fun ns => by
    have := fromNodes (T := T) (ρ := ρ) ns.reverse
    rwa [List.map_reverse] at this
theorem fromEndToRoot (fuel : Nat) (e r : NodeId) :
    Mirror ρ (Chain.rename ρ) (Chain.fromEndToRoot fuel e r : KProg T _) (Chain.fromEndToRoot fuel (ρ e) (ρ r)) :=
  (ancestorsUntil r fuel (some e)).bind fun ns => by
    have := fromNodes (T := T) (ρ := ρ) ns.reverse
    rwa [List.map_reverse] at this

variable (c : Chain)

theorem chainSetOrigin (t : Iso T) : Mirror ρ id (c.setOrigin t) ((c.rename ρ).setOrigin t) := by
  rcases c with ⟨ns, ms, d⟩
  cases ns with
  | nil => rfl
  | cons n ns => exact setOrigin n t
theorem chainOrigin : Mirror ρ id (c.origin : KProg T _) (c.rename ρ).origin := by
  rcases c with ⟨ns, ms, d⟩
  cases ns with
  | nil => rfl
  | cons n ns => exact origin n
theorem iterJoints : Mirror ρ id (c.iterJoints : KProg T _) (c.rename ρ).iterJoints :=
  mapList' joint c.movableNodes

theorem iterLinks : Mirror ρ id (c.iterLinks : KProg T _) (c.rename ρ).iterLinks := by
  refine Mirror.bind (A := id) (mapList' (fun n => ?_) c.nodes) fun _ => rfl
  refine (link n).bind fun l => ?_
  cases l with
  | none => rfl
  | some l =>
    exact (doLock n).bind fun _ => (doRead n).bind fun s =>
      (expect' (o := s.link) _).bind fun _ => (doUnlock n).bind fun _ => rfl

theorem find (name : String) : Mirror ρ (Option.map ρ) (c.find name : KProg T _) ((c.rename ρ).find name) :=
  findFirst (A := ρ) (fun n => by exact Mirror.bind (joint n) fun _ => rfl) c.nodes

theorem jointPositions : Mirror ρ id (c.jointPositions : KProg T _) (c.rename ρ).jointPositions :=
  mapList' (A := ρ) (fun n => by
    exact Mirror.bind (doLock n) fun _ => Mirror.bind (doRead n) fun s =>
      Mirror.bind (expect' (o := s.joint.jointPosition) _) fun _ => Mirror.bind (doUnlock n) fun _ => rfl) c.movableNodes

theorem zip_rename (ns : List NodeId) (xs : List γ) :
    (ns.map ρ).zip xs = (ns.zip xs).map fun p => (ρ p.1, p.2) := by
  rw [List.zip_map_left]; rfl

theorem setJointPositions (xs : List T) :
    Mirror ρ id (c.setJointPositions xs) ((c.rename ρ).setJointPositions xs) := by
  unfold Chain.setJointPositions
  rw [show (c.rename ρ).dof = c.dof from rfl]
  split
  · rfl
  · rw [show (c.rename ρ).movableNodes = c.movableNodes.map ρ from rfl, zip_rename]
    exact tryEach (fun p => setJointPosition p.1 p.2) _

theorem setJointPositionsClamped (xs : List T) :
    Mirror ρ id (c.setJointPositionsClamped xs) ((c.rename ρ).setJointPositionsClamped xs) := by
  unfold Chain.setJointPositionsClamped
  rw [show (c.rename ρ).movableNodes = c.movableNodes.map ρ from rfl, zip_rename]
  exact forEach (fun p => setJointPositionClamped p.1 p.2) _

theorem setJointPositionsUnchecked (xs : List T) :
    Mirror ρ id (c.setJointPositionsUnchecked xs) ((c.rename ρ).setJointPositionsUnchecked xs) := by
  unfold Chain.setJointPositionsUnchecked
  rw [show (c.rename ρ).movableNodes = c.movableNodes.map ρ from rfl, zip_rename]
  exact forEach (fun p => setJointPositionUnchecked p.1 p.2) _

theorem updateTransform (n : NodeId) :
    Mirror ρ id (Chain.updateTransform n : KProg T _) (Chain.updateTransform (ρ n)) :=
  Mirror.bind (parentWorldTransform n) fun _ => Mirror.bind (expect' _) fun _ => Mirror.bind (joint n) fun _ =>
    Mirror.bind (A := id) (poke fun _ => rfl) fun _ => rfl
theorem updateTransforms : Mirror ρ id (c.updateTransforms : KProg T _) (c.rename ρ).updateTransforms :=
  mapList' updateTransform c.nodes

theorem updateVelocity (n : NodeId) :
    Mirror ρ id (Chain.updateVelocity n : KProg T _) (Chain.updateVelocity (ρ n)) := by
  refine (parentWorldTransform n).bind fun _ => (expect' _).bind fun pt => (parentWorldVelocity n).bind fun _ =>
    (expect' _).bind fun pv => (doLock n).bind fun _ => (doRead n).bind fun s => ?_
  refine Mirror.bind (A := id) ?_ fun v => Mirror.bind (doUnlock n) fun _ => Mirror.bind (A := id) (poke fun _ => rfl) fun _ => rfl
  rw [show (s.rename ρ).joint = s.joint from rfl]
  cases s.joint.jointType with
  | fixed => rfl
  | rotational a =>
    exact (parent n).bind fun o => (expect ρ o _).bind fun p => (joint p).bind fun _ =>
      (worldTransform n).bind fun _ => (expect' _).bind fun _ => (joint n).bind fun _ => (expect' _).bind fun _ => rfl
  | linear a =>
    exact (worldTransform n).bind fun _ => (expect' _).bind fun _ => (joint n).bind fun _ =>
      (expect' _).bind fun _ => rfl

theorem updateVelocities : Mirror ρ id (c.updateVelocities : KProg T _) (c.rename ρ).updateVelocities :=
  (updateTransforms c).bind fun _ => mapList' updateVelocity c.nodes

theorem updateLinkTransforms : Mirror ρ id (c.updateLinkTransforms : KProg T _) (c.rename ρ).updateLinkTransforms :=
  Mirror.bind (updateTransforms c) fun _ => forEach (A := ρ) (fun n => by
    exact Mirror.bind (parentWorldTransform n) fun _ => Mirror.bind (expect' _) fun _ => poke fun _ => rfl) c.nodes

theorem position_rename (p : NodeId) (ns : List NodeId) : position (ρ p) (ns.map ρ) = position p ns := by
  induction ns with
  | nil => rfl
  | cons x xs ih => simp only [List.map_cons, position, ρ.injective.eq_iff, ih]

theorem cloneNode (n : NodeId) : Mirror ρ ρ (Chain.cloneNode n : KProg T _) (Chain.cloneNode (ρ n)) :=
  (doLock n).bind fun _ => (doRead n).bind fun s => (new s.joint).bind fun m => (doUnlock n).bind fun _ =>
    (doLock n).bind fun _ => (doRead n).bind fun s => (setLink m s.link).bind fun _ => (doUnlock n).bind fun _ => rfl

theorem cloneConnect (ns ms : List NodeId) (x : NodeId × NodeId) :
    Mirror ρ id (Chain.cloneConnect ns ms x : KProg T _)
      (Chain.cloneConnect (ns.map ρ) (ms.map ρ) (ρ x.1, ρ x.2)) := by
  unfold Chain.cloneConnect
  refine (parent x.1).bind fun o => ?_
  have rest : Mirror ρ id (do
        match ← Node.mimicParent x.1 with
        | some m =>
          let i ← Prog.expect (position m ns) "called `Option::unwrap()` on a `None` value"
          let m' ← Prog.expect ms[i]? "index out of bounds"
          Prog.doLock x.1
          let s ← Prog.doRead x.1
          let mimic ← Prog.expect s.mimic "called `Option::unwrap()` on a `None` value"
          Node.setMimicParent x.2 m' mimic
          Prog.doUnlock x.1
        | none => Pure.pure () : KProg T Unit) (do
        match ← Node.mimicParent (ρ x.1) with
        | some m =>
          let i ← Prog.expect (position m (ns.map ρ)) "called `Option::unwrap()` on a `None` value"
          let m' ← Prog.expect (ms.map ρ)[i]? "index out of bounds"
          Prog.doLock (ρ x.1)
          let s ← Prog.doRead (ρ x.1)
          let mimic ← Prog.expect s.mimic "called `Option::unwrap()` on a `None` value"
          Node.setMimicParent (ρ x.2) m' mimic
          Prog.doUnlock (ρ x.1)
        | none => Pure.pure () : KProg T Unit) := by
    refine Mirror.bind (mimicParent x.1) fun o => ?_
    cases o with
    | none => rfl
    | some p =>
      simp only [Option.map_some, position_rename, List.getElem?_map]
      exact Mirror.bind (expect' _) fun i => Mirror.bind (expect ρ ms[i]? _) fun m => Mirror.bind (doLock x.1) fun _ =>
        Mirror.bind (doRead x.1) fun s => Mirror.bind (expect' (o := s.mimic) _) fun mi =>
        Mirror.bind (setMimicParent x.2 m mi) fun _ => doUnlock x.1
  cases o with
  | none => exact rest
  | some p =>
    simp only [Option.map_some, position_rename, List.getElem?_map] at rest ⊢
    exact Mirror.bind (expect' _) fun i => Mirror.bind (expect ρ ms[i]? _) fun m =>
      Mirror.bind (setParent x.2 m) fun _ => rest

theorem zip_rename_both (ns ms : List NodeId) :
    (ns.map ρ).zip (ms.map ρ) = (ns.zip ms).map fun p => (ρ p.1, ρ p.2) := by
  rw [List.zip_map]; rfl

theorem clone (fuel : Nat) :
    Mirror ρ (Chain.rename ρ) (c.clone fuel : KProg T _) ((c.rename ρ).clone fuel) := by
  rcases c with ⟨ns, ms, d⟩
  cases ns with
  | nil => rfl
  | cons n ns =>
    refine (isRoot n).bind fun b => ?_
    cases b with
    | false => rfl
    | true =>
      refine (mapList cloneNode (n :: ns)).bind fun nn => ?_
      refine Mirror.bind (A := id) (p := Prog.forEach ((n :: ns).zip nn) (Chain.cloneConnect (n :: ns) nn))
        (q := Prog.forEach (((n :: ns).map ρ).zip (nn.map ρ)) (Chain.cloneConnect ((n :: ns).map ρ) (nn.map ρ))) ?_
        fun _ => ?_
      · rw [zip_rename_both]
        exact forEach (cloneConnect (n :: ns) nn) _
      · rw [List.head?_map]
        refine (expect ρ nn.head? _).bind fun r => (isRoot r).bind fun b => ?_
        cases b with
        | false => rfl
        | true => exact fromRoot fuel r

theorem tryNew : Mirror ρ (Option.map (Chain.rename ρ)) (c.tryNew : KProg T _) (c.rename ρ).tryNew := by
  unfold Chain.tryNew
  rw [show (c.rename ρ).nodes = c.nodes.map ρ from rfl, List.length_map]
  cases c.nodes.length with
  | zero => rfl
  | succ k =>
    simp only [← List.map_take]
    refine Mirror.bind (A := Option.map ρ) (findFirst (A := ρ) (fun n => by
      exact Mirror.bind (children n) fun cs => pure (by rw [List.length_map]; rfl)) _) fun o => ?_
    cases o <;> rfl

theorem foldTransform (ns : List NodeId) (t : Iso T) :
    Mirror ρ id (Chain.foldTransform ns t) (Chain.foldTransform (ns.map ρ) t) := by
  induction ns generalizing t with
  | nil => rfl
  | cons n ns ih => exact (joint n).bind fun _ => ih _
theorem endTransform : Mirror ρ id (c.endTransform : KProg T _) (c.rename ρ).endTransform :=
  foldTransform c.nodes _

theorem fmtWithIndentLevel (fuel level : Nat) (n : NodeId) :
    Mirror ρ id (c.fmtWithIndentLevel fuel level n : KProg T _) ((c.rename ρ).fmtWithIndentLevel fuel level (ρ n)) := by
  induction fuel generalizing level n with
  | zero => rfl
  | succ fuel ih =>
    have e : ((c.rename ρ).nodes.any fun x => x == ρ n) = c.nodes.any fun x => x == n := by
      simp only [Chain.rename, List.any_map, Function.comp_def, beq_rename]
    simp only [Chain.fmtWithIndentLevel, e]
    refine Mirror.bind (A := id) ?_ fun _ => (doLock n).bind fun _ => (doRead n).bind fun s =>
      (mapList' (ih (level + 1)) s.children).bind fun _ => (doUnlock n).bind fun _ => rfl
    split
    · exact (peek n).bind fun _ => rfl
    · rfl

theorem display (fuel : Nat) : Mirror ρ id (c.display fuel : KProg T _) ((c.rename ρ).display fuel) := by
  rcases c with ⟨ns, ms, d⟩
  cases ns with
  | nil => rfl
  | cons n ns => exact (fmtWithIndentLevel ⟨n :: ns, ms, d⟩ fuel 0 n).bind fun _ => rfl

theorem jacobian : Mirror ρ id (K.jacobian c : KProg T _) (K.jacobian (c.rename ρ)) :=
  Mirror.bind (endTransform c) fun _ => Mirror.bind (updateTransforms c) fun _ =>
    mapList' (A := ρ) (fun n => by
      exact Mirror.bind (doLock n) fun _ => Mirror.bind (doRead n) fun s =>
        Mirror.bind (expect' (o := s.joint.worldTransform) _) fun _ => Mirror.bind (ofExcept _) fun _ =>
        Mirror.bind (doUnlock n) fun _ => rfl) c.movableNodes

theorem comLoop (ns : List NodeId) (a : ComAcc T) : Mirror ρ id (comLoop ns a) (comLoop (ns.map ρ) a) := by
  induction ns generalizing a with
  | nil => rfl
  | cons n ns ih =>
    refine (worldTransform n).bind fun o => ?_
    cases o with
    | none => exact ih _
    | some t => exact (link n).bind fun _ => ih _

theorem centerOfMass : Mirror ρ id (K.centerOfMass c : KProg T _) (K.centerOfMass (c.rename ρ)) :=
  (updateTransforms c).bind fun _ => (comLoop c.nodes _).bind fun _ => rfl

/-! ### inverse kinematics -/

theorem solveOneLoop (s : IkSolver T) (target : Iso T) (ops : List Bool) (ig : List Nat) :
    Mirror ρ id (solveOneLoop s c target ops ig) (solveOneLoop s (c.rename ρ) target ops ig) :=
  (jointPositions c).bind fun _ => (endTransform c).bind fun _ => (jacobian c).bind fun _ =>
    (ofExcept _).bind fun r => by
      cases r with
      | error e => rfl
      | ok xs => exact (setJointPositionsClamped c xs).bind fun _ => (endTransform c).bind fun _ => rfl

theorem tryLoop (s : IkSolver T) (target : Iso T) (ops : List Bool) (ig : List Nat) (orig : List T) (left : Nat)
    (last : Option (V3 T × V3 T)) :
    Mirror ρ id (tryLoop s c target ops ig orig left last) (tryLoop s (c.rename ρ) target ops ig orig left last) := by
  induction left generalizing last with
  | zero =>
    refine (setJointPositions c orig).bind fun r => ?_
    cases r with
    | error e => rfl
    | ok u => exact (expect' _).bind fun _ => rfl
  | succ left ih =>
    refine (solveOneLoop c s target ops ig).bind fun r => ?_
    cases r with
    | error e => rfl
    | ok diff =>
      dsimp only [id]
      split
      · exact (jointPositions c).bind fun xs => (setJointPositionsClamped c xs).bind fun _ => rfl
      · exact ih _

theorem jointIndex (name : String) (ns : List NodeId) :
    Mirror ρ id (jointIndex name ns : KProg T _) (jointIndex name (ns.map ρ)) := by
  induction ns with
  | nil => rfl
  | cons n ns ih =>
    refine (joint n).bind fun j => ?_
    dsimp only [id]
    split
    · rfl
    · exact ih.bind fun _ => rfl

theorem ignoredIndices (names : List String) :
    Mirror ρ id (ignoredIndices c names : KProg T _) (ignoredIndices (c.rename ρ) names) := by
  induction names with
  | nil => rfl
  | cons x xs ih =>
    refine (jointIndex x c.movableNodes).bind fun o => ?_
    cases o with
    | none => rfl
    | some i => exact ih.bind fun r => by cases r <;> rfl

theorem solveInternal (s : IkSolver T) (target : Iso T) (k : Constraints) :
    Mirror ρ id (solveInternal s c target k) (solveInternal s (c.rename ρ) target k) := by
  refine (jointPositions c).bind fun orig => ?_
  rw [show (c.rename ρ).dof = c.dof from rfl]
  dsimp only [id]
  split
  · rfl
  · split
    · rfl
    · refine (ignoredIndices c _).bind fun r => ?_
      cases r with
      | error e => rfl
      | ok is => exact tryLoop c s target _ _ _ _ _

theorem solveWithConstraints (s : IkSolver T) (target : Iso T) (k : Constraints) :
    Mirror ρ id (solveWithConstraints s c target k) (solveWithConstraints s (c.rename ρ) target k) := by
  refine (jointPositions c).bind fun orig => (solveInternal c s target k).bind fun r => ?_
  cases r with
  | ok u => rfl
  | error e => exact (setJointPositions c orig).bind fun r => by cases r <;> rfl

/-! ### calls and clients -/

theorem call : {β : Type} → (c : Call T β) → Mirror ρ (c.answer ρ) c.prog (c.rename ρ).prog
  | _, .newNode j => new j
  | _, .setParent n p => setParent n p
  | _, .removeParent n p => removeParent n p
  | _, .setMimicParent n p m => setMimicParent n p m
  | _, .setLink n l => setLink n l
  | _, .setOrigin n t => setOrigin n t
  | _, .setJointPosition n x => setJointPosition n x
  | _, .setJointPositionClamped n x => setJointPositionClamped n x
  | _, .setJointPositionUnchecked n x => setJointPositionUnchecked n x
  | _, .joint n => joint n
  | _, .jointPosition n => jointPosition n
  | _, .parent n => parent n
  | _, .mimicParent n => mimicParent n
  | _, .children n => children n
  | _, .link n => link n
  | _, .isRoot n => isRoot n
  | _, .isEnd n => isEnd n
  | _, .origin n => origin n
  | _, .worldTransform n => worldTransform n
  | _, .worldVelocity n => worldVelocity n
  | _, .iterAncestors fuel n => ancestors fuel (some n)
  | _, .iterDescendants fuel n => descendants fuel [n]
  | _, .fromNodes ns => fromNodes ns
  | _, .fromRoot fuel n => fromRoot fuel n
  | _, .fromEnd fuel n => fromEnd fuel n
  | _, .fromEndToRoot fuel e r => fromEndToRoot fuel e r
  | _, .chainSetOrigin c t => chainSetOrigin c t
  | _, .chainOrigin c => chainOrigin c
  | _, .iterJoints c => iterJoints c
  | _, .iterLinks c => iterLinks c
  | _, .find c name => find c name
  | _, .jointPositions c => jointPositions c
  | _, .setJointPositions c xs => setJointPositions c xs
  | _, .setJointPositionsClamped c xs => setJointPositionsClamped c xs
  | _, .setJointPositionsUnchecked c xs => setJointPositionsUnchecked c xs
  | _, .updateTransforms c => updateTransforms c
  | _, .updateVelocities c => updateVelocities c
  | _, .updateLinkTransforms c => updateLinkTransforms c
  | _, .cloneChain fuel c => clone c fuel
  | _, .tryNew c => tryNew c
  | _, .endTransform c => endTransform c
  | _, .display fuel c => display c fuel
  | _, .jacobian c => jacobian c
  | _, .centerOfMass c => centerOfMass c
  | _, .solve s c target cs => solveWithConstraints c s target cs

theorem _root_.K.Chain.rename_symm (c : Chain) : (c.rename ρ).rename ρ.symm = c := by
  simp [Chain.rename, Function.comp_def]

theorem answer_symm : {β : Type} → (c : Call T β) → (r : β) → c.answer ρ.symm (c.answer ρ r) = r := by
  intro β c r
  cases c <;> simp [Call.answer, Chain.rename_symm, Function.comp_def]

theorem answer_rename : {β : Type} → (σ : Equiv.Perm NodeId) → (c : Call T β) → (r : β) →
    (c.rename ρ).answer σ r = c.answer σ r := by
  intro β σ c r
  cases c <;> rfl

end Mirror

/-- A client of the other objects executes the renamed program. -/
theorem Client.prog_rename (p : Client T α) : (p.rename ρ).prog = p.prog.rename ρ := by
  refine Mirror.eq ?_
  induction p with
  | done a => rfl
  | call c k ih =>
    refine (Mirror.call c).bind fun r => ?_
    show Mirror ρ id (k r).prog (Client.rename ρ (k (c.answer ρ.symm (c.answer ρ r)))).prog
    rw [Mirror.answer_symm]
    exact ih r

end K
