import Verif.Lemmas.Flipped
/-!
# Every call of the API works alike in the mirror
-/

set_option linter.unusedSectionVars false

namespace K
open Prog
variable {T : Type} [Scalar T] {α β γ δ ε : Type} {F : Flip}

namespace Flip

section laws
variable [SignLaws T]

/-- moves the signs outwards; all terms of a sum have the same sign -/
macro "signs" "[" ls:Lean.Parser.Tactic.simpLemma,* "]" : tactic =>
  `(tactic| simp only [flipIf, Bool.xor_false, Bool.xor_true, Bool.false_xor, Bool.true_xor, Bool.not_true, Bool.not_false,
    SignLaws.neg_neg, SignLaws.neg_zero, SignLaws.neg_mul, SignLaws.mul_neg, SignLaws.neg_add_neg, SignLaws.neg_sub_neg,
    SignLaws.neg_div, $ls,*])

/-! ## geometry -/

theorem vec_zero : F.vec (V3.zero : V3 T) = V3.zero := by
  obtain ⟨x, y, z⟩ := F
  cases x <;> cases y <;> cases z <;> signs [vec, V3.zero]
theorem turn_zero : F.turn (V3.zero : V3 T) = V3.zero := by
  obtain ⟨x, y, z⟩ := F
  cases x <;> cases y <;> cases z <;> signs [turn, V3.zero]
theorem vec_add (a b : V3 T) : F.vec (a.add b) = (F.vec a).add (F.vec b) := by
  obtain ⟨x, y, z⟩ := F
  cases x <;> cases y <;> cases z <;> signs [vec, V3.add]
theorem turn_add (a b : V3 T) : F.turn (a.add b) = (F.turn a).add (F.turn b) := by
  obtain ⟨x, y, z⟩ := F
  cases x <;> cases y <;> cases z <;> signs [turn, V3.add]
theorem vec_sub (a b : V3 T) : F.vec (a.sub b) = (F.vec a).sub (F.vec b) := by
  obtain ⟨x, y, z⟩ := F
  cases x <;> cases y <;> cases z <;> signs [vec, V3.sub]
theorem vec_scale (a : V3 T) (k : T) : F.vec (a.scale k) = (F.vec a).scale k := by
  obtain ⟨x, y, z⟩ := F
  cases x <;> cases y <;> cases z <;> signs [vec, V3.scale]
theorem turn_scale (a : V3 T) (k : T) : F.turn (a.scale k) = (F.turn a).scale k := by
  obtain ⟨x, y, z⟩ := F
  cases x <;> cases y <;> cases z <;> signs [turn, V3.scale]
theorem vec_unscale (a : V3 T) (k : T) : F.vec (a.unscale k) = (F.vec a).unscale k := by
  obtain ⟨x, y, z⟩ := F
  cases x <;> cases y <;> cases z <;> signs [vec, V3.unscale]
theorem turn_unscale (a : V3 T) (k : T) : F.turn (a.unscale k) = (F.turn a).unscale k := by
  obtain ⟨x, y, z⟩ := F
  cases x <;> cases y <;> cases z <;> signs [turn, V3.unscale]
theorem turn_neg (a : V3 T) : F.turn a.neg = (F.turn a).neg := by
  obtain ⟨x, y, z⟩ := F
  cases x <;> cases y <;> cases z <;> signs [turn, V3.neg]
theorem cross_turn (a b : V3 T) : (F.turn a).cross (F.vec b) = F.vec (a.cross b) := by
  obtain ⟨x, y, z⟩ := F
  cases x <;> cases y <;> cases z <;> signs [turn, vec, V3.cross]
theorem cross_turn_turn (a b : V3 T) : (F.turn a).cross (F.turn b) = F.turn (a.cross b) := by
  obtain ⟨x, y, z⟩ := F
  cases x <;> cases y <;> cases z <;> signs [turn, V3.cross]
theorem vec_norm (a : V3 T) : (F.vec a).norm = a.norm := by
  obtain ⟨x, y, z⟩ := F
  cases x <;> cases y <;> cases z <;> signs [vec, V3.norm]
theorem turn_norm (a : V3 T) : (F.turn a).norm = a.norm := by
  obtain ⟨x, y, z⟩ := F
  cases x <;> cases y <;> cases z <;> signs [turn, V3.norm]

theorem quat_vec (q : Quat T) : (F.quat q).vec = F.turn q.vec := rfl
theorem quat_one : F.quat (Quat.one : Quat T) = Quat.one := by
  obtain ⟨x, y, z⟩ := F
  cases x <;> cases y <;> cases z <;> signs [quat, Quat.one]
theorem quat_mul (a b : Quat T) : F.quat (a.mul b) = (F.quat a).mul (F.quat b) := by
  obtain ⟨x, y, z⟩ := F
  cases x <;> cases y <;> cases z <;> signs [quat, Quat.mul]
theorem quat_conj (a : Quat T) : F.quat a.conj = (F.quat a).conj := by
  obtain ⟨x, y, z⟩ := F
  cases x <;> cases y <;> cases z <;> signs [quat, Quat.conj]
theorem rotate (q : Quat T) (v : V3 T) : (F.quat q).rotate (F.vec v) = F.vec (q.rotate v) := by
  simp only [Quat.rotate, vec_add, vec_scale, quat_vec, ← cross_turn]; rfl
theorem rotate_turn (q : Quat T) (v : V3 T) : (F.quat q).rotate (F.turn v) = F.turn (q.rotate v) := by
  simp only [Quat.rotate, turn_add, turn_scale, quat_vec, ← cross_turn_turn]; rfl
theorem matRotate (q : Quat T) (v : V3 T) : (F.quat q).matRotate (F.vec v) = F.vec (q.matRotate v) := by
  obtain ⟨x, y, z⟩ := F
  cases x <;> cases y <;> cases z <;> signs [quat, vec, Quat.matRotate]
theorem matRotate_turn (q : Quat T) (v : V3 T) : (F.quat q).matRotate (F.turn v) = F.turn (q.matRotate v) := by
  obtain ⟨x, y, z⟩ := F
  cases x <;> cases y <;> cases z <;> signs [quat, turn, Quat.matRotate]
theorem fromAxisAngle (a : V3 T) (k : T) : Quat.fromAxisAngle (F.turn a) k = F.quat (Quat.fromAxisAngle a k) := by
  obtain ⟨x, y, z⟩ := F
  cases x <;> cases y <;> cases z <;> signs [quat, turn, Quat.fromAxisAngle]
theorem axis (q : Quat T) : (F.quat q).axis = q.axis.map F.turn := by
  unfold Quat.axis
  have e : (if Scalar.le 0 (F.quat q).w = true then (F.quat q).vec else (F.quat q).vec.neg) =
      F.turn (if Scalar.le 0 q.w = true then q.vec else q.vec.neg) := by
    show (if Scalar.le 0 q.w = true then F.turn q.vec else (F.turn q.vec).neg) = _
    split
    · rfl
    · rw [turn_neg]
  simp only [e, turn_norm]
  rw [← turn_unscale]
  generalize (if Scalar.le 0 q.w = true then q.vec else q.vec.neg) = v
  cases Scalar.lt 0 v.norm <;> rfl
theorem angle (q : Quat T) : (F.quat q).angle = q.angle := by
  simp only [Quat.angle, quat_vec, turn_norm]; rfl
theorem scaledAxis (q : Quat T) : (F.quat q).scaledAxis = F.turn q.scaledAxis := by
  simp only [Quat.scaledAxis, axis, angle]
  cases q.axis with
  | none => exact turn_zero.symm
  | some a => exact (turn_scale a _).symm

theorem iso_mul (a b : Iso T) : F.iso (a.mul b) = (F.iso a).mul (F.iso b) := by
  simp only [iso, Iso.mul, vec_add, rotate, quat_mul]
theorem iso_mulTrans (a : Iso T) (v : V3 T) : F.iso (a.mulTrans v) = (F.iso a).mulTrans (F.vec v) := by
  simp only [iso, Iso.mulTrans, vec_add, rotate]
theorem iso_one : F.iso (Iso.one : Iso T) = Iso.one := by
  simp only [iso, Iso.one, vec_zero, quat_one]
theorem velocity_zero : F.velocity (Velocity.zero : Velocity T) = Velocity.zero := by
  simp only [velocity, Velocity.zero, vec_zero, turn_zero]

theorem localTransform (j : Joint T) : (F.joint j).localTransform = F.iso j.localTransform := by
  have : (F.joint j).jointTransform = F.iso j.jointTransform := by
    simp only [Joint.jointTransform, joint]
    cases e : j.jointType with
    | fixed => exact iso_one.symm
    | rotational x => simp only [jointType, iso, fromAxisAngle]; congr 1; exact vec_zero.symm
    | linear x => simp only [jointType, iso, vec_scale, quat_one]
  rw [Joint.localTransform, Joint.localTransform, this, iso_mul]
  rfl

theorem placeLink (t : Iso T) (l : Link T) : Chain.placeLink (F.iso t) (F.link l) = F.link (Chain.placeLink t l) := by
  simp only [Chain.placeLink, link, inertial, Inertial.setWorldTransform, List.map_map, iso_mul, Option.map_some]
  congr 1
  · refine List.map_congr_left fun v _ => ?_
    simp only [Function.comp, visual, Visual.setWorldTransform, iso_mul, Option.map_some]
  · refine List.map_congr_left fun v _ => ?_
    simp only [Function.comp, collision, Collision.setWorldTransform, iso_mul, Option.map_some]

end laws

/-! ## joints -/

theorem isMovable (j : Joint T) : (F.joint j).isMovable = j.isMovable := by
  rcases j with ⟨nm, jt, po, v, lim, o, c1, c2⟩
  cases jt <;> rfl

theorem setJointPosition (j : Joint T) (x : T) :
    (F.joint j).setJointPosition x = (F.joint (j.setJointPosition x).1, (j.setJointPosition x).2) := by
  simp only [Joint.setJointPosition, isMovable]
  split
  · rfl
  · rcases j with ⟨nm, jt, po, v, lim, o, c1, c2⟩
    cases lim with
    | none => rfl
    | some r =>
      simp only [joint]
      split <;> rfl

theorem setJointPosition_told (j : Joint T) (x : T) : F.result (j.setJointPosition x).2 = (j.setJointPosition x).2 := by
  unfold Joint.setJointPosition
  split
  · rfl
  · split
    · split <;> rfl
    · rfl

theorem setJointPositionClamped (j : Joint T) (x : T) :
    (F.joint j).setJointPositionClamped x = F.joint (j.setJointPositionClamped x) := by
  simp only [Joint.setJointPositionClamped, isMovable]
  split
  · rfl
  · rcases j with ⟨nm, jt, po, v, lim, o, c1, c2⟩
    cases lim <;> rfl

theorem jointPosition (j : Joint T) : (F.joint j).jointPosition = j.jointPosition := by
  rcases j with ⟨nm, jt, po, v, lim, o, c1, c2⟩
  cases jt <;> rfl
theorem jointVelocity (j : Joint T) : (F.joint j).jointVelocity = j.jointVelocity := by
  rcases j with ⟨nm, jt, po, v, lim, o, c1, c2⟩
  cases jt <;> rfl

/-- writing to the joint -/
theorem writeJoint {f f' : Joint T → Joint T} (e : ∀ j, f' (F.joint j) = F.joint (f j)) (s : NodeImpl T) :
    { F.node s with joint := f' (F.node s).joint } = F.node { s with joint := f s.joint } := by
  show NodeImpl.mk _ _ (f' (F.joint s.joint)) _ _ _ _ = _
  rw [e]; rfl

end Flip

namespace Flipped
open K.Flip

theorem new (j : Joint T) : Flipped F Eq (Node.new j) (Node.new (F.joint j)) := .alloc rfl fun _ => .ret rfl
theorem joint (n : NodeId) : Flipped F (To F.joint) (Node.joint n : KProg T _) (Node.joint n) :=
  (peek n).bind fun s _ e => by subst e; exact .ret rfl
theorem jointPosition (n : NodeId) : Flipped F Eq (Node.jointPosition n : KProg T _) (Node.jointPosition n) :=
  (peek n).bind fun s _ e => by subst e; exact .ret (Flip.jointPosition s.joint).symm
theorem children (n : NodeId) : Flipped F Eq (Node.children n : KProg T _) (Node.children n) :=
  (peek n).bind fun s _ e => by subst e; exact .ret rfl
theorem link (n : NodeId) : Flipped F (To (Option.map F.link)) (Node.link n : KProg T _) (Node.link n) :=
  (peek n).bind fun s _ e => by subst e; exact .ret rfl
theorem isRoot (n : NodeId) : Flipped F Eq (Node.isRoot n : KProg T _) (Node.isRoot n) :=
  (peek n).bind fun s _ e => by subst e; exact .ret rfl
theorem isEnd (n : NodeId) : Flipped F Eq (Node.isEnd n : KProg T _) (Node.isEnd n) :=
  (peek n).bind fun s _ e => by subst e; exact .ret rfl
theorem origin (n : NodeId) : Flipped F (To F.iso) (Node.origin n : KProg T _) (Node.origin n) :=
  (joint n).bind fun s _ e => by subst e; exact .ret rfl
theorem worldTransform (n : NodeId) : Flipped F (To (Option.map F.iso)) (Node.worldTransform n : KProg T _)
    (Node.worldTransform n) :=
  (joint n).bind fun s _ e => by subst e; exact .ret rfl
theorem worldVelocity (n : NodeId) : Flipped F (To (Option.map F.velocity)) (Node.worldVelocity n : KProg T _)
    (Node.worldVelocity n) :=
  (joint n).bind fun s _ e => by subst e; exact .ret rfl

theorem parent (n : NodeId) : Flipped F Eq (Node.parent n : KProg T _) (Node.parent n) := by
  refine (doLock n).bind fun _ _ _ => (doRead n).bind fun s _ e => ?_
  subst e
  simp only [node]
  cases s.parent with
  | none => exact (doUnlock n).bind fun _ _ _ => .ret rfl
  | some w => exact (doUpgrade w).bind fun b _ e => (doUnlock n).bind fun _ _ _ => by subst e; exact .ret rfl

theorem mimicParent (n : NodeId) : Flipped F Eq (Node.mimicParent n : KProg T _) (Node.mimicParent n) := by
  refine (doLock n).bind fun _ _ _ => (doRead n).bind fun s _ e => ?_
  subst e
  simp only [node]
  cases s.mimicParent with
  | none => exact (doUnlock n).bind fun _ _ _ => .ret rfl
  | some w => exact (doUpgrade w).bind fun b _ e => (doUnlock n).bind fun _ _ _ => by subst e; exact .ret rfl

theorem setParent (n p : NodeId) : Flipped F Eq (Node.setParent n p : KProg T _) (Node.setParent n p) := by
  unfold Node.setParent
  refine Flipped.bind (Q := Eq) ?_ fun _ _ _ => ?_ <;> exact poke fun _ => rfl
theorem removeParent (n p : NodeId) : Flipped F Eq (Node.removeParent n p : KProg T _) (Node.removeParent n p) := by
  unfold Node.removeParent
  refine Flipped.bind (Q := Eq) ?_ fun _ _ _ => ?_ <;> exact poke fun _ => rfl
theorem setMimicParent (n p : NodeId) (m : Mimic T) :
    Flipped F Eq (Node.setMimicParent n p m) (Node.setMimicParent n p m) := by
  unfold Node.setMimicParent
  refine Flipped.bind (Q := Eq) ?_ fun _ _ _ => Flipped.bind (Q := Eq) ?_ fun _ _ _ => ?_ <;>
    exact poke fun _ => rfl
theorem setLink (n : NodeId) (l : Option (Link T)) :
    Flipped F Eq (Node.setLink n l) (Node.setLink n (l.map F.link)) := poke fun _ => rfl
theorem setOrigin (n : NodeId) (t : Iso T) : Flipped F Eq (Node.setOrigin n t) (Node.setOrigin n (F.iso t)) :=
  poke (writeJoint (f := fun j => j.setOrigin t) (f' := fun j => j.setOrigin (F.iso t)) fun _ => rfl)
theorem setJointPositionClamped (n : NodeId) (x : T) :
    Flipped F Eq (Node.setJointPositionClamped n x) (Node.setJointPositionClamped n x) :=
  poke (writeJoint (f := fun j => j.setJointPositionClamped x) (f' := fun j => j.setJointPositionClamped x)
    fun j => Flip.setJointPositionClamped j x)
theorem setJointPositionUnchecked (n : NodeId) (x : T) :
    Flipped F Eq (Node.setJointPositionUnchecked n x) (Node.setJointPositionUnchecked n x) :=
  poke (writeJoint (f := fun j => j.setJointPositionUnchecked x)
    (f' := fun j => j.setJointPositionUnchecked x) fun _ => rfl)

theorem setMimicChild (n : NodeId) (x : T) (c : NodeId) :
    Flipped F (Told F) (Node.setMimicChild n x c) (Node.setMimicChild n x c) := by
  refine (doLock c).bind fun _ _ _ => (doRead c).bind fun s _ e => ?_
  subst e
  simp only [node]
  cases s.mimic with
  | none =>
    refine (joint n).bind fun j _ e => (joint c).bind fun j2 _ e2 => (doUnlock c).bind fun _ _ _ => ?_
    subst e e2
    exact .ret ⟨rfl, rfl⟩
  | some m =>
    refine (doWrite (writeJoint (f := fun j => (j.setJointPosition (m.mimicPosition x)).1)
      (f' := fun j => (j.setJointPosition (m.mimicPosition x)).1) fun j => by
        rw [Flip.setJointPosition])).bind fun _ _ _ => ?_
    exact (doUnlock c).bind fun _ _ _ => .ret ⟨by simp only [Flip.setJointPosition],
      setJointPosition_told _ _⟩

theorem setJointPosition (n : NodeId) (x : T) :
    Flipped F (Told F) (Node.setJointPosition n x) (Node.setJointPosition n x) := by
  refine (doLock n).bind fun _ _ _ => (doRead n).bind fun s _ e => ?_
  subst e
  by_cases hp : s.mimicParent.isSome = true
  · have hp' : (F.node s).mimicParent.isSome = true := hp
    rw [if_pos hp, if_pos hp']
    exact (doUnlock n).bind fun _ _ _ => .ret ⟨rfl, rfl⟩
  · have hp' : ¬(F.node s).mimicParent.isSome = true := hp
    rw [if_neg hp, if_neg hp']
    refine (doWrite (n := n) (writeJoint (f := fun j => (j.setJointPosition x).1)
      (f' := fun j => (j.setJointPosition x).1) fun j => by rw [Flip.setJointPosition])).bind fun _ _ _ => ?_
    simp only [node, Flip.setJointPosition]
    have told := setJointPosition_told (F := F) s.joint x
    cases e : (s.joint.setJointPosition x).2 with
    | error h => exact (doUnlock n).bind fun _ _ _ => .ret ⟨rfl, by rw [e] at told; exact told⟩
    | ok =>
      exact (tryEach s.mimicChildren (setMimicChild n x)).bind fun r r' h => (doUnlock n).bind fun _ _ _ => .ret h

/-! ### iterators -/

theorem ancestors (fuel : Nat) (o : Option NodeId) :
    Flipped F Eq (ancestors fuel o : KProg T _) (ancestors fuel o) := by
  induction fuel generalizing o with
  | zero =>
    cases o with
    | none => exact .ret rfl
    | some n => exact .diverge
  | succ fuel ih =>
    cases o with
    | none => exact .ret rfl
    | some n =>
        refine (parent n).bind fun p _ e => ?_
        subst e
        exact (ih p).bind fun _ _ e => by subst e; exact .ret rfl

theorem ancestorsUntil (stop : NodeId) (fuel : Nat) (o : Option NodeId) :
    Flipped F Eq (ancestorsUntil stop fuel o : KProg T _) (ancestorsUntil stop fuel o) := by
  induction fuel generalizing o with
  | zero =>
    cases o with
    | none => exact .ret rfl
    | some n => exact .diverge
  | succ fuel ih =>
    cases o with
    | none => exact .ret rfl
    | some n =>
        refine (parent n).bind fun p _ e => ?_
        subst e
        split
        · exact .ret rfl
        · exact (ih p).bind fun _ _ e => by subst e; exact .ret rfl

theorem descendants (fuel : Nat) (st : List NodeId) :
    Flipped F Eq (descendants fuel st : KProg T _) (descendants fuel st) := by
  induction fuel generalizing st with
  | zero =>
    cases st with
    | nil => exact .ret rfl
    | cons n st => exact .diverge
  | succ fuel ih =>
    cases st with
    | nil => exact .ret rfl
    | cons n st =>
        refine (children n).bind fun cs _ e => ?_
        subst e
        exact (ih _).bind fun _ _ e => by subst e; exact .ret rfl

/-! ### chains -/

theorem fromNodes (ns : List NodeId) : Flipped F Eq (Chain.fromNodes ns : KProg T _) (Chain.fromNodes ns) := by
  refine Flipped.bind (Q := Eq) (filterList (fun n => ?_) ns) fun ms _ e => by subst e; exact .ret rfl
  exact (joint n).bind fun j _ e => by subst e; exact .ret (isMovable j).symm

theorem fromRoot (fuel : Nat) (n : NodeId) :
    Flipped F Eq (Chain.fromRoot fuel n : KProg T _) (Chain.fromRoot fuel n) :=
  (descendants fuel [n]).bind fun ns _ e => by subst e; exact fromNodes ns
theorem fromEnd (fuel : Nat) (n : NodeId) :
    Flipped F Eq (Chain.fromEnd fuel n : KProg T _) (Chain.fromEnd fuel n) :=
  (ancestors fuel (some n)).bind fun ns _ e => by subst e; exact fromNodes _
theorem fromEndToRoot (fuel : Nat) (e r : NodeId) :
    Flipped F Eq (Chain.fromEndToRoot fuel e r : KProg T _) (Chain.fromEndToRoot fuel e r) :=
  (ancestorsUntil r fuel (some e)).bind fun ns _ e => by subst e; exact fromNodes _

variable (c : Chain)

theorem chainSetOrigin (t : Iso T) : Flipped F Eq (c.setOrigin t) (c.setOrigin (F.iso t)) := by
  rcases c with ⟨ns, ms, d⟩
  cases ns with
  | nil => exact .panic _
  | cons n ns => exact setOrigin n t
theorem chainOrigin : Flipped F (To F.iso) (c.origin : KProg T _) c.origin := by
  rcases c with ⟨ns, ms, d⟩
  cases ns with
  | nil => exact .panic _
  | cons n ns => exact origin n
theorem iterJoints : Flipped F (To (List.map F.joint)) (c.iterJoints : KProg T _) c.iterJoints :=
  mapListTo joint c.movableNodes

theorem iterLinks : Flipped F (To (List.map F.link)) (c.iterLinks : KProg T _) c.iterLinks := by
  refine Flipped.bind (Q := To (List.map (Option.map F.link))) (mapListTo (fun n => ?_) c.nodes) fun ls _ e => ?_
  · refine (link n).bind fun l _ e => ?_
    subst e
    cases l with
    | none => exact .ret rfl
    | some l =>
      exact (doLock n).bind fun _ _ _ => (doRead n).bind fun s _ e => by
        subst e
        exact (expect (A := F.link) s.link _).bind fun a b e => (doUnlock n).bind fun _ _ _ => by
          subst e
          exact .ret rfl
  · subst e
    refine .ret ?_
    show List.filterMap id _ = List.map F.link _
    rw [List.filterMap_map, List.map_filterMap]
    congr 1

theorem find (name : String) : Flipped F Eq (c.find name : KProg T _) (c.find name) :=
  findFirst (fun n => (joint n).bind fun j _ e => by subst e; exact .ret rfl) c.nodes

theorem jointPositions : Flipped F Eq (c.jointPositions : KProg T _) c.jointPositions := by
  refine mapListSame (fun n => ?_) c.movableNodes
  refine (doLock n).bind fun _ _ _ => (doRead n).bind fun s _ e => ?_
  subst e
  simp only [node, Flip.jointPosition]
  exact (expectSame s.joint.jointPosition _).bind fun a b e => (doUnlock n).bind fun _ _ _ => .ret e

theorem setJointPositions (xs : List T) : Flipped F (Told F) (c.setJointPositions xs) (c.setJointPositions xs) := by
  unfold Chain.setJointPositions
  split
  · exact .ret ⟨rfl, rfl⟩
  · exact tryEach _ fun p => setJointPosition p.1 p.2

theorem setJointPositionsClamped (xs : List T) :
    Flipped F Eq (c.setJointPositionsClamped xs) (c.setJointPositionsClamped xs) :=
  forEach (fun (p : NodeId × T) => setJointPositionClamped p.1 p.2) _

theorem setJointPositionsUnchecked (xs : List T) :
    Flipped F Eq (c.setJointPositionsUnchecked xs) (c.setJointPositionsUnchecked xs) :=
  forEach (fun (p : NodeId × T) => setJointPositionUnchecked p.1 p.2) _

theorem tryNew : Flipped F Eq (c.tryNew : KProg T _) c.tryNew := by
  unfold Chain.tryNew
  cases c.nodes.length with
  | zero => exact .panic _
  | succ k =>
    refine Flipped.bind (Q := Eq) (findFirst (fun n => ?_) _) fun o _ e => by subst e; exact .ret rfl
    exact (children n).bind fun cs _ e => by subst e; exact .ret rfl

theorem fmtWithIndentLevel (fuel level : Nat) (n : NodeId) :
    Flipped F (fun _ _ => True) (c.fmtWithIndentLevel fuel level n : KProg T _) (c.fmtWithIndentLevel fuel level n) := by
  induction fuel generalizing level n with
  | zero => exact .diverge
  | succ fuel ih =>
    refine Flipped.bind (Q := fun _ _ => True) ?_ fun x _ _ => (doLock n).bind fun _ _ _ => (doRead n).bind fun s _ es => ?_
    · split
      · exact (peek n).bind fun s _ e => .ret trivial
      · exact .ret trivial
    · subst es
      exact (mapListAny (ih (level + 1)) s.children).bind fun _ _ _ => (doUnlock n).bind fun _ _ _ => .ret trivial

theorem display (fuel : Nat) : Flipped F (fun _ _ => True) (c.display fuel : KProg T _) (c.display fuel) := by
  rcases c with ⟨ns, ms, d⟩
  cases ns with
  | nil => exact .panic _
  | cons n ns => exact (fmtWithIndentLevel ⟨n :: ns, ms, d⟩ fuel 0 n).bind fun _ _ _ => .ret trivial

theorem cloneNode (n : NodeId) : Flipped F Eq (Chain.cloneNode n : KProg T _) (Chain.cloneNode n) :=
  (doLock n).bind fun _ _ _ => (doRead n).bind fun s _ e => by
    subst e
    exact (new s.joint).bind fun m _ e => (doUnlock n).bind fun _ _ _ =>
      (doLock n).bind fun _ _ _ => (doRead n).bind fun s _ es => by
        subst e es
        exact (setLink m s.link).bind fun _ _ _ => (doUnlock n).bind fun _ _ _ => .ret rfl

theorem cloneConnect (ns ms : List NodeId) (x : NodeId × NodeId) :
    Flipped F Eq (Chain.cloneConnect ns ms x : KProg T _) (Chain.cloneConnect ns ms x) := by
  unfold Chain.cloneConnect
  refine (parent x.1).bind fun o _ e => ?_
  subst e
  have rest : Flipped F Eq (do
        match ← Node.mimicParent x.1 with
        | some m =>
          let i ← Prog.expect (position m ns) "called `Option::unwrap()` on a `None` value"
          let m' ← Prog.expect ms[i]? "index out of bounds"
          Prog.doLock x.1
          let s ← Prog.doRead x.1
          let mimic ← Prog.expect s.mimic "called `Option::unwrap()` on a `None` value"
          Node.setMimicParent x.2 m' mimic
          Prog.doUnlock x.1
        | none => Pure.pure () : KProg T Unit) (do
        match ← Node.mimicParent x.1 with
        | some m =>
          let i ← Prog.expect (position m ns) "called `Option::unwrap()` on a `None` value"
          let m' ← Prog.expect ms[i]? "index out of bounds"
          Prog.doLock x.1
          let s ← Prog.doRead x.1
          let mimic ← Prog.expect s.mimic "called `Option::unwrap()` on a `None` value"
          Node.setMimicParent x.2 m' mimic
          Prog.doUnlock x.1
        | none => Pure.pure () : KProg T Unit) := by
    refine (mimicParent x.1).bind fun o _ e => ?_
    subst e
    cases o with
    | none => exact .ret rfl
    | some p =>
      refine (expectSame _ _).bind fun i _ e => ?_
      subst e
      refine (expectSame _ _).bind fun m _ e => ?_
      subst e
      refine (doLock x.1).bind fun _ _ _ => (doRead x.1).bind fun s _ e => ?_
      subst e
      refine (expectSame s.mimic _).bind fun mi _ e => ?_
      subst e
      exact (setMimicParent x.2 m mi).bind fun _ _ _ => doUnlock x.1
  cases o with
  | none => exact rest
  | some p =>
    refine (expectSame _ _).bind fun i _ e => ?_
    subst e
    refine (expectSame _ _).bind fun m _ e => ?_
    subst e
    exact (setParent x.2 m).bind fun _ _ _ => rest

theorem clone (fuel : Nat) : Flipped F Eq (c.clone fuel : KProg T _) (c.clone fuel) := by
  rcases c with ⟨ns, ms, d⟩
  cases ns with
  | nil => exact .ret rfl
  | cons n ns =>
    refine (isRoot n).bind fun b _ e => ?_
    subst e
    cases b with
    | false => exact .panic _
    | true =>
      refine (mapListSame cloneNode (n :: ns)).bind fun nn _ e => ?_
      subst e
      refine (forEach (cloneConnect (n :: ns) nn) _).bind fun _ _ _ => (expectSame nn.head? _).bind fun r _ e => ?_
      subst e
      refine (isRoot r).bind fun b _ e => ?_
      subst e
      cases b with
      | false => exact .panic _
      | true => exact fromRoot fuel r

/-! ### geometry -/

section laws
variable [SignLaws T]

theorem parentWorldTransform (n : NodeId) : Flipped F (To (Option.map F.iso))
    (Node.parentWorldTransform n : KProg T _) (Node.parentWorldTransform n) :=
  (parent n).bind fun o _ e => by
    subst e
    cases o with
    | none => exact .ret (by simp only [To, Option.map_some, iso_one])
    | some p => exact worldTransform p
theorem parentWorldVelocity (n : NodeId) : Flipped F (To (Option.map F.velocity))
    (Node.parentWorldVelocity n : KProg T _) (Node.parentWorldVelocity n) :=
  (parent n).bind fun o _ e => by
    subst e
    cases o with
    | none => exact .ret (by simp only [To, Option.map_some, velocity_zero])
    | some p => exact worldVelocity p

theorem updateTransform (n : NodeId) :
    Flipped F (To F.iso) (Chain.updateTransform n : KProg T _) (Chain.updateTransform n) := by
  refine (parentWorldTransform n).bind fun o _ e => ?_
  subst e
  refine (expect (A := F.iso) o _).bind fun t _ e => (joint n).bind fun j _ ej => ?_
  subst e ej
  rw [Flip.localTransform, ← iso_mul]
  exact (poke (writeJoint (f := fun j => j.setWorldTransform _) (f' := fun j => j.setWorldTransform _)
    fun _ => rfl)).bind fun _ _ _ => .ret rfl

theorem updateTransforms : Flipped F (To (List.map F.iso)) (c.updateTransforms : KProg T _) c.updateTransforms :=
  mapListTo updateTransform c.nodes

theorem updateVelocity (n : NodeId) :
    Flipped F (To F.velocity) (Chain.updateVelocity n : KProg T _) (Chain.updateVelocity n) := by
  refine (parentWorldTransform n).bind fun o _ e => ?_
  subst e
  refine (expect (A := F.iso) o _).bind fun t _ e => (parentWorldVelocity n).bind fun ov _ ev => ?_
  subst e ev
  refine (expect (A := F.velocity) ov _).bind fun v _ e => (doLock n).bind fun _ _ _ => (doRead n).bind fun s _ es => ?_
  subst e es
  refine Flipped.bind (Q := To F.velocity) ?_ fun w _ e => (doUnlock n).bind fun _ _ _ => ?_
  · rw [show (F.node s).joint.jointType = F.jointType s.joint.jointType from rfl]
    cases s.joint.jointType with
    | fixed => exact .ret rfl
    | rotational a =>
      refine (parent n).bind fun o _ e => ?_
      subst e
      refine (expectSame o _).bind fun p _ e => ?_
      subst e
      refine (joint p).bind fun j _ ej => (worldTransform n).bind fun o _ e => ?_
      subst ej e
      refine (expect (A := F.iso) o _).bind fun w _ e => (joint n).bind fun j2 _ ej => ?_
      subst e ej
      rw [Flip.jointVelocity]
      refine (expectSame j2.jointVelocity _).bind fun x _ e => .ret ?_
      subst e
      simp only [To, Flip.velocity, Flip.iso, Flip.joint, matRotate, cross_turn, ← vec_add, ← turn_scale, matRotate_turn,
        ← turn_add]
    | linear a =>
      refine (worldTransform n).bind fun o _ e => ?_
      subst e
      refine (expect (A := F.iso) o _).bind fun w _ e => (joint n).bind fun j2 _ ej => ?_
      subst e ej
      rw [Flip.jointVelocity]
      refine (expectSame j2.jointVelocity _).bind fun x _ e => .ret ?_
      subst e
      simp only [To, Flip.velocity, Flip.iso, ← vec_scale, matRotate, ← vec_add]
  · subst e
    exact (poke (writeJoint (f := fun j => j.setWorldVelocity _) (f' := fun j => j.setWorldVelocity _)
      fun _ => rfl)).bind fun _ _ _ => .ret rfl

theorem updateVelocities : Flipped F (To (List.map F.velocity)) (c.updateVelocities : KProg T _) c.updateVelocities :=
  (updateTransforms c).bind fun _ _ _ => mapListTo updateVelocity c.nodes

theorem updateLinkTransforms : Flipped F Eq (c.updateLinkTransforms : KProg T _) c.updateLinkTransforms := by
  refine (updateTransforms c).bind fun _ _ _ => forEach (fun n => ?_) c.nodes
  refine (parentWorldTransform n).bind fun o _ e => ?_
  subst e
  refine (expect (A := F.iso) o _).bind fun t _ e => ?_
  subst e
  refine poke fun s => ?_
  simp only [node]
  congr 1
  cases s.link with
  | none => rfl
  | some l => simp only [Option.map_some, Flip.placeLink]

theorem foldTransform (ns : List NodeId) (t : Iso T) :
    Flipped F (To F.iso) (Chain.foldTransform ns t) (Chain.foldTransform ns (F.iso t)) := by
  induction ns generalizing t with
  | nil => exact .ret rfl
  | cons n ns ih =>
    refine (joint n).bind fun j _ ej => ?_
    subst ej
    rw [Flip.localTransform, ← iso_mul]
    exact ih _
theorem endTransform : Flipped F (To F.iso) (c.endTransform : KProg T _) c.endTransform := by
  have := foldTransform (F := F) (T := T) c.nodes Iso.one
  rwa [iso_one] at this

theorem jacobianColumn (p : V3 T) (j : Joint T) (t : Iso T) :
    K.jacobianColumn (F.vec p) (F.joint j) (F.iso t) = (K.jacobianColumn p j t).map (list F.rows) := by
  simp only [K.jacobianColumn, Flip.joint]
  cases j.jointType with
  | fixed => rfl
  | linear a =>
    simp only [Flip.jointType, Flip.iso, Flip.rotate, Except.map, rows, list]
    have z : ∀ b, flipIf b (0 : T) = 0 := fun b => by cases b <;> signs []
    simp only [z]
    rfl
  | rotational a =>
    simp only [Flip.jointType, Flip.iso, Flip.rotate_turn, ← vec_sub, cross_turn]
    rfl

theorem jacobianColumn_length {p : V3 T} {j : Joint T} {t : Iso T} {col : List T}
    (e : K.jacobianColumn p j t = .ok col) : col.length = 6 := by
  unfold K.jacobianColumn at e
  split at e <;> cases e <;> rfl

theorem jacobian : Flipped F (fun m m' => m' = F.matrix m ∧ ∀ col ∈ m, col.length = 6)
    (K.jacobian c : KProg T _) (K.jacobian c) := by
  refine (endTransform c).bind fun t _ e => (updateTransforms c).bind fun _ _ _ => ?_
  subst e
  refine mapListAll (A := list F.rows) (P := fun col => col.length = 6) (fun n => ?_) c.movableNodes
  refine (doLock n).bind fun _ _ _ => (doRead n).bind fun s _ e => ?_
  subst e
  refine Flipped.bind (Q := To F.iso) (expect (A := F.iso) s.joint.worldTransform _) fun w _ e => ?_
  subst e
  refine Flipped.bind (Q := fun a b => b = list F.rows a ∧ a.length = 6) ?_ fun a b q => (doUnlock n).bind fun _ _ _ => .ret q
  have := jacobianColumn (F := F) t.trans s.joint w
  show Flipped F _ (Prog.ofExcept _) (Prog.ofExcept (K.jacobianColumn (F.vec t.trans) (F.joint s.joint) (F.iso w)))
  rw [this]
  cases e : K.jacobianColumn t.trans s.joint w with
  | error m => exact .panic m
  | ok col => exact .ret ⟨rfl, jacobianColumn_length e⟩

/-- the sums so far -/
def acc (F : Flip) (a : ComAcc T) : ComAcc T := ⟨a.totalMass, F.vec a.com⟩

theorem comAdd (a : ComAcc T) (t : Option (Iso T)) (l : Option (Link T)) :
    K.comAdd (acc F a) (t.map F.iso) (l.map F.link) = acc F (K.comAdd a t l) := by
  cases t with
  | none => rfl
  | some t =>
    cases l with
    | none => rfl
    | some l =>
      simp only [K.comAdd, acc, Option.map_some, Flip.link, inertial, vec_add, vec_scale]
      congr 2
      rw [show (F.iso l.inertial.origin).trans = F.vec l.inertial.origin.trans from rfl, ← iso_mulTrans]
      rfl

theorem comLoop (ns : List NodeId) (a : ComAcc T) : Flipped F (To (acc F)) (comLoop ns a) (comLoop ns (acc F a)) := by
  induction ns generalizing a with
  | nil => exact .ret rfl
  | cons n ns ih =>
    refine (worldTransform n).bind fun o _ e => ?_
    subst e
    cases o with
    | none => exact ih _
    | some t =>
      refine (link n).bind fun l _ e => ?_
      subst e
      have := comAdd (F := F) a (some t) l
      simp only [Option.map_some] at this ⊢
      rw [this]
      exact ih _

theorem centerOfMass : Flipped F (To F.vec) (K.centerOfMass c : KProg T _) (K.centerOfMass c) := by
  refine (updateTransforms c).bind fun _ _ _ => ?_
  have z : acc F ⟨0, V3.zero⟩ = (⟨0, V3.zero⟩ : ComAcc T) := by simp only [acc, vec_zero]
  have := comLoop (F := F) (T := T) c.nodes ⟨0, V3.zero⟩
  rw [z] at this
  refine this.bind fun a _ e => .ret ?_
  subst e
  exact (vec_unscale _ _).symm

end laws

end Flipped

end K
