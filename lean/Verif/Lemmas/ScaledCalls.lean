import Verif.Lemmas.Scaled
/-!
# Every call of the API works in all units
-/

set_option linter.unusedSectionVars false

namespace K
open Prog
variable {α β γ δ ε : Type} {U : Units}

noncomputable section

namespace Units

/-! ## geometry -/

theorem scale_add (a b : V3 ℝ) (k : ℝ) : (a.add b).scale k = (a.scale k).add (b.scale k) := by
  ext <;> simp only [V3.scale, V3.add] <;> ring
theorem scale_sub (a b : V3 ℝ) (k : ℝ) : (a.sub b).scale k = (a.scale k).sub (b.scale k) := by
  ext <;> simp only [V3.scale, V3.sub] <;> ring
theorem cross_scale (a b : V3 ℝ) (k l : ℝ) : (a.scale k).cross (b.scale l) = (a.cross b).scale (l * k) := by
  ext <;> simp only [V3.scale, V3.cross] <;> ring
theorem matRotate_scale (q : Quat ℝ) (v : V3 ℝ) (k : ℝ) : q.matRotate (v.scale k) = (q.matRotate v).scale k := by
  ext <;> simp only [V3.scale, Quat.matRotate] <;> ring
theorem scale_scale (a : V3 ℝ) (k l : ℝ) : (a.scale k).scale l = a.scale (k * l) := by
  ext <;> simp only [V3.scale] <;> ring
theorem scale_one (a : V3 ℝ) : a.scale 1 = a := by
  ext <;> simp only [V3.scale] <;> ring

theorem norm_scale (a : V3 ℝ) {k : ℝ} (hk : 0 < k) : (a.scale k).norm = a.norm * k := by
  simp only [V3.norm, V3.scale, Scalar.sqrt]
  rw [show a.x * k * (a.x * k) + a.y * k * (a.y * k) + a.z * k * (a.z * k) =
    (a.x * a.x + a.y * a.y + a.z * a.z) * (k * k) by ring,
    Real.sqrt_mul (by nlinarith [mul_self_nonneg a.x, mul_self_nonneg a.y, mul_self_nonneg a.z]), Real.sqrt_mul_self hk.le]

theorem iso_mul (a b : Iso ℝ) : U.iso (a.mul b) = (U.iso a).mul (U.iso b) := by
  simp only [iso, Iso.mul, scale_add, Quat.rotate_scale]
theorem iso_mulTrans (a : Iso ℝ) (v : V3 ℝ) : U.iso (a.mulTrans v) = (U.iso a).mulTrans (v.scale U.len) := by
  simp only [iso, Iso.mulTrans, scale_add, Quat.rotate_scale]
theorem iso_one : U.iso Iso.one = Iso.one := by
  simp [iso, Iso.one, V3.scale, V3.zero]
theorem velocity_zero : U.velocity Velocity.zero = Velocity.zero := by
  simp [velocity, Velocity.zero, V3.scale, V3.zero]

variable {n : NodeId} {s : NodeImpl ℝ}

theorem localTransform (F : U.Fits n s) : (U.joint n s.joint).localTransform = U.iso s.joint.localTransform := by
  have : (U.joint n s.joint).jointTransform = U.iso s.joint.jointTransform := by
    have a := F.linear
    have b := F.rotational
    simp only [Joint.jointTransform, joint]
    cases e : s.joint.jointType with
    | fixed => exact iso_one.symm
    | rotational x =>
      simp only [b x e, iso, mul_one]
      congr 1
      simp [V3.scale]
    | linear x =>
      simp only [a x e, iso, scale_scale]
  rw [Joint.localTransform, Joint.localTransform, this, iso_mul]
  rfl

/-! ## joints -/

theorem le_scale {k : ℝ} (hk : 0 < k) (a b : ℝ) : Scalar.le (a * k) (b * k) = Scalar.le a b := by
  simp only [Scalar.le, mul_le_mul_iff_left₀ hk]
theorem lt_scale {k : ℝ} (hk : 0 < k) (a b : ℝ) : Scalar.lt (a * k) (b * k) = Scalar.lt a b := by
  simp only [Scalar.lt, mul_lt_mul_iff_left₀ hk]

theorem isValid (n : NodeId) (r : Range ℝ) (x : ℝ) : (U.range n r).isValid (x * U.coord n) = r.isValid x := by
  simp only [Range.isValid, range, le_scale (U.coord_pos n)]
theorem clamp (n : NodeId) (r : Range ℝ) (x : ℝ) : (U.range n r).clamp (x * U.coord n) = r.clamp x * U.coord n := by
  simp only [Range.clamp, range, lt_scale (U.coord_pos n)]
  split
  · rfl
  · split <;> rfl

theorem isMovable (n : NodeId) (j : Joint ℝ) : (U.joint n j).isMovable = j.isMovable := rfl

theorem setJointPosition (n : NodeId) (j : Joint ℝ) (x : ℝ) :
    ((U.joint n j).setJointPosition (x * U.coord n)).1 = U.joint n (j.setJointPosition x).1 ∧
      U.SameResult (j.setJointPosition x).2 ((U.joint n j).setJointPosition (x * U.coord n)).2 := by
  rcases j with ⟨nm, jt, po, v, lim, o, c1, c2⟩
  simp only [Joint.setJointPosition]
  by_cases hm : (!(Joint.mk nm jt po v lim o c1 c2).isMovable) = true
  · have hm' : (!(U.joint n (Joint.mk nm jt po v lim o c1 c2)).isMovable) = true := hm
    simp only [if_pos hm, if_pos hm']
    exact ⟨trivial, .error (.setToFixed _)⟩
  · have hm' : ¬(!(U.joint n (Joint.mk nm jt po v lim o c1 c2)).isMovable) = true := hm
    simp only [if_neg hm, if_neg hm']
    cases lim with
    | none => exact ⟨rfl, .ok⟩
    | some r =>
      have hr : (U.joint n (Joint.mk nm jt po v (some r) o c1 c2)).limits = some (U.range n r) := rfl
      simp only [hr]
      by_cases hv : (!r.isValid x) = true
      · have hv' : (!(U.range n r).isValid (x * U.coord n)) = true := by rw [isValid]; exact hv
        simp only [if_pos hv, if_pos hv']
        exact ⟨trivial, .error (.outOfLimit n _ _ _ _)⟩
      · have hv' : ¬(!(U.range n r).isValid (x * U.coord n)) = true := by rw [isValid]; exact hv
        simp only [if_neg hv, if_neg hv']
        exact ⟨rfl, .ok⟩

theorem setJointPosition_type (j : Joint ℝ) (x : ℝ) : (j.setJointPosition x).1.jointType = j.jointType := by
  unfold Joint.setJointPosition
  split
  · rfl
  · split
    · split <;> rfl
    · rfl

theorem setJointPositionUnchecked (n : NodeId) (j : Joint ℝ) (x : ℝ) :
    (U.joint n j).setJointPositionUnchecked (x * U.coord n) = U.joint n (j.setJointPositionUnchecked x) := rfl

theorem setJointPositionClamped (n : NodeId) (j : Joint ℝ) (x : ℝ) :
    (U.joint n j).setJointPositionClamped (x * U.coord n) = U.joint n (j.setJointPositionClamped x) := by
  rcases j with ⟨nm, jt, po, v, lim, o, c1, c2⟩
  simp only [Joint.setJointPositionClamped]
  by_cases hm : (!(Joint.mk nm jt po v lim o c1 c2).isMovable) = true
  · have hm' : (!(U.joint n (Joint.mk nm jt po v lim o c1 c2)).isMovable) = true := hm
    simp only [if_pos hm, if_pos hm']
  · have hm' : ¬(!(U.joint n (Joint.mk nm jt po v lim o c1 c2)).isMovable) = true := hm
    simp only [if_neg hm, if_neg hm']
    cases lim with
    | none => rfl
    | some r =>
      have hr : (U.joint n (Joint.mk nm jt po v (some r) o c1 c2)).limits = some (U.range n r) := rfl
      simp only [hr, clamp]
      rfl

theorem setJointPositionClamped_type (j : Joint ℝ) (x : ℝ) : (j.setJointPositionClamped x).jointType = j.jointType := by
  unfold Joint.setJointPositionClamped
  split <;> rfl

theorem jointPosition (n : NodeId) (j : Joint ℝ) : (U.joint n j).jointPosition = j.jointPosition.map (· * U.coord n) := by
  rcases j with ⟨nm, jt, po, v, lim, o, c1, c2⟩
  cases jt <;> rfl
theorem jointVelocity (n : NodeId) (j : Joint ℝ) :
    (U.joint n j).jointVelocity = j.jointVelocity.map (· * (U.coord n * U.rate)) := by
  rcases j with ⟨nm, jt, po, v, lim, o, c1, c2⟩
  cases jt <;> rfl

theorem mimicPosition {c : NodeId} (m : Mimic ℝ) (x : ℝ) (e : U.source c = U.coord n) :
    (U.mimic c m).mimicPosition (x * U.coord n) = m.mimicPosition x * U.coord c := by
  have := (U.coord_pos n).ne'
  simp only [Mimic.mimicPosition, mimic, e]
  field_simp

theorem Fits.setJoint (F : U.Fits n s) {j : Joint ℝ} (e : j.jointType = s.joint.jointType) :
    U.Fits n { s with joint := j } :=
  ⟨fun a h => F.linear a (e ▸ h), fun a h => F.rotational a (e ▸ h), F.mimics⟩

/-- writing to the joint -/
theorem writeJoint {f f' : Joint ℝ → Joint ℝ} (t : ∀ j, (f j).jointType = j.jointType)
    (e : ∀ j, f' (U.joint n j) = U.joint n (f j)) (s : NodeImpl ℝ) (F : U.Fits n s) :
    U.Fits n { s with joint := f s.joint } ∧
      { U.node n s with joint := f' (U.node n s).joint } = U.node n { s with joint := f s.joint } := by
  refine ⟨F.setJoint (t _), ?_⟩
  show NodeImpl.mk _ _ (f' (U.joint n s.joint)) _ _ _ _ = _
  rw [e]; rfl

theorem placeLink (t : Iso ℝ) (l : Link ℝ) : Chain.placeLink (U.iso t) (U.link l) = U.link (Chain.placeLink t l) := by
  simp only [Chain.placeLink, link, inertial, Inertial.setWorldTransform, List.map_map, iso_mul, Option.map_some]
  congr 1
  · refine List.map_congr_left fun v _ => ?_
    simp only [Function.comp, visual, Visual.setWorldTransform, iso_mul, Option.map_some]
  · refine List.map_congr_left fun v _ => ?_
    simp only [Function.comp, collision, Collision.setWorldTransform, iso_mul, Option.map_some]

/-! ## lists -/

theorem list_length (ks xs : List ℝ) : (list ks xs).length = xs.length := by
  fun_induction list ks xs with
  | case1 k ks x xs ih => simp [ih]
  | case2 => rfl

theorem zip_list (ns : List NodeId) (xs : List ℝ) :
    ns.zip (list (ns.map U.coord) xs) = (ns.zip xs).map fun p => (p.1, p.2 * U.coord p.1) := by
  induction ns generalizing xs with
  | nil => rfl
  | cons n ns ih =>
    cases xs with
    | nil => rfl
    | cons x xs => simp [list, ih]

theorem list_eq_zipWith (ns : List NodeId) (xs : List ℝ) (e : xs.length = ns.length) :
    List.zipWith (fun n x => x * U.coord n) ns xs = list (ns.map U.coord) xs := by
  induction ns generalizing xs with
  | nil =>
    cases xs with
    | nil => rfl
    | cons x xs => cases e
  | cons n ns ih =>
    cases xs with
    | nil => rfl
    | cons x xs => simp only [List.zipWith_cons_cons, List.map_cons, list]; rw [ih xs (by simpa using e)]

end Units

namespace Scaled
open K.Units

theorem joint (n : NodeId) : Scaled U (fun j j' => j' = U.joint n j ∧ ∃ s, U.Fits n s ∧ s.joint = j)
    (Node.joint n : KProg ℝ _) (Node.joint n) :=
  (peek n).bind fun s _ ⟨F, e⟩ => by subst e; exact .ret ⟨rfl, s, F, rfl⟩
theorem jointPosition (n : NodeId) : Scaled U (To (Option.map (· * U.coord n)))
    (Node.jointPosition n : KProg ℝ _) (Node.jointPosition n) :=
  (peek n).bind fun s _ ⟨F, e⟩ => by subst e; exact .ret (Units.jointPosition n s.joint)
theorem children (n : NodeId) : Scaled U Eq (Node.children n : KProg ℝ _) (Node.children n) :=
  (peek n).bind fun s _ ⟨F, e⟩ => by subst e; exact .ret rfl
theorem link (n : NodeId) : Scaled U (To (Option.map U.link)) (Node.link n : KProg ℝ _) (Node.link n) :=
  (peek n).bind fun s _ ⟨F, e⟩ => by subst e; exact .ret rfl
theorem isRoot (n : NodeId) : Scaled U Eq (Node.isRoot n : KProg ℝ _) (Node.isRoot n) :=
  (peek n).bind fun s _ ⟨F, e⟩ => by subst e; exact .ret rfl
theorem isEnd (n : NodeId) : Scaled U Eq (Node.isEnd n : KProg ℝ _) (Node.isEnd n) :=
  (peek n).bind fun s _ ⟨F, e⟩ => by subst e; exact .ret rfl
theorem origin (n : NodeId) : Scaled U (To U.iso) (Node.origin n : KProg ℝ _) (Node.origin n) :=
  (joint n).bind fun s _ ⟨e, _⟩ => by subst e; exact .ret rfl
theorem worldTransform (n : NodeId) : Scaled U (To (Option.map U.iso)) (Node.worldTransform n : KProg ℝ _)
    (Node.worldTransform n) :=
  (joint n).bind fun s _ ⟨e, _⟩ => by subst e; exact .ret rfl
theorem worldVelocity (n : NodeId) : Scaled U (To (Option.map U.velocity)) (Node.worldVelocity n : KProg ℝ _)
    (Node.worldVelocity n) :=
  (joint n).bind fun s _ ⟨e, _⟩ => by subst e; exact .ret rfl

theorem parent (n : NodeId) : Scaled U Eq (Node.parent n : KProg ℝ _) (Node.parent n) := by
  refine (doLock n).bind fun _ _ _ => (doRead n).bind fun s _ ⟨_, e⟩ => ?_
  subst e
  simp only [node]
  cases s.parent with
  | none => exact (doUnlock n).bind fun _ _ _ => .ret rfl
  | some w => exact (doUpgrade w).bind fun b _ e => (doUnlock n).bind fun _ _ _ => by subst e; exact .ret rfl

theorem mimicParent (n : NodeId) : Scaled U Eq (Node.mimicParent n : KProg ℝ _) (Node.mimicParent n) := by
  refine (doLock n).bind fun _ _ _ => (doRead n).bind fun s _ ⟨_, e⟩ => ?_
  subst e
  simp only [node]
  cases s.mimicParent with
  | none => exact (doUnlock n).bind fun _ _ _ => .ret rfl
  | some w => exact (doUpgrade w).bind fun b _ e => (doUnlock n).bind fun _ _ _ => by subst e; exact .ret rfl

theorem setParent (n p : NodeId) : Scaled U Eq (Node.setParent n p : KProg ℝ _) (Node.setParent n p) := by
  unfold Node.setParent
  refine Scaled.bind (Q := Eq) ?_ fun _ _ _ => ?_ <;>
    exact poke fun _ F => ⟨⟨F.linear, F.rotational, F.mimics⟩, rfl⟩
theorem removeParent (n p : NodeId) : Scaled U Eq (Node.removeParent n p : KProg ℝ _) (Node.removeParent n p) := by
  unfold Node.removeParent
  refine Scaled.bind (Q := Eq) ?_ fun _ _ _ => ?_ <;>
    exact poke fun _ F => ⟨⟨F.linear, F.rotational, F.mimics⟩, rfl⟩
theorem setMimicParent (n p : NodeId) (m : Mimic ℝ) (e : U.source n = U.coord p) :
    Scaled U Eq (Node.setMimicParent n p m) (Node.setMimicParent n p (U.mimic n m)) := by
  unfold Node.setMimicParent
  refine Scaled.bind (Q := Eq) ?_ fun _ _ _ => Scaled.bind (Q := Eq) ?_ fun _ _ _ => ?_
  · exact poke fun _ F => ⟨⟨F.linear, F.rotational, F.mimics⟩, rfl⟩
  · refine poke fun s F => ⟨⟨F.linear, F.rotational, fun c hc => ?_⟩, rfl⟩
    rcases List.mem_append.1 hc with h | h
    · exact F.mimics c h
    · rw [List.mem_singleton] at h; exact h ▸ e
  · exact poke fun _ F => ⟨⟨F.linear, F.rotational, F.mimics⟩, rfl⟩
theorem setLink (n : NodeId) (l : Option (Link ℝ)) :
    Scaled U Eq (Node.setLink n l) (Node.setLink n (l.map U.link)) :=
  poke fun _ F => ⟨⟨F.linear, F.rotational, F.mimics⟩, rfl⟩
theorem setOrigin (n : NodeId) (t : Iso ℝ) : Scaled U Eq (Node.setOrigin n t) (Node.setOrigin n (U.iso t)) :=
  poke (writeJoint (f := fun j => j.setOrigin t) (f' := fun j => j.setOrigin (U.iso t)) (fun _ => rfl) fun _ => rfl)
theorem setJointPositionClamped (n : NodeId) (x : ℝ) :
    Scaled U Eq (Node.setJointPositionClamped n x) (Node.setJointPositionClamped n (x * U.coord n)) :=
  poke (writeJoint (f := fun j => j.setJointPositionClamped x) (f' := fun j => j.setJointPositionClamped (x * U.coord n))
    (fun j => setJointPositionClamped_type j x) fun j => Units.setJointPositionClamped n j x)
theorem setJointPositionUnchecked (n : NodeId) (x : ℝ) :
    Scaled U Eq (Node.setJointPositionUnchecked n x) (Node.setJointPositionUnchecked n (x * U.coord n)) :=
  poke (writeJoint (f := fun j => j.setJointPositionUnchecked x)
    (f' := fun j => j.setJointPositionUnchecked (x * U.coord n)) (fun _ => rfl) fun _ => rfl)

theorem setMimicChild (n : NodeId) (x : ℝ) (c : NodeId) (hc : U.source c = U.coord n) :
    Scaled U U.SameResult (Node.setMimicChild n x c) (Node.setMimicChild n (x * U.coord n) c) := by
  refine (doLock c).bind fun _ _ _ => (doRead c).bind fun s _ ⟨_, e⟩ => ?_
  subst e
  simp only [node]
  cases s.mimic with
  | none =>
    refine (joint n).bind fun j _ ⟨e, _⟩ => (joint c).bind fun j2 _ ⟨e2, _⟩ => (doUnlock c).bind fun _ _ _ => ?_
    subst e e2
    exact .ret (.error (.mimicError _ _))
  | some m =>
    simp only [Option.map_some, mimicPosition m x hc]
    refine (doWrite (writeJoint (f := fun j => (j.setJointPosition (m.mimicPosition x)).1)
      (f' := fun j => (j.setJointPosition (m.mimicPosition x * U.coord c)).1)
      (fun j => setJointPosition_type j _) fun j => (Units.setJointPosition c j _).1)).bind fun _ _ _ => ?_
    exact (doUnlock c).bind fun _ _ _ => .ret (Units.setJointPosition c s.joint _).2

theorem setJointPosition (n : NodeId) (x : ℝ) :
    Scaled U U.SameResult (Node.setJointPosition n x) (Node.setJointPosition n (x * U.coord n)) := by
  refine (doLock n).bind fun _ _ _ => (doRead n).bind fun s _ ⟨F, e⟩ => ?_
  subst e
  by_cases hp : s.mimicParent.isSome = true
  · have hp' : (U.node n s).mimicParent.isSome = true := hp
    rw [if_pos hp, if_pos hp']
    exact (doUnlock n).bind fun _ _ _ => .ret SameResult.ok
  · have hp' : ¬(U.node n s).mimicParent.isSome = true := hp
    rw [if_neg hp, if_neg hp']
    refine (doWrite (n := n) (writeJoint (f := fun j => (j.setJointPosition x).1)
      (f' := fun j => (j.setJointPosition (x * U.coord n)).1)
      (fun j => setJointPosition_type j _) fun j => (Units.setJointPosition n j _).1)).bind fun _ _ _ => ?_
    have r := (Units.setJointPosition (U := U) n s.joint x).2
    simp only [node]
    generalize (s.joint.setJointPosition x).2 = a at r ⊢
    generalize ((U.joint n s.joint).setJointPosition (x * U.coord n)).2 = b at r ⊢
    cases r with
    | error h => exact (doUnlock n).bind fun _ _ _ => .ret (.error h)
    | ok =>
      have := tryEach (U := U) (A := id) (f := Node.setMimicChild n x) (g := Node.setMimicChild n (x * U.coord n))
        s.mimicChildren fun c hc => setMimicChild n x c (F.mimics c hc)
      rw [List.map_id] at this
      exact this.bind fun r r' h => (doUnlock n).bind fun _ _ _ => .ret h

theorem parentWorldTransform (n : NodeId) : Scaled U (To (Option.map U.iso))
    (Node.parentWorldTransform n : KProg ℝ _) (Node.parentWorldTransform n) :=
  (parent n).bind fun o _ e => by
    subst e
    cases o with
    | none => exact .ret (by simp only [To, Option.map_some, iso_one])
    | some p => exact worldTransform p
theorem parentWorldVelocity (n : NodeId) : Scaled U (To (Option.map U.velocity))
    (Node.parentWorldVelocity n : KProg ℝ _) (Node.parentWorldVelocity n) :=
  (parent n).bind fun o _ e => by
    subst e
    cases o with
    | none => exact .ret (by simp only [To, Option.map_some, velocity_zero])
    | some p => exact worldVelocity p

/-! ### iterators -/

theorem ancestors (fuel : Nat) (o : Option NodeId) :
    Scaled U Eq (ancestors fuel o : KProg ℝ _) (ancestors fuel o) := by
  induction fuel generalizing o with
  | zero =>
    cases o with
    | none => exact .ret rfl
    | some n => exact .diverge
  | succ fuel ih =>
    cases o with
    | none => exact .ret rfl
    | some n =>
        refine (parent n).bind fun p _ e => ?_
        subst e
        exact (ih p).bind fun _ _ e => by subst e; exact .ret rfl

theorem ancestorsUntil (stop : NodeId) (fuel : Nat) (o : Option NodeId) :
    Scaled U Eq (ancestorsUntil stop fuel o : KProg ℝ _) (ancestorsUntil stop fuel o) := by
  induction fuel generalizing o with
  | zero =>
    cases o with
    | none => exact .ret rfl
    | some n => exact .diverge
  | succ fuel ih =>
    cases o with
    | none => exact .ret rfl
    | some n =>
        refine (parent n).bind fun p _ e => ?_
        subst e
        split
        · exact .ret rfl
        · exact (ih p).bind fun _ _ e => by subst e; exact .ret rfl

theorem descendants (fuel : Nat) (st : List NodeId) :
    Scaled U Eq (descendants fuel st : KProg ℝ _) (descendants fuel st) := by
  induction fuel generalizing st with
  | zero =>
    cases st with
    | nil => exact .ret rfl
    | cons n st => exact .diverge
  | succ fuel ih =>
    cases st with
    | nil => exact .ret rfl
    | cons n st =>
        refine (children n).bind fun cs _ e => ?_
        subst e
        exact (ih _).bind fun _ _ e => by subst e; exact .ret rfl

/-! ### chains -/

theorem fromNodes (ns : List NodeId) : Scaled U Eq (Chain.fromNodes ns : KProg ℝ _) (Chain.fromNodes ns) := by
  refine Scaled.bind (Q := Eq) (filterList (fun n => ?_) ns) fun ms _ e => by subst e; exact .ret rfl
  exact (joint n).bind fun j _ ⟨e, _⟩ => by subst e; exact .ret rfl

theorem fromRoot (fuel : Nat) (n : NodeId) :
    Scaled U Eq (Chain.fromRoot fuel n : KProg ℝ _) (Chain.fromRoot fuel n) :=
  (descendants fuel [n]).bind fun ns _ e => by subst e; exact fromNodes ns
theorem fromEnd (fuel : Nat) (n : NodeId) :
    Scaled U Eq (Chain.fromEnd fuel n : KProg ℝ _) (Chain.fromEnd fuel n) :=
  (ancestors fuel (some n)).bind fun ns _ e => by subst e; exact fromNodes _
theorem fromEndToRoot (fuel : Nat) (e r : NodeId) :
    Scaled U Eq (Chain.fromEndToRoot fuel e r : KProg ℝ _) (Chain.fromEndToRoot fuel e r) :=
  (ancestorsUntil r fuel (some e)).bind fun ns _ e => by subst e; exact fromNodes _

variable (c : Chain)

theorem chainSetOrigin (t : Iso ℝ) : Scaled U Eq (c.setOrigin t) (c.setOrigin (U.iso t)) := by
  rcases c with ⟨ns, ms, d⟩
  cases ns with
  | nil => exact .panic _
  | cons n ns => exact setOrigin n t
theorem chainOrigin : Scaled U (To U.iso) (c.origin : KProg ℝ _) c.origin := by
  rcases c with ⟨ns, ms, d⟩
  cases ns with
  | nil => exact .panic _
  | cons n ns => exact origin n
theorem iterJoints : Scaled U (fun js js' => js' = List.zipWith U.joint c.movableNodes js ∧
    js.length = c.movableNodes.length) (c.iterJoints : KProg ℝ _) c.iterJoints :=
  (mapListZip (P := fun _ => True) (fun n => (joint n).imp fun _ _ h => ⟨h.1, trivial⟩) c.movableNodes).imp
    fun _ _ h => ⟨h.1, h.2.1⟩

theorem iterLinks : Scaled U (To (List.map U.link)) (c.iterLinks : KProg ℝ _) c.iterLinks := by
  refine Scaled.bind (Q := To (List.map (Option.map U.link))) (mapListTo (fun n => ?_) c.nodes) fun ls _ e => ?_
  · refine (link n).bind fun l _ e => ?_
    subst e
    cases l with
    | none => exact .ret rfl
    | some l =>
      exact (doLock n).bind fun _ _ _ => (doRead n).bind fun s _ ⟨_, e⟩ => by
        subst e
        exact (expect (A := U.link) s.link _).bind fun a b e => (doUnlock n).bind fun _ _ _ => by
          obtain ⟨-, rfl⟩ := e
          exact .ret rfl
  · subst e
    refine .ret ?_
    show List.filterMap id _ = List.map U.link _
    rw [List.filterMap_map, List.map_filterMap]
    exact List.filterMap_congr fun o _ => by cases o <;> rfl

theorem find (name : String) : Scaled U Eq (c.find name : KProg ℝ _) (c.find name) :=
  findFirst (fun n => (joint n).bind fun j _ ⟨e, _⟩ => by subst e; exact .ret rfl) c.nodes

theorem jointPositions : Scaled U (fun xs xs' => xs' = U.coords c xs ∧ xs.length = c.movableNodes.length)
    (c.jointPositions : KProg ℝ _) c.jointPositions := by
  refine Scaled.imp (mapListZip (A := fun n x => x * U.coord n) (P := fun _ => True) (fun n => ?_) c.movableNodes)
    fun xs xs' ⟨e, l, _⟩ => ?_
  · refine (doLock n).bind fun _ _ _ => (doRead n).bind fun s _ ⟨_, e⟩ => ?_
    subst e
    simp only [node, Units.jointPosition]
    exact (expect (A := (· * U.coord n)) s.joint.jointPosition _).bind fun a b e => (doUnlock n).bind fun _ _ _ => by
      obtain ⟨-, rfl⟩ := e
      exact .ret ⟨rfl, trivial⟩
  · subst e
    exact ⟨list_eq_zipWith _ _ l, l⟩

theorem setJointPositions (xs : List ℝ) :
    Scaled U U.SameResult (c.setJointPositions xs) (c.setJointPositions (U.coords c xs)) := by
  unfold Chain.setJointPositions
  simp only [coords, list_length, zip_list]
  split
  · exact .ret (.error (.sizeMismatch _ _))
  · exact tryEach _ fun p _ => setJointPosition p.1 p.2

theorem setJointPositionsClamped (xs : List ℝ) :
    Scaled U Eq (c.setJointPositionsClamped xs) (c.setJointPositionsClamped (U.coords c xs)) := by
  unfold Chain.setJointPositionsClamped
  simp only [coords, zip_list]
  exact forEach (fun p => setJointPositionClamped p.1 p.2) _

theorem setJointPositionsUnchecked (xs : List ℝ) :
    Scaled U Eq (c.setJointPositionsUnchecked xs) (c.setJointPositionsUnchecked (U.coords c xs)) := by
  unfold Chain.setJointPositionsUnchecked
  simp only [coords, zip_list]
  exact forEach (fun p => setJointPositionUnchecked p.1 p.2) _

theorem updateTransform (n : NodeId) :
    Scaled U (To U.iso) (Chain.updateTransform n : KProg ℝ _) (Chain.updateTransform n) := by
  refine (parentWorldTransform n).bind fun o _ e => ?_
  subst e
  refine (expect (A := U.iso) o _).bind fun t _ e => (joint n).bind fun j _ ⟨ej, s, F, es⟩ => ?_
  obtain ⟨-, rfl⟩ := e
  subst ej es
  rw [Units.localTransform F, ← iso_mul]
  refine (poke (writeJoint (f := fun j => j.setWorldTransform _) (f' := fun j => j.setWorldTransform _)
    (fun _ => rfl) fun _ => rfl)).bind fun _ _ _ => .ret rfl

theorem updateTransforms : Scaled U (To (List.map U.iso)) (c.updateTransforms : KProg ℝ _) c.updateTransforms :=
  mapListTo updateTransform c.nodes

theorem updateVelocity (n : NodeId) :
    Scaled U (To U.velocity) (Chain.updateVelocity n : KProg ℝ _) (Chain.updateVelocity n) := by
  refine (parentWorldTransform n).bind fun o _ e => ?_
  subst e
  refine (expect (A := U.iso) o _).bind fun t _ e => (parentWorldVelocity n).bind fun ov _ ev => ?_
  obtain ⟨-, rfl⟩ := e
  subst ev
  refine (expect (A := U.velocity) ov _).bind fun v _ e => (doLock n).bind fun _ _ _ => (doRead n).bind fun s _ ⟨F, es⟩ => ?_
  obtain ⟨-, rfl⟩ := e
  subst es
  refine Scaled.bind (Q := To U.velocity) ?_ fun w _ e => (doUnlock n).bind fun _ _ _ => ?_
  · rw [show (U.node n s).joint.jointType = s.joint.jointType from rfl]
    cases et : s.joint.jointType with
    | fixed => exact .ret rfl
    | rotational a =>
      refine (parent n).bind fun o _ e => ?_
      subst e
      refine (expectSame o _).bind fun p _ e => ?_
      subst e
      refine (joint p).bind fun j _ ⟨ej, _⟩ => (worldTransform n).bind fun o _ e => ?_
      subst ej e
      refine (expect (A := U.iso) o _).bind fun w _ e => (joint n).bind fun j2 _ ⟨ej, s2, F2, e2⟩ => ?_
      obtain ⟨-, rfl⟩ := e
      subst ej
      rw [Units.jointVelocity]
      refine (expect (A := (· * (U.coord n * U.rate))) j2.jointVelocity _).bind fun x _ e => .ret ?_
      obtain ⟨-, rfl⟩ := e
      have one := F.rotational a et
      simp only [To, Units.velocity, Units.iso, Units.joint, one]
      congr 1
      · rw [matRotate_scale, cross_scale, scale_add]
      · rw [scale_add, ← matRotate_scale, scale_scale, one_mul]
    | linear a =>
      refine (worldTransform n).bind fun o _ e => ?_
      subst e
      refine (expect (A := U.iso) o _).bind fun w _ e => (joint n).bind fun j2 _ ⟨ej, s2, F2, e2⟩ => ?_
      obtain ⟨-, rfl⟩ := e
      subst ej
      rw [Units.jointVelocity]
      refine (expect (A := (· * (U.coord n * U.rate))) j2.jointVelocity _).bind fun x _ e => .ret ?_
      obtain ⟨-, rfl⟩ := e
      have one := F.linear a et
      simp only [To, Units.velocity, Units.iso, one]
      congr 1
      rw [scale_add, ← matRotate_scale, scale_scale]
  · subst e
    exact (poke (writeJoint (f := fun j => j.setWorldVelocity _) (f' := fun j => j.setWorldVelocity _)
      (fun _ => rfl) fun _ => rfl)).bind fun _ _ _ => .ret rfl

theorem updateVelocities : Scaled U (To (List.map U.velocity)) (c.updateVelocities : KProg ℝ _) c.updateVelocities :=
  (updateTransforms c).bind fun _ _ _ => mapListTo updateVelocity c.nodes

theorem updateLinkTransforms : Scaled U Eq (c.updateLinkTransforms : KProg ℝ _) c.updateLinkTransforms := by
  refine (updateTransforms c).bind fun _ _ _ => ?_
  have := forEach (U := U) (A := id) (f := Chain.updateLinkTransform) (g := Chain.updateLinkTransform) (fun n => ?_) c.nodes
  · rwa [List.map_id] at this
  · refine (parentWorldTransform n).bind fun o _ e => ?_
    subst e
    refine (expect (A := U.iso) o _).bind fun t _ e => ?_
    obtain ⟨-, rfl⟩ := e
    refine poke fun s F => ⟨⟨F.linear, F.rotational, F.mimics⟩, ?_⟩
    simp only [node]
    congr 1
    cases s.link with
    | none => rfl
    | some l => simp only [Option.map_some, Units.placeLink]

theorem tryNew : Scaled U Eq (c.tryNew : KProg ℝ _) c.tryNew := by
  unfold Chain.tryNew
  cases c.nodes.length with
  | zero => exact .panic _
  | succ k =>
    refine Scaled.bind (Q := Eq) (findFirst (fun n => ?_) _) fun o _ e => by subst e; exact .ret rfl
    exact (children n).bind fun cs _ e => by subst e; exact .ret rfl

theorem foldTransform (ns : List NodeId) (t : Iso ℝ) :
    Scaled U (To U.iso) (Chain.foldTransform ns t) (Chain.foldTransform ns (U.iso t)) := by
  induction ns generalizing t with
  | nil => exact .ret rfl
  | cons n ns ih =>
    refine (joint n).bind fun j _ ⟨ej, s, F, es⟩ => ?_
    subst ej es
    rw [Units.localTransform F, ← iso_mul]
    exact ih _
theorem endTransform : Scaled U (To U.iso) (c.endTransform : KProg ℝ _) c.endTransform := by
  have := foldTransform (U := U) c.nodes Iso.one
  rwa [iso_one] at this

theorem displayNode (n : NodeId) (s : NodeImpl ℝ) : (U.node n s).display = s.display := by
  simp only [NodeImpl.display, node]
  cases s.link <;> rfl

theorem fmtWithIndentLevel (fuel level : Nat) (n : NodeId) :
    Scaled U Eq (c.fmtWithIndentLevel fuel level n : KProg ℝ _) (c.fmtWithIndentLevel fuel level n) := by
  induction fuel generalizing level n with
  | zero => exact .diverge
  | succ fuel ih =>
    refine Scaled.bind (Q := Eq) ?_ fun x _ e => (doLock n).bind fun _ _ _ => (doRead n).bind fun s _ ⟨_, es⟩ => ?_
    · split
      · refine (peek n).bind fun s _ ⟨_, e⟩ => ?_
        subst e
        exact .ret (by simp only [displayLine, displayNode])
      · exact .ret rfl
    · subst e es
      exact (mapListSame (ih (level + 1)) s.children).bind fun _ _ e => (doUnlock n).bind fun _ _ _ => by
        subst e; exact .ret rfl

theorem display (fuel : Nat) : Scaled U Eq (c.display fuel : KProg ℝ _) (c.display fuel) := by
  rcases c with ⟨ns, ms, d⟩
  cases ns with
  | nil => exact .panic _
  | cons n ns => exact (fmtWithIndentLevel ⟨n :: ns, ms, d⟩ fuel 0 n).bind fun _ _ e => by subst e; exact .ret rfl

theorem jacobianColumn {n : NodeId} {s : NodeImpl ℝ} (F : U.Fits n s) (p : V3 ℝ) (t : Iso ℝ) :
    K.jacobianColumn (p.scale U.len) (U.joint n s.joint) (U.iso t) = (K.jacobianColumn p s.joint t).map (U.column n) := by
  have := U.len_pos.ne'
  simp only [K.jacobianColumn, Units.joint]
  cases et : s.joint.jointType with
  | fixed => rfl
  | linear a =>
    simp only [Except.map, column, rows, iso, F.linear a et, List.zipWith_cons_cons, List.zipWith_nil_left, zero_mul,
      div_self this, mul_one]
  | rotational a =>
    simp only [Except.map, column, rows, iso, F.rotational a et, List.zipWith_cons_cons, List.zipWith_nil_left, div_one,
      mul_one, ← scale_sub]
    have : ((t.rot.rotate a).cross ((p.sub t.trans).scale U.len)) = ((t.rot.rotate a).cross (p.sub t.trans)).scale U.len := by
      ext <;> simp only [V3.cross, V3.scale] <;> ring
    rw [this]; rfl

theorem jacobianColumn_length {p : V3 ℝ} {j : Joint ℝ} {t : Iso ℝ} {col : List ℝ}
    (e : K.jacobianColumn p j t = .ok col) : col.length = 6 := by
  unfold K.jacobianColumn at e
  split at e <;> cases e <;> rfl

theorem jacobian : Scaled U (fun m m' => m' = U.matrix c m ∧ m.length = c.movableNodes.length ∧ ∀ col ∈ m, col.length = 6)
    (K.jacobian c : KProg ℝ _) (K.jacobian c) := by
  refine (endTransform c).bind fun t _ e => (updateTransforms c).bind fun _ _ _ => ?_
  subst e
  refine mapListZip (A := U.column) (P := fun col => col.length = 6) (fun n => ?_) c.movableNodes
  refine (doLock n).bind fun _ _ _ => (doRead n).bind fun s _ ⟨F, e⟩ => ?_
  subst e
  refine Scaled.bind (Q := To U.iso) ((expect (A := U.iso) s.joint.worldTransform _).imp fun _ _ h => h.2)
    fun w _ e => ?_
  subst e
  refine Scaled.bind (Q := fun a b => b = U.column n a ∧ a.length = 6) ?_ fun a b q => (doUnlock n).bind fun _ _ _ => .ret q
  have := jacobianColumn F t.trans w
  cases e : K.jacobianColumn t.trans s.joint w with
  | error m =>
    rw [e] at this
    show Scaled U _ (Prog.ofExcept _) (Prog.ofExcept (K.jacobianColumn (t.trans.scale U.len) (U.joint n s.joint) (U.iso w)))
    rw [this]
    exact .panic m
  | ok col =>
    rw [e] at this
    show Scaled U _ (Prog.ofExcept _) (Prog.ofExcept (K.jacobianColumn (t.trans.scale U.len) (U.joint n s.joint) (U.iso w)))
    rw [this]
    exact .ret ⟨rfl, jacobianColumn_length e⟩

/-- the sums so far -/
def acc (U : Units) (a : ComAcc ℝ) : ComAcc ℝ := ⟨a.totalMass * U.mass, a.com.scale (U.len * U.mass)⟩

theorem comAdd (a : ComAcc ℝ) (t : Option (Iso ℝ)) (l : Option (Link ℝ)) :
    K.comAdd (acc U a) (t.map U.iso) (l.map U.link) = acc U (K.comAdd a t l) := by
  cases t with
  | none => rfl
  | some t =>
    cases l with
    | none => rfl
    | some l =>
      simp only [K.comAdd, acc, Option.map_some, Units.link, inertial]
      congr 1
      · ring
      · ext <;> simp only [iso, Iso.mulTrans, V3.add, V3.scale, Quat.rotate, Quat.vec, V3.cross] <;> ring

theorem comLoop (ns : List NodeId) (a : ComAcc ℝ) : Scaled U (To (acc U)) (comLoop ns a) (comLoop ns (acc U a)) := by
  induction ns generalizing a with
  | nil => exact .ret rfl
  | cons n ns ih =>
    refine (worldTransform n).bind fun o _ e => ?_
    subst e
    cases o with
    | none => exact ih _
    | some t =>
      refine (link n).bind fun l _ e => ?_
      subst e
      have := comAdd (U := U) a (some t) l
      simp only [Option.map_some] at this ⊢
      rw [this]
      exact ih _

theorem centerOfMass : Scaled U (To fun p => p.scale U.len) (K.centerOfMass c : KProg ℝ _) (K.centerOfMass c) := by
  refine (updateTransforms c).bind fun _ _ _ => ?_
  have z : acc U ⟨0, V3.zero⟩ = ⟨0, V3.zero⟩ := by simp [acc, V3.scale, V3.zero]
  have := comLoop (U := U) c.nodes ⟨0, V3.zero⟩
  rw [z] at this
  refine this.bind fun a _ e => .ret ?_
  subst e
  have hm := U.mass_pos.ne'
  simp only [To, acc, V3.unscale, V3.scale]
  by_cases hz : a.totalMass = 0
  · simp [hz]
  · ext <;> simp only [] <;> field_simp

end Scaled

end

end K
