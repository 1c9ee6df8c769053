import Verif.Lemmas.Recast
import Verif.Lemmas.ScaledCalls
/-!
# Every call of the API works in all coordinates
-/

set_option linter.unusedSectionVars false

namespace K
open Prog
variable {α β γ δ ε : Type} {U : Coords}

noncomputable section

namespace Coords

/-! ## geometry -/

theorem sign_mul (n : NodeId) : U.sign n * U.sign n = 1 := by
  rcases U.sign_sq n with h | h <;> rw [h] <;> norm_num

theorem back_coord (n : NodeId) (x : ℝ) : U.back n (U.coord n x) = x := by
  have := sign_mul (U := U) n
  simp only [back, coord, add_sub_cancel_right]
  rw [← mul_assoc, this, one_mul]

theorem fromAxisAngle_scale {k : ℝ} (hk : k = 1 ∨ k = -1) (a : V3 ℝ) (x : ℝ) :
    Quat.fromAxisAngle (a.scale k) x = Quat.fromAxisAngle a (k * x) := by
  rcases hk with rfl | rfl
  · simp [Quat.fromAxisAngle, V3.scale]
  · simp only [Quat.fromAxisAngle, V3.scale, Scalar.sin, Scalar.cos]
    rw [show -1 * x / (1 + 1) = -(x / (1 + 1)) by ring, Real.cos_neg, Real.sin_neg]
    ext <;> simp only [] <;> ring

theorem fromAxisAngle_add {a : V3 ℝ} (ha : a.x * a.x + a.y * a.y + a.z * a.z = 1) (x y : ℝ) :
    (Quat.fromAxisAngle a x).mul (Quat.fromAxisAngle a y) = Quat.fromAxisAngle a (x + y) := by
  simp only [Quat.fromAxisAngle, Quat.mul, Scalar.sin, Scalar.cos, add_div, Real.cos_add, Real.sin_add]
  ext <;> simp only []
  · linear_combination (-Real.sin (x / (1 + 1)) * Real.sin (y / (1 + 1))) * ha
  all_goals ring

theorem fromAxisAngle_zero (a : V3 ℝ) : Quat.fromAxisAngle a 0 = Quat.one := by
  simp [Quat.fromAxisAngle, Quat.one, Scalar.sin, Scalar.cos]

variable {n : NodeId} {s : NodeImpl ℝ}

theorem localTransform (F : U.Fits n s) : (U.joint n s.joint).localTransform = s.joint.localTransform := by
  have hk := sign_mul (U := U) n
  have hu := U.unit n
  simp only [Joint.localTransform, Joint.jointTransform, joint, correction]
  rw [← F.kind] at hu ⊢
  cases e : s.joint.jointType with
  | fixed => simp only [JointType.motion, JointType.directed, Iso.mul_one']
  | rotational a =>
    simp only [JointType.motion, JointType.directed, Iso.mul, Quat.mul_assoc', fromAxisAngle_scale (U.sign_sq n)]
    have z : ∀ q : Quat ℝ, q.rotate ⟨0, 0, 0⟩ = ⟨0, 0, 0⟩ := Quat.rotate_zero
    have z2 : ∀ v : V3 ℝ, v.add ⟨0, 0, 0⟩ = v := V3.add_zero'
    simp only [z, z2]
    congr 2
    have : U.sign n * U.coord n s.joint.position = s.joint.position + U.sign n * U.shift n := by
      simp only [coord]; linear_combination s.joint.position * hk
    rw [this]
    rcases hu a e with h0 | h1
    · simp only [h0, mul_zero, neg_zero, fromAxisAngle_zero, Quat.one_mul', add_zero]
    · rw [fromAxisAngle_add h1]
      congr 1; ring
  | linear a =>
    simp only [JointType.motion, JointType.directed, Iso.mul, Quat.mul_one']
    rw [V3.add_assoc', ← Quat.rotate_add]
    congr 3
    ext <;> simp only [V3.add, V3.scale, coord]
    · linear_combination (a.x * s.joint.position) * hk
    · linear_combination (a.y * s.joint.position) * hk
    · linear_combination (a.z * s.joint.position) * hk

/-! ## joints -/

theorem range_same (h : U.sign n = 1) (r : Range ℝ) : U.range n r = ⟨r.min + U.shift n, r.max + U.shift n⟩ := by
  simp only [range, coord, h, if_true, one_mul]
theorem range_turned (h : U.sign n = -1) (r : Range ℝ) : U.range n r = ⟨-r.max + U.shift n, -r.min + U.shift n⟩ := by
  have h1 : ¬ U.sign n = 1 := by rw [h]; norm_num
  simp only [range, coord, if_neg h1]
  simp only [h, neg_mul, one_mul]

theorem isValid (n : NodeId) (r : Range ℝ) (x : ℝ) : (U.range n r).isValid (U.coord n x) = r.isValid x := by
  rw [Bool.eq_iff_iff]
  rcases U.sign_sq n with h | h
  · rw [range_same h]
    simp only [Range.isValid, Scalar.le, coord, h, one_mul, Bool.and_eq_true, decide_eq_true_eq, add_le_add_iff_right]
  · rw [range_turned h]
    simp only [Range.isValid, Scalar.le, coord, h, neg_mul, one_mul, Bool.and_eq_true, decide_eq_true_eq,
      add_le_add_iff_right, neg_le_neg_iff]
    exact and_comm
theorem clamp_cases (r : Range ℝ) (x : ℝ) :
    r.clamp x = if x < r.min then r.min else if r.max < x then r.max else x := by
  simp only [Range.clamp, Scalar.lt, decide_eq_true_eq]
theorem clamp (n : NodeId) (r : Range ℝ) (x : ℝ) (hr : U.sign n = 1 ∨ r.min ≤ r.max) :
    (U.range n r).clamp (U.coord n x) = U.coord n (r.clamp x) := by
  rw [clamp_cases, clamp_cases]
  rcases U.sign_sq n with h | h
  · rw [range_same h]
    simp only [coord, h, one_mul, add_lt_add_iff_right]
    split
    · rfl
    · split <;> rfl
  · have hr := hr.resolve_left (by rw [h]; norm_num)
    rw [range_turned h]
    simp only [coord, h, add_lt_add_iff_right, neg_mul, one_mul, neg_lt_neg_iff]
    by_cases a : x < r.min
    · have b : ¬ r.max < x := by linarith
      rw [if_neg b, if_pos a, if_pos a]
    · by_cases b : r.max < x
      · rw [if_pos b, if_neg a, if_pos b]
      · rw [if_neg b, if_neg a, if_neg a, if_neg b]

theorem isMovable (n : NodeId) (j : Joint ℝ) : (U.joint n j).isMovable = j.isMovable := by
  rcases j with ⟨nm, jt, po, v, lim, o, c1, c2⟩
  cases jt <;> rfl

theorem setJointPosition (n : NodeId) (j : Joint ℝ) (x : ℝ) :
    ((U.joint n j).setJointPosition (U.coord n x)).1 = U.joint n (j.setJointPosition x).1 ∧
      (j.name = U.name n → U.SameResult (j.setJointPosition x).2 ((U.joint n j).setJointPosition (U.coord n x)).2) := by
  rcases j with ⟨nm, jt, po, v, lim, o, c1, c2⟩
  simp only [Joint.setJointPosition]
  by_cases hm : (!(Joint.mk nm jt po v lim o c1 c2).isMovable) = true
  · have hm' : (!(U.joint n (Joint.mk nm jt po v lim o c1 c2)).isMovable) = true := by rw [isMovable]; exact hm
    simp only [if_pos hm, if_pos hm']
    exact ⟨trivial, fun _ => .error (.other _ fun _ _ _ _ h => by cases h)⟩
  · have hm' : ¬(!(U.joint n (Joint.mk nm jt po v lim o c1 c2)).isMovable) = true := by rw [isMovable]; exact hm
    simp only [if_neg hm, if_neg hm']
    cases lim with
    | none => exact ⟨rfl, fun _ => .ok⟩
    | some r =>
      have hr : (U.joint n (Joint.mk nm jt po v (some r) o c1 c2)).limits = some (U.range n r) := rfl
      simp only [hr]
      by_cases hv : (!r.isValid x) = true
      · have hv' : (!(U.range n r).isValid (U.coord n x)) = true := by rw [isValid]; exact hv
        simp only [if_pos hv, if_pos hv']
        exact ⟨trivial, fun hj => by
          cases (show nm = U.name n from hj)
          exact .error (.outOfLimit n _ _)⟩
      · have hv' : ¬(!(U.range n r).isValid (U.coord n x)) = true := by rw [isValid]; exact hv
        simp only [if_neg hv, if_neg hv']
        exact ⟨rfl, fun _ => .ok⟩

theorem setJointPosition_limits (j : Joint ℝ) (x : ℝ) : (j.setJointPosition x).1.limits = j.limits := by
  unfold Joint.setJointPosition
  split
  · rfl
  · split
    · split <;> rfl
    · rfl

theorem setJointPosition_name (j : Joint ℝ) (x : ℝ) : (j.setJointPosition x).1.name = j.name := by
  unfold Joint.setJointPosition
  split
  · rfl
  · split
    · split <;> rfl
    · rfl
theorem setJointPositionClamped_name (j : Joint ℝ) (x : ℝ) : (j.setJointPositionClamped x).name = j.name := by
  unfold Joint.setJointPositionClamped
  split <;> rfl

theorem setJointPositionUnchecked (n : NodeId) (j : Joint ℝ) (x : ℝ) :
    (U.joint n j).setJointPositionUnchecked (U.coord n x) = U.joint n (j.setJointPositionUnchecked x) := rfl

theorem setJointPositionClamped (n : NodeId) (j : Joint ℝ) (x : ℝ)
    (ok : ∀ r, j.limits = some r → U.sign n = 1 ∨ r.min ≤ r.max) :
    (U.joint n j).setJointPositionClamped (U.coord n x) = U.joint n (j.setJointPositionClamped x) := by
  rcases j with ⟨nm, jt, po, v, lim, o, c1, c2⟩
  simp only [Joint.setJointPositionClamped]
  by_cases hm : (!(Joint.mk nm jt po v lim o c1 c2).isMovable) = true
  · have hm' : (!(U.joint n (Joint.mk nm jt po v lim o c1 c2)).isMovable) = true := by rw [isMovable]; exact hm
    simp only [if_pos hm, if_pos hm']
  · have hm' : ¬(!(U.joint n (Joint.mk nm jt po v lim o c1 c2)).isMovable) = true := by rw [isMovable]; exact hm
    simp only [if_neg hm, if_neg hm']
    cases lim with
    | none => rfl
    | some r =>
      have hr : (U.joint n (Joint.mk nm jt po v (some r) o c1 c2)).limits = some (U.range n r) := rfl
      simp only [hr, clamp n r x (ok r rfl)]
      rfl

theorem setJointPositionClamped_limits (j : Joint ℝ) (x : ℝ) : (j.setJointPositionClamped x).limits = j.limits := by
  unfold Joint.setJointPositionClamped
  split <;> rfl

theorem jointPosition (n : NodeId) (j : Joint ℝ) : (U.joint n j).jointPosition = j.jointPosition.map (U.coord n) := by
  rcases j with ⟨nm, jt, po, v, lim, o, c1, c2⟩
  cases jt <;> rfl
theorem jointVelocity (n : NodeId) (j : Joint ℝ) :
    (U.joint n j).jointVelocity = j.jointVelocity.map (U.sign n * ·) := by
  rcases j with ⟨nm, jt, po, v, lim, o, c1, c2⟩
  cases jt <;> rfl

theorem mimicPosition {c : NodeId} (m : Mimic ℝ) (x : ℝ) (e : U.sourceSign c = U.sign n ∧ U.sourceShift c = U.shift n) :
    (U.mimic c m).mimicPosition (U.coord n x) = U.coord c (m.mimicPosition x) := by
  have := sign_mul (U := U) n
  simp only [Mimic.mimicPosition, mimic, e, coord]
  linear_combination (U.sign c * x * m.multiplier) * this

theorem Fits.setJoint (F : U.Fits n s) {j : Joint ℝ} (n' : j.name = s.joint.name) (e : j.jointType = s.joint.jointType)
    (l : j.limits = s.joint.limits) : U.Fits n { s with joint := j } :=
  ⟨n'.trans F.name, e.trans F.kind, fun r h => F.limits r (l ▸ h), F.mimics⟩

/-- writing to the joint -/
theorem writeJoint {f f' : Joint ℝ → Joint ℝ} (nm : ∀ j, (f j).name = j.name) (t : ∀ j, (f j).jointType = j.jointType)
    (l : ∀ j, (f j).limits = j.limits)
    (e : ∀ j, (∀ r, j.limits = some r → U.sign n = 1 ∨ r.min ≤ r.max) → f' (U.joint n j) = U.joint n (f j))
    (s : NodeImpl ℝ) (F : U.Fits n s) :
    U.Fits n { s with joint := f s.joint } ∧
      { U.node n s with joint := f' (U.node n s).joint } = U.node n { s with joint := f s.joint } := by
  refine ⟨F.setJoint (nm _) (t _) (l _), ?_⟩
  show NodeImpl.mk _ _ (f' (U.joint n s.joint)) _ _ _ _ = _
  rw [e _ F.limits]; rfl

/-! ## lists -/

theorem list_length (f : NodeId → ℝ → ℝ) (ns : List NodeId) (xs : List ℝ) : (list f ns xs).length = xs.length := by
  fun_induction list f ns xs with
  | case1 k ks x xs ih => simp [ih]
  | case2 => rfl

theorem zip_list (f : NodeId → ℝ → ℝ) (ns : List NodeId) (xs : List ℝ) :
    ns.zip (list f ns xs) = (ns.zip xs).map fun p => (p.1, f p.1 p.2) := by
  induction ns generalizing xs with
  | nil => rfl
  | cons n ns ih =>
    cases xs with
    | nil => rfl
    | cons x xs => simp [list, ih]

theorem list_eq_zipWith (f : NodeId → ℝ → ℝ) (ns : List NodeId) (xs : List ℝ) (e : xs.length = ns.length) :
    List.zipWith f ns xs = list f ns xs := by
  induction ns generalizing xs with
  | nil =>
    cases xs with
    | nil => rfl
    | cons x xs => cases e
  | cons n ns ih =>
    cases xs with
    | nil => rfl
    | cons x xs => simp only [List.zipWith_cons_cons, list]; rw [ih xs (by simpa using e)]

end Coords

namespace Recast
open K.Coords

theorem joint (n : NodeId) : Recast U (fun j j' => j' = U.joint n j ∧ ∃ s, U.Fits n s ∧ s.joint = j)
    (Node.joint n : KProg ℝ _) (Node.joint n) :=
  (peek n).bind fun s _ ⟨F, e⟩ => by subst e; exact .ret ⟨rfl, s, F, rfl⟩
theorem jointPosition (n : NodeId) : Recast U (To (Option.map (U.coord n)))
    (Node.jointPosition n : KProg ℝ _) (Node.jointPosition n) :=
  (peek n).bind fun s _ ⟨F, e⟩ => by subst e; exact .ret (Coords.jointPosition n s.joint)
theorem children (n : NodeId) : Recast U Eq (Node.children n : KProg ℝ _) (Node.children n) :=
  (peek n).bind fun s _ ⟨F, e⟩ => by subst e; exact .ret rfl
theorem link (n : NodeId) : Recast U Eq (Node.link n : KProg ℝ _) (Node.link n) :=
  (peek n).bind fun s _ ⟨F, e⟩ => by subst e; exact .ret rfl
theorem isRoot (n : NodeId) : Recast U Eq (Node.isRoot n : KProg ℝ _) (Node.isRoot n) :=
  (peek n).bind fun s _ ⟨F, e⟩ => by subst e; exact .ret rfl
theorem isEnd (n : NodeId) : Recast U Eq (Node.isEnd n : KProg ℝ _) (Node.isEnd n) :=
  (peek n).bind fun s _ ⟨F, e⟩ => by subst e; exact .ret rfl
theorem origin (n : NodeId) : Recast U (To fun t => t.mul (U.correction n)) (Node.origin n : KProg ℝ _) (Node.origin n) :=
  (joint n).bind fun s _ ⟨e, _⟩ => by subst e; exact .ret rfl
theorem worldTransform (n : NodeId) : Recast U Eq (Node.worldTransform n : KProg ℝ _)
    (Node.worldTransform n) :=
  (joint n).bind fun s _ ⟨e, _⟩ => by subst e; exact .ret rfl
theorem worldVelocity (n : NodeId) : Recast U Eq (Node.worldVelocity n : KProg ℝ _)
    (Node.worldVelocity n) :=
  (joint n).bind fun s _ ⟨e, _⟩ => by subst e; exact .ret rfl

theorem parent (n : NodeId) : Recast U Eq (Node.parent n : KProg ℝ _) (Node.parent n) := by
  refine (doLock n).bind fun _ _ _ => (doRead n).bind fun s _ ⟨_, e⟩ => ?_
  subst e
  simp only [node]
  cases s.parent with
  | none => exact (doUnlock n).bind fun _ _ _ => .ret rfl
  | some w => exact (doUpgrade w).bind fun b _ e => (doUnlock n).bind fun _ _ _ => by subst e; exact .ret rfl

theorem mimicParent (n : NodeId) : Recast U Eq (Node.mimicParent n : KProg ℝ _) (Node.mimicParent n) := by
  refine (doLock n).bind fun _ _ _ => (doRead n).bind fun s _ ⟨_, e⟩ => ?_
  subst e
  simp only [node]
  cases s.mimicParent with
  | none => exact (doUnlock n).bind fun _ _ _ => .ret rfl
  | some w => exact (doUpgrade w).bind fun b _ e => (doUnlock n).bind fun _ _ _ => by subst e; exact .ret rfl

theorem setParent (n p : NodeId) : Recast U Eq (Node.setParent n p : KProg ℝ _) (Node.setParent n p) := by
  unfold Node.setParent
  refine Recast.bind (Q := Eq) ?_ fun _ _ _ => ?_ <;>
    exact poke fun _ F => ⟨⟨F.name, F.kind, F.limits, F.mimics⟩, rfl⟩
theorem removeParent (n p : NodeId) : Recast U Eq (Node.removeParent n p : KProg ℝ _) (Node.removeParent n p) := by
  unfold Node.removeParent
  refine Recast.bind (Q := Eq) ?_ fun _ _ _ => ?_ <;>
    exact poke fun _ F => ⟨⟨F.name, F.kind, F.limits, F.mimics⟩, rfl⟩
theorem setMimicParent (n p : NodeId) (m : Mimic ℝ) (e : U.sourceSign n = U.sign p ∧ U.sourceShift n = U.shift p) :
    Recast U Eq (Node.setMimicParent n p m) (Node.setMimicParent n p (U.mimic n m)) := by
  unfold Node.setMimicParent
  refine Recast.bind (Q := Eq) ?_ fun _ _ _ => Recast.bind (Q := Eq) ?_ fun _ _ _ => ?_
  · exact poke fun _ F => ⟨⟨F.name, F.kind, F.limits, F.mimics⟩, rfl⟩
  · refine poke fun s F => ⟨⟨F.name, F.kind, F.limits, fun c hc => ?_⟩, rfl⟩
    rcases List.mem_append.1 hc with h | h
    · exact F.mimics c h
    · rw [List.mem_singleton] at h; exact h ▸ e
  · exact poke fun _ F => ⟨⟨F.name, F.kind, F.limits, F.mimics⟩, rfl⟩
theorem setLink (n : NodeId) (l : Option (Link ℝ)) :
    Recast U Eq (Node.setLink n l) (Node.setLink n l) :=
  poke fun _ F => ⟨⟨F.name, F.kind, F.limits, F.mimics⟩, rfl⟩
theorem setOrigin (n : NodeId) (t : Iso ℝ) : Recast U Eq (Node.setOrigin n t) (Node.setOrigin n (t.mul (U.correction n))) :=
  poke (writeJoint (f := fun j => j.setOrigin t) (f' := fun j => j.setOrigin (t.mul (U.correction n)))
    (fun _ => rfl) (fun _ => rfl) (fun _ => rfl) fun _ _ => rfl)
theorem setJointPositionClamped (n : NodeId) (x : ℝ) :
    Recast U Eq (Node.setJointPositionClamped n x) (Node.setJointPositionClamped n (U.coord n x)) :=
  poke (writeJoint (f := fun j => j.setJointPositionClamped x) (f' := fun j => j.setJointPositionClamped (U.coord n x))
    (fun j => setJointPositionClamped_name j x) (fun j => Units.setJointPositionClamped_type j x) (fun j => setJointPositionClamped_limits j x)
    fun j => Coords.setJointPositionClamped n j x)
theorem setJointPositionUnchecked (n : NodeId) (x : ℝ) :
    Recast U Eq (Node.setJointPositionUnchecked n x) (Node.setJointPositionUnchecked n (U.coord n x)) :=
  poke (writeJoint (f := fun j => j.setJointPositionUnchecked x)
    (f' := fun j => j.setJointPositionUnchecked (U.coord n x)) (fun _ => rfl) (fun _ => rfl) (fun _ => rfl) fun _ _ => rfl)

theorem setMimicChild (n : NodeId) (x : ℝ) (c : NodeId) (hc : U.sourceSign c = U.sign n ∧ U.sourceShift c = U.shift n) :
    Recast U U.SameResult (Node.setMimicChild n x c) (Node.setMimicChild n (U.coord n x) c) := by
  refine (doLock c).bind fun _ _ _ => (doRead c).bind fun s _ ⟨F, e⟩ => ?_
  subst e
  simp only [node]
  cases s.mimic with
  | none =>
    refine (joint n).bind fun j _ ⟨e, _⟩ => (joint c).bind fun j2 _ ⟨e2, _⟩ => (doUnlock c).bind fun _ _ _ => ?_
    subst e e2
    exact .ret (.error (.other _ fun _ _ _ _ h => by cases h))
  | some m =>
    simp only [Option.map_some, mimicPosition m x hc]
    refine (doWrite (writeJoint (f := fun j => (j.setJointPosition (m.mimicPosition x)).1)
      (f' := fun j => (j.setJointPosition (U.coord c (m.mimicPosition x))).1)
      (fun j => setJointPosition_name j _) (fun j => Units.setJointPosition_type j _) (fun j => setJointPosition_limits j _)
      fun j _ => (Coords.setJointPosition c j _).1)).bind fun _ _ _ => ?_
    exact (doUnlock c).bind fun _ _ _ => .ret ((Coords.setJointPosition c s.joint _).2 F.name)

theorem setJointPosition (n : NodeId) (x : ℝ) :
    Recast U U.SameResult (Node.setJointPosition n x) (Node.setJointPosition n (U.coord n x)) := by
  refine (doLock n).bind fun _ _ _ => (doRead n).bind fun s _ ⟨F, e⟩ => ?_
  subst e
  by_cases hp : s.mimicParent.isSome = true
  · have hp' : (U.node n s).mimicParent.isSome = true := hp
    rw [if_pos hp, if_pos hp']
    exact (doUnlock n).bind fun _ _ _ => .ret SameResult.ok
  · have hp' : ¬(U.node n s).mimicParent.isSome = true := hp
    rw [if_neg hp, if_neg hp']
    refine (doWrite (n := n) (writeJoint (f := fun j => (j.setJointPosition x).1)
      (f' := fun j => (j.setJointPosition (U.coord n x)).1)
      (fun j => setJointPosition_name j _) (fun j => Units.setJointPosition_type j _) (fun j => setJointPosition_limits j _)
      fun j _ => (Coords.setJointPosition n j _).1)).bind fun _ _ _ => ?_
    have r := (Coords.setJointPosition (U := U) n s.joint x).2 F.name
    simp only [node]
    generalize (s.joint.setJointPosition x).2 = a at r ⊢
    generalize ((U.joint n s.joint).setJointPosition (U.coord n x)).2 = b at r ⊢
    cases r with
    | error h => exact (doUnlock n).bind fun _ _ _ => .ret (.error h)
    | ok =>
      have := tryEach (U := U) (A := id) (f := Node.setMimicChild n x) (g := Node.setMimicChild n (U.coord n x))
        s.mimicChildren fun c hc => setMimicChild n x c (F.mimics c hc)
      rw [List.map_id] at this
      exact this.bind fun r r' h => (doUnlock n).bind fun _ _ _ => .ret h

theorem parentWorldTransform (n : NodeId) : Recast U Eq
    (Node.parentWorldTransform n : KProg ℝ _) (Node.parentWorldTransform n) :=
  (parent n).bind fun o _ e => by
    subst e
    cases o with
    | none => exact .ret rfl
    | some p => exact worldTransform p
theorem parentWorldVelocity (n : NodeId) : Recast U Eq
    (Node.parentWorldVelocity n : KProg ℝ _) (Node.parentWorldVelocity n) :=
  (parent n).bind fun o _ e => by
    subst e
    cases o with
    | none => exact .ret rfl
    | some p => exact worldVelocity p

/-! ### iterators -/

theorem ancestors (fuel : Nat) (o : Option NodeId) :
    Recast U Eq (ancestors fuel o : KProg ℝ _) (ancestors fuel o) := by
  induction fuel generalizing o with
  | zero =>
    cases o with
    | none => exact .ret rfl
    | some n => exact .diverge
  | succ fuel ih =>
    cases o with
    | none => exact .ret rfl
    | some n =>
        refine (parent n).bind fun p _ e => ?_
        subst e
        exact (ih p).bind fun _ _ e => by subst e; exact .ret rfl

theorem ancestorsUntil (stop : NodeId) (fuel : Nat) (o : Option NodeId) :
    Recast U Eq (ancestorsUntil stop fuel o : KProg ℝ _) (ancestorsUntil stop fuel o) := by
  induction fuel generalizing o with
  | zero =>
    cases o with
    | none => exact .ret rfl
    | some n => exact .diverge
  | succ fuel ih =>
    cases o with
    | none => exact .ret rfl
    | some n =>
        refine (parent n).bind fun p _ e => ?_
        subst e
        split
        · exact .ret rfl
        · exact (ih p).bind fun _ _ e => by subst e; exact .ret rfl

theorem descendants (fuel : Nat) (st : List NodeId) :
    Recast U Eq (descendants fuel st : KProg ℝ _) (descendants fuel st) := by
  induction fuel generalizing st with
  | zero =>
    cases st with
    | nil => exact .ret rfl
    | cons n st => exact .diverge
  | succ fuel ih =>
    cases st with
    | nil => exact .ret rfl
    | cons n st =>
        refine (children n).bind fun cs _ e => ?_
        subst e
        exact (ih _).bind fun _ _ e => by subst e; exact .ret rfl

/-! ### chains -/

theorem fromNodes (ns : List NodeId) : Recast U Eq (Chain.fromNodes ns : KProg ℝ _) (Chain.fromNodes ns) := by
  refine Recast.bind (Q := Eq) (filterList (fun n => ?_) ns) fun ms _ e => by subst e; exact .ret rfl
  exact (joint n).bind fun j _ ⟨e, _⟩ => by subst e; exact .ret (isMovable n j).symm

theorem fromRoot (fuel : Nat) (n : NodeId) :
    Recast U Eq (Chain.fromRoot fuel n : KProg ℝ _) (Chain.fromRoot fuel n) :=
  (descendants fuel [n]).bind fun ns _ e => by subst e; exact fromNodes ns
theorem fromEnd (fuel : Nat) (n : NodeId) :
    Recast U Eq (Chain.fromEnd fuel n : KProg ℝ _) (Chain.fromEnd fuel n) :=
  (ancestors fuel (some n)).bind fun ns _ e => by subst e; exact fromNodes _
theorem fromEndToRoot (fuel : Nat) (e r : NodeId) :
    Recast U Eq (Chain.fromEndToRoot fuel e r : KProg ℝ _) (Chain.fromEndToRoot fuel e r) :=
  (ancestorsUntil r fuel (some e)).bind fun ns _ e => by subst e; exact fromNodes _

variable (c : Chain)

theorem chainSetOrigin (t : Iso ℝ) : Recast U Eq (c.setOrigin t) (c.setOrigin (U.chainOrigin c t)) := by
  rcases c with ⟨ns, ms, d⟩
  cases ns with
  | nil => exact .panic _
  | cons n ns => exact setOrigin n t
theorem chainOrigin : Recast U (To (U.chainOrigin c)) (c.origin : KProg ℝ _) c.origin := by
  rcases c with ⟨ns, ms, d⟩
  cases ns with
  | nil => exact .panic _
  | cons n ns => exact origin n
theorem iterJoints : Recast U (fun js js' => js' = List.zipWith U.joint c.movableNodes js ∧
    js.length = c.movableNodes.length) (c.iterJoints : KProg ℝ _) c.iterJoints :=
  (mapListZip (P := fun _ => True) (fun n => (joint n).imp fun _ _ h => ⟨h.1, trivial⟩) c.movableNodes).imp
    fun _ _ h => ⟨h.1, h.2.1⟩

theorem iterLinks : Recast U Eq (c.iterLinks : KProg ℝ _) c.iterLinks := by
  refine Recast.bind (Q := Eq) (mapListSame (fun n => ?_) c.nodes) fun ls _ e => by subst e; exact .ret rfl
  refine (link n).bind fun l _ e => ?_
  subst e
  cases l with
  | none => exact .ret rfl
  | some l =>
    exact (doLock n).bind fun _ _ _ => (doRead n).bind fun s _ ⟨_, e⟩ => by
      subst e
      exact (expectSame s.link _).bind fun a b e => (doUnlock n).bind fun _ _ _ => by
        subst e
        exact .ret rfl

theorem find (name : String) : Recast U Eq (c.find name : KProg ℝ _) (c.find name) :=
  findFirst (fun n => (joint n).bind fun j _ ⟨e, _⟩ => by subst e; exact .ret rfl) c.nodes

theorem jointPositions : Recast U (fun xs xs' => xs' = U.coords c xs ∧ xs.length = c.movableNodes.length)
    (c.jointPositions : KProg ℝ _) c.jointPositions := by
  refine Recast.imp (mapListZip (A := U.coord) (P := fun _ => True) (fun n => ?_) c.movableNodes)
    fun xs xs' ⟨e, l, _⟩ => ?_
  · refine (doLock n).bind fun _ _ _ => (doRead n).bind fun s _ ⟨_, e⟩ => ?_
    subst e
    simp only [node, Coords.jointPosition]
    exact (expect (A := (U.coord n)) s.joint.jointPosition _).bind fun a b e => (doUnlock n).bind fun _ _ _ => by
      obtain ⟨-, rfl⟩ := e
      exact .ret ⟨rfl, trivial⟩
  · subst e
    exact ⟨list_eq_zipWith _ _ _ l, l⟩

theorem setJointPositions (xs : List ℝ) :
    Recast U U.SameResult (c.setJointPositions xs) (c.setJointPositions (U.coords c xs)) := by
  unfold Chain.setJointPositions
  simp only [coords, list_length, zip_list]
  split
  · exact .ret (.error (.other _ fun _ _ _ _ h => by cases h))
  · exact tryEach _ fun p _ => setJointPosition p.1 p.2

theorem setJointPositionsClamped (xs : List ℝ) :
    Recast U Eq (c.setJointPositionsClamped xs) (c.setJointPositionsClamped (U.coords c xs)) := by
  unfold Chain.setJointPositionsClamped
  simp only [coords, zip_list]
  exact forEach (fun p => setJointPositionClamped p.1 p.2) _

theorem setJointPositionsUnchecked (xs : List ℝ) :
    Recast U Eq (c.setJointPositionsUnchecked xs) (c.setJointPositionsUnchecked (U.coords c xs)) := by
  unfold Chain.setJointPositionsUnchecked
  simp only [coords, zip_list]
  exact forEach (fun p => setJointPositionUnchecked p.1 p.2) _

theorem updateTransform (n : NodeId) :
    Recast U Eq (Chain.updateTransform n : KProg ℝ _) (Chain.updateTransform n) := by
  refine (parentWorldTransform n).bind fun o _ e => ?_
  subst e
  refine (expectSame o _).bind fun t _ e => (joint n).bind fun j _ ⟨ej, s, F, es⟩ => ?_
  subst e ej es
  rw [Coords.localTransform F]
  refine (poke (writeJoint (f := fun j => j.setWorldTransform _) (f' := fun j => j.setWorldTransform _)
    (fun _ => rfl) (fun _ => rfl) (fun _ => rfl) fun _ _ => rfl)).bind fun _ _ _ => .ret rfl

theorem updateTransforms : Recast U Eq (c.updateTransforms : KProg ℝ _) c.updateTransforms :=
  mapListSame updateTransform c.nodes

theorem correction_trans (h : ∀ n a, U.kind n = .linear a → U.shift n = 0) (n : NodeId) (t : Iso ℝ) :
    (t.mul (U.correction n)).trans = t.trans := by
  have e : (U.correction n).trans = V3.zero := by
    unfold correction
    cases k : U.kind n with
    | fixed => rfl
    | rotational a => rfl
    | linear a => simp [JointType.motion, h n a k, V3.scale, V3.zero]
  simp only [Iso.mul, e, Quat.rotate_zero, V3.add_zero']

theorem updateVelocity (h : ∀ n a, U.kind n = .linear a → U.shift n = 0) (n : NodeId) :
    Recast U Eq (Chain.updateVelocity n : KProg ℝ _) (Chain.updateVelocity n) := by
  refine (parentWorldTransform n).bind fun o _ e => ?_
  subst e
  refine (expectSame o _).bind fun t _ e => (parentWorldVelocity n).bind fun ov _ ev => ?_
  subst e ev
  refine (expectSame ov _).bind fun v _ e => (doLock n).bind fun _ _ _ => (doRead n).bind fun s _ ⟨F, es⟩ => ?_
  subst e es
  have hk := sign_mul (U := U) n
  have sc : ∀ (a : V3 ℝ) (x : ℝ), (a.scale (U.sign n)).scale (U.sign n * x) = a.scale x := by
    intro a x
    rw [Units.scale_scale, ← mul_assoc, hk, one_mul]
  refine Recast.bind (Q := Eq) ?_ fun w _ e => (doUnlock n).bind fun _ _ _ => ?_
  · rw [show (U.node n s).joint.jointType = s.joint.jointType.directed (U.sign n) from rfl]
    cases et : s.joint.jointType with
    | fixed => exact .ret rfl
    | rotational a =>
      simp only [JointType.directed]
      refine (parent n).bind fun o _ e => ?_
      subst e
      refine (expectSame o _).bind fun p _ e => ?_
      subst e
      refine (joint p).bind fun j _ ⟨ej, _⟩ => (worldTransform n).bind fun o _ e => ?_
      subst ej e
      refine (expectSame o _).bind fun w _ e => (joint n).bind fun j2 _ ⟨ej, s2, F2, e2⟩ => ?_
      subst e ej
      rw [Coords.jointVelocity]
      refine (expect (A := (U.sign n * ·)) j2.jointVelocity _).bind fun x _ e => .ret ?_
      obtain ⟨-, rfl⟩ := e
      have ct := correction_trans h p j.origin
      simp only [Coords.joint, ct, sc]
    | linear a =>
      simp only [JointType.directed]
      refine (worldTransform n).bind fun o _ e => ?_
      subst e
      refine (expectSame o _).bind fun w _ e => (joint n).bind fun j2 _ ⟨ej, s2, F2, e2⟩ => ?_
      subst e ej
      rw [Coords.jointVelocity]
      refine (expect (A := (U.sign n * ·)) j2.jointVelocity _).bind fun x _ e => .ret ?_
      obtain ⟨-, rfl⟩ := e
      simp only [sc]
  · subst e
    exact (poke (writeJoint (f := fun j => j.setWorldVelocity _) (f' := fun j => j.setWorldVelocity _)
      (fun _ => rfl) (fun _ => rfl) (fun _ => rfl) fun _ _ => rfl)).bind fun _ _ _ => .ret rfl

theorem updateVelocities (h : ∀ n a, U.kind n = .linear a → U.shift n = 0) :
    Recast U Eq (c.updateVelocities : KProg ℝ _) c.updateVelocities :=
  (updateTransforms c).bind fun _ _ _ => mapListSame (updateVelocity h) c.nodes

theorem updateLinkTransforms : Recast U Eq (c.updateLinkTransforms : KProg ℝ _) c.updateLinkTransforms := by
  refine (updateTransforms c).bind fun _ _ _ => ?_
  have := forEach (U := U) (A := id) (f := Chain.updateLinkTransform) (g := Chain.updateLinkTransform) (fun n => ?_) c.nodes
  · rwa [List.map_id] at this
  · refine (parentWorldTransform n).bind fun o _ e => ?_
    subst e
    refine (expectSame o _).bind fun t _ e => ?_
    subst e
    exact poke fun s F => ⟨⟨F.name, F.kind, F.limits, F.mimics⟩, rfl⟩

theorem tryNew : Recast U Eq (c.tryNew : KProg ℝ _) c.tryNew := by
  unfold Chain.tryNew
  cases c.nodes.length with
  | zero => exact .panic _
  | succ k =>
    refine Recast.bind (Q := Eq) (findFirst (fun n => ?_) _) fun o _ e => by subst e; exact .ret rfl
    exact (children n).bind fun cs _ e => by subst e; exact .ret rfl

theorem foldTransform (ns : List NodeId) (t : Iso ℝ) :
    Recast U Eq (Chain.foldTransform ns t) (Chain.foldTransform ns t) := by
  induction ns generalizing t with
  | nil => exact .ret rfl
  | cons n ns ih =>
    refine (joint n).bind fun j _ ⟨ej, s, F, es⟩ => ?_
    subst ej es
    rw [Coords.localTransform F]
    exact ih _
theorem endTransform : Recast U Eq (c.endTransform : KProg ℝ _) c.endTransform :=
  foldTransform c.nodes Iso.one

theorem displayNode (n : NodeId) (hn : U.sign n = 1) (s : NodeImpl ℝ) : (U.node n s).display = s.display := by
  simp only [NodeImpl.display, node]
  have : s.joint.jointType.directed 1 = s.joint.jointType := by
    cases s.joint.jointType <;> simp only [JointType.directed, Units.scale_one]
  simp only [Joint.display, Coords.joint, hn, this]

theorem fmtWithIndentLevel (hs : ∀ n, U.sign n = 1) (fuel level : Nat) (n : NodeId) :
    Recast U Eq (c.fmtWithIndentLevel fuel level n : KProg ℝ _) (c.fmtWithIndentLevel fuel level n) := by
  induction fuel generalizing level n with
  | zero => exact .diverge
  | succ fuel ih =>
    refine Recast.bind (Q := Eq) ?_ fun x _ e => (doLock n).bind fun _ _ _ => (doRead n).bind fun s _ ⟨_, es⟩ => ?_
    · split
      · refine (peek n).bind fun s _ ⟨_, e⟩ => ?_
        subst e
        exact .ret (by simp only [displayLine, displayNode n (hs n)])
      · exact .ret rfl
    · subst e es
      exact (mapListSame (ih (level + 1)) s.children).bind fun _ _ e => (doUnlock n).bind fun _ _ _ => by
        subst e; exact .ret rfl

theorem display (hs : ∀ n, U.sign n = 1) (fuel : Nat) : Recast U Eq (c.display fuel : KProg ℝ _) (c.display fuel) := by
  rcases c with ⟨ns, ms, d⟩
  cases ns with
  | nil => exact .panic _
  | cons n ns => exact (fmtWithIndentLevel ⟨n :: ns, ms, d⟩ hs fuel 0 n).bind fun _ _ e => by subst e; exact .ret rfl

theorem jacobianColumn (n : NodeId) (j : Joint ℝ) (p : V3 ℝ) (t : Iso ℝ) :
    K.jacobianColumn p (U.joint n j) t = (K.jacobianColumn p j t).map (U.column n) := by
  rcases j with ⟨nm, jt, po, v, lim, o, c1, c2⟩
  simp only [K.jacobianColumn, Coords.joint]
  cases jt with
  | fixed => rfl
  | linear a =>
    simp only [JointType.directed, Except.map, column, Quat.rotate_scale, List.map_cons, List.map_nil, zero_mul]
    rfl
  | rotational a =>
    simp only [JointType.directed, Except.map, column, Quat.rotate_scale, List.map_cons, List.map_nil]
    have : ∀ u : V3 ℝ, ((t.rot.rotate a).scale (U.sign n)).cross u = ((t.rot.rotate a).cross u).scale (U.sign n) := by
      intro u; ext <;> simp only [V3.cross, V3.scale] <;> ring
    rw [this]; rfl

theorem jacobian : Recast U (fun m m' => m' = U.matrix c m ∧ m.length = c.movableNodes.length ∧ ∀ col ∈ m, col.length = 6)
    (K.jacobian c : KProg ℝ _) (K.jacobian c) := by
  refine (endTransform c).bind fun t _ e => (updateTransforms c).bind fun _ _ _ => ?_
  subst e
  refine mapListZip (A := U.column) (P := fun col => col.length = 6) (fun n => ?_) c.movableNodes
  refine (doLock n).bind fun _ _ _ => (doRead n).bind fun s _ ⟨F, e⟩ => ?_
  subst e
  refine Recast.bind (Q := Eq) (expectSame s.joint.worldTransform _) fun w _ e => ?_
  subst e
  refine Recast.bind (Q := fun a b => b = U.column n a ∧ a.length = 6) ?_ fun a b q => (doUnlock n).bind fun _ _ _ => .ret q
  have := jacobianColumn (U := U) n s.joint t.trans w
  show Recast U _ (Prog.ofExcept _) (Prog.ofExcept (K.jacobianColumn t.trans (U.joint n s.joint) w))
  rw [this]
  cases e : K.jacobianColumn t.trans s.joint w with
  | error m => exact .panic m
  | ok col => exact .ret ⟨rfl, Scaled.jacobianColumn_length e⟩

theorem comLoop (ns : List NodeId) (a : ComAcc ℝ) : Recast U Eq (comLoop ns a) (comLoop ns a) := by
  induction ns generalizing a with
  | nil => exact .ret rfl
  | cons n ns ih =>
    refine (worldTransform n).bind fun o _ e => ?_
    subst e
    cases o with
    | none => exact ih _
    | some t =>
      refine (link n).bind fun l _ e => ?_
      subst e
      exact ih _

theorem centerOfMass : Recast U Eq (K.centerOfMass c : KProg ℝ _) (K.centerOfMass c) :=
  (updateTransforms c).bind fun _ _ _ => (comLoop c.nodes _).bind fun a _ e => by subst e; exact .ret rfl

end Recast

end

end K
