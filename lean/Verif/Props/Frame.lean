import Verif.Lemmas.ArmCoord
import Verif.Props.Answers
import Verif.Props.Reach
/-!
# C85: the choice of the world frame does not influence an inverse kinematics solve
-/

namespace K
open Prog

noncomputable section

/-! ## Geometry -/

/-- rotates each of the consecutive triples of a list -/
def turnCol (R : Quat ℝ) : List ℝ → List ℝ
  | x :: y :: z :: rest =>
    (R.rotate ⟨x, y, z⟩).x :: (R.rotate ⟨x, y, z⟩).y :: (R.rotate ⟨x, y, z⟩).z :: turnCol R rest
  | xs => xs

theorem turnCol_length (R : Quat ℝ) (v : List ℝ) : (turnCol R v).length = v.length := by
  fun_induction turnCol R v with
  | case1 x y z rest ih => simp [ih]
  | case2 => rfl

theorem turnCol_twist (R : Quat ℝ) (d w : V3 ℝ) :
    turnCol R (twist d w) = twist (R.rotate d) (R.rotate w) := rfl

theorem Quat.conjugate_w {R : Quat ℝ} (u : R.IsUnit) (q : Quat ℝ) :
    (R.mul (q.mul R.conj)).w = q.w := by
  simp only [Quat.IsUnit] at u
  simp only [Quat.mul, Quat.conj]
  linear_combination q.w * u

theorem Quat.conjugate_vec {R : Quat ℝ} (u : R.IsUnit) (q : Quat ℝ) :
    (R.mul (q.mul R.conj)).vec = R.rotate q.vec := by
  rw [Quat.rotate_eq u]
  ext <;> simp only [Quat.mul, Quat.conj, Quat.vec, Quat.matRotate] <;> ring

theorem Quat.scaledAxis_conjugate {R : Quat ℝ} (u : R.IsUnit) (q : Quat ℝ) :
    (R.mul (q.mul R.conj)).scaledAxis = R.rotate q.scaledAxis := by
  have hv : (if Scalar.le 0 q.w then R.rotate q.vec else (R.rotate q.vec).neg) =
      R.rotate (if Scalar.le 0 q.w then q.vec else q.vec.neg) := by
    split
    · rfl
    · ext <;> simp only [V3.neg, Quat.rotate, Quat.vec, V3.cross, V3.scale, V3.add] <;> ring
  unfold Quat.scaledAxis Quat.axis Quat.angle
  simp only [Quat.conjugate_w u, Quat.conjugate_vec u, hv, Quat.norm_rotate u]
  generalize (if Scalar.le 0 q.w = true then q.vec else q.vec.neg) = v
  split <;> rename_i e <;> split at e <;> rename_i c
  · simp only [c, if_true] at *
    cases e
    simp only [V3.unscale, V3.scale, Quat.rotate, Quat.vec, V3.cross, V3.add]
    ext <;> ring
  · cases e
  · cases e
  · rw [if_neg c]
    exact (Quat.rotate_zero R).symm

theorem calcPoseDiff_turn {X : Iso ℝ} (hX : X.IsRigid) (a b : Iso ℝ) :
    calcPoseDiff (X.mul a) (X.mul b) = turnCol X.rot (calcPoseDiff a b) := by
  have p : (X.mul a).trans.sub (X.mul b).trans = X.rot.rotate (a.trans.sub b.trans) := apply_sub X _ _
  have w : (X.mul b).rot.rotationTo (X.mul a).rot = X.rot.mul ((b.rot.rotationTo a.rot).mul X.rot.conj) := by
    ext <;> simp only [Iso.mul, Quat.rotationTo, Quat.mul, Quat.conj] <;> ring
  unfold calcPoseDiff
  rw [p, w, Quat.scaledAxis_conjugate hX]
  rfl

/-! ## Isotropic constraints -/

/-- either all coordinates of the position are constrained or none, and the same for the rotation -/
structure Constraints.Isotropic (c : Constraints) : Prop where
  posY : c.positionY = c.positionX
  posZ : c.positionZ = c.positionX
  rotY : c.rotationY = c.rotationX
  rotZ : c.rotationZ = c.rotationX

theorem selectFlags_turn {c : Constraints} (i : c.Isotropic) (R : Quat ℝ) (d w : V3 ℝ) :
    selectFlags (defineOperationalSpace c) (turnCol R (twist d w)) =
      turnCol R (selectFlags (defineOperationalSpace c) (twist d w)) := by
  obtain ⟨a, b, e, f⟩ := i
  simp only [defineOperationalSpace, a, b, e, f]
  cases c.positionX <;> cases c.rotationX <;> rfl

theorem lenRot_turn {c : Constraints} (i : c.Isotropic) (R : Quat ℝ) (d w : V3 ℝ) :
    targetDiffToLenRotDiff (turnCol R (selectFlags (defineOperationalSpace c) (twist d w)))
        (defineOperationalSpace c) =
      (R.rotate (targetDiffToLenRotDiff (selectFlags (defineOperationalSpace c) (twist d w))
          (defineOperationalSpace c)).1,
        R.rotate (targetDiffToLenRotDiff (selectFlags (defineOperationalSpace c) (twist d w))
          (defineOperationalSpace c)).2) := by
  obtain ⟨a, b, e, f⟩ := i
  have z := Quat.rotate_zero R
  simp only [V3.zero] at z
  simp only [defineOperationalSpace, a, b, e, f]
  cases c.positionX <;> cases c.rotationX <;>
    simp [selectFlags, turnCol, twist, targetDiffToLenRotDiff, spreadFlags, toV3, z]

/-! ## Linear algebra -/

/-- Turning both sides of a system of equations by the same rotation changes neither its solution nor
whether there is one.  True of exact linear algebra. -/
structure LinAlg.TurnInvariant (la : LinAlg ℝ) : Prop where
  lu : ∀ (R : Quat ℝ) (J : Mat ℝ) (b : List ℝ), R.IsUnit → 3 ∣ b.length → J.length = b.length →
    (∀ col ∈ J, col.length = b.length) → la.lu (J.map (turnCol R)) (turnCol R b) = la.lu J b
  svd : ∀ (R : Quat ℝ) (J : Mat ℝ) (b : List ℝ), R.IsUnit → 3 ∣ b.length → b.length < J.length →
    (∀ col ∈ J, col.length = b.length) → la.svdSolve (J.map (turnCol R)) (turnCol R b) = la.svdSolve J b
  pinv : ∀ (R : Quat ℝ) (J : Mat ℝ) (v : List ℝ), R.IsUnit → 3 ∣ v.length → v.length < J.length →
    (∀ col ∈ J, col.length = v.length) →
    matVec J.length (la.pinv (J.map (turnCol R))) (turnCol R v) = matVec J.length (la.pinv J) v

theorem removeIndices_map {α β : Type} (f : α → β) (is : List Nat) (i : Nat) (xs : List α) :
    removeIndices is i (xs.map f) = (removeIndices is i xs).map (List.map f) := by
  induction is generalizing i xs with
  | nil => rfl
  | cons a is ih =>
    simp only [removeIndices, List.length_map]
    split
    · rfl
    · split
      · rw [List.eraseIdx_map, ih]
      · rfl

theorem removeIndices_subset {α : Type} (is : List Nat) (i : Nat) (xs ys : List α)
    (e : removeIndices is i xs = .ok ys) : ∀ y ∈ ys, y ∈ xs := by
  induction is generalizing i xs with
  | nil => cases e; exact fun _ h => h
  | cons a is ih =>
    rw [removeIndices] at e
    split at e
    · cases e
    · split at e
      · exact fun y hy => List.mem_of_mem_eraseIdx (ih _ _ e y hy)
      · cases e

theorem three_dvd_countTrue {c : Constraints} (i : c.Isotropic) : 3 ∣ countTrue (defineOperationalSpace c) := by
  obtain ⟨a, b, e, f⟩ := i
  simp only [defineOperationalSpace, a, b, e, f]
  cases c.positionX <;> cases c.rotationX <;> decide

/-- the next joint positions are those of the turned problem -/
theorem nextPositions_turn (s : IkSolver ℝ) (inv : s.la.TurnInvariant) {c : Constraints} (i : c.Isotropic)
    (ign : List Nat) (dof : Nat) (enough : countTrue (defineOperationalSpace c) ≤ dof - ign.length)
    {R : Quat ℝ} (u : R.IsUnit) (cols : List (V3 ℝ × V3 ℝ)) (hc : cols.length = dof) (d w : V3 ℝ)
    (orig : List ℝ) :
    nextPositions s (defineOperationalSpace c) ign dof
        (cols.map fun p => twist (R.rotate p.1) (R.rotate p.2))
        (turnCol R (selectFlags (defineOperationalSpace c) (twist d w))) orig =
      nextPositions s (defineOperationalSpace c) ign dof (cols.map fun p => twist p.1 p.2)
        (selectFlags (defineOperationalSpace c) (twist d w)) orig := by
  have rr : ∀ m : Mat ℝ, (∀ col ∈ m, col.length = 6) → removeRows (defineOperationalSpace c) 0 0 m =
      .ok (m.map (selectFlags (defineOperationalSpace c))) := fun m hm => by
    rw [removeRows_eq _ _ _ _ (le_refl _) (by simpa [defineOperationalSpace] using hm)]; simp
  have l6 : ∀ f : V3 ℝ × V3 ℝ → V3 ℝ × V3 ℝ, ∀ col ∈ cols.map (fun p => twist (f p).1 (f p).2),
      col.length = 6 := by
    intro f col h
    obtain ⟨p, -, rfl⟩ := List.mem_map.1 h; rfl
  have e1 := rr _ (l6 fun p => (R.rotate p.1, R.rotate p.2))
  have e2 := rr _ (l6 fun p => p)
  have mp : (cols.map fun p => twist (R.rotate p.1) (R.rotate p.2)).map
        (selectFlags (defineOperationalSpace c)) =
      ((cols.map fun p => twist p.1 p.2).map (selectFlags (defineOperationalSpace c))).map (turnCol R) := by
    simp only [List.map_map]
    refine List.map_congr_left fun p _ => ?_
    simp only [Function.comp]
    rw [← selectFlags_turn i, turnCol_twist]
  simp only at e1 e2
  unfold nextPositions
  rw [e1, e2, mp]
  simp only [Bind.bind, Except.bind]
  rw [removeIndices_map]
  cases e3 : removeIndices ign 0 ((cols.map fun p => twist p.1 p.2).map
      (selectFlags (defineOperationalSpace c))) with
  | error m => rfl
  | ok J =>
    have lJ := removeIndices_length _ _ _ _ e3
    simp only [List.length_map, hc] at lJ
    have le : (selectFlags (defineOperationalSpace c) (twist d w)).length =
        countTrue (defineOperationalSpace c) := selectFlags_length _ _ rfl
    have hJ : ∀ col ∈ J, col.length = (selectFlags (defineOperationalSpace c) (twist d w)).length := by
      intro col h
      have := removeIndices_subset _ _ _ _ e3 col h
      rw [List.map_map] at this
      obtain ⟨p, -, rfl⟩ := List.mem_map.1 this
      rw [le]
      exact selectFlags_length _ _ rfl
    have d3 : 3 ∣ (selectFlags (defineOperationalSpace c) (twist d w)).length := by
      rw [le]; exact three_dvd_countTrue i
    simp only [Except.map]
    by_cases gt : dof - ign.length > countTrue (defineOperationalSpace c)
    · rw [if_pos gt, if_pos gt]
      have lt : (selectFlags (defineOperationalSpace c) (twist d w)).length < J.length := by omega
      by_cases z : countTrue (defineOperationalSpace c) = 0
      · rw [if_pos z, if_pos z]
      · rw [if_neg z, if_neg z]
        cases s.nullspaceFunction with
        | none => simp only [inv.svd R J _ u d3 lt hJ]
        | some f =>
          have ns : ∀ sub, nullspaceStep (dof - ign.length) (s.la.pinv (J.map (turnCol R))) (J.map (turnCol R))
              (turnCol R (selectFlags (defineOperationalSpace c) (twist d w))) sub =
              nullspaceStep (dof - ign.length) (s.la.pinv J) J
                (selectFlags (defineOperationalSpace c) (twist d w)) sub := by
            intro sub
            have lj : dof - ign.length = J.length := by omega
            unfold nullspaceStep matMul
            rw [lj, inv.pinv R J _ u d3 lt hJ, List.map_map]
            congr 3
            refine List.map_congr_left fun col hc => ?_
            have hl := hJ col hc
            exact inv.pinv R J col u (hl ▸ d3) (hl ▸ lt) (fun x hx => (hJ x hx).trans hl.symm)
          simp only [ns]
    · rw [if_neg gt, if_neg gt]
      rw [inv.lu R J _ u d3 (by omega) hJ]

/-! ## The same heap in another world frame -/

/-- `g` is `h` with the origin of the root `r` composed with `X`; cached world transforms are arbitrary -/
structure Turned (X : Iso ℝ) (r : NodeId) (h g : KHeap ℝ) : Prop where
  next : g.next = h.next
  dead : g.dead = h.dead
  held : g.held = h.held
  node : ∀ n, ∃ wt, g.get n = { h.get n with joint := { (h.get n).joint with
    origin := if n = r then X.mul (h.get n).joint.origin else (h.get n).joint.origin,
    worldTransformCache := wt } }

namespace Turned
variable {X : Iso ℝ} {r : NodeId} {h g : KHeap ℝ}

theorem unlocked (t : Turned X r h g) (u : h.Unlocked) : g.Unlocked := fun n => by rw [t.held]; exact u n
theorem position (t : Turned X r h g) (k : NodeId) : (g.get k).joint.position = (h.get k).joint.position := by
  obtain ⟨wt, e⟩ := t.node k; rw [e]
theorem jointType (t : Turned X r h g) (k : NodeId) : (g.get k).joint.jointType = (h.get k).joint.jointType := by
  obtain ⟨wt, e⟩ := t.node k; rw [e]
theorem name (t : Turned X r h g) (k : NodeId) : (g.get k).joint.name = (h.get k).joint.name := by
  obtain ⟨wt, e⟩ := t.node k; rw [e]
theorem mimic (t : Turned X r h g) (k : NodeId) : (g.get k).mimic = (h.get k).mimic := by
  obtain ⟨wt, e⟩ := t.node k; rw [e]
theorem mimicParent (t : Turned X r h g) (k : NodeId) : (g.get k).mimicParent = (h.get k).mimicParent := by
  obtain ⟨wt, e⟩ := t.node k; rw [e]
theorem mimicChildren (t : Turned X r h g) (k : NodeId) :
    (g.get k).mimicChildren = (h.get k).mimicChildren := by
  obtain ⟨wt, e⟩ := t.node k; rw [e]
theorem liveParent (t : Turned X r h g) (k : NodeId) : K.liveParent g k = K.liveParent h k := by
  obtain ⟨wt, e⟩ := t.node k
  unfold K.liveParent
  rw [e, t.dead]
theorem mimicWF (t : Turned X r h g) (wf : MimicWF h) : MimicWF g := by
  intro m c hc
  rw [t.mimicChildren] at hc; rw [t.mimicParent, t.mimic]; exact wf m c hc
theorem posList (t : Turned X r h g) (ns : List NodeId) : K.posList g ns = K.posList h ns :=
  List.map_congr_left fun n _ => t.position n

theorem local_ne (t : Turned X r h g) {n : NodeId} (ne : n ≠ r) :
    (g.get n).joint.localTransform = (h.get n).joint.localTransform := by
  obtain ⟨wt, e⟩ := t.node n
  rw [e, if_neg ne]; rfl
theorem local_root (t : Turned X r h g) (hX : X.IsRigid) (rg : (h.get r).joint.IsRigid) :
    (g.get r).joint.localTransform = X.mul (h.get r).joint.localTransform := by
  obtain ⟨wt, e⟩ := t.node r
  rw [e, if_pos rfl]
  exact Iso.mul_assoc' hX rg.1 _

theorem prod (t : Turned X r h g) (hX : X.IsRigid) (rest : List NodeId) (nr : r ∉ rest)
    (ar : AllRigid h (r :: rest)) :
    prodFrom g Iso.one (r :: rest) = X.mul (prodFrom h Iso.one (r :: rest)) := by
  have e : ∀ (Y : Iso ℝ) (ns : List NodeId), r ∉ ns → prodFrom g Y ns = prodFrom h Y ns := by
    intro Y ns hn
    induction ns generalizing Y with
    | nil => rfl
    | cons m ms ih =>
      show prodFrom g (Y.mul _) ms = prodFrom h (Y.mul _) ms
      rw [t.local_ne (fun x => hn (by simp [x])), ih _ fun x => hn (by simp [x])]
  show prodFrom g (Iso.one.mul _) rest = X.mul (prodFrom h (Iso.one.mul _) rest)
  have rr : ((h.get r).joint.localTransform).IsRigid := Joint.localTransform_isRigid (ar r (by simp))
  have ar' : AllRigid h rest := fun m hm => ar m (by simp [hm])
  rw [e _ _ nr, Iso.one_mul', Iso.one_mul', t.local_root hX (ar r (by simp)),
    prodFrom_mul h rest ar' _ (hX.mul rr), prodFrom_mul h rest ar' _ rr, Iso.mul_assoc' hX rr]

theorem rootedArm (t : Turned X r h g) (hX : X.IsRigid) {arm : Chain} (l : RootedArm h arm) :
    RootedArm g arm := by
  obtain ⟨n, rest, e, root⟩ := l.root
  refine ⟨t.unlocked l.unlocked, ⟨?_, l.wf.dof⟩, ⟨n, rest, e, by rw [t.liveParent]; exact root⟩,
    fun pre a b post e => by rw [t.liveParent]; exact l.serial pre a b post e, l.nodup, fun n hn => ?_⟩
  · rw [l.wf.movable]
    refine List.filter_congr fun n _ => ?_
    exact decide_eq_decide.2 (by unfold Movable; rw [t.jointType])
  · obtain ⟨wt, e⟩ := t.node n
    have := l.rigid n hn
    rw [e]
    refine ⟨?_, this.2⟩
    show Iso.IsRigid (if n = r then _ else _)
    split
    · exact hX.mul this.1
    · exact this.1

theorem onlyWorld (t : Turned X r h g) {ns ms : List NodeId} {h' g' : KHeap ℝ} (a : OnlyWorld ns h h')
    (b : OnlyWorld ms g g') : Turned X r h' g' := by
  refine ⟨b.next.trans (t.next.trans a.next.symm), b.dead.trans (t.dead.trans a.dead.symm),
    b.held.trans (t.held.trans a.held.symm), fun n => ?_⟩
  obtain ⟨wt, e⟩ := t.node n
  have sa := a.same n
  have sb := b.same n
  unfold SameButWorld at sa sb
  refine ⟨(g'.get n).joint.worldTransformCache, ?_⟩
  rw [sb, sa, e]

theorem modify (t : Turned X r h g) (n : NodeId) (f : NodeImpl ℝ → NodeImpl ℝ)
    (hf : ∀ (s : NodeImpl ℝ) o wt, ∃ wt', f { s with joint := { s.joint with
        origin := o, worldTransformCache := wt } } =
      { f s with joint := { (f s).joint with origin := o, worldTransformCache := wt' } })
    (ho : ∀ s, (f s).joint.origin = s.joint.origin) :
    Turned X r (h.modify n f) (g.modify n f) := by
  refine ⟨t.next, t.dead, t.held, fun k => ?_⟩
  obtain ⟨wt, e⟩ := t.node k
  by_cases hk : k = n
  · subst hk
    simp only [Heap.get_modify_self]
    obtain ⟨wt', e'⟩ := hf (h.get k) _ wt
    rw [e, e', ho]
    exact ⟨wt', rfl⟩
  · simp only [Heap.get_modify_of_ne _ _ hk]
    exact ⟨wt, e⟩

theorem clampAll (t : Turned X r h g) (ps : List (NodeId × ℝ)) :
    Turned X r (K.clampAll ps h) (K.clampAll ps g) := by
  induction ps generalizing h g with
  | nil => exact t
  | cons p ps ih =>
    refine ih (t.modify _ _ ?_ ?_)
    · intro s o wt
      rcases s with ⟨parent, children, ⟨nm, jt, po, v, lim, o', c1, c2⟩, mp, mc, mi, li⟩
      unfold Joint.setJointPositionClamped Joint.setJointPositionUnchecked Joint.isMovable
      cases jt <;> exact ⟨_, rfl⟩
    · intro s
      obtain ⟨_, _, _, e⟩ := setJointPositionClamped_shape s.joint p.2
      simp only [e]

theorem setJoint (t : Turned X r h g) (n : NodeId) (x : ℝ) :
    ((g.get n).joint.setJointPosition x).2 = ((h.get n).joint.setJointPosition x).2 ∧
      Turned X r (h.setJoint n x) (g.setJoint n x) := by
  constructor
  · obtain ⟨wt, e⟩ := t.node n
    exact setJointPosition_result_congr _ _ x (by rw [e]) (by rw [e]) (by rw [e])
  · refine t.modify _ _ ?_ ?_
    · intro s o wt
      rcases s with ⟨parent, children, ⟨nm, jt, po, v, lim, o', c1, c2⟩, mp, mc, mi, li⟩
      unfold Joint.setJointPosition
      cases lim with
      | none => cases jt <;> exact ⟨_, rfl⟩
      | some l =>
        cases hb : l.isValid x <;> cases jt <;>
          first
          | (refine ⟨wt, ?_⟩; simp [Joint.isMovable, hb]; done)
          | (refine ⟨none, ?_⟩; simp [Joint.isMovable, hb]; done)
    · intro s
      rcases s with ⟨parent, children, ⟨nm, jt, po, v, lim, o', c1, c2⟩, mp, mc, mi, li⟩
      unfold Joint.setJointPosition
      cases lim with
      | none => cases jt <;> rfl
      | some l => cases hb : l.isValid x <;> cases jt <;> simp [Joint.isMovable, hb]

theorem mimicLoop (t : Turned X r h g) (x : ℝ) (cs : List NodeId) :
    (K.mimicLoop x cs g).1 = (K.mimicLoop x cs h).1 ∧
      Turned X r (K.mimicLoop x cs h).2 (K.mimicLoop x cs g).2 := by
  induction cs generalizing h g with
  | nil => exact ⟨rfl, t⟩
  | cons c cs ih =>
    simp only [K.mimicLoop, t.mimic]
    cases (h.get c).mimic with
    | none => exact ⟨rfl, t⟩
    | some m =>
      obtain ⟨a, b⟩ := t.setJoint c (m.mimicPosition x)
      simp only [a]
      cases ((h.get c).joint.setJointPosition (m.mimicPosition x)).2 with
      | error e => exact ⟨rfl, b⟩
      | ok v => exact ih b

theorem setPos (t : Turned X r h g) (n : NodeId) (x : ℝ) :
    (K.setPos n x g).1 = (K.setPos n x h).1 ∧ Turned X r (K.setPos n x h).2 (K.setPos n x g).2 := by
  simp only [K.setPos, t.mimicParent, t.mimicChildren]
  split
  · exact ⟨rfl, t⟩
  · obtain ⟨a, b⟩ := t.setJoint n x
    simp only [a]
    cases ((h.get n).joint.setJointPosition x).2 with
    | error e => exact ⟨rfl, t⟩
    | ok v => exact b.mimicLoop x _

theorem setAll (t : Turned X r h g) (ps : List (NodeId × ℝ)) :
    (K.setAll ps g).1 = (K.setAll ps h).1 ∧ Turned X r (K.setAll ps h).2 (K.setAll ps g).2 := by
  induction ps generalizing h g with
  | nil => exact ⟨rfl, t⟩
  | cons p ps ih =>
    obtain ⟨a, b⟩ := t.setPos p.1 p.2
    simp only [K.setAll, a]
    cases (K.setPos p.1 p.2 h).1 with
    | error e => exact ⟨rfl, b⟩
    | ok v => exact ih b

theorem nameIndices (t : Turned X r h g) (ns : List NodeId) (names : List String) :
    K.nameIndices g ns names = K.nameIndices h ns names := by
  induction names with
  | nil => rfl
  | cons a as ih =>
    simp only [K.nameIndices, t.name, ih]

end Turned

/-! ## The solve -/

/-- the error of a solve as seen from the other frame: the two difference vectors are turned -/
def turnError (R : Quat ℝ) : KError ℝ → KError ℝ
  | .notConverged n p w => .notConverged n (R.rotate p) (R.rotate w)
  | e => e

/-- the answer of a solve as seen from the other frame -/
def turnAnswer (R : Quat ℝ) : Except (KError ℝ) Unit → Except (KError ℝ) Unit
  | .ok v => .ok v
  | .error e => .error (turnError R e)

/-- the two runs end alike, in related heaps -/
def Alike {α β : Type} (Q : α → β → KHeap ℝ → KHeap ℝ → Prop) :
    Res (NodeImpl ℝ) α → Res (NodeImpl ℝ) β → Prop
  | .ok a h, .ok b g => Q a b h g
  | .panic m h, .panic m' g => m' = m ∧ ∀ n, (g.get n).joint.position = (h.get n).joint.position
  | _, _ => False

theorem Alike.bind {α β α' β' : Type} {Q : α → β → KHeap ℝ → KHeap ℝ → Prop}
    {Q' : α' → β' → KHeap ℝ → KHeap ℝ → Prop} {x : Res (NodeImpl ℝ) α} {y : Res (NodeImpl ℝ) β}
    {f : α → KHeap ℝ → Res (NodeImpl ℝ) α'} {k : β → KHeap ℝ → Res (NodeImpl ℝ) β'} (a : Alike Q x y)
    (b : ∀ p q h g, x = .ok p h → Q p q h g → Alike Q' (f p h) (k q g)) :
    Alike Q' (x.bind f) (y.bind k) := by
  cases x <;> cases y <;> first | exact a.elim | skip
  · exact b _ _ _ _ rfl a
  · exact a

section solve
variable {s : IkSolver ℝ} {arm : Chain} {target X : Iso ℝ} {c : Constraints} {r : NodeId} {rest : List NodeId}

omit s target c in
/-- the end pose in the other frame -/
theorem Turned.endPose {h g : KHeap ℝ} (t : Turned X r h g) (hX : X.IsRigid) (l : RootedArm h arm)
    (hr : arm.nodes = r :: rest) : K.endPose g arm.nodes = X.mul (K.endPose h arm.nodes) := by
  have nr : r ∉ rest := (List.nodup_cons.1 (hr ▸ l.nodup)).1
  rw [hr]; exact t.prod hX rest nr (hr ▸ l.rigid)

omit s target c in
/-- the columns of the Jacobian in the other frame -/
theorem Turned.jacobian {h g : KHeap ℝ} (t : Turned X r h g) (hX : X.IsRigid) (l : RootedArm h arm)
    (hr : arm.nodes = r :: rest) :
    ∃ (cols : List (V3 ℝ × V3 ℝ)) (h1 g1 : KHeap ℝ), cols.length = arm.dof ∧
      run (K.jacobian arm) h = .ok (cols.map fun p => twist p.1 p.2) h1 ∧
      run (K.jacobian arm) g = .ok (cols.map fun p => twist (X.rot.rotate p.1) (X.rot.rotate p.2)) g1 ∧
      OnlyWorld arm.nodes h h1 ∧ OnlyWorld arm.nodes g g1 := by
  have lg := t.rootedArm hX l
  have nr : r ∉ rest := (List.nodup_cons.1 (hr ▸ l.nodup)).1
  have root : K.liveParent h r = none := by
    obtain ⟨n, rs, e, x⟩ := l.root
    rw [hr] at e; cases e; exact x
  obtain ⟨jac, h1, W, e1, hW, hjac⟩ := K.jacobian_columns h l.unlocked arm l.wf r rest hr l.serial root
  obtain ⟨jac', g1, W', e1', hW', hjac'⟩ := K.jacobian_columns g lg.unlocked arm lg.wf r rest hr lg.serial
    (by rw [t.liveParent]; exact root)
  obtain ⟨ow, -⟩ := jacobian_ok arm h h1 l.unlocked jac e1
  obtain ⟨ow', -⟩ := jacobian_ok arm g g1 lg.unlocked jac' e1'
  have WW : ∀ k ∈ arm.nodes, W' k = X.mul (W k) := by
    intro k hk
    obtain ⟨pre, post, e⟩ := List.append_of_mem hk
    rw [hW _ _ _ e, hW' _ _ _ e]
    cases pre with
    | nil =>
      rw [hr] at e; cases e
      exact t.prod hX [] (by simp) (fun m hm => l.rigid m (by rw [hr]; simp at hm; simp [hm]))
    | cons a pre =>
      rw [hr] at e; cases e
      refine t.prod hX (pre ++ [k]) (fun hm => nr ?_) fun m hm => l.rigid m ?_
      · rcases List.mem_append.1 hm with x | x
        · simp [x]
        · simp at x; simp [x]
      · rw [hr]
        rcases List.mem_cons.1 hm with rfl | hm
        · simp
        · rcases List.mem_append.1 hm with x | x
          · simp [x]
          · simp at x; simp [x]
  have rW : ∀ k ∈ arm.nodes, (W k).IsRigid := by
    intro k hk
    obtain ⟨pre, post, e⟩ := List.append_of_mem hk
    rw [hW _ _ _ e]
    refine foldl_mul_rigid h _ (fun m hm => l.rigid m ?_) _ Iso.one_isRigid
    rw [e]
    rcases List.mem_append.1 hm with x | x
    · simp [x]
    · simp at x; simp [x]
  let cols : List (V3 ℝ × V3 ℝ) := arm.movableNodes.map fun k =>
    (colLin (K.endPose h arm.nodes).trans (h.get k).joint (W k), colAng (h.get k).joint (W k))
  have hj : jac = cols.map fun p => twist p.1 p.2 := by rw [hjac, List.map_map]; rfl
  have hj' : jac' = cols.map fun p => twist (X.rot.rotate p.1) (X.rot.rotate p.2) := by
    rw [hjac', List.map_map]
    refine List.map_congr_left fun k hk => ?_
    have kn := l.wf.sub k hk
    have ur : X.rot.IsUnit := hX
    have uw : (W k).rot.IsUnit := rW k kn
    simp only [Function.comp, colLin, colAng, t.jointType, WW k kn, t.endPose hX l hr]
    cases (h.get k).joint.jointType with
    | fixed => simp only [Quat.rotate_zero]
    | linear a => simp only [Quat.rotate_zero, Iso.mul, Quat.rotate_mul ur uw]
    | rotational a =>
      have sub : (X.mul (K.endPose h arm.nodes)).trans.sub (X.mul (W k)).trans =
        X.rot.rotate ((K.endPose h arm.nodes).trans.sub (W k).trans) := apply_sub X _ _
      simp only [sub]
      simp only [Iso.mul, Quat.rotate_mul ur uw, Quat.rotate_cross ur]
  exact ⟨cols, h1, g1, by simp [cols, l.wf.dof], hj ▸ e1, hj' ▸ e1', ow, ow'⟩

/-- one step -/
private theorem step_alike (inv : s.la.TurnInvariant) (i : c.Isotropic) (hX : X.IsRigid) (ign : List Nat)
    (enough : countTrue (defineOperationalSpace c) ≤ arm.dof - ign.length) {h g : KHeap ℝ}
    (l : RootedArm h arm) (hr : arm.nodes = r :: rest) (t : Turned X r h g) :
    Alike (fun a b h' g' => Turned X r h' g' ∧ SameBut h h' ∧
        (match a, b with
          | .error e, .error e' => e = .inverseMatrix ∧ e' = .inverseMatrix
          | .ok v, .ok v' => ∃ d w, v = selectFlags (defineOperationalSpace c) (twist d w) ∧
              v' = turnCol X.rot v
          | _, _ => False))
      (run (solveOneLoop s arm target (defineOperationalSpace c) ign) h)
      (run (solveOneLoop s arm (X.mul target) (defineOperationalSpace c) ign) g) := by
  have lg := t.rootedArm hX l
  have ep : ∀ {h g : KHeap ℝ}, Turned X r h g → RootedArm h arm →
      endPose g arm.nodes = X.mul (endPose h arm.nodes) := fun {h g} t l => t.endPose hX l hr
  have er : ∀ a b : Iso ℝ, calcPoseDiffWithConstraints (X.mul a) (X.mul b) (defineOperationalSpace c) =
      turnCol X.rot (calcPoseDiffWithConstraints a b (defineOperationalSpace c)) := fun a b => by
    unfold calcPoseDiffWithConstraints
    rw [calcPoseDiff_turn hX]
    exact selectFlags_turn i X.rot _ _
  obtain ⟨cols, h1, g1, lc, e1, e1', ow, ow'⟩ := t.jacobian hX l hr
  have t1 := t.onlyWorld ow ow'
  have np := nextPositions_turn s inv i ign arm.dof enough hX cols lc
    (target.trans.sub (endPose h arm.nodes).trans)
    ((endPose h arm.nodes).rot.rotationTo target.rot).scaledAxis (K.posList h arm.movableNodes)
  change nextPositions s _ ign arm.dof (cols.map fun p => twist (X.rot.rotate p.1) (X.rot.rotate p.2))
    (turnCol X.rot (calcPoseDiffWithConstraints target (endPose h arm.nodes) (defineOperationalSpace c))) _ =
    nextPositions s _ ign arm.dof (cols.map fun p => twist p.1 p.2)
      (calcPoseDiffWithConstraints target (endPose h arm.nodes) (defineOperationalSpace c)) _ at np
  rw [← er, ← ep t l, ← t.posList] at np
  rw [t.posList] at np
  have pg : (arm.movableNodes.map fun n => (g.get n).joint.position) = K.posList h arm.movableNodes :=
    t.posList _
  simp only [solveOneLoop, run_bind, run_jointPositions h l.unlocked arm l.wf,
    run_jointPositions g lg.unlocked arm lg.wf, Res.bind_ok, run_endTransform _ _ l.unlocked,
    run_endTransform _ _ lg.unlocked, e1, e1', pg, np]
  change Alike _ (Res.bind (run (ofExcept (nextPositions s _ ign arm.dof (cols.map fun p => twist p.1 p.2) _
    (K.posList h arm.movableNodes))) h1) _) _
  cases hn : nextPositions s (defineOperationalSpace c) ign arm.dof (cols.map fun p => twist p.1 p.2)
      (calcPoseDiffWithConstraints target (endPose h arm.nodes) (defineOperationalSpace c))
      (K.posList h arm.movableNodes) with
  | error m => exact ⟨rfl, t1.position⟩
  | ok re =>
    simp only [run_ofExcept_ok, Res.bind_ok]
    cases re with
    | error e =>
      refine ⟨t1, ow.moved.sameBut, ?_⟩
      have := (nextPositions_err hn).1
      exact ⟨this, this⟩
    | ok ps =>
      have u1 := ow.unlocked l.unlocked
      have u1' := ow'.unlocked lg.unlocked
      have m := moved_clamp_chain (h' := h1) l.wf ps
      have m' := moved_clamp_chain (h' := g1) lg.wf ps
      have t2 := t1.clampAll (arm.movableNodes.zip ps)
      have sb := ow.moved.sameBut.trans m.sameBut
      simp only [run_bind, run_setJointPositionsClamped _ _ _ u1, run_setJointPositionsClamped _ _ _ u1',
        Res.bind_ok, run_endTransform _ _ (m.unlocked u1), run_endTransform _ _ (m'.unlocked u1'), run_pure]
      refine ⟨t2, sb, _, _, rfl, ?_⟩
      rw [ep t2 (l.same sb)]
      exact er _ _

/-- the answers of two runs are the same up to the rotation of vectors, and so are the heaps -/
private def Answers (X : Iso ℝ) (r : NodeId) (h : KHeap ℝ) (a b : Except (KError ℝ) Unit)
    (h' g' : KHeap ℝ) : Prop :=
  b = turnAnswer X.rot a ∧ Turned X r h' g' ∧ SameBut h h'

/-- the setters do not report vectors -/
private theorem setAll_error {h : KHeap ℝ} {ps : List (NodeId × ℝ)} {e : KError ℝ} {R : Quat ℝ}
    (x : (setAll ps h).1 = .error e) : turnError R e = e := by
  have j : ∀ (j : Joint ℝ) (x : ℝ) (e : KError ℝ), (j.setJointPosition x).2 = .error e → turnError R e = e := by
    intro j x e h
    unfold Joint.setJointPosition at h
    split at h
    · cases h; rfl
    · split at h
      · split at h <;> cases h
        rfl
      · cases h
  have ml : ∀ (x : ℝ) (cs : List NodeId) (h : KHeap ℝ) (e : KError ℝ), (mimicLoop x cs h).1 = .error e →
      turnError R e = e := by
    intro x cs
    induction cs with
    | nil => intro h e y; cases y
    | cons c cs ih =>
      intro h e y
      simp only [mimicLoop] at y
      split at y
      · cases y
      · split at y
        · rename_i q; cases y; exact j _ _ _ q
        · exact ih _ _ y
  have sp : ∀ (n : NodeId) (x : ℝ) (h : KHeap ℝ) (e : KError ℝ), (setPos n x h).1 = .error e →
      turnError R e = e := by
    intro n x h e y
    simp only [setPos] at y
    split at y
    · cases y
    · split at y
      · rename_i q; cases y; exact j _ _ _ q
      · exact ml _ _ _ _ y
  induction ps generalizing h with
  | nil => cases x
  | cons p ps ih =>
    simp only [setAll] at x
    split at x
    · rename_i q; cases x; exact sp _ _ _ _ q
    · exact ih x

private theorem loop_alike (inv : s.la.TurnInvariant) (i : c.Isotropic) (hX : X.IsRigid) (ign : List Nat)
    (enough : countTrue (defineOperationalSpace c) ≤ arm.dof - ign.length) (hr : arm.nodes = r :: rest)
    (orig : List ℝ) (lo : orig.length = arm.dof) (left : Nat) (last : Option (V3 ℝ × V3 ℝ)) {h g : KHeap ℝ}
    (l : RootedArm h arm) (wf : MimicWF h) (t : Turned X r h g) :
    Alike (Answers X r h)
      (run (tryLoop s arm target (defineOperationalSpace c) ign orig left last) h)
      (run (tryLoop s arm (X.mul target) (defineOperationalSpace c) ign orig left
        (last.map fun d => (X.rot.rotate d.1, X.rot.rotate d.2))) g) := by
  induction left generalizing last h g with
  | zero =>
    have lg := t.rootedArm hX l
    obtain ⟨a, b⟩ := t.setAll (arm.movableNodes.zip orig)
    have sb := sameBut_setAll (arm.movableNodes.zip orig) h
    simp only [tryLoop, run_bind, run_setJointPositions arm orig h l.unlocked wf lo,
      run_setJointPositions arm orig g lg.unlocked (t.mimicWF wf) lo, Res.bind_ok, a]
    cases x : (setAll (arm.movableNodes.zip orig) h).1 with
    | error e => exact ⟨by simp only [turnAnswer, setAll_error x], b, sb⟩
    | ok v =>
      cases last with
      | none => exact ⟨rfl, b.position⟩
      | some d => exact ⟨rfl, b, sb⟩
  | succ left ih =>
    simp only [tryLoop, run_bind]
    refine (step_alike (target := target) inv i hX ign enough l hr t).bind ?_
    rintro (e | v) (e' | v') h1 g1 - ⟨t1, sb, m⟩
    · obtain ⟨rfl, rfl⟩ := m
      exact ⟨rfl, t1, sb⟩
    · exact m.elim
    · exact m.elim
    · obtain ⟨d, w, rfl, rfl⟩ := m
      have l1 := l.same sb
      have lg1 := t1.rootedArm hX l1
      have rc : ∀ p w : V3 ℝ, reached s (X.rot.rotate p) (X.rot.rotate w) = reached s p w := fun p w => by
        unfold reached; rw [Quat.norm_rotate hX, Quat.norm_rotate hX]
      simp only [lenRot_turn i, rc]
      split
      · simp only [run_bind, run_jointPositions h1 l1.unlocked arm l1.wf,
          run_jointPositions g1 lg1.unlocked arm lg1.wf, Res.bind_ok,
          run_setJointPositionsClamped _ _ _ l1.unlocked, run_setJointPositionsClamped _ _ _ lg1.unlocked,
          run_pure, t1.position]
        exact ⟨rfl, t1.clampAll _, sb.trans (moved_clamp_chain l1.wf _).sameBut⟩
      · have := ih (some (targetDiffToLenRotDiff (selectFlags (defineOperationalSpace c) (twist d w))
          (defineOperationalSpace c))) l1 (sb.mimicWF wf) t1
        revert this
        simp only [Option.map_some]
        generalize run (tryLoop s arm target _ ign orig left _) h1 = x
        generalize run (tryLoop s arm (X.mul target) _ ign orig left _) g1 = y
        intro this
        cases x <;> cases y <;> first | exact this.elim | skip
        · exact ⟨this.1, this.2.1, sb.trans this.2.2⟩
        · exact this

/-- the whole call -/
theorem solve_alike (inv : s.la.TurnInvariant) (i : c.Isotropic) (hX : X.IsRigid) {h g : KHeap ℝ}
    (hr : arm.nodes = r :: rest) (l : RootedArm h arm) (wf : MimicWF h) (t : Turned X r h g) :
    Alike (fun a b h' g' => b = turnAnswer X.rot a ∧ Turned X r h' g')
      (run (solveWithConstraints s arm target c) h)
      (run (solveWithConstraints s arm (X.mul target) c) g) := by
  have lg := t.rootedArm hX l
  have lo : (arm.movableNodes.map fun n => (h.get n).joint.position).length = arm.dof := by
    rw [l.wf.dof]; simp
  have inner : Alike (Answers X r h) (run (solveInternal s arm target c) h)
      (run (solveInternal s arm (X.mul target) c) g) := by
    simp only [solveInternal, run_bind, run_jointPositions h l.unlocked arm l.wf,
      run_jointPositions g lg.unlocked arm lg.wf, Res.bind_ok, t.position]
    split
    · exact ⟨rfl, t.position⟩
    · split
      · exact ⟨rfl, t, .refl h⟩
      · rename_i en
        rw [run_bind, run_bind, run_ignoredIndices _ _ _ l.unlocked, run_ignoredIndices _ _ _ lg.unlocked,
          t.nameIndices]
        cases nm : nameIndices h arm.movableNodes c.ignoredJointNames with
        | error a => exact ⟨rfl, t, .refl h⟩
        | ok is =>
          simp only [Res.bind_ok]
          refine loop_alike inv i hX _ ?_ hr _ lo _ none l wf t
          rw [List.length_mergeSort, nameIndices_length nm]
          omega
  simp only [solveWithConstraints, run_bind, run_jointPositions h l.unlocked arm l.wf,
    run_jointPositions g lg.unlocked arm lg.wf, Res.bind_ok, t.position]
  refine inner.bind ?_
  rintro a b h1 g1 - ⟨rfl, t1, sb⟩
  cases a with
  | ok v => exact ⟨rfl, t1⟩
  | error e =>
    obtain ⟨a, b⟩ := t1.setAll (arm.movableNodes.zip (arm.movableNodes.map fun n => (h.get n).joint.position))
    simp only [turnAnswer, run_bind, run_setJointPositions arm _ h1 (sb.unlocked l.unlocked) (sb.mimicWF wf) lo,
      run_setJointPositions arm _ g1 (t1.unlocked (sb.unlocked l.unlocked)) (t1.mimicWF (sb.mimicWF wf)) lo,
      Res.bind_ok, a]
    cases x : (setAll (arm.movableNodes.zip (arm.movableNodes.map fun n => (h.get n).joint.position)) h1).1 with
    | error y => exact ⟨by simp only [setAll_error x], b⟩
    | ok v => exact ⟨rfl, b⟩

end solve

/-- composing the origin of the arm with `X` -/
theorem move_origin {h : KHeap ℝ} {arm : Chain} (l : RootedArm h arm) {r : NodeId} {rest : List NodeId}
    (hr : arm.nodes = r :: rest) (X : Iso ℝ) :
    ∃ g, run (do arm.setOrigin (X.mul (← arm.origin))) h = .ok () g ∧ Turned X r h g := by
  refine ⟨h.modify r fun s => { s with joint := s.joint.setOrigin (X.mul (h.get r).joint.origin) }, ?_, ?_⟩
  · simp only [Chain.origin, Chain.setOrigin, hr, run_bind, run_Node_origin _ _ (l.unlocked r), Res.bind_ok,
      run_Node_setOrigin _ _ _ l.unlocked]
  · refine ⟨rfl, rfl, rfl, fun n => ?_⟩
    by_cases e : n = r
    · subst e
      refine ⟨none, ?_⟩
      rw [Heap.get_modify_self, if_pos rfl]; rfl
    · refine ⟨(h.get n).joint.worldTransformCache, ?_⟩
      rw [Heap.get_modify_of_ne _ _ e, if_neg e]

/-! ## The theorems -/

/-- the answers of two runs agree up to the rotation `R` of the reported difference vectors, and all joints
are where they are after the other run; or both runs panic alike.  Not satisfied by a blocked run. -/
def SameSolve (R : Quat ℝ) : Res (NodeImpl ℝ) (Except (KError ℝ) Unit) →
    Res (NodeImpl ℝ) (Except (KError ℝ) Unit) → Prop :=
  Alike fun a b h g => b = turnAnswer R a ∧ ∀ n, (g.get n).joint.position = (h.get n).joint.position

/-- **C85.**  Take a rooted non-branching arm, constraints that treat the three axes alike and linear algebra
that does not depend on the axes.  Place the robot elsewhere in the world: compose the origin of its root with
the rigid motion `X`.  Solving for the target `X * target` then gives the same answer as solving for `target`
before, with the vectors in `NotConvergedError` turned by `X`, and leaves every joint of the robot where the
other solve leaves it. -/
theorem C85_frame (h : KHeap ℝ) (s : IkSolver ℝ) (arm : Chain) (target X : Iso ℝ) (c : Constraints)
    (l : RootedArm h arm) (wf : MimicWF h) (hX : X.IsRigid) (i : c.Isotropic) (inv : s.la.TurnInvariant) :
    ∃ g, run (do arm.setOrigin (X.mul (← arm.origin))) h = .ok () g ∧
      SameSolve X.rot (run (solveWithConstraints s arm target c) h)
        (run (solveWithConstraints s arm (X.mul target) c) g) := by
  obtain ⟨r, rest, hr, -⟩ := l.root
  obtain ⟨g, e, t⟩ := move_origin l hr X
  refine ⟨g, e, ?_⟩
  have := solve_alike (target := target) inv i hX hr l wf t
  unfold SameSolve
  generalize run (solveWithConstraints s arm target c) h = x at this ⊢
  generalize run (solveWithConstraints s arm (X.mul target) c) _ = y at this ⊢
  cases x <;> cases y <;> first | exact this.elim | skip
  · exact ⟨this.1, this.2.position⟩
  · exact this

/-- In particular the target is found in the one frame exactly if it is found in the other. -/
theorem C85_found_iff (h : KHeap ℝ) (s : IkSolver ℝ) (arm : Chain) (target X : Iso ℝ) (c : Constraints)
    (l : RootedArm h arm) (wf : MimicWF h) (hX : X.IsRigid) (i : c.Isotropic) (inv : s.la.TurnInvariant)
    (g : KHeap ℝ) (e : run (do arm.setOrigin (X.mul (← arm.origin))) h = .ok () g) :
    (∃ h', run (solveWithConstraints s arm target c) h = .ok (.ok ()) h') ↔
      ∃ g', run (solveWithConstraints s arm (X.mul target) c) g = .ok (.ok ()) g' := by
  obtain ⟨g0, e0, a⟩ := C85_frame h s arm target X c l wf hX i inv
  rw [e] at e0; cases e0
  unfold SameSolve at a
  generalize run (solveWithConstraints s arm target c) h = x at a ⊢
  generalize run (solveWithConstraints s arm (X.mul target) c) g = y at a ⊢
  cases x <;> cases y <;> first | exact a.elim | skip
  · rename_i v h' v' g'
    obtain ⟨rfl, -⟩ := a
    cases v with
    | ok u => exact ⟨fun _ => ⟨g', rfl⟩, fun _ => ⟨h', rfl⟩⟩
    | error e => exact ⟨(fun ⟨_, x⟩ => by simp at x), (fun ⟨_, x⟩ => by simp [turnAnswer] at x)⟩
  · exact ⟨(fun ⟨_, x⟩ => by cases x), (fun ⟨_, x⟩ => by cases x)⟩

end

end K
