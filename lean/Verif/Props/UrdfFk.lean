import Verif.Props.Urdf
import Verif.Props.Geom
import Verif.Props.Fk
import Verif.Props.ChainSet
/-!
# C72: forward kinematics of a loaded robot description
-/

set_option linter.unusedSectionVars false

namespace K
namespace Urdf
open Prog

noncomputable section

/-! ## what the URDF format says -/

/-- the unit vector along an axis tag -/
def direction (a : V3 ℝ) : V3 ℝ := a.scale (1 / Real.sqrt (a.x * a.x + a.y * a.y + a.z * a.z))

/-- the motion of a joint at position `x`, for points in the frame of the joint -/
def motion (j : JointTag ℝ) (x : ℝ) (p : V3 ℝ) : V3 ℝ :=
  match j.kind with
  | .revolute | .continuous => turnAbout (direction j.axis) x p
  | .prismatic => p.add ((direction j.axis).scale x)
  | _ => p

/-- the point `p` of the child link of `j`, seen from its parent link: first the motion of the joint,
then roll about x, pitch about y and yaw about z, then the translation -/
def inParent (j : JointTag ℝ) (x : ℝ) (p : V3 ℝ) : V3 ℝ :=
  j.origin.xyz.add (rotZ j.origin.rpy.z (rotY j.origin.rpy.y (rotX j.origin.rpy.x (motion j x p))))

/-- the point `p` of link `l` is at `r` in the frame of the base, when the joints are at `q` -/
inductive InBase (robot : Robot ℝ) (q : String → ℝ) : String → V3 ℝ → V3 ℝ → Prop
  | base {l : String} {p : V3 ℝ} (hl : ∀ j ∈ robot.joints, j.childLink ≠ l) : InBase robot q l p p
  | joint {j : JointTag ℝ} {p r : V3 ℝ} (hj : j ∈ robot.joints)
      (b : InBase robot q j.parentLink (inParent j (q j.name) p) r) : InBase robot q j.childLink p r

/-- joints that move have an axis -/
def HasAxes (robot : Robot ℝ) : Prop := ∀ j ∈ robot.joints, j.moves → j.axis ≠ V3.zero

/-- the limits of no joint are the wrong way round -/
def LimitsOrdered (robot : Robot ℝ) : Prop := ∀ j ∈ robot.joints, j.lower ≤ j.upper

/-! ## proofs -/

theorem direction_eq (a : V3 ℝ) : axisFrom (T := ℝ) id a = direction a := by
  show (⟨a.x / _, a.y / _, a.z / _⟩ : V3 ℝ) = _
  simp only [direction, V3.scale]
  ext <;> simp [V3.norm, V3.dot, Scalar.sqrt, div_eq_mul_inv, cvV3] <;> ring

theorem LimitsOrdered.converts {robot : Robot ℝ} (o : LimitsOrdered robot) :
    ∀ j ∈ robot.joints, ∃ jt, jointFrom (T := ℝ) id j = .ok jt := by
  intro j hj
  rcases (o j hj).eq_or_lt with e | e
  · obtain ⟨jt, x, _⟩ := (C33_limits_real j).1 e; exact ⟨jt, x⟩
  · obtain ⟨jt, x, _⟩ := (C33_limits_real j).2.1 e; exact ⟨jt, x⟩

theorem converted {t : JointTag ℝ} {j : Joint ℝ} (e : jointFrom (T := ℝ) id t = .ok j) :
    Converted (T := ℝ) id t j := by
  obtain ⟨q1, q2, q3⟩ := C33_joint (T := ℝ) id t
  cases e1 : Scalar.eq (t.upper - t.lower) 0 with
  | true => obtain ⟨j', z1, z2, _⟩ := q1 e1; rw [e] at z1; cases z1; exact z2
  | false =>
    cases e2 : Scalar.le (id t.lower : ℝ) (id t.upper) with
    | true => obtain ⟨j', z1, z2, _⟩ := q2 e1 e2; rw [e] at z1; cases z1; exact z2
    | false => obtain ⟨m, z⟩ := q3 e1 e2; rw [e] at z; cases z

/-- a joint that came from tag `t`, whatever position it has now -/
theorem local_apply {t : JointTag ℝ} {j : Joint ℝ} (c : Converted (T := ℝ) id t j)
    (ax : t.moves → t.axis ≠ V3.zero) (x : ℝ) (wt : Option (Iso ℝ)) (wv : Option (Velocity ℝ)) :
    ({ j with position := x, worldTransformCache := wt, worldVelocityCache := wv } :
        Joint ℝ).localTransform.IsRigid ∧
    ∀ p, ({ j with position := x, worldTransformCache := wt, worldVelocityCache := wv } :
        Joint ℝ).localTransform.apply p = inParent t x p := by
  have org : j.origin = isometryFrom (T := ℝ) id t.origin := Iso.ext c.translation c.rotation
  obtain ⟨ro, -⟩ := C36_isometry t.origin V3.zero
  have oa : ∀ v, j.origin.apply v =
      t.origin.xyz.add (rotZ t.origin.rpy.z (rotY t.origin.rpy.y (rotX t.origin.rpy.x v))) := by
    intro v; rw [org]; exact (C36_isometry t.origin v).2
  have rj : ({ j with position := x, worldTransformCache := wt, worldVelocityCache := wv } :
      Joint ℝ).IsRigid := by
    refine ⟨by rw [← org] at ro; exact ro, ?_⟩
    by_cases k1 : t.kind = .revolute ∨ t.kind = .continuous
    · simp only [c.turning k1]
      exact (C33_axis t.axis (ax (by rcases k1 with k | k <;> simp [JointTag.moves, k]))).1
    · by_cases k3 : t.kind = .prismatic
      · simp only [c.sliding k3]
        exact (C33_axis t.axis (ax (by simp [JointTag.moves, k3]))).1
      · simp only [not_or] at k1
        simp only [c.rest k1.1 k1.2 k3]
  refine ⟨Joint.localTransform_isRigid rj, fun p => ?_⟩
  by_cases k1 : t.kind = .revolute ∨ t.kind = .continuous
  · rw [C48_rotation _ rj _ (c.turning k1)]
    show j.origin.apply _ = _
    rw [oa, inParent, motion, direction_eq]
    rcases k1 with k | k <;> rw [k] <;> rfl
  · by_cases k3 : t.kind = .prismatic
    · rw [C48_linear _ rj _ (c.sliding k3)]
      show j.origin.apply _ = _
      rw [oa, inParent, motion, direction_eq, k3]
    · simp only [not_or] at k1
      rw [C48_fixed _ rj (c.rest k1.1 k1.2 k3)]
      show j.origin.apply _ = _
      rw [oa, inParent, motion]
      cases k : t.kind <;> simp_all

theorem _root_.K.SameBut.liveParent' {h h' : KHeap ℝ} (s : SameBut h h') (n : NodeId) :
    liveParent h' n = liveParent h n := by
  unfold K.liveParent; rw [s.parent, s.dead]

theorem inParent_still {j : JointTag ℝ} (hm : ¬ j.moves) (x y : ℝ) (p : V3 ℝ) :
    inParent j x p = inParent j y p := by
  unfold inParent motion
  cases k : j.kind <;> first | rfl | exact absurd (by simp [JointTag.moves, k]) hm

theorem world_root {robot : Robot ℝ} {h h' : KHeap ℝ} {c : Chain} {root : NodeId}
    {node : String → NodeId} (t : TreeOf (T := ℝ) id robot h c root node) (sb : SameBut h h')
    {X : Iso ℝ} (w : World h' root X) : X.IsRigid ∧ ∀ p, X.apply p = p := by
  have ty : (h.get root).joint.jointType = .fixed := by rw [t.rootJoint]; rfl
  have og : (h.get root).joint.origin = Iso.one := by rw [t.rootJoint]; rfl
  obtain ⟨x, wt, wv, e⟩ := sb.node root
  have ty' : (h'.get root).joint.jointType = .fixed := by rw [e]; exact ty
  have og' : (h'.get root).joint.origin = Iso.one := by rw [e]; exact og
  have r : (h'.get root).joint.IsRigid := ⟨by rw [og']; exact Iso.one_isRigid, by rw [ty']; trivial⟩
  cases w with
  | root _ =>
    refine ⟨Iso.one_isRigid.mul (Joint.localTransform_isRigid r), fun p => ?_⟩
    have one : ∀ v : V3 ℝ, (Iso.one : Iso ℝ).apply v = v := by
      intro v
      rw [Iso.apply, Iso.one, Quat.rotate_one]
      ext <;> simp [V3.add, V3.zero]
    rw [Iso.apply_mul Iso.one_isRigid (Joint.localTransform_isRigid r), one, C48_fixed _ r ty', og',
      one]
  | step e' _ => rw [sb.liveParent', liveParent, t.rootParent] at e'; cases e'

theorem world_inBase {robot : Robot ℝ} {h h' : KHeap ℝ} {c : Chain} {root : NodeId}
    {node : String → NodeId} (t : TreeOf (T := ℝ) id robot h c root node) (ax : HasAxes robot)
    (sb : SameBut h h') (q : String → ℝ)
    (hq : ∀ j ∈ robot.joints, j.moves → (h'.get (node j.name)).joint.position = q j.name)
    {n : NodeId} {X : Iso ℝ} (w : World h' n X) :
    ∀ j ∈ robot.joints, n = node j.name →
      X.IsRigid ∧ ∀ p, InBase robot q j.childLink p (X.apply p) := by
  have loc : ∀ j ∈ robot.joints, (h'.get (node j.name)).joint.localTransform.IsRigid ∧
      ∀ p, (h'.get (node j.name)).joint.localTransform.apply p = inParent j (q j.name) p := by
    intro j hj
    obtain ⟨x, wt, wv, e⟩ := sb.node (node j.name)
    obtain ⟨a, b⟩ := local_apply (converted (t.joint j hj)) (ax j hj) x wt wv
    have ej : (h'.get (node j.name)).joint = { (h.get (node j.name)).joint with
      position := x, worldTransformCache := wt, worldVelocityCache := wv } := by rw [e]
    rw [ej]
    refine ⟨a, fun p => ?_⟩
    rw [b]
    by_cases hm : j.moves
    · rw [← hq j hj hm, ej]
    · exact inParent_still hm _ _ p
  have top : ∀ j ∈ robot.joints, liveParent h' (node j.name) = some root ∨
      ∃ k ∈ robot.joints, k.childLink = j.parentLink ∧
        liveParent h' (node j.name) = some (node k.name) := by
    intro j hj
    by_cases hk : ∀ k ∈ robot.joints, k.childLink ≠ j.parentLink
    · exact .inl (by rw [sb.liveParent']; exact t.parentRoot j hj hk)
    · simp only [not_forall, not_not] at hk
      obtain ⟨k, hk, e⟩ := hk
      exact .inr ⟨k, hk, e, by rw [sb.liveParent']; exact t.parent j hj k hk e⟩
  induction w with
  | @root n e =>
    rintro j hj rfl
    rcases top j hj with z | ⟨k, _, _, z⟩ <;> rw [z] at e <;> cases e
  | @step n p X e w ih =>
    rintro j hj rfl
    obtain ⟨a, b⟩ := loc j hj
    by_cases hk : ∃ k ∈ robot.joints, k.childLink = j.parentLink
    · obtain ⟨k, hk, ek⟩ := hk
      have ep : p = node k.name := by
        have := t.parent j hj k hk ek
        rw [← sb.liveParent', e] at this
        cases this; rfl
      obtain ⟨c, d⟩ := ih k hk ep
      refine ⟨c.mul a, fun v => .joint hj ?_⟩
      rw [Iso.apply_mul c a, b, ← ek]
      exact d _
    · simp only [not_exists, not_and] at hk
      have ep : p = root := by
        have := t.parentRoot j hj hk
        rw [← sb.liveParent', e] at this
        cases this; rfl
      subst ep
      obtain ⟨c, d⟩ := world_root t sb w
      refine ⟨c.mul a, fun v => .joint hj ?_⟩
      rw [Iso.apply_mul c a, b, d]
      exact .base hk

/-- a point of a link has only one place -/
theorem InBase.unique {robot : Robot ℝ} (one : (robot.joints.map (·.childLink)).Nodup)
    {q : String → ℝ} {l : String} {p r s : V3 ℝ} (a : InBase robot q l p r) (b : InBase robot q l p s) :
    r = s := by
  induction a with
  | @base l p hl =>
    generalize e : l = l' at b
    cases b with
    | base _ => rfl
    | joint hj _ => exact absurd e.symm (hl _ hj)
  | @joint j p r hj _ ih =>
    generalize e : j.childLink = l' at b
    cases b with
    | base hl => exact absurd e (hl j hj)
    | @joint k _ _ hk b =>
      have : j = k := List.inj_on_of_nodup_map one hj hk e
      subst this
      exact ih b

/-- mimic tags name joints that move and that have no mimic tag themselves -/
def DirectMimics (robot : Robot ℝ) : Prop :=
  ∀ j ∈ robot.joints, ∀ m, j.mimic = some m → ∀ k ∈ robot.joints, k.name = m.joint →
    k.moves ∧ k.mimic = none

/-- in state `h` the mimic lists only hold allocated nodes -/
def MimicsAllocated (h : KHeap ℝ) : Prop := ∀ m c, c ∈ (h.get m).mimicChildren → c < h.next

theorem liveMimic_some {h : KHeap ℝ} {n m : NodeId} (e : liveMimic h n = some m) :
    (h.get n).mimicParent = some m := by
  unfold liveMimic at e
  split at e
  · split at e
    · cases e
    · rename_i e' _; rw [e']; exact e
  · cases e

theorem TreeOf.oneLevel {robot : Robot ℝ} {h h1 : KHeap ℝ} {c : Chain} {root : NodeId}
    {node : String → NodeId} (v : ValidTree robot) (t : TreeOf (T := ℝ) id robot h1 c root node)
    (dm : DirectMimics robot) (o : OneLevel h) (al : MimicsAllocated h)
    (new : ∀ n ∈ c.nodes, h.next ≤ n) (old : ∀ n, n ∉ c.nodes → h1.get n = h.get n) :
    OneLevel h1 := by
  intro m k hk
  by_cases hm : m ∈ c.nodes
  · rcases List.mem_cons.1 (t.nodes.mem_iff.1 hm) with rfl | hm
    · rw [t.rootFollowers] at hk; cases hk
    · obtain ⟨j, hj, rfl⟩ := List.mem_map.1 hm
      rw [t.followers j hj] at hk
      obtain ⟨f, hf, rfl⟩ := List.mem_map.1 hk
      obtain ⟨hf, ef⟩ := List.mem_filter.1 hf
      simp only [beq_iff_eq, Option.map_eq_some_iff] at ef
      obtain ⟨mt, em, ej⟩ := ef
      obtain ⟨a, b⟩ := t.mimic f hf mt em
      refine ⟨by rw [liveMimic_some a, ej], by rw [b]; rfl, ?_⟩
      exact (t.noMimic j hj (dm f hf mt em j hj ej.symm).2).1
  · rw [old m hm] at hk ⊢
    have lt := al m k hk
    rw [old k (fun z => by have := new k z; omega)]
    exact o m k hk

theorem TreeOf.movable {robot : Robot ℝ} {h1 : KHeap ℝ} {c : Chain} {root : NodeId}
    {node : String → NodeId} (t : TreeOf (T := ℝ) id robot h1 c root node) {j : JointTag ℝ}
    (hj : j ∈ robot.joints) (hm : j.moves) : node j.name ∈ c.movableNodes := by
  rw [t.wf.movable, List.mem_filter]
  refine ⟨t.nodes.mem_iff.2 (List.mem_cons_of_mem _ (List.mem_map_of_mem (f := fun j => node j.name) hj)), ?_⟩
  have cx := converted (t.joint j hj)
  rw [decide_eq_true_iff, Movable]
  rcases hm with k | k | k
  · rw [cx.turning (.inl k)]; simp
  · rw [cx.turning (.inr k)]; simp
  · rw [cx.sliding k]; simp

/-- every link is where the file says, for joint positions `q`: `update_transforms()` returns and the
`world_transform()` of the node of each joint maps the points of its child link to their place in the
frame of the base -/
def PosesAt (robot : Robot ℝ) (c : Chain) (node : String → NodeId) (q : String → ℝ) (h : KHeap ℝ) :
    Prop :=
  ∃ Xs h', run c.updateTransforms h = .ok Xs h' ∧
    ∀ j ∈ robot.joints, ∃ X, run (Node.worldTransform (node j.name)) h' = .ok (some X) h' ∧
      ∀ p, InBase robot q j.childLink p (X.apply p)

/-- **C72**.  `Chain::from(robot)` followed by `set_joint_positions(xs)` (from any joint state) and
`update_transforms()`: every joint of the file has a node with its name, every joint without a mimic tag
is at its entry of `xs`, every joint with a mimic tag at `multiplier * master + offset` (default 1 and
0), and every link is placed as the URDF format says.  Directly after loading all joints are at 0, also
those whose mimic tag has an offset. -/
theorem C72_poses (robot : Robot ℝ) (v : ValidTree robot) (ax : HasAxes robot)
    (lo : LimitsOrdered robot) (dm : DirectMimics robot) (h : KHeap ℝ) (u : h.Unlocked) (f : Forest h)
    (o : OneLevel h) (al : MimicsAllocated h) :
    ∃ (h1 : KHeap ℝ) (c : Chain) (node : String → NodeId),
      (∀ fuel, h.next + robot.joints.length + 2 ≤ fuel →
        run (chainFrom (T := ℝ) fuel id robot) h = .ok c h1) ∧
      (∀ j ∈ robot.joints, node j.name ∈ c.nodes ∧ (h1.get (node j.name)).joint.name = j.name ∧
        (j.moves → node j.name ∈ c.movableNodes)) ∧
      PosesAt robot c node (fun _ => 0) h1 ∧
      ∀ h2, SameBut h1 h2 →
        PosesAt robot c node (fun s => (h2.get (node s)).joint.position) h2 ∧
        ∀ xs h3, run (c.setJointPositions xs) h2 = .ok (.ok ()) h3 → SameBut h1 h3 ∧
          ∃ q : String → ℝ, PosesAt robot c node q h3 ∧
            (∀ j ∈ robot.joints, j.mimic = none → ∀ i : Nat, c.movableNodes[i]? = some (node j.name) →
              xs[i]? = some (q j.name)) ∧
            (∀ j ∈ robot.joints, ∀ m, j.mimic = some m →
              q j.name = q m.joint * m.multiplier.getD 1 + m.offset.getD 0) := by
  obtain ⟨h1, c, root, node, r, t, f1, u1, new, old, -⟩ := C32_tree (T := ℝ) id robot v lo.converts h u f
  have o1 := t.oneLevel v dm o al (fun n hn => (new n hn).1) (fun n hn => (old n hn).1)
  have memN : ∀ j ∈ robot.joints, node j.name ∈ c.nodes := fun j hj =>
    t.nodes.mem_iff.2 (List.mem_cons_of_mem _ (List.mem_map_of_mem (f := fun j => node j.name) hj))
  have poses : ∀ h2, SameBut h1 h2 → ∀ q : String → ℝ,
      (∀ j ∈ robot.joints, j.moves → (h2.get (node j.name)).joint.position = q j.name) →
      PosesAt robot c node q h2 := by
    intro h2 sb q hq
    have u2 : h2.Unlocked := fun n => by rw [sb.held]; exact u1 n
    have pa : ParentsAhead h2 c.nodes := by
      intro pre n post e
      rw [sb.liveParent']
      rcases t.parentsFirst pre n post e with rfl | ⟨p, hp, ep⟩
      · left; rw [liveParent, t.rootParent]
      · by_cases hd : h1.dead p
        · left; simp [liveParent, ep, hd]
        · right; exact ⟨p, hp, by simp [liveParent, ep, hd]⟩
    obtain ⟨Xs, h3, e, -, w, -, -⟩ := C12_update_transforms h2 u2 c pa
    refine ⟨Xs, h3, e, fun j hj => ?_⟩
    obtain ⟨X, wX, rX⟩ := w _ (memN j hj)
    exact ⟨X, rX, (world_inBase t ax sb q hq wX j hj rfl).2⟩
  refine ⟨h1, c, node, r, fun j hj => ⟨memN j hj, (converted (t.joint j hj)).name, t.movable hj⟩, ?_,
    fun h2 sb => ⟨poses h2 sb _ fun _ _ _ => rfl, ?_⟩⟩
  · exact poses h1 (SameBut.refl h1) _ fun j hj _ => (converted (t.joint j hj)).position
  · intro xs h3 ok
    have u2 : h2.Unlocked := fun n => by rw [sb.held]; exact u1 n
    have w2 := sb.chainWf t.wf
    obtain ⟨len, eff, -, sb3⟩ := C07_set_effect h2 h3 u2 (sb.oneLevel o1) c w2 t.once xs ok
    have sb13 := sb.trans sb3
    have pos : ∀ n x, posOf h3 n = some x → (h3.get n).joint.position = x := by
      intro n x e
      unfold posOf Joint.jointPosition at e
      split at e
      · cases e
      · injection e
    refine ⟨sb13, fun s => (h3.get (node s)).joint.position, poses h3 sb13 _ fun _ _ _ => rfl, ?_, ?_⟩
    · intro j hj hm i hi
      have lt : i < xs.length := by
        rw [len, w2.dof]; exact (List.getElem?_eq_some_iff.1 hi).1
      have hz : (node j.name, xs[i]) ∈ c.movableNodes.zip xs := by
        refine List.mem_iff_getElem?.2 ⟨i, ?_⟩
        rw [List.getElem?_zip_eq_some]
        exact ⟨hi, List.getElem?_eq_getElem lt⟩
      have := (eff _ _ hz (by rw [sb.mimicParent]; exact (t.noMimic j hj hm).1)).1
      rw [List.getElem?_eq_getElem lt]
      exact congrArg some (pos _ _ this).symm
    · intro j hj m hm
      obtain ⟨k, hk, ek⟩ := v.masters j hj m hm
      obtain ⟨mv, km⟩ := dm j hj m hm k hk ek
      obtain ⟨i, hi⟩ := List.mem_iff_getElem?.1 (t.movable hk mv)
      have lt : i < xs.length := by
        rw [len, w2.dof]; exact (List.getElem?_eq_some_iff.1 hi).1
      have hz : (node k.name, xs[i]) ∈ c.movableNodes.zip xs := by
        refine List.mem_iff_getElem?.2 ⟨i, ?_⟩
        rw [List.getElem?_zip_eq_some]
        exact ⟨hi, List.getElem?_eq_getElem lt⟩
      obtain ⟨e1, e2⟩ := eff _ _ hz (by rw [sb.mimicParent]; exact (t.noMimic k hk km).1)
      obtain ⟨mi, e3, e4⟩ := e2 (node j.name) (by
        rw [sb.mimicChildren, t.followers k hk]
        exact List.mem_map.2 ⟨j, List.mem_filter.2 ⟨hj, by simp [hm, ek]⟩, rfl⟩)
      rw [sb.mimic, (t.mimic j hj m hm).2] at e3
      cases e3
      beta_reduce
      rw [pos _ _ e4, ← ek, pos _ _ e1]
      exact C33_mimic_real m xs[i]

/-- **C72** on the branching robot (`lift` 1 above the base, `left` and `right` 1 to the sides turning
about y, `right` mimics `left` with multiplier -1): with `lift` at 1, `left` at `a` the point `(1,0,0)` of
the right hand is at `(cos a, -1, 2 + sin a)`. -/
example (a : ℝ) (q : String → ℝ) (q1 : q "lift" = 1) (q2 : q "left" = a) (q3 : q "right" = -a) :
    InBase exRobot q "rhand" ⟨1, 0, 0⟩ ⟨Real.cos a, -1, 2 + Real.sin a⟩ := by
  have e1 : direction ⟨0, 1, 0⟩ = ⟨0, 1, 0⟩ := by simp [direction, V3.scale]
  have e2 : direction ⟨0, 0, 1⟩ = ⟨0, 0, 1⟩ := by simp [direction, V3.scale]
  refine .joint (j := ⟨"right", .revolute, ⟨⟨0, -1, 0⟩, ⟨0, 0, 0⟩⟩, "torso", "rhand", ⟨0, 1, 0⟩, -1, 1,
      some ⟨"left", some (-1), none⟩⟩) (by simp [exRobot]) ?_
  refine .joint (j := ⟨"lift", .prismatic, ⟨⟨0, 0, 1⟩, ⟨0, 0, 0⟩⟩, "base", "torso", ⟨0, 0, 1⟩, 0, 2, none⟩)
    (by simp [exRobot]) ?_
  have e : inParent ⟨"lift", .prismatic, ⟨⟨0, 0, 1⟩, ⟨0, 0, 0⟩⟩, "base", "torso", ⟨0, 0, 1⟩, 0, 2, none⟩
      (q "lift") (inParent ⟨"right", .revolute, ⟨⟨0, -1, 0⟩, ⟨0, 0, 0⟩⟩, "torso", "rhand", ⟨0, 1, 0⟩,
        -1, 1, some ⟨"left", some (-1), none⟩⟩ (q "right") ⟨1, 0, 0⟩) =
      ⟨Real.cos a, -1, 2 + Real.sin a⟩ := by
    simp only [inParent, motion, e1, e2, q1, q3]
    ext <;> simp [turnAbout, V3.add, V3.scale, V3.cross, V3.dot, rotX, rotY, rotZ]
    ring
  rw [e]
  exact .base (by simp [exRobot])

/-- the branching robot meets the hypotheses of **C72** -/
example (h : KHeap ℝ) (u : h.Unlocked) (f : Forest h) (o : OneLevel h) (al : MimicsAllocated h) :
    ∃ (h1 : KHeap ℝ) (c : Chain) (node : String → NodeId),
      (∀ fuel, h.next + 5 ≤ fuel → run (chainFrom (T := ℝ) fuel id exRobot) h = .ok c h1) ∧
      PosesAt exRobot c node (fun _ => 0) h1 := by
  obtain ⟨h1, c, node, a, _, b, _⟩ := C72_poses exRobot exRobot_valid
    (by intro j hj _; simp only [exRobot, List.mem_cons, List.not_mem_nil, or_false] at hj
        rcases hj with rfl | rfl | rfl <;> simp [V3.zero])
    (by intro j hj; simp only [exRobot, List.mem_cons, List.not_mem_nil, or_false] at hj
        rcases hj with rfl | rfl | rfl <;> norm_num)
    (by intro j hj m hm k hk e
        simp only [exRobot, List.mem_cons, List.not_mem_nil, or_false] at hj hk
        rcases hj with rfl | rfl | rfl <;> cases hm
        rcases hk with rfl | rfl | rfl <;> simp_all [JointTag.moves])
    h u f o al
  exact ⟨h1, c, node, fun fuel hf => a fuel (by simpa [exRobot] using hf), b⟩

end
end Urdf
end K
