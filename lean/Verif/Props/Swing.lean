import Verif.Spec.Swing
import Verif.Props.Com
import Verif.Props.Geom
import Verif.Props.Reach
import Verif.Props.IkConverge
import Verif.Props.JacobianMimic
import Verif.Lemmas.Deriv
/-!
# C99: moving one joint swings everything below it about its axis
-/

namespace K
open Prog

noncomputable section

/-! ## geometry -/

/-- turning about a turned axis -/
theorem Quat.fromAxisAngle_turned {q : Quat ℝ} (hq : q.IsUnit) (a : V3 ℝ) (x : ℝ) :
    (Quat.fromAxisAngle (q.rotate a) x).mul q = q.mul (Quat.fromAxisAngle a x) := by
  rw [Quat.rotate_eq hq]
  have h : q.w * q.w + q.i * q.i + q.j * q.j + q.k * q.k = 1 := hq
  ext <;> simp only [Quat.fromAxisAngle, Quat.mul, Quat.matRotate]
  · linear_combination (-(Scalar.sin (x / (1 + 1))) * (q.i * a.x + q.j * a.y + q.k * a.z)) * h
  · linear_combination (Scalar.sin (x / (1 + 1)) * (q.w * a.x + q.j * a.z - q.k * a.y)) * h
  · linear_combination (Scalar.sin (x / (1 + 1)) * (q.w * a.y + q.k * a.x - q.i * a.z)) * h
  · linear_combination (Scalar.sin (x / (1 + 1)) * (q.w * a.z + q.i * a.y - q.j * a.x)) * h

theorem V3.IsUnit.rotate {q : Quat ℝ} (hq : q.IsUnit) {a : V3 ℝ} (ha : a.IsUnit) : (q.rotate a).IsUnit := by
  have := Quat.rotate_dot hq a a
  simp only [V3.dot] at this
  simp only [V3.IsUnit] at ha ⊢
  rw [this]; exact ha

theorem jointMotion_rigid {X : Iso ℝ} (hX : X.IsRigid) {j : Joint ℝ} (hj : j.IsRigid) (x : ℝ) :
    (jointMotion X j.jointType x).IsRigid := by
  have h2 := hj.2
  unfold jointMotion
  cases e : j.jointType with
  | fixed => exact Iso.one_isRigid
  | rotational a =>
    rw [e] at h2
    exact Quat.fromAxisAngle_isUnit (V3.IsUnit.rotate hX h2) x
  | linear a => exact Quat.one_isUnit

/-- the pose of a joint at another position is its motion applied to the pose -/
theorem jointMotion_mul {F : Iso ℝ} (hF : F.IsRigid) {j : Joint ℝ} (hj : j.IsRigid) (q q' : ℝ) :
    F.mul (j.at q').localTransform =
      (jointMotion (F.mul (j.at q).localTransform) j.jointType (q' - q)).mul (F.mul (j.at q).localTransform) := by
  have h2 := hj.2
  have assoc : ∀ x, F.mul (j.at x).localTransform = (F.mul j.origin).mul (j.at x).jointTransform :=
    fun x => (Iso.mul_assoc' hF hj.1 _).symm
  simp only [assoc]
  have hG : (F.mul j.origin).IsRigid := hF.mul hj.1
  generalize F.mul j.origin = G at hG
  have hG' : G.rot.IsUnit := hG
  unfold jointMotion Joint.jointTransform
  cases e : j.jointType with
  | fixed =>
    have e' : ∀ x, (j.at x).jointType = .fixed := fun x => e
    simp only [e', Iso.one_mul']
  | rotational a =>
    rw [e] at h2
    have ha : a.IsUnit := h2
    have e' : ∀ x, (j.at x).jointType = .rotational a := fun x => e
    have p' : ∀ x, (j.at x).position = x := fun x => rfl
    simp only [e', p', Iso.mul, Iso.turnAbout]
    have z : G.rot.rotate (⟨0, 0, 0⟩ : V3 ℝ) = V3.zero := Quat.rotate_zero _
    rw [z, V3.add_zero', Quat.rotate_mul hG' (Quat.fromAxisAngle_isUnit ha q), fromAxisAngle_rotate_axis]
    refine Iso.ext ?_ ?_
    · ext <;> simp only [V3.add, V3.sub] <;> ring
    · simp only []
      rw [← Quat.mul_assoc', Quat.fromAxisAngle_turned hG', Quat.mul_assoc', ← fromAxisAngle_add ha]
      rw [show q' - q + q = q' by ring]
  | linear a =>
    have e' : ∀ x, (j.at x).jointType = .linear a := fun x => e
    have p' : ∀ x, (j.at x).position = x := fun x => rfl
    simp only [e', p', Iso.mul, Iso.shiftAlong, Quat.mul_one', Quat.one_mul', Quat.rotate_one, Quat.rotate_scale]
    refine Iso.ext ?_ rfl
    ext <;> simp only [V3.add, V3.scale] <;> ring

/-! ## the tree -/

/-- between the states `h` and `h'` the joint of node `k` moved from `q` to `q'` and no other joint moved -/
structure JointMoved (h h' : KHeap ℝ) (k : NodeId) (q q' : ℝ) : Prop where
  same : SameBut h h'
  was : posOf h k = some q
  now : posOf h' k = some q'
  others : ∀ n, n ≠ k → posOf h' n = posOf h n

theorem posOf_position {h : KHeap ℝ} {n : NodeId} {q : ℝ} (e : posOf h n = some q) : (h.get n).joint.at q = (h.get n).joint := by
  unfold posOf Joint.jointPosition at e
  split at e <;> simp at e
  all_goals (subst e; rfl)

theorem JointMoved.local_ne {h h' : KHeap ℝ} {k : NodeId} {q q' : ℝ} (m : JointMoved h h' k q q') {n : NodeId} (ne : n ≠ k) :
    (h'.get n).joint.localTransform = (h.get n).joint.localTransform := by
  have e := m.others n ne
  obtain ⟨p, wt, wv, eq⟩ := m.same.node n
  cases hp : posOf h n with
  | some y =>
    rw [m.same.local_pos (e.trans hp), posOf_position hp]
  | none =>
    rw [eq]
    unfold posOf Joint.jointPosition at hp
    unfold Joint.localTransform Joint.jointTransform
    split at hp <;> simp_all

theorem JointMoved.local_eq {h h' : KHeap ℝ} {k : NodeId} {q q' : ℝ} (m : JointMoved h h' k q q') :
    (h'.get k).joint.localTransform = ((h.get k).joint.at q').localTransform := m.same.local_pos m.now

theorem Hangs.trans {h : KHeap ℝ} {a b c : NodeId} (x : Hangs h a b) (y : Hangs h b c) : Hangs h a c := by
  induction y with
  | refl => exact x
  | step _ e ih => exact .step ih e

theorem World.acyclic {h : KHeap ℝ} {n : NodeId} {X : Iso ℝ} (w : World h n X) :
    ∀ {p : NodeId}, liveParent h n = some p → ¬ Hangs h n p := by
  induction w with
  | root e => intro p e'; rw [e] at e'; cases e'
  | @step n p' X e w ih =>
    intro p e' hh
    rw [e] at e'; cases e'
    cases hh with
    | refl => exact ih e .refl
    | step b e2 => exact ih e2 ((Hangs.step .refl e).trans b)

/-- everything that hangs on `k` moves with it -/
theorem World.swung {h h' : KHeap ℝ} {k : NodeId} {q q' : ℝ} (m : JointMoved h h' k q q') {ns : List NodeId}
    (cl : ∀ n p, n ∈ ns → liveParent h n = some p → p ∈ ns) (ar : AllRigid h ns) {K : Iso ℝ} (wk : World h k K)
    (hk : k ∈ ns) {n : NodeId} (hn : n ∈ ns) {Y : Iso ℝ} (w : World h n Y) :
    (Hangs h k n → World h' n ((jointMotion K (h.get k).joint.jointType (q' - q)).mul Y)) ∧
      (¬ Hangs h k n → World h' n Y) := by
  have hS := jointMotion_rigid (wk.rigid ns cl ar hk) (ar k hk) (q' - q)
  have lp := fun n => m.same.liveParent n
  induction w with
  | @root n e =>
    by_cases ne : n = k
    · subst ne
      refine ⟨fun _ => ?_, fun nh => absurd .refl nh⟩
      have := World.root (h := h) e
      rw [wk.unique this]
      have a := jointMotion_mul Iso.one_isRigid (ar n hn) q q'
      rw [posOf_position m.was] at a
      rw [← a, ← m.local_eq]
      exact .root (by rw [lp]; exact e)
    · refine ⟨fun hh => ?_, fun _ => ?_⟩
      · cases hh with
        | refl => exact absurd rfl ne
        | step _ e' => rw [e] at e'; cases e'
      · rw [← m.local_ne ne]
        exact .root (by rw [lp]; exact e)
  | @step n p Y e w ih =>
    have hp := cl _ _ hn e
    have rY := w.rigid ns cl ar hp
    by_cases ne : n = k
    · subst ne
      refine ⟨fun _ => ?_, fun nh => absurd .refl nh⟩
      have np : ¬ Hangs h n p := (World.step e w).acyclic e
      rw [wk.unique (World.step e w)]
      have a := jointMotion_mul rY (ar n hn) q q'
      rw [posOf_position m.was] at a
      rw [← a, ← m.local_eq]
      exact .step (by rw [lp]; exact e) ((ih hp).2 np)
    · refine ⟨fun hh => ?_, fun nh => ?_⟩
      · cases hh with
        | refl => exact absurd rfl ne
        | step b e' =>
          rw [e] at e'; cases e'
          rw [← Iso.mul_assoc' hS rY, ← m.local_ne ne]
          exact .step (by rw [lp]; exact e) ((ih hp).1 b)
      · rw [← m.local_ne ne]
        exact .step (by rw [lp]; exact e) ((ih hp).2 fun b => nh (.step b e))

/-! ## what the calls answer -/

theorem forall₂_getElem? {α β : Type} {R : α → β → Prop} {as : List α} {bs : List β} (f : List.Forall₂ R as bs) :
    ∀ {i : Nat} {a : α} {b : β}, as[i]? = some a → bs[i]? = some b → R a b := by
  induction f with
  | nil => intro i a b e; simp at e
  | cons r _ ih =>
    intro i a b e e'
    cases i with
    | zero => simp at e e'; subst e; subst e'; exact r
    | succ i => simp at e e'; exact ih e e'

/-- **C99.**  Between two states of a robot the joint `k` moved from `q` to `q'` and no other joint did.  For a chain
that lists every node after its parent and has `k` in it, both calls of `update_transforms` return; every pose that
hangs on `k` — that of `k` itself, of its children, of their children — answered in the second state is the motion of
space of the joint (`jointMotion`: the turn by `q' - q` about the axis of the joint in the world, or the shift along
it) applied to the pose answered in the first state, and every other pose is answered unchanged. -/
theorem C99_transforms (h h' : KHeap ℝ) (u : h.Unlocked) (c : Chain) (pa : ParentsAhead h c.nodes)
    (ar : AllRigid h c.nodes) (k : NodeId) (hk : k ∈ c.nodes) (q q' : ℝ) (m : JointMoved h h' k q q') :
    ∃ Xs g Ys g', run c.updateTransforms h = .ok Xs g ∧ run c.updateTransforms h' = .ok Ys g' ∧
      Xs.length = c.nodes.length ∧ Ys.length = c.nodes.length ∧
      ∀ (i j : Nat) (n : NodeId) (X K : Iso ℝ), c.nodes[i]? = some k → Xs[i]? = some K →
        c.nodes[j]? = some n → Xs[j]? = some X →
        (Hangs h k n → Ys[j]? = some ((jointMotion K (h.get k).joint.jointType (q' - q)).mul X)) ∧
        (¬ Hangs h k n → Ys[j]? = some X) := by
  have u' := m.same.unlocked u
  have pa' : ParentsAhead h' c.nodes := fun pre n post e => by rw [m.same.liveParent]; exact pa pre n post e
  obtain ⟨Xs, g, e, w, -, -, -⟩ := C12_update_transforms h u c pa
  obtain ⟨Ys, g', e', w', -, -, -⟩ := C12_update_transforms h' u' c pa'
  refine ⟨Xs, g, Ys, g', e, e', w.length_eq.symm, w'.length_eq.symm, ?_⟩
  intro i j n X K ik iK jn jX
  have wk : World h k K := forall₂_getElem? w ik iK
  have wX : World h n X := forall₂_getElem? w jn jX
  have hn : n ∈ c.nodes := List.mem_of_getElem? jn
  have sw := World.swung m pa.closed ar wk hk hn wX
  obtain ⟨Y, jY⟩ : ∃ Y, Ys[j]? = some Y := by
    have l : j < Ys.length := by
      rw [← w'.length_eq]; exact (List.getElem?_eq_some_iff.1 jn).1
    exact ⟨_, List.getElem?_eq_getElem l⟩
  have wY : World h' n Y := forall₂_getElem? w' jn jY
  exact ⟨fun a => by rw [jY, wY.unique (sw.1 a)], fun a => by rw [jY, wY.unique (sw.2 a)]⟩

/-- **C99**, elsewhere: a chain that does not have `k` answers the same poses as before. -/
theorem C99_elsewhere (h h' : KHeap ℝ) (u : h.Unlocked) (c : Chain) (pa : ParentsAhead h c.nodes)
    (k : NodeId) (hk : k ∉ c.nodes) (q q' : ℝ) (m : JointMoved h h' k q q') :
    ∃ Xs g g', run c.updateTransforms h = .ok Xs g ∧ run c.updateTransforms h' = .ok Xs g' := by
  have u' := m.same.unlocked u
  have pa' : ParentsAhead h' c.nodes := fun pre n post e => by rw [m.same.liveParent]; exact pa pre n post e
  obtain ⟨Xs, g, e, w, -, -, -⟩ := C12_update_transforms h u c pa
  obtain ⟨Ys, g', e', w', -, -, -⟩ := C12_update_transforms h' u' c pa'
  have keep : ∀ n X, World h n X → n ∈ c.nodes → World h' n X := by
    intro n X w hn
    induction w with
    | @root n e =>
      rw [← m.local_ne fun x => hk (x ▸ hn)]
      exact .root (by rw [m.same.liveParent]; exact e)
    | @step n p X e _ ih =>
      rw [← m.local_ne fun x => hk (x ▸ hn)]
      exact .step (by rw [m.same.liveParent]; exact e) (ih (pa.closed _ _ hn e))
  have : Xs = Ys := by
    clear e e'
    have : ∀ (ns : List NodeId) (Xs Ys : List (Iso ℝ)), (∀ n ∈ ns, n ∈ c.nodes) → List.Forall₂ (World h) ns Xs →
        List.Forall₂ (World h') ns Ys → Xs = Ys := by
      intro ns
      induction ns with
      | nil => intro Xs Ys _ a b; cases a; cases b; rfl
      | cons n ns ih =>
        intro Xs Ys hs a b
        cases a with
        | cons a as =>
          cases b with
          | cons b bs =>
            rw [(keep _ _ a (hs n (by simp))).unique b, ih _ _ (fun m hm => hs m (by simp [hm])) as bs]
    exact this _ _ _ (fun _ h => h) w w'
  subst this
  exact ⟨Xs, g, g', e, e'⟩

/-! ### the calls that move one joint -/

theorem JointMoved.of_modify {h : KHeap ℝ} {k : NodeId} {q x : ℝ} (e : posOf h k = some q) {f : Joint ℝ → Joint ℝ}
    (sh : ∃ p wt wv, f (h.get k).joint = { (h.get k).joint with
      position := p, worldTransformCache := wt, worldVelocityCache := wv })
    (hp : (f (h.get k).joint).position = x) :
    JointMoved h (h.modify k fun s => { s with joint := f s.joint }) k q x := by
  refine ⟨sameBut_modify h k f sh, e, ?_, fun n ne => ?_⟩
  · obtain ⟨p, wt, wv, es⟩ := sh
    unfold posOf at e ⊢
    rw [Heap.get_modify_self]
    rw [es] at hp ⊢
    unfold Joint.jointPosition at e ⊢
    simp only at hp ⊢
    split at e
    · cases e
    · rename_i ne; simp_all
  · unfold posOf
    rw [Heap.get_modify_of_ne _ _ ne]

/-- **C99**, the checked setter: an accepted `set_joint_position` on a joint that no joint follows and that follows no
joint moves that joint and no other. -/
theorem C99_set (h h' : KHeap ℝ) (u : h.Unlocked) (wf : MimicWF h) (k : NodeId) (q x : ℝ) (e : posOf h k = some q)
    (free : (h.get k).mimicParent = none) (alone : (h.get k).mimicChildren = [])
    (r : run (Node.setJointPosition k x) h = .ok (.ok ()) h') : JointMoved h h' k q x := by
  rw [run_setJointPosition k x h u wf] at r
  unfold setPos at r
  simp only [free, Option.isSome_none, Bool.false_eq_true, if_false, alone] at r
  cases hs : ((h.get k).joint.setJointPosition x).2 with
  | error er => rw [hs] at r; simp at r
  | ok v =>
    rw [hs] at r
    simp only [mimicLoop] at r
    injection r with _ r
    subst r
    refine JointMoved.of_modify e (f := fun j => (j.setJointPosition x).1) (setJointPosition_shape _ _) ?_
    revert hs
    unfold Joint.setJointPosition
    split
    · simp
    · split
      · split
        · simp
        · intro; rfl
      · intro; rfl

/-- **C99**, the unchecked setter moves one joint and no other, whether joints follow it or not. -/
theorem C99_unchecked (h h' : KHeap ℝ) (u : h.Unlocked) (k : NodeId) (q x : ℝ) (e : posOf h k = some q)
    (r : run (Node.setJointPositionUnchecked k x) h = .ok () h') : JointMoved h h' k q x := by
  rw [run_Node_setJointPositionUnchecked k x h u] at r
  injection r with _ r
  subst r
  exact JointMoved.of_modify e (f := fun j => j.setJointPositionUnchecked x) ⟨_, _, _, rfl⟩ rfl

/-- **C99**, the clamping setter moves one joint and no other, to the position it then answers. -/
theorem C99_clamped (h h' : KHeap ℝ) (u : h.Unlocked) (k : NodeId) (q x : ℝ) (e : posOf h k = some q)
    (r : run (Node.setJointPositionClamped k x) h = .ok () h') :
    ∃ y, posOf h' k = some y ∧ JointMoved h h' k q y := by
  rw [run_Node_setJointPositionClamped k x h u] at r
  injection r with _ r
  subst r
  have m := JointMoved.of_modify e (f := fun j => j.setJointPositionClamped x) (setJointPositionClamped_shape _ _) rfl
  exact ⟨_, m.now, m⟩

/-! ### the motions -/

/-- **C99**, the turn: it takes the point `p` to the point turned by `x` about the line through `o` along `a`
(Rodrigues' formula), so points on the line stay; and it keeps all distances. -/
theorem C99_turn (o a : V3 ℝ) (ha : a.IsUnit) (x : ℝ) :
    (∀ p, (Iso.turnAbout o a x).apply p = o.add (K.turnAbout a x (p.sub o))) ∧
      (∀ s : ℝ, (Iso.turnAbout o a x).apply (o.add (a.scale s)) = o.add (a.scale s)) ∧
      (∀ p p', dist2 ((Iso.turnAbout o a x).apply p) ((Iso.turnAbout o a x).apply p') = dist2 p p') := by
  have hr : (Iso.turnAbout o a x).IsRigid := Quat.fromAxisAngle_isUnit ha x
  refine ⟨fun p => ?_, fun s => ?_, fun p p' => ?_⟩
  · rw [K.turnAbout, ← rotate_fromAxisAngle ha, Quat.rotate_sub]
    simp only [Iso.apply, Iso.turnAbout]
    ext <;> simp only [V3.add, V3.sub] <;> ring
  · simp only [Iso.apply, Iso.turnAbout, Quat.rotate_add, Quat.rotate_scale, fromAxisAngle_rotate_axis]
    ext <;> simp only [V3.add, V3.sub, V3.scale] <;> ring
  · rw [dist2, apply_sub, Quat.rotate_dot hr]; rfl

/-- **C99**, the shift: it takes every point `p` to `p + x * a`. -/
theorem C99_shift (a : V3 ℝ) (x : ℝ) (p : V3 ℝ) : (Iso.shiftAlong a x).apply p = p.add (a.scale x) := by
  simp only [Iso.apply, Iso.shiftAlong, Quat.rotate_one]
  ext <;> simp only [V3.add, V3.scale] <;> ring

/-! ## the center of mass -/

/-- the pose of a node -/
def poseOf (h : KHeap ℝ) (n : NodeId) : Iso ℝ :=
  open Classical in if e : ∃ X, World h n X then e.choose else Iso.one

theorem World.poseOf {h : KHeap ℝ} {n : NodeId} {X : Iso ℝ} (w : World h n X) : K.poseOf h n = X := by
  have e : ∃ X, World h n X := ⟨X, w⟩
  unfold K.poseOf
  rw [dif_pos e]
  exact e.choose_spec.unique w

theorem poses_eq {h : KHeap ℝ} {ns : List NodeId} {Xs : List (Iso ℝ)} (w : List.Forall₂ (World h) ns Xs) :
    Xs = ns.map (poseOf h) := by
  induction w with
  | nil => rfl
  | cons a _ ih => rw [List.map_cons, a.poseOf, ← ih]

/-- the sum of the moments as three sums of numbers -/
theorem totalMoment_map (h : KHeap ℝ) (W : NodeId → Iso ℝ) (ns : List NodeId) :
    totalMoment h ns (ns.map W) = ⟨(ns.map fun n => (momentOf h n (W n)).x).sum,
      (ns.map fun n => (momentOf h n (W n)).y).sum, (ns.map fun n => (momentOf h n (W n)).z).sum⟩ := by
  induction ns with
  | nil => simp [totalMoment, V3.zero]
  | cons n ns ih => simp [totalMoment, ih, V3.add]

theorem totalMoment_perm (h : KHeap ℝ) (W : NodeId → Iso ℝ) {ns ms : List NodeId} (p : ns.Perm ms) :
    totalMoment h ns (ns.map W) = totalMoment h ms (ms.map W) := by
  simp only [totalMoment_map, (p.map _).sum_eq]

theorem totalMass_perm (h : KHeap ℝ) {ns ms : List NodeId} (p : ns.Perm ms) : totalMass h ns = totalMass h ms :=
  (p.map _).sum_eq

/-- only what satisfies `P` moved -/
theorem totalMoment_split (h : KHeap ℝ) (W W' : NodeId → Iso ℝ) (P : NodeId → Prop) [DecidablePred P]
    (ns : List NodeId) (same : ∀ n ∈ ns, ¬ P n → W' n = W n) :
    (totalMoment h ns (ns.map W')).sub (totalMoment h ns (ns.map W)) =
      (totalMoment h (ns.filter P) ((ns.filter P).map W')).sub
        (totalMoment h (ns.filter P) ((ns.filter P).map W)) := by
  induction ns with
  | nil => rfl
  | cons n ns ih =>
    have ih := ih fun m hm => same m (by simp [hm])
    have hx := congrArg V3.x ih
    have hy := congrArg V3.y ih
    have hz := congrArg V3.z ih
    by_cases p : P n
    · simp only [List.filter_cons, p, decide_true, if_true, List.map_cons, totalMoment]
      ext <;> simp only [V3.sub, V3.add] at * <;> linarith
    · have := same n (by simp) p
      simp only [List.filter_cons, p, decide_false, Bool.false_eq_true, if_false, List.map_cons, totalMoment, this]
      ext <;> simp only [V3.sub, V3.add] at * <;> linarith

/-- the answer of `center_of_mass` for a part of a chain asked right after the chain -/
theorem run_centerOfMass_part (h g : KHeap ℝ) (u : h.Unlocked) (c s : Chain) (pa : ParentsAhead h c.nodes)
    (v : V3 ℝ) (e : run (centerOfMass c) h = .ok v g) (sub : ∀ n ∈ s.nodes, n ∈ c.nodes)
    (ord : ∀ pre n post, s.nodes = pre ++ n :: post → ∀ p, liveParent h n = some p → p ∈ pre ∨ p ∉ s.nodes) :
    ∃ w g2, run (centerOfMass s) g = .ok w g2 ∧
      w = (totalMoment h s.nodes (s.nodes.map (poseOf h))).unscale (totalMass h s.nodes) := by
  obtain ⟨Xs, h1, e1, w1, cache, ow, -⟩ := C12_update_transforms h u c pa
  obtain ⟨Xs', v', g', w', e', ow', -⟩ := C23_center_of_mass h u c pa
  rw [e] at e'; cases e'
  have c1 : ∀ n ∈ c.nodes, ∃ X, World h n X ∧ (h1.get n).joint.worldTransformCache = some X := by
    intro n hn
    obtain ⟨Y, wy, ey⟩ := cache n hn
    rw [run_Node_worldTransform n h1 (ow.unlocked u n)] at ey
    injection ey with ey _
    exact ⟨Y, wy, ey⟩
  have cs1 : List.Forall₂ (fun n X => (h1.get n).joint.worldTransformCache = some X) c.nodes Xs := by
    have : ∀ (ns : List NodeId) (Zs : List (Iso ℝ)), (∀ n ∈ ns, n ∈ c.nodes) →
        List.Forall₂ (World h) ns Zs →
        List.Forall₂ (fun n X => (h1.get n).joint.worldTransformCache = some X) ns Zs := by
      intro ns Zs hs w
      induction w with
      | nil => exact .nil
      | @cons n X ns Xs wn _ ih =>
        refine .cons ?_ (ih fun m hm => hs m (by simp [hm]))
        obtain ⟨Y, wy, ey⟩ := c1 n (hs n (by simp))
        rw [ey, wn.unique wy]
    exact this _ _ (fun _ h => h) w1
  have cg : ∀ n ∈ c.nodes, ∃ X, World h n X ∧ (g.get n).joint.worldTransformCache = some X := by
    have e3 := e
    simp only [centerOfMass, run_bind, e1, Res.bind_ok,
      run_comLoop h h1 (ow.unlocked u) c.nodes Xs (fun n => (ow.same n).link) cs1, run_pure] at e3
    injection e3 with _ e3
    rw [← e3]; exact c1
  have u' := ow'.unlocked u
  have pr : ParentsReady g s.nodes := by
    intro pre n post es p hp
    rw [ow'.liveParent] at hp
    rcases ord pre n post es p hp with a | a
    · exact .inl a
    · refine .inr ⟨a, ?_⟩
      obtain ⟨X, -, ex⟩ := cg p (pa.closed n p (sub n (by simp [es])) hp)
      rw [ex]; simp
  obtain ⟨Zs, g2, e2, ow2, b2, w2⟩ := run_updateTransforms g u' s pr
  have wd : ∀ n X, n ∈ c.nodes → WorldIn g (· ∈ s.nodes) n X → World h n X := by
    intro n X hn w
    have lt : ∀ n, (g.get n).joint.localTransform = (h.get n).joint.localTransform := fun n => by
      exact SameButWorld.localTransform (ow'.same n)
    induction w with
    | root e => rw [lt]; exact .root (by rw [← ow'.liveParent]; exact e)
    | @step n p X e _ _ ih =>
      rw [ow'.liveParent] at e
      rw [lt]; exact .step e (ih (pa.closed _ _ hn e))
    | @cut n p X e _ ex =>
      rw [ow'.liveParent] at e
      obtain ⟨Y, wy, ey⟩ := cg p (pa.closed _ _ hn e)
      rw [ey] at ex; cases ex
      rw [lt]; exact .step e wy
  have wz : List.Forall₂ (World h) s.nodes Zs := by
    have : ∀ (ns : List NodeId) (Zs : List (Iso ℝ)), (∀ n ∈ ns, n ∈ s.nodes) →
        List.Forall₂ (fun n X => WorldIn g (· ∈ s.nodes) n X) ns Zs → List.Forall₂ (World h) ns Zs := by
      intro ns Zs hs w
      induction w with
      | nil => exact .nil
      | @cons n X ns Xs wn _ ih =>
        exact .cons (wd n X (sub n (hs n (by simp))) wn) (ih fun m hm => hs m (by simp [hm]))
    exact this _ _ (fun _ h => h) w2
  have cs : List.Forall₂ (fun n X => (g2.get n).joint.worldTransformCache = some X) s.nodes Zs := by
    have : ∀ (ns : List NodeId) (Zs : List (Iso ℝ)), (∀ n ∈ ns, n ∈ s.nodes) →
        List.Forall₂ (World h) ns Zs →
        List.Forall₂ (fun n X => (g2.get n).joint.worldTransformCache = some X) ns Zs := by
      intro ns Zs hs w
      induction w with
      | nil => exact .nil
      | @cons n X ns Xs wn _ ih =>
        refine .cons ?_ (ih fun m hm => hs m (by simp [hm]))
        obtain ⟨Y, wy, ey⟩ := b2 n (hs n (by simp))
        rw [ey, wn.unique (wd n Y (sub n (hs n (by simp))) wy)]
    exact this _ _ (fun _ h => h) wz
  refine ⟨_, g2, ?_, rfl⟩
  simp only [centerOfMass, run_bind, e2, Res.bind_ok,
      run_comLoop h g2 (ow2.unlocked u') s.nodes Zs (fun n => ((ow2.same n).link).trans (ow'.same n).link) cs, run_pure,
      V3.zero_add', zero_add, poses_eq wz]

theorem SameBut.totalMass {h h' : KHeap ℝ} (s : SameBut h h') (ns : List NodeId) :
    K.totalMass h' ns = K.totalMass h ns := by
  unfold K.totalMass
  rw [List.map_congr_left fun n _ => show massOf h' n = massOf h n by unfold massOf; rw [s.link]]

theorem SameBut.totalMoment {h h' : KHeap ℝ} (s : SameBut h h') (ns : List NodeId) (Xs : List (Iso ℝ)) :
    K.totalMoment h' ns Xs = K.totalMoment h ns Xs := by
  induction ns generalizing Xs with
  | nil => rfl
  | cons n ns ih =>
    cases Xs with
    | nil => rfl
    | cons X Xs => simp only [K.totalMoment, ih]; unfold momentOf; rw [s.link]

/-- **C99**, center of mass.  Let the chain `s` have exactly the nodes of `c` that hang on `k`, parents first, and let
neither total mass be zero.  Ask for the center of mass of `c`, then of `s`, move the joint `k` from `q` to `q'`, and ask
for that of `c` again: it moved by the displacement of the center of mass of `s` under the motion of the joint, times the
share of `s` in the mass of `c`. -/
theorem C99_center_of_mass (h h' : KHeap ℝ) (u : h.Unlocked) (c s : Chain) (pa : ParentsAhead h c.nodes)
    (ar : AllRigid h c.nodes) (k : NodeId) (hk : k ∈ c.nodes) (q q' : ℝ) (m : JointMoved h h' k q q')
    (hang : open Classical in s.nodes.Perm (c.nodes.filter (fun n => Hangs h k n)))
    (ord : ∀ pre n post, s.nodes = pre ++ n :: post → ∀ p, liveParent h n = some p → p ∈ pre ∨ p ∉ s.nodes)
    (mass : totalMass h c.nodes ≠ 0) (part : totalMass h s.nodes ≠ 0) :
    ∃ K v g w g2 v' g', World h k K ∧ run (centerOfMass c) h = .ok v g ∧ run (centerOfMass s) g = .ok w g2 ∧
      run (centerOfMass c) h' = .ok v' g' ∧
      v' = v.add ((((jointMotion K (h.get k).joint.jointType (q' - q)).apply w).sub w).scale
        (totalMass h s.nodes / totalMass h c.nodes)) := by
  classical
  have u' := m.same.unlocked u
  have pa' : ParentsAhead h' c.nodes := fun pre n post e => by rw [m.same.liveParent]; exact pa pre n post e
  obtain ⟨Xs, v, g, wX, e, -, mv⟩ := C23_center_of_mass h u c pa
  obtain ⟨Ys, v', g', wY, e', -, mv'⟩ := C23_center_of_mass h' u' c pa'
  have sub : ∀ n ∈ s.nodes, n ∈ c.nodes ∧ Hangs h k n := by
    intro n hn
    have := (hang.mem_iff).1 hn
    simpa using this
  obtain ⟨w, g2, es, hw⟩ := run_centerOfMass_part h g u c s pa v e (fun n hn => (sub n hn).1) ord
  have some : ∀ n ∈ c.nodes, World h n (poseOf h n) := by
    intro n hn
    obtain ⟨i, hi⟩ := List.getElem?_of_mem hn
    have l : i < Xs.length := by rw [← wX.length_eq]; exact (List.getElem?_eq_some_iff.1 hi).1
    have := forall₂_getElem? wX hi (List.getElem?_eq_getElem l)
    rw [this.poseOf]; exact this
  refine ⟨poseOf h k, v, g, w, g2, v', g', some k hk, e, es, e', ?_⟩
  have rK : (poseOf h k).IsRigid := (some k hk).rigid c.nodes pa.closed ar hk
  generalize hS : jointMotion (poseOf h k) (h.get k).joint.jointType (q' - q) = S
  have rS : S.IsRigid := hS ▸ jointMotion_rigid rK (ar k hk) (q' - q)
  have mvd : ∀ n ∈ c.nodes, Hangs h k n → poseOf h' n = S.mul (poseOf h n) := fun n hn hh => by
    rw [← hS]; exact ((World.swung m pa.closed ar (some k hk) hk hn (some n hn)).1 hh).poseOf
  have kept : ∀ n ∈ c.nodes, ¬ Hangs h k n → poseOf h' n = poseOf h n := fun n hn hh =>
    ((World.swung m pa.closed ar (some k hk) hk hn (some n hn)).2 hh).poseOf
  have a1 := mv mass
  have a2 := mv' (by rw [m.same.totalMass]; exact mass)
  rw [m.same.totalMass, m.same.totalMoment, poses_eq wY] at a2
  rw [poses_eq wX] at a1
  have sp := totalMoment_split h (poseOf h) (poseOf h') (fun n => Hangs h k n) c.nodes kept
  rw [← totalMoment_perm h _ hang, ← totalMoment_perm h _ hang] at sp
  have ms : s.nodes.map (poseOf h') = (s.nodes.map (poseOf h)).map S.mul := by
    rw [List.map_map]
    exact List.map_congr_left fun n hn => mvd n (sub n hn).1 (sub n hn).2
  rw [ms, totalMoment_moved h S rS _ _ (by simp) (by
    intro Y hY
    obtain ⟨n, hn, rfl⟩ := List.mem_map.1 hY
    exact (some n (sub n hn).1).rigid c.nodes pa.closed ar (sub n hn).1), ← a1, ← a2] at sp
  have a3 : totalMoment h s.nodes (s.nodes.map (poseOf h)) = w.scale (totalMass h s.nodes) := by
    rw [hw]; ext <;> simp only [V3.scale, V3.unscale] <;> exact (div_mul_cancel₀ _ part).symm
  rw [a3, Quat.rotate_scale] at sp
  have hx := congrArg V3.x sp
  have hy := congrArg V3.y sp
  have hz := congrArg V3.z sp
  simp only [V3.sub, V3.scale, V3.add] at hx hy hz
  ext <;> simp only [V3.add, V3.sub, V3.scale, Iso.apply] <;> field_simp <;> linarith

/-- **C99**, velocity of the center of mass: as a function of the position of one joint, the center of mass has the
derivative `(m / M) * a × (w - o)` at a turning joint, with `o` the place and `a` the axis of the joint in the world, `w`
the center of mass of what hangs on it and `m` its mass, `M` the mass of all; and `(m / M) * a` at a sliding joint. -/
theorem C99_center_of_mass_rate (h : KHeap ℝ) (u : h.Unlocked) (c s : Chain) (pa : ParentsAhead h c.nodes)
    (ar : AllRigid h c.nodes) (k : NodeId) (hk : k ∈ c.nodes) (q : ℝ)
    (hang : open Classical in s.nodes.Perm (c.nodes.filter (fun n => Hangs h k n)))
    (ord : ∀ pre n post, s.nodes = pre ++ n :: post → ∀ p, liveParent h n = some p → p ∈ pre ∨ p ∉ s.nodes)
    (mass : totalMass h c.nodes ≠ 0) (part : totalMass h s.nodes ≠ 0)
    (at_ : ℝ → KHeap ℝ) (m : ∀ x, JointMoved h (at_ x) k q x) :
    ∃ K v g w g2 com, World h k K ∧ run (centerOfMass c) h = .ok v g ∧ run (centerOfMass s) g = .ok w g2 ∧
      (∀ x, ∃ g', run (centerOfMass c) (at_ x) = .ok (com x) g') ∧
      (∀ a, (h.get k).joint.jointType = .rotational a → V3.HasDeriv com
        (((K.rot.rotate a).cross (w.sub K.trans)).scale (totalMass h s.nodes / totalMass h c.nodes)) q) ∧
      (∀ a, (h.get k).joint.jointType = .linear a → V3.HasDeriv com
        ((K.rot.rotate a).scale (totalMass h s.nodes / totalMass h c.nodes)) q) := by
  obtain ⟨K, v, g, w, g2, -, -, wk, e, es, -, -⟩ :=
    C99_center_of_mass h (at_ q) u c s pa ar k hk q q (m q) hang ord mass part
  have rK : K.IsRigid := wk.rigid c.nodes pa.closed ar hk
  refine ⟨K, v, g, w, g2, fun x => v.add ((((jointMotion K (h.get k).joint.jointType (x - q)).apply w).sub w).scale
        (totalMass h s.nodes / totalMass h c.nodes)), wk, e, es, fun x => ?_, fun a ea => ?_, fun a ea => ?_⟩
  · obtain ⟨K', v1, g1, w1, g21, v', g', wk', e1, es1, e', r⟩ :=
      C99_center_of_mass h (at_ x) u c s pa ar k hk q x (m x) hang ord mass part
    rw [e] at e1; cases e1
    rw [es] at es1; cases es1
    rw [wk.unique wk']
    exact ⟨g', by rw [e', r]⟩
  · have ua : (K.rot.rotate a).IsUnit := by
      have := (ar k hk).2
      rw [ea] at this
      exact V3.IsUnit.rotate rK this
    simp only [ea, jointMotion]
    generalize K.rot.rotate a = b at ua
    have d := hasDeriv_fromAxisAngle ua 0 (w.sub K.trans)
    have z : Quat.fromAxisAngle b 0 = Quat.one := by
      simp [Quat.fromAxisAngle, Quat.one, Scalar.cos, Scalar.sin]
    rw [z, Quat.rotate_one] at d
    have f : ∀ x, (Iso.turnAbout K.trans b x).apply w = K.trans.add ((Quat.fromAxisAngle b x).rotate (w.sub K.trans)) := by
      intro x
      rw [Quat.rotate_sub]
      simp only [Iso.apply, Iso.turnAbout]
      ext <;> simp only [V3.add, V3.sub] <;> ring
    simp only [f]
    have sh : ∀ {φ : ℝ → ℝ} {y : ℝ}, HasDerivAt φ y 0 → HasDerivAt (fun x => φ (x - q)) y q := by
      intro φ y hd
      have : HasDerivAt φ y (q - q) := by rw [sub_self]; exact hd
      exact this.comp_sub_const q q
    refine ⟨?_, ?_, ?_⟩
    · exact ((((sh d.1).const_add _).sub_const _).mul_const _).const_add _
    · exact ((((sh d.2.1).const_add _).sub_const _).mul_const _).const_add _
    · exact ((((sh d.2.2).const_add _).sub_const _).mul_const _).const_add _
  · simp only [ea, jointMotion, C99_shift]
    generalize K.rot.rotate a = b
    have one : ∀ t r y z : ℝ, HasDerivAt (fun x => y + (z + t * (x - q) - z) * r) (t * r) q := by
      intro t r y z
      have := ((((((hasDerivAt_id q).sub_const q).const_mul t).const_add z).sub_const z).mul_const r).const_add y
      simpa using this
    exact ⟨one _ _ _ _, one _ _ _ _, one _ _ _ _⟩

end

end K
