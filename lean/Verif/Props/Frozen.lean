import Verif.Spec.Frozen
import Verif.Lemmas.Keep
import Verif.Props.Kinematics
import Verif.Props.Total
/-!
# C103: ignoring a joint in inverse kinematics is having that joint fixed
-/

namespace K
open Prog

noncomputable section

/-- The second robot is the first with the joints of the given names held where they are: its joints are the others, with
the same names, limits and positions, and its end is where the end of the first is with the named joints where they
are. -/
structure Frozen (h : KHeap ℝ) (arm : Chain) (names : List String) (g : KHeap ℝ) (brm : Chain) : Prop where
  left : RootedArm h arm
  right : RootedArm g brm
  leftMimic : MimicWF h
  rightMimic : MimicWF g
  leftFree : ∀ n ∈ arm.movableNodes, (h.get n).mimicParent = none ∧ (h.get n).mimicChildren = []
  rightFree : ∀ n ∈ brm.movableNodes, (g.get n).mimicParent = none ∧ (g.get n).mimicChildren = []
  inside : ∀ n ∈ arm.movableNodes, NotOutside (h.get n).joint.limits (h.get n).joint.position
  once : names.Nodup
  known : ∀ a ∈ names, a ∈ arm.movableNodes.map fun n => (h.get n).joint.name
  distinct : (arm.movableNodes.map fun n => (h.get n).joint.name).Nodup
  limits : dropIdx (indicesOf h arm names) (arm.movableNodes.map fun n => (h.get n).joint.limits) =
    brm.movableNodes.map fun n => (g.get n).joint.limits
  positions : dropIdx (indicesOf h arm names) (arm.movableNodes.map fun n => (h.get n).joint.position) =
    brm.movableNodes.map fun n => (g.get n).joint.position
  kinematics : ∀ xs : List ℝ, xs.length = arm.dof →
    (∀ i ∈ indicesOf h arm names, xs[i]? = (arm.movableNodes.map fun n => (h.get n).joint.position)[i]?) →
    ∃ t h' g', run (moveTo arm xs) h = .ok t h' ∧ run (moveTo brm (dropIdx (indicesOf h arm names) xs)) g = .ok t g'

namespace Frozen
variable {h g h' g' : KHeap ℝ} {arm brm : Chain} {names : List String}

/-- where a joint with these limits ends up when it is sent to `x` -/
def clampTo (l : Option (Range ℝ)) (x : ℝ) : ℝ :=
  match l with
  | some r => r.clamp x
  | none => x

theorem clampTo_inside {l : Option (Range ℝ)} {x : ℝ} (i : NotOutside l x) : clampTo l x = x := by
  cases l with
  | none => rfl
  | some r =>
    obtain ⟨a, b⟩ := i r rfl
    simp [clampTo, Range.clamp, a, b]

theorem isMovable_of {j : Joint ℝ} (m : j.jointType ≠ .fixed) : j.isMovable = true := by
  unfold Joint.isMovable
  split
  · rename_i x; exact absurd x m
  · rfl

theorem position_clamped {j : Joint ℝ} (m : j.jointType ≠ .fixed) (x : ℝ) :
    (j.setJointPositionClamped x).position = clampTo j.limits x := by
  unfold Joint.setJointPositionClamped clampTo
  rw [isMovable_of m]
  cases j.limits <;> rfl

/-- all joints sent to new positions -/
theorem posList_clampAll (l : RootedArm h arm) (sb : SameBut h h') (xs : List ℝ) (e : xs.length = arm.movableNodes.length) :
    posList (clampAll (arm.movableNodes.zip xs) h') arm.movableNodes =
      List.zipWith clampTo (arm.movableNodes.map fun n => (h.get n).joint.limits) xs := by
  refine List.ext_getElem (by simp [posList, e]) fun i h1 h2 => ?_
  have hi : i < arm.movableNodes.length := by simpa [posList] using h1
  have mem : (arm.movableNodes[i], xs[i]) ∈ arm.movableNodes.zip xs :=
    List.mem_iff_getElem.2 ⟨i, by simp [hi, e], by simp⟩
  have := clampAll_get (arm.movableNodes.zip xs) h'
    (by rw [List.map_fst_zip (by omega)]; exact l.movableNodup) _ mem
  simp only [posList, List.getElem_map, List.getElem_zipWith]
  rw [this, position_clamped (by rw [sb.jointType]; exact l.movable (List.getElem_mem hi)), sb.limits]

/-- the checked setter, with positions inside the limits -/
theorem setAll_inside (ps : List (NodeId × ℝ)) (h : KHeap ℝ) (nd : (ps.map Prod.fst).Nodup)
    (ok : ∀ p ∈ ps, (h.get p.1).joint.jointType ≠ .fixed ∧ NotOutside (h.get p.1).joint.limits p.2 ∧
      (h.get p.1).mimicParent = none ∧ (h.get p.1).mimicChildren = []) :
    (setAll ps h).1 = .ok () ∧ (∀ p ∈ ps, ((setAll ps h).2.get p.1).joint.position = p.2) ∧
      ∀ k, k ∉ ps.map Prod.fst → (setAll ps h).2.get k = h.get k := by
  induction ps generalizing h with
  | nil => exact ⟨rfl, by simp, fun _ _ => rfl⟩
  | cons q ps ih =>
    obtain ⟨mv, ins, mp, mc⟩ := ok q (by simp)
    have e : (h.get q.1).joint.setJointPosition q.2 =
        ({ (h.get q.1).joint with position := q.2, worldTransformCache := none, worldVelocityCache := none }, .ok ()) := by
      unfold Joint.setJointPosition
      rw [isMovable_of mv]
      cases l : (h.get q.1).joint.limits with
      | none => simp [l]
      | some r =>
        obtain ⟨a, b⟩ := ins r l
        have v : r.isValid q.2 = true := by
          have a' : ¬ q.2 < r.min := by simpa [Scalar.lt] using a
          have b' : ¬ r.max < q.2 := by simpa [Scalar.lt] using b
          simp [Range.isValid, Scalar.le, not_lt.1 a', not_lt.1 b']
        simp [v, l]
    have sp : setPos q.1 q.2 h = (.ok (), h.setJoint q.1 q.2) := by
      unfold setPos
      rw [mp, mc, e]
      rfl
    rw [List.map_cons, List.nodup_cons] at nd
    have sb := sameBut_setJoint h q.1 q.2
    obtain ⟨i1, i2, i3⟩ := ih (h.setJoint q.1 q.2) nd.2 fun p hp => by
      obtain ⟨a, b, c, d⟩ := ok p (by simp [hp])
      exact ⟨by rw [sb.jointType]; exact a, by rw [sb.limits]; exact b, by rw [sb.mimicParent]; exact c,
        by rw [sb.mimicChildren]; exact d⟩
    have s2 : setAll (q :: ps) h = setAll ps (h.setJoint q.1 q.2) := by
      simp only [setAll, sp]
    rw [s2]
    refine ⟨i1, fun p hp => ?_, fun k hk => ?_⟩
    · rcases List.mem_cons.1 hp with rfl | hp
      · rw [i3 _ nd.1, Heap.setJoint, Heap.get_modify_self, e]
      · exact i2 p hp
    · simp only [List.map_cons, List.mem_cons, not_or] at hk
      rw [i3 k hk.2, Heap.setJoint, Heap.get_modify_of_ne _ _ hk.1]

/-! ## the indices -/

theorem mem_indicesOf {i : Nat} : i ∈ indicesOf h arm names ↔
    ∃ n, arm.movableNodes[i]? = some n ∧ (h.get n).joint.name ∈ names := by
  simp only [indicesOf, List.mem_filter, List.mem_range]
  constructor
  · rintro ⟨hi, x⟩
    rw [List.getElem?_eq_getElem hi] at x ⊢
    exact ⟨_, rfl, by simpa using x⟩
  · rintro ⟨n, hn, x⟩
    exact ⟨(List.getElem?_eq_some_iff.1 hn).1, by rw [hn]; simpa using x⟩

theorem indicesOf_sorted : (indicesOf h arm names).Pairwise (· < ·) :=
  List.Pairwise.filter _ List.pairwise_lt_range

theorem indicesOf_nodup : (indicesOf h arm names).Nodup := indicesOf_sorted.imp Nat.ne_of_lt

theorem indicesOf_lt {i : Nat} (hi : i ∈ indicesOf h arm names) : i < arm.movableNodes.length :=
  List.mem_range.1 (List.mem_filter.1 hi).1

theorem find_index (s : Frozen h arm names g brm) {a : String} (ha : a ∈ names) :
    ∃ i, arm.movableNodes.findIdx? (fun n => (h.get n).joint.name == a) = some i ∧ i ∈ indicesOf h arm names ∧
      (arm.movableNodes.map fun n => (h.get n).joint.name)[i]? = some a := by
  obtain ⟨n, hn, e⟩ := List.mem_map.1 (s.known a ha)
  cases f : arm.movableNodes.findIdx? fun n => (h.get n).joint.name == a with
  | none =>
    have := List.findIdx?_eq_none_iff.1 f n hn
    simp [e] at this
  | some i =>
    obtain ⟨hi, x, -⟩ := List.findIdx?_eq_some_iff_getElem.1 f
    have x' : (h.get arm.movableNodes[i]).joint.name = a := by simpa using x
    exact ⟨i, rfl, mem_indicesOf.2 ⟨_, List.getElem?_eq_getElem hi, by rw [x']; exact ha⟩, by
      rw [List.getElem?_map, List.getElem?_eq_getElem hi]; simp [x']⟩

/-- the solver finds these indices -/
theorem nameIndices_ok (s : Frozen h arm names g brm) : ∃ is, nameIndices h arm.movableNodes names = .ok is ∧
    sortedIndices is = indicesOf h arm names := by
  have all : ∀ l : List String, (∀ a ∈ l, a ∈ names) → ∃ is, nameIndices h arm.movableNodes l = .ok is ∧
      ∀ i ∈ is, ∃ a ∈ l, (arm.movableNodes.map fun n => (h.get n).joint.name)[i]? = some a := by
    intro l
    induction l with
    | nil => intro _; exact ⟨[], rfl, by simp⟩
    | cons a l ih =>
      intro hl
      obtain ⟨is, e, m⟩ := ih fun b hb => hl b (by simp [hb])
      obtain ⟨i, f, -, nm⟩ := s.find_index (hl a (by simp))
      refine ⟨i :: is, by simp only [nameIndices, f, e], fun j hj => ?_⟩
      rcases List.mem_cons.1 hj with rfl | hj
      · exact ⟨a, by simp, nm⟩
      · obtain ⟨b, hb, x⟩ := m j hj
        exact ⟨b, by simp [hb], x⟩
  obtain ⟨is, e, m⟩ := all names fun _ h => h
  refine ⟨is, e, ?_⟩
  obtain ⟨srt, -, -⟩ := sortedIndices_spec e s.once
  have perm : (sortedIndices is).Perm is := List.mergeSort_perm _ _
  have mem : ∀ i, i ∈ sortedIndices is ↔ i ∈ indicesOf h arm names := by
    intro i
    rw [perm.mem_iff]
    constructor
    · intro hi
      obtain ⟨a, ha, x⟩ := m i hi
      rw [List.getElem?_map, Option.map_eq_some_iff] at x
      obtain ⟨n, hn, rfl⟩ := x
      exact mem_indicesOf.2 ⟨n, hn, ha⟩
    · intro hi
      obtain ⟨n, hn, hm⟩ := mem_indicesOf.1 hi
      obtain ⟨j, hj, f⟩ := (nameIndices_mem e).2 _ hm
      obtain ⟨hl, x, -⟩ := List.findIdx?_eq_some_iff_getElem.1 f
      obtain ⟨hi', en⟩ := List.getElem?_eq_some_iff.1 hn
      have x' : (h.get arm.movableNodes[j]).joint.name = (h.get n).joint.name := by simpa using x
      have : j = i := by
        refine (List.Nodup.getElem_inj_iff s.distinct (hi := by simpa using hl) (hj := by simpa using hi')).1 ?_
        simp [x', en]
      exact this ▸ hj
  exact List.Perm.eq_of_pairwise (fun a b _ _ h1 h2 => absurd h1 (Nat.lt_asymm h2)) srt indicesOf_sorted
    ((List.perm_ext_iff_of_nodup (srt.imp Nat.ne_of_lt) indicesOf_nodup).2 mem)

theorem count (s : Frozen h arm names g brm) : (indicesOf h arm names).length = names.length := by
  obtain ⟨is, e, x⟩ := s.nameIndices_ok
  rw [← x]
  exact (sortedIndices_spec e s.once).2.1

theorem kept_length (s : Frozen h arm names g brm) :
    brm.movableNodes.length = (keptIdx (indicesOf h arm names) arm.movableNodes.length).length := by
  have := congrArg List.length s.positions
  rw [dropIdx_length'] at this
  simpa using this.symm

theorem dof (s : Frozen h arm names g brm) : brm.dof + names.length = arm.dof := by
  rw [s.left.wf.dof, s.right.wf.dof, s.kept_length, ← s.count]
  exact keptIdx_length indicesOf_nodup fun i hi => indicesOf_lt hi

/-! ## two states -/

/-- two states of the two robots that correspond -/
structure At (h : KHeap ℝ) (arm : Chain) (names : List String) (g : KHeap ℝ) (brm : Chain) (h' g' : KHeap ℝ) : Prop where
  left : SameBut h h'
  right : SameBut g g'
  pos : dropIdx (indicesOf h arm names) (posList h' arm.movableNodes) = posList g' brm.movableNodes
  held : ∀ i ∈ indicesOf h arm names, (posList h' arm.movableNodes)[i]? = (posList h arm.movableNodes)[i]?

theorem At.start (s : Frozen h arm names g brm) : At h arm names g brm h g :=
  ⟨.refl h, .refl g, s.positions, fun _ _ => rfl⟩

theorem At.endPose (s : Frozen h arm names g brm) (a : At h arm names g brm h' g') :
    K.endPose h' arm.nodes = K.endPose g' brm.nodes := by
  have lp : (posList h' arm.movableNodes).length = arm.dof := by simp [posList, s.left.wf.dof]
  obtain ⟨t, h1, g1, e1, e2⟩ := s.kinematics (posList h' arm.movableNodes) lp a.held
  rw [a.pos] at e2
  simp only [moveTo, run_bind, run_setJointPositionsUnchecked _ _ _ s.left.unlocked,
    run_setJointPositionsUnchecked _ _ _ s.right.unlocked, Res.bind_ok,
    run_endTransform _ _ (putAll_unlocked _ s.left.unlocked), run_endTransform _ _ (putAll_unlocked _ s.right.unlocked)]
    at e1 e2
  cases e1
  have : K.endPose (putAll (brm.movableNodes.zip (posList g' brm.movableNodes)) g) brm.nodes =
      K.endPose (putAll (arm.movableNodes.zip (posList h' arm.movableNodes)) h) arm.nodes := by
    injection e2
  rw [SameRobot.pose_congr s.left a.left (SameRobot.sameBut_putAll (arm.movableNodes.zip (posList h' arm.movableNodes)) h)
    (by rw [SameRobot.posList_putAll _ s.left.movableNodup _ (by simp [posList])]), ← this]
  exact (SameRobot.pose_congr s.right a.right (SameRobot.sameBut_putAll _ g) (by
    rw [SameRobot.posList_putAll _ s.right.movableNodup _ (by simp [posList])])).symm

/-- a joint that is not held, in both robots -/
theorem kept_node (s : Frozen h arm names g brm) {j : Nat} (hj : j < brm.movableNodes.length) :
    ∃ i, (keptIdx (indicesOf h arm names) arm.movableNodes.length)[j]? = some i ∧ i < arm.movableNodes.length ∧
      i ∉ indicesOf h arm names := by
  rw [s.kept_length] at hj
  exact ⟨_, List.getElem?_eq_getElem hj, keptIdx_lt (List.getElem_mem hj)⟩

theorem posList_setAt (ns : List NodeId) (nd : ns.Nodup) (h : KHeap ℝ) {i : Nat} {n : NodeId} (hi : ns[i]? = some n)
    (x : ℝ) : posList (setAt h n x) ns = (posList h ns).set i x := by
  obtain ⟨li, ei⟩ := List.getElem?_eq_some_iff.1 hi
  refine List.ext_getElem (by simp [posList]) fun k h1 h2 => ?_
  simp only [posList, List.getElem_map, List.getElem_set, setAt]
  split
  · rename_i ik
    subst ik
    rw [ei, Heap.get_modify_self]
    rfl
  · rename_i ik
    rw [Heap.get_modify_of_ne]
    intro x
    exact ik ((List.Nodup.getElem_inj_iff nd).1 (ei.trans x.symm))

theorem keptIdx_inj {is : List Nat} {n j k i : Nat} (a : (keptIdx is n)[j]? = some i) (b : (keptIdx is n)[k]? = some i) :
    j = k := by
  have nd : (keptIdx is n).Nodup := List.nodup_range.filter _
  obtain ⟨h1, e1⟩ := List.getElem?_eq_some_iff.1 a
  obtain ⟨h2, e2⟩ := List.getElem?_eq_some_iff.1 b
  exact (List.Nodup.getElem_inj_iff nd).1 (e1.trans e2.symm)

theorem dropIdx_set {α : Type} {is : List Nat} (xs : List α) {i j : Nat} (x : α)
    (hj : (keptIdx is xs.length)[j]? = some i) : dropIdx is (xs.set i x) = (dropIdx is xs).set j x := by
  have hi := keptIdx_lt (List.mem_of_getElem? hj)
  refine List.ext_getElem? fun k => ?_
  rw [dropIdx_get, List.length_set, List.getElem?_set, dropIdx_get]
  by_cases e : j = k
  · subst e
    have : j < (dropIdx is xs).length := by
      rw [dropIdx_length']; exact (List.getElem?_eq_some_iff.1 hj).1
    rw [hj]
    simp [this, List.getElem?_set, hi.1]
  · rw [if_neg e]
    cases f : (keptIdx is xs.length)[k]? with
    | none => rfl
    | some i' =>
      have ne : i ≠ i' := by
        rintro rfl
        exact e (keptIdx_inj hj f)
      simp [List.getElem?_set, ne]

theorem At.setAt (s : Frozen h arm names g brm) (a : At h arm names g brm h' g') {j i : Nat} {n m : NodeId}
    (hj : (keptIdx (indicesOf h arm names) arm.movableNodes.length)[j]? = some i)
    (hn : arm.movableNodes[i]? = some n) (hm : brm.movableNodes[j]? = some m) (x : ℝ) :
    At h arm names g brm (K.setAt h' n x) (K.setAt g' m x) := by
  refine ⟨a.left.trans (sameBut_modify _ _ (fun j => j.setJointPositionUnchecked x) ⟨_, _, _, rfl⟩),
    a.right.trans (sameBut_modify _ _ (fun j => j.setJointPositionUnchecked x) ⟨_, _, _, rfl⟩), ?_, ?_⟩
  · rw [posList_setAt _ s.left.movableNodup _ hn, posList_setAt _ s.right.movableNodup _ hm,
      dropIdx_set _ _ (by simpa [posList] using hj), a.pos]
  · intro k hk
    have ne : i ≠ k := by
      rintro rfl
      exact (keptIdx_lt (List.mem_of_getElem? hj)).2 hk
    rw [posList_setAt _ s.left.movableNodup _ hn, List.getElem?_set_ne ne]
    exact a.held k hk

/-- The Jacobian of the second robot has the columns of the joints that are not held. -/
theorem At.jacobian (s : Frozen h arm names g brm) (a : At h arm names g brm h' g') : ∃ J h1 g1,
    run (K.jacobian arm) h' = .ok J h1 ∧ run (K.jacobian brm) g' = .ok (dropIdx (indicesOf h arm names) J) g1 ∧
      At h arm names g brm h1 g1 ∧ J.length = arm.movableNodes.length ∧ ∀ col ∈ J, col.length = 6 := by
  have l := s.left.same a.left
  have r := s.right.same a.right
  obtain ⟨n, rest, en, rn⟩ := l.root
  obtain ⟨m, rest', em, rm⟩ := r.root
  obtain ⟨J, h1, e1, l1, c1⟩ := jacobian_core h' l.unlocked arm l.wf n rest en l.serial l.nodup Iso.one Iso.one_isRigid
    (.inl ⟨rn, rfl⟩) l.rigid
  obtain ⟨K', g1, e2, l2, c2⟩ := jacobian_core g' r.unlocked brm r.wf m rest' em r.serial r.nodup Iso.one Iso.one_isRigid
    (.inl ⟨rm, rfl⟩) r.rigid
  have lJ : J.length = arm.movableNodes.length := by rw [l1, l.wf.dof]
  have lK : K'.length = brm.movableNodes.length := by rw [l2, r.wf.dof]
  have JK : dropIdx (indicesOf h arm names) J = K' := by
    refine List.ext_getElem? fun j => ?_
    by_cases hj : j < K'.length
    · have hj2 : j < brm.movableNodes.length := by rw [← lK]; exact hj
      obtain ⟨i, ei, hi1, -⟩ := s.kept_node hj2
      have hi : i < J.length := by rw [lJ]; exact hi1
      have hn : arm.movableNodes[i]? = some arm.movableNodes[i] := List.getElem?_eq_getElem hi1
      have hm : brm.movableNodes[j]? = some brm.movableNodes[j] := List.getElem?_eq_getElem hj2
      rw [dropIdx_get, lJ, ei, Option.bind_some, List.getElem?_eq_getElem hi, List.getElem?_eq_getElem hj]
      obtain ⟨d, w, x1, x2, x3⟩ := c1 i _ _ hn (List.getElem?_eq_getElem hi)
      obtain ⟨d', w', y1, y2, y3⟩ := c2 j _ _ hm (List.getElem?_eq_getElem hj)
      have po : (h'.get arm.movableNodes[i]).joint.position = (g'.get brm.movableNodes[j]).joint.position := by
        have := congrArg (·[j]?) a.pos
        rw [dropIdx_get] at this
        simpa [posList, ei, hn, hm] using this
      have T : ∀ x, prodFrom (K.setAt h' arm.movableNodes[i] x) Iso.one arm.nodes =
          prodFrom (K.setAt g' brm.movableNodes[j] x) Iso.one brm.nodes :=
        fun x => (a.setAt s ei hn hm x).endPose s
      have E : prodFrom h' Iso.one arm.nodes = prodFrom g' Iso.one brm.nodes := a.endPose s
      have E' : K.endPose h' arm.nodes = K.endPose g' brm.nodes := E
      simp only [T, E, po] at x2 x3
      have dd := SameRobot.deriv_unique x2 y2
      have ww : w = w' := by
        have u : (prodFrom g' Iso.one brm.nodes).rot.IsUnit :=
          foldl_mul_rigid g' brm.nodes r.rigid Iso.one Iso.one_isRigid
        refine SameRobot.cross_unique fun v => ?_
        have := SameRobot.deriv_unique (x3 ((prodFrom g' Iso.one brm.nodes).rot.conj.rotate v))
          (y3 ((prodFrom g' Iso.one brm.nodes).rot.conj.rotate v))
        rw [← Quat.rotate_mul u u.conj, Quat.mul_conj u, Quat.rotate_one] at this
        exact this
      rw [x1, y1, dd, ww, E, E']
    · rw [List.getElem?_eq_none (by rw [dropIdx_length', lJ, ← s.kept_length, ← lK]; omega),
        List.getElem?_eq_none (by omega)]
  subst JK
  obtain ⟨o1, f1⟩ := jacobian_ok arm h' h1 l.unlocked J e1
  obtain ⟨o2, -⟩ := jacobian_ok brm g' g1 r.unlocked _ e2
  have p1 : posList h1 arm.movableNodes = posList h' arm.movableNodes :=
    List.map_congr_left fun n _ => (o1.same n).position
  have p2 : posList g1 brm.movableNodes = posList g' brm.movableNodes :=
    List.map_congr_left fun n _ => (o2.same n).position
  refine ⟨J, h1, g1, e1, e2, ⟨a.left.trans o1.moved.sameBut, a.right.trans o2.moved.sameBut, ?_, ?_⟩, lJ, fun col hc => ?_⟩
  · rw [p1, p2, a.pos]
  · rw [p1]; exact a.held
  · obtain ⟨i, hi, rfl⟩ := List.getElem_of_mem hc
    exact isColumn_length (f1.get (i := i) (by rw [f1.length_eq]; exact hi) hi)

/-! ## the solver -/

/-- the two runs end alike -/
def Both {α : Type} (h : KHeap ℝ) (arm : Chain) (names : List String) (g : KHeap ℝ) (brm : Chain) :
    Res (NodeImpl ℝ) α → Res (NodeImpl ℝ) α → Prop
  | .ok a h', .ok b g' => a = b ∧ At h arm names g brm h' g'
  | .panic m h', .panic m' g' => m = m' ∧ At h arm names g brm h' g'
  | _, _ => False

theorem Both.bind {α β : Type} {x y : Res (NodeImpl ℝ) α} {f k : α → KHeap ℝ → Res (NodeImpl ℝ) β}
    (b : Both h arm names g brm x y)
    (c : ∀ a h' g', At h arm names g brm h' g' → Both h arm names g brm (f a h') (k a g')) :
    Both h arm names g brm (x.bind f) (y.bind k) := by
  cases x <;> cases y <;> first | exact b.elim | skip
  · obtain ⟨rfl, b⟩ := b
    exact c _ _ _ b
  · exact b

/-- a solver for the second robot: as the first, with a nullspace function for the joints that are not held -/
structure SolverFor (is : List Nat) (p : List ℝ) (sol sol' : IkSolver ℝ) : Prop where
  distance : sol'.allowableTargetDistance = sol.allowableTargetDistance
  angle : sol'.allowableTargetAngle = sol.allowableTargetAngle
  multiplier : sol'.jacobianMultiplier = sol.jacobianMultiplier
  tries : sol'.numMaxTry = sol.numMaxTry
  la : sol'.la = sol.la
  null : NullspaceAgrees is p sol.nullspaceFunction sol'.nullspaceFunction

theorem removeRows_all (ops : List Bool) (ho : ops.length = 6) (J : Mat ℝ) (hJ : ∀ col ∈ J, col.length = 6) :
    removeRows ops 0 0 J = .ok (J.map (selectFlags ops)) := by
  rw [removeRows_eq ops 0 0 J (Nat.le_refl _) (by simpa [ho] using hJ)]
  simp

theorem next_same {is : List Nat} {p : List ℝ} {sol sol' : IkSolver ℝ} (sf : SolverFor is p sol sol') (sz : sol.la.Sized)
    (srt : is.Pairwise (· < ·)) (lt : ∀ i ∈ is, i < p.length) (ops : List Bool) (ho : ops.length = 6)
    (more : countTrue ops < p.length - is.length) (J : Mat ℝ) (lJ : J.length = p.length)
    (hJ : ∀ col ∈ J, col.length = 6) (err orig : List ℝ) (le : err.length = countTrue ops) (lo : orig.length = p.length)
    (held : ∀ i ∈ is, orig[i]? = p[i]?) :
    (∃ m, nextPositions sol ops is p.length J err orig = .error m ∧
        nextPositions sol' ops [] (p.length - is.length) (dropIdx is J) err (dropIdx is orig) = .error m) ∨
      ∃ ps, nextPositions sol ops is p.length J err orig = .ok (.ok ps) ∧
        nextPositions sol' ops [] (p.length - is.length) (dropIdx is J) err (dropIdx is orig) =
          .ok (.ok (dropIdx is ps)) ∧ ps.length = p.length ∧ ∀ i ∈ is, ps[i]? = orig[i]? := by
  have nd : is.Nodup := srt.imp Nat.ne_of_lt
  have e1 := removeRows_all ops ho J hJ
  have e2 := removeRows_all ops ho (dropIdx is J) fun col hc => hJ col (dropIdx_mem hc)
  rw [← dropIdx_map] at e2
  have e3 := C31_remove is (J.map (selectFlags ops)) srt (by simpa [lJ] using lt)
  have lR : (dropIdx is (J.map (selectFlags ops))).length = p.length - is.length := by
    have := dropIdx_length (xs := J.map (selectFlags ops)) nd (by simpa [lJ] using lt)
    rw [List.length_map, lJ] at this
    omega
  have hR : ∀ col ∈ dropIdx is (J.map (selectFlags ops)), col.length = countTrue ops := by
    intro col hc
    obtain ⟨c, hc', rfl⟩ := List.mem_map.1 (dropIdx_mem hc)
    exact selectFlags_length ops c (by rw [hJ c hc', ho])
  -- the positions after an increment of the right length
  have fin : ∀ dq : List ℝ, dq.length = p.length - is.length → ∃ zs, insertZeros is dq = .ok zs ∧
      dropIdx is (addPositionsWithMultiplier sol.jacobianMultiplier orig zs) =
        addPositionsWithMultiplier sol'.jacobianMultiplier (dropIdx is orig) dq ∧
      (addPositionsWithMultiplier sol.jacobianMultiplier orig zs).length = p.length ∧
      ∀ i ∈ is, (addPositionsWithMultiplier sol.jacobianMultiplier orig zs)[i]? = orig[i]? := by
    intro dq ld
    have lis : is.length ≤ p.length := by omega
    obtain ⟨zs, a, b, c, d⟩ := C31_insert is dq srt (by rw [ld]; intro j hj; have := lt j hj; omega)
    have lz : zs.length = p.length := by rw [b, ld]; omega
    refine ⟨zs, a, ?_, ?_, fun i hi => ?_⟩
    · rw [addPositionsWithMultiplier, dropIdx_zipWith _ _ _ _ (by rw [lo, lz]), d, sf.multiplier]
      rfl
    · simp [addPositionsWithMultiplier, lo, lz]
    · have hi' : i < orig.length := by rw [lo]; exact lt i hi
      rw [addPositionsWithMultiplier, List.getElem?_zipWith, c i hi, List.getElem?_eq_getElem hi']
      simp
  simp only [nextPositions, e1, e2, e3, removeIndices, insertZeros, Bind.bind, Except.bind, List.length_nil, Nat.sub_zero,
    gt_iff_lt, if_pos more, sf.la]
  by_cases z : countTrue ops = 0
  · simp only [if_pos z]
    exact .inl ⟨_, rfl, rfl⟩
  simp only [if_neg z]
  have pos : 0 < countTrue ops := Nat.pos_of_ne_zero z
  have null := sf.null
  cases f : sol.nullspaceFunction with
  | none =>
    cases f' : sol'.nullspaceFunction with
    | some k => rw [f, f'] at null; exact null.elim
    | none =>
      obtain ⟨zs, a, b, c, d⟩ := fin (sol.la.svdSolve (dropIdx is (J.map (selectFlags ops))) err)
        (sz.svd _ _ _ _ pos more lR hR le)
      simp only [a]
      exact .inr ⟨_, rfl, by rw [b], c, d⟩
  | some k =>
    cases f' : sol'.nullspaceFunction with
    | none => rw [f, f'] at null; exact null.elim
    | some k' =>
      rw [f, f'] at null
      rcases null orig lo held with ⟨v, kv, lv, kv'⟩ | ⟨m, km, km'⟩
      · have e4 := C31_remove is v srt (by rw [lv]; exact lt)
        have lw : (dropIdx is v).length = p.length - is.length := by
          have := dropIdx_length (xs := v) nd (by rw [lv]; exact lt)
          omega
        simp only [kv, kv', e4, lw, ne_eq, not_true, if_false]
        have cols := (sz.pinv _ _ _ pos more lR hR).2
        obtain ⟨zs, a, b, c, d⟩ := fin _ (nullspaceStep_len (p.length - is.length) _
          (dropIdx is (J.map (selectFlags ops))) err (dropIdx is v) cols)
        simp only [a]
        exact .inr ⟨_, rfl, by rw [b], c, d⟩
      · simp only [km, km']
        exact .inl ⟨_, rfl, rfl⟩

theorem At.clampAll (s : Frozen h arm names g brm) (a : At h arm names g brm h' g') (xs : List ℝ)
    (len : xs.length = arm.movableNodes.length)
    (held : ∀ i ∈ indicesOf h arm names, xs[i]? = (posList h arm.movableNodes)[i]?) :
    At h arm names g brm (K.clampAll (arm.movableNodes.zip xs) h')
      (K.clampAll (brm.movableNodes.zip (dropIdx (indicesOf h arm names) xs)) g') := by
  have len' : (dropIdx (indicesOf h arm names) xs).length = brm.movableNodes.length := by
    rw [dropIdx_length', len, s.kept_length]
  refine ⟨a.left.trans (moved_clamp_chain s.left.wf xs).sameBut, a.right.trans (moved_clamp_chain s.right.wf _).sameBut,
    ?_, fun i hi => ?_⟩
  · rw [posList_clampAll s.left a.left xs len, posList_clampAll s.right a.right _ len',
      dropIdx_zipWith _ _ _ _ (by simp [len]), s.limits]
  · rw [posList_clampAll s.left a.left xs len, ← held i hi, List.getElem?_zipWith, held i hi]
    have hl := indicesOf_lt hi
    simp only [posList, List.getElem?_map, List.getElem?_eq_getElem hl, Option.map_some]
    rw [clampTo_inside (s.inside _ (List.getElem_mem hl))]

theorem run_pos (l : RootedArm h arm) : run arm.jointPositions h = .ok (posList h arm.movableNodes) h :=
  run_jointPositions h l.unlocked arm l.wf

section solve
variable {sol sol' : IkSolver ℝ} {target : Iso ℝ} {c : Constraints}

theorem both_step (s : Frozen h arm names g brm)
    (sf : SolverFor (indicesOf h arm names) (posList h arm.movableNodes) sol sol') (sz : sol.la.Sized)
    (more : countTrue (defineOperationalSpace c) < arm.dof - names.length) (a : At h arm names g brm h' g') :
    Both h arm names g brm
      (run (solveOneLoop sol arm target (defineOperationalSpace c) (indicesOf h arm names)) h')
      (run (solveOneLoop sol' brm target (defineOperationalSpace c) []) g') := by
  have l := s.left.same a.left
  have r := s.right.same a.right
  obtain ⟨J, h1, g1, e1, e2, a1, lJ, hJ⟩ := a.jacobian s
  have l1 := s.left.same a1.left
  have r1 := s.right.same a1.right
  simp only [solveOneLoop, run_bind, run_pos l, run_pos r,
    Res.bind_ok, run_endTransform _ _ l.unlocked, run_endTransform _ _ r.unlocked, e1, e2, ← a.endPose s, ← a.pos]
  have lp : (posList h arm.movableNodes).length = arm.dof := by simp [posList, s.left.wf.dof]
  have db : brm.dof = arm.dof - (indicesOf h arm names).length := by rw [s.count]; have := s.dof; omega
  have np := next_same sf sz indicesOf_sorted (fun i hi => by simpa [posList] using indicesOf_lt hi)
    (defineOperationalSpace c) rfl (by rw [lp, s.count]; exact more) J (by simp [lJ, posList]) hJ
    (calcPoseDiffWithConstraints target (K.endPose h' arm.nodes) (defineOperationalSpace c))
    (posList h' arm.movableNodes)
    (by rw [((C30_count (T := ℝ) c).2 _ _), ← (C30_count (T := ℝ) c).1]) (by simp [posList]) a.held
  rw [lp, ← db] at np
  rcases np with ⟨m, x, y⟩ | ⟨ps, x, y, len, held⟩
  · rw [x, y]
    exact ⟨rfl, a1⟩
  · rw [x, y]
    simp only [run_ofExcept_ok, Res.bind_ok, run_bind, run_setJointPositionsClamped _ _ _ l1.unlocked,
      run_setJointPositionsClamped _ _ _ r1.unlocked]
    have a2 := a1.clampAll s ps (by rw [len, s.left.wf.dof]) fun i hi => by rw [held i hi, a.held i hi]
    rw [run_endTransform _ _ (s.left.same a2.left).unlocked, run_endTransform _ _ (s.right.same a2.right).unlocked]
    simp only [Res.bind_ok, a2.endPose s]
    exact ⟨rfl, a2⟩

theorem restore (s : Frozen h arm names g brm) (a : At h arm names g brm h' g') : ∃ h1 g1,
    run (arm.setJointPositions (posList h arm.movableNodes)) h' = .ok (.ok ()) h1 ∧
      run (brm.setJointPositions (dropIdx (indicesOf h arm names) (posList h arm.movableNodes))) g' = .ok (.ok ()) g1 ∧
      At h arm names g brm h1 g1 := by
  have one : ∀ {h h' : KHeap ℝ} {arm : Chain}, RootedArm h arm → SameBut h h' → MimicWF h →
      (∀ n ∈ arm.movableNodes, (h.get n).mimicParent = none ∧ (h.get n).mimicChildren = []) →
      (∀ n ∈ arm.movableNodes, NotOutside (h.get n).joint.limits (h.get n).joint.position) →
      ∃ h1, run (arm.setJointPositions (posList h arm.movableNodes)) h' = .ok (.ok ()) h1 ∧ SameBut h h1 ∧
        posList h1 arm.movableNodes = posList h arm.movableNodes := by
    intro h h' arm l sb mw fr ins
    have lz : arm.movableNodes.zip (posList h arm.movableNodes) =
        arm.movableNodes.map fun n => (n, (h.get n).joint.position) := by
      rw [posList, List.zip_map_right, List.zip_eq_zipWith, List.zipWith_self]
      simp
    have fst : (arm.movableNodes.zip (posList h arm.movableNodes)).map Prod.fst = arm.movableNodes := by
      rw [List.map_fst_zip (by simp [posList])]
    obtain ⟨ok, po, -⟩ := setAll_inside (arm.movableNodes.zip (posList h arm.movableNodes)) h'
      (by rw [fst]; exact l.movableNodup) (by
        intro p hp
        rw [lz] at hp
        obtain ⟨n, hn, rfl⟩ := List.mem_map.1 hp
        exact ⟨by rw [sb.jointType]; exact l.movable hn, by rw [sb.limits]; exact ins n hn,
          by rw [sb.mimicParent]; exact (fr n hn).1, by rw [sb.mimicChildren]; exact (fr n hn).2⟩)
    refine ⟨(setAll (arm.movableNodes.zip (posList h arm.movableNodes)) h').2, ?_, sb.trans (sameBut_setAll _ _), ?_⟩
    · rw [run_setJointPositions _ _ _ (sb.unlocked l.unlocked) (sb.mimicWF mw) (by simp [posList, l.wf.dof]), ok]
    · exact List.map_congr_left fun n hn => po (n, (h.get n).joint.position) (by
        rw [lz]; exact List.mem_map.2 ⟨n, hn, rfl⟩)
  have ins : ∀ n ∈ brm.movableNodes, NotOutside (g.get n).joint.limits (g.get n).joint.position := by
    intro m hm
    obtain ⟨j, hj, rfl⟩ := List.getElem_of_mem hm
    obtain ⟨i, ei, hi, -⟩ := s.kept_node hj
    have x1 := congrArg (·[j]?) s.limits
    have x2 := congrArg (·[j]?) s.positions
    simp only [dropIdx_get, List.length_map, ei, Option.bind_some, List.getElem?_map, List.getElem?_eq_getElem hi,
      List.getElem?_eq_getElem hj, Option.map_some, Option.some.injEq] at x1 x2
    rw [← x1, ← x2]
    exact s.inside _ (List.getElem_mem hi)
  obtain ⟨h1, e1, s1, p1⟩ := one s.left a.left s.leftMimic s.leftFree s.inside
  obtain ⟨g1, e2, s2, p2⟩ := one s.right a.right s.rightMimic s.rightFree ins
  have sp : dropIdx (indicesOf h arm names) (posList h arm.movableNodes) = posList g brm.movableNodes := s.positions
  refine ⟨h1, g1, e1, by rw [sp]; exact e2, s1, s2, ?_, fun i _ => by rw [p1]⟩
  rw [p1, p2, sp]

theorem both_loop (s : Frozen h arm names g brm)
    (sf : SolverFor (indicesOf h arm names) (posList h arm.movableNodes) sol sol') (sz : sol.la.Sized)
    (more : countTrue (defineOperationalSpace c) < arm.dof - names.length) (left : Nat) (last : Option (V3 ℝ × V3 ℝ))
    (a : At h arm names g brm h' g') :
    Both h arm names g brm
      (run (tryLoop sol arm target (defineOperationalSpace c) (indicesOf h arm names) (posList h arm.movableNodes)
        left last) h')
      (run (tryLoop sol' brm target (defineOperationalSpace c) []
        (dropIdx (indicesOf h arm names) (posList h arm.movableNodes)) left last) g') := by
  induction left generalizing last h' g' with
  | zero =>
    simp only [tryLoop, run_bind]
    obtain ⟨h1, g1, e1, e2, a1⟩ := s.restore a
    rw [e1, e2]
    simp only [Res.bind_ok, sf.tries]
    cases last <;> exact ⟨rfl, a1⟩
  | succ left ih =>
    simp only [tryLoop, run_bind]
    refine (s.both_step sf sz more a).bind fun r h1 g1 a => ?_
    cases r with
    | error e => exact ⟨rfl, a⟩
    | ok v =>
      have rc : ∀ a b, reached sol' a b = reached sol a b := by
        intro a b; rw [reached, reached, sf.distance, sf.angle]
      simp only [rc]
      by_cases ok : reached sol (targetDiffToLenRotDiff v (defineOperationalSpace c)).1
        (targetDiffToLenRotDiff v (defineOperationalSpace c)).2 = true
      · have l := s.left.same a.left
        have r := s.right.same a.right
        simp only [if_pos ok, run_bind, run_pos l, run_pos r,
          Res.bind_ok, run_setJointPositionsClamped _ _ _ l.unlocked, run_setJointPositionsClamped _ _ _ r.unlocked]
        have a2 := a.clampAll s (posList h1 arm.movableNodes) (by simp [posList]) a.held
        rw [a.pos] at a2
        exact ⟨rfl, a2⟩
      · simp only [if_neg ok]
        exact ih _ a

theorem both_solve (s : Frozen h arm c.ignoredJointNames g brm)
    (sf : SolverFor (indicesOf h arm c.ignoredJointNames) (posList h arm.movableNodes) sol sol') (sz : sol.la.Sized)
    (more : countTrue (defineOperationalSpace c) < arm.dof - c.ignoredJointNames.length) :
    Both h arm c.ignoredJointNames g brm (run (solveWithConstraints sol arm target c) h)
      (run (solveWithConstraints sol' brm target { c with ignoredJointNames := [] }) g) := by
  have l := s.left
  have r := s.right
  have a := At.start s
  have sp : dropIdx (indicesOf h arm c.ignoredJointNames) (posList h arm.movableNodes) = posList g brm.movableNodes :=
    s.positions
  have db := s.dof
  obtain ⟨is, ei, es⟩ := s.nameIndices_ok
  have inner : Both h arm c.ignoredJointNames g brm (run (solveInternal sol arm target c) h)
      (run (solveInternal sol' brm target { c with ignoredJointNames := [] }) g) := by
    simp only [solveInternal, run_bind, run_pos l, run_pos r,
      Res.bind_ok, List.length_nil]
    rw [if_neg (by omega), if_neg (by omega), if_neg (by omega), if_neg (by
      show ¬ brm.dof - 0 < countTrue (defineOperationalSpace c)
      omega)]
    rw [run_bind, run_bind, run_ignoredIndices _ _ _ l.unlocked, run_ignoredIndices _ _ _ r.unlocked, ei]
    simp only [nameIndices, Res.bind_ok, sf.tries]
    rw [← sp]
    have es' : is.mergeSort (fun a b => decide (a ≤ b)) = indicesOf h arm c.ignoredJointNames := es
    rw [es', show ([] : List Nat).mergeSort (fun a b => decide (a ≤ b)) = [] from List.mergeSort_nil]
    exact s.both_loop sf sz more _ _ a
  simp only [solveWithConstraints, run_bind, run_pos l, run_pos r, Res.bind_ok]
  refine inner.bind fun r h1 g1 a => ?_
  cases r with
  | ok v => exact ⟨rfl, a⟩
  | error e =>
    obtain ⟨h2, g2, e1, e2, a1⟩ := s.restore a
    rw [sp] at e2
    simp only [run_bind, e1, e2]
    exact ⟨rfl, a1⟩

end solve

end Frozen

/-- **C103.**  When more joints remain than coordinates are constrained, solving with some joints ignored is solving for the
robot in which these joints are held where they are: the same result or the same panic, the other joints at the same
positions, the ignored ones where they were. -/
theorem C103_held {h g : KHeap ℝ} {arm brm : Chain} {c : Constraints} {sol sol' : IkSolver ℝ} (target : Iso ℝ)
    (s : Frozen h arm c.ignoredJointNames g brm)
    (sf : Frozen.SolverFor (indicesOf h arm c.ignoredJointNames)
      (arm.movableNodes.map fun n => (h.get n).joint.position) sol sol')
    (sz : sol.la.Sized) (more : numConstrained c < arm.dof - c.ignoredJointNames.length) :
    SameButHeld arm (indicesOf h arm c.ignoredJointNames) (arm.movableNodes.map fun n => (h.get n).joint.position) brm
      (run (solveWithConstraints sol arm target c) h)
      (run (solveWithConstraints sol' brm target { c with ignoredJointNames := [] }) g) := by
  rw [← (C30_count (T := ℝ) c).1] at more
  have := s.both_solve (target := target) sf sz more
  revert this
  generalize run (solveWithConstraints sol arm target c) h = x
  generalize run (solveWithConstraints sol' brm target { c with ignoredJointNames := [] }) g = y
  intro this
  cases x <;> cases y <;> first | exact this.elim | exact ⟨this.1, this.2.pos, this.2.held⟩

/-! ## fixed joints -/

/-- The second robot has the nodes of the first, and each joint with one of these names has been fixed where it is. -/
structure Welded (h : KHeap ℝ) (arm : Chain) (names : List String) (g : KHeap ℝ) (brm : Chain) : Prop where
  left : RootedArm h arm
  right : RootedArm g brm
  leftMimic : MimicWF h
  rightMimic : MimicWF g
  leftFree : ∀ n ∈ arm.movableNodes, (h.get n).mimicParent = none ∧ (h.get n).mimicChildren = []
  rightFree : ∀ n ∈ brm.movableNodes, (g.get n).mimicParent = none ∧ (g.get n).mimicChildren = []
  inside : ∀ n ∈ arm.movableNodes, NotOutside (h.get n).joint.limits (h.get n).joint.position
  once : names.Nodup
  known : ∀ a ∈ names, a ∈ arm.movableNodes.map fun n => (h.get n).joint.name
  distinct : (arm.movableNodes.map fun n => (h.get n).joint.name).Nodup
  nodes : brm.nodes = arm.nodes
  welded : ∀ n ∈ arm.movableNodes, (h.get n).joint.name ∈ names → (g.get n).joint = (h.get n).joint.welded
  others : ∀ n ∈ arm.nodes, ¬ (n ∈ arm.movableNodes ∧ (h.get n).joint.name ∈ names) → (g.get n).joint = (h.get n).joint

namespace Welded
variable {h g : KHeap ℝ} {arm brm : Chain} {names : List String}

theorem dropIdx_filter {α : Type} (p : α → Bool) (is : List Nat) (xs : List α)
    (e : ∀ i x, xs[i]? = some x → (i ∈ is ↔ p x = false)) : dropIdx is xs = xs.filter p := by
  have : ∀ (k : Nat) (xs : List α), (∀ i x, xs[i]? = some x → (i + k ∈ is ↔ p x = false)) →
      dropFrom k is xs = xs.filter p := by
    intro k xs
    induction xs generalizing k with
    | nil => intro _; rfl
    | cons x xs ih =>
      intro e
      have e0 := e 0 x rfl
      have et := ih (k + 1) fun i y hy => by
        have := e (i + 1) y (by simpa using hy)
        rw [show i + (k + 1) = i + 1 + k by omega]
        exact this
      rw [Nat.zero_add] at e0
      rw [dropFrom_cons, et, List.filter_cons]
      cases px : p x
      · rw [if_pos (e0.2 px)]; simp
      · rw [if_neg (by rw [e0, px]; simp)]; simp
  rw [dropIdx_eq]
  exact this 0 xs e

/-- the movable joints of the second robot -/
theorem movable (w : Welded h arm names g brm) : brm.movableNodes = dropIdx (indicesOf h arm names) arm.movableNodes := by
  rw [dropIdx_filter (fun n => !names.contains (h.get n).joint.name), w.right.wf.movable, w.left.wf.movable, w.nodes,
    List.filter_filter]
  · refine List.filter_congr fun n hn => ?_
    have key : Movable g n ↔ (h.get n).joint.name ∉ names ∧ Movable h n := by
      by_cases m : Movable h n
      · have mm : n ∈ arm.movableNodes := by
          rw [w.left.wf.movable, List.mem_filter]
          exact ⟨hn, by simpa using m⟩
        by_cases q : (h.get n).joint.name ∈ names
        · have : ¬ Movable g n := by
            unfold Movable
            rw [w.welded n mm q]
            simp [Joint.welded]
          simp [this, q]
        · have : Movable g n ↔ Movable h n := by
            unfold Movable
            rw [w.others n hn fun x => q x.2]
          simp [this, q]
      · have nm : n ∉ arm.movableNodes := by
          rw [w.left.wf.movable, List.mem_filter]
          simpa [hn] using m
        have : Movable g n ↔ Movable h n := by
          unfold Movable
          rw [w.others n hn fun x => nm x.1]
        simp [this, m]
    by_cases q : (h.get n).joint.name ∈ names <;> by_cases m : Movable h n <;> simp [key, q, m]
  · intro i n hn
    rw [Frozen.mem_indicesOf]
    constructor
    · rintro ⟨n', hn', q⟩
      rw [hn] at hn'
      cases hn'
      simpa using q
    · intro q
      exact ⟨n, hn, by simpa using q⟩

theorem kept_joint (w : Welded h arm names g brm) {n : NodeId} (hn : n ∈ dropIdx (indicesOf h arm names) arm.movableNodes) :
    (g.get n).joint = (h.get n).joint := by
  have hm := dropIdx_mem hn
  refine w.others n (w.left.wf.sub n hm) fun x => ?_
  obtain ⟨j, hj⟩ := List.mem_iff_getElem?.1 hn
  rw [dropIdx_get] at hj
  cases e : (keptIdx (indicesOf h arm names) arm.movableNodes.length)[j]? with
  | none => rw [e] at hj; cases hj
  | some i =>
    rw [e] at hj
    exact (keptIdx_lt (List.mem_of_getElem? e)).2 (Frozen.mem_indicesOf.2 ⟨n, hj, x.2⟩)

theorem map_kept {β : Type} (w : Welded h arm names g brm) (f : Joint ℝ → β) :
    dropIdx (indicesOf h arm names) (arm.movableNodes.map fun n => f (h.get n).joint) =
      brm.movableNodes.map fun n => f (g.get n).joint := by
  rw [dropIdx_map, w.movable]
  exact List.map_congr_left fun n hn => by rw [w.kept_joint hn]

/-- the end of both robots is at the same place -/
theorem kinematics (w : Welded h arm names g brm) (xs : List ℝ) (len : xs.length = arm.dof)
    (held : ∀ i ∈ indicesOf h arm names, xs[i]? = (arm.movableNodes.map fun n => (h.get n).joint.position)[i]?) :
    ∃ t h' g', run (moveTo arm xs) h = .ok t h' ∧ run (moveTo brm (dropIdx (indicesOf h arm names) xs)) g = .ok t g' := by
  rw [w.left.wf.dof] at len
  have lb : (dropIdx (indicesOf h arm names) xs).length = brm.movableNodes.length := by
    rw [w.movable, dropIdx_length', dropIdx_length', len]
  simp only [moveTo, run_bind, run_setJointPositionsUnchecked _ _ _ w.left.unlocked,
    run_setJointPositionsUnchecked _ _ _ w.right.unlocked, Res.bind_ok,
    run_endTransform _ _ (putAll_unlocked _ w.left.unlocked), run_endTransform _ _ (putAll_unlocked _ w.right.unlocked)]
  refine ⟨_, _, putAll (brm.movableNodes.zip (dropIdx (indicesOf h arm names) xs)) g, rfl, ?_⟩
  have pl := SameRobot.posList_putAll _ w.left.movableNodup xs len h
  have pr := SameRobot.posList_putAll _ w.right.movableNodup _ lb g
  have sl := SameRobot.sameBut_putAll (arm.movableNodes.zip xs) h
  have sr := SameRobot.sameBut_putAll (brm.movableNodes.zip (dropIdx (indicesOf h arm names) xs)) g
  generalize putAll (arm.movableNodes.zip xs) h = h1 at *
  generalize putAll (brm.movableNodes.zip (dropIdx (indicesOf h arm names) xs)) g = g1 at *
  have factor : ∀ n ∈ arm.nodes, (g1.get n).joint.localTransform = (h1.get n).joint.localTransform := by
    intro n hn
    have lt : ∀ {a b : KHeap ℝ} (_ : SameBut a b), (b.get n).joint.localTransform =
        (a.get n).joint.origin.mul ((a.get n).joint.jointType.motion (b.get n).joint.position) := by
      intro a b sb
      have o : (b.get n).joint.origin = (a.get n).joint.origin := by
        obtain ⟨p, wt, wv, e⟩ := sb.node n; rw [e]
      rw [Joint.localTransform, jointTransform_motion, o, sb.jointType]
    rw [lt sl, lt sr]
    by_cases m : n ∈ arm.movableNodes
    · obtain ⟨i, hi⟩ := List.mem_iff_getElem?.1 m
      have p1 : xs[i]? = some (h1.get n).joint.position := by
        rw [← pl, posList, List.getElem?_map, hi]; rfl
      by_cases q : (h.get n).joint.name ∈ names
      · have p2 := held i (Frozen.mem_indicesOf.2 ⟨n, hi, q⟩)
        rw [p1, List.getElem?_map, hi] at p2
        have p3 : (h1.get n).joint.position = (h.get n).joint.position := by simpa using p2
        rw [w.welded n m q, p3, ← jointTransform_motion]
        show ((h.get n).joint.origin.mul (h.get n).joint.jointTransform).mul Iso.one = _
        rw [Iso.mul_one']
      · have ni : i ∉ indicesOf h arm names := by
          intro x
          obtain ⟨n', hn', q'⟩ := Frozen.mem_indicesOf.1 x
          rw [hi] at hn'
          cases hn'
          exact q q'
        have hl : i < arm.movableNodes.length := (List.getElem?_eq_some_iff.1 hi).1
        obtain ⟨j, hj⟩ := List.mem_iff_getElem?.1 (show i ∈ keptIdx (indicesOf h arm names) arm.movableNodes.length from
          List.mem_filter.2 ⟨List.mem_range.2 hl, by simpa using ni⟩)
        have hb : brm.movableNodes[j]? = some n := by rw [w.movable, dropIdx_get, hj, Option.bind_some, hi]
        have p2 : (dropIdx (indicesOf h arm names) xs)[j]? = some (g1.get n).joint.position := by
          rw [← pr, posList, List.getElem?_map, hb]; rfl
        rw [dropIdx_get, len, hj, Option.bind_some, p1] at p2
        have p3 : (h1.get n).joint.position = (g1.get n).joint.position := by simpa using p2
        rw [w.others n hn fun x => q x.2, p3]
    · have fx : (h.get n).joint.jointType = .fixed := by
        by_contra x
        exact m (by rw [w.left.wf.movable, List.mem_filter]; exact ⟨hn, decide_eq_true (p := Movable h n) x⟩)
      rw [w.others n hn fun x => m x.1, fx]
      rfl
  have prod : ∀ (ns : List NodeId) (X : Iso ℝ), (∀ n ∈ ns, n ∈ arm.nodes) → prodFrom g1 X ns = prodFrom h1 X ns := by
    intro ns
    induction ns with
    | nil => intro X _; rfl
    | cons n ns ih =>
      intro X hs
      show prodFrom g1 (X.mul (g1.get n).joint.localTransform) ns = prodFrom h1 (X.mul (h1.get n).joint.localTransform) ns
      rw [factor n (hs n (by simp)), ih _ fun m hm => hs m (by simp [hm])]
  have : K.endPose g1 brm.nodes = K.endPose h1 arm.nodes := by
    rw [w.nodes]
    exact prod arm.nodes Iso.one fun _ h => h
  rw [this]

theorem frozen (w : Welded h arm names g brm) : Frozen h arm names g brm where
  left := w.left
  right := w.right
  leftMimic := w.leftMimic
  rightMimic := w.rightMimic
  leftFree := w.leftFree
  rightFree := w.rightFree
  inside := w.inside
  once := w.once
  known := w.known
  distinct := w.distinct
  limits := w.map_kept fun j => j.limits
  positions := w.map_kept fun j => j.position
  kinematics := w.kinematics

end Welded

/-- **C103, fixed joints.**  When more joints remain than coordinates are constrained, ignoring joints is the same as fixing
them where they are before solving. -/
theorem C103_welded {h g : KHeap ℝ} {arm brm : Chain} {c : Constraints} {sol sol' : IkSolver ℝ} (target : Iso ℝ)
    (w : Welded h arm c.ignoredJointNames g brm)
    (sf : Frozen.SolverFor (indicesOf h arm c.ignoredJointNames)
      (arm.movableNodes.map fun n => (h.get n).joint.position) sol sol')
    (sz : sol.la.Sized) (more : numConstrained c < arm.dof - c.ignoredJointNames.length) :
    SameButHeld arm (indicesOf h arm c.ignoredJointNames) (arm.movableNodes.map fun n => (h.get n).joint.position) brm
      (run (solveWithConstraints sol arm target c) h)
      (run (solveWithConstraints sol' brm target { c with ignoredJointNames := [] }) g) :=
  C103_held target w.frozen sf sz more

/-- **C103, reference positions.**  The nullspace function that pulls the joints to reference positions agrees with the one
for the remaining joints, with their references and weights. -/
theorem C103_reference (is : List Nat) (p ref weights : List ℝ) (lr : ref.length = p.length)
    (lw : weights.length = p.length) : ∃ f f', createReferencePositionsNullspaceFunction ref weights = .ok f ∧
      createReferencePositionsNullspaceFunction (dropIdx is ref) (dropIdx is weights) = .ok f' ∧
      NullspaceAgrees is p (some f) (some f') := by
  refine ⟨referenceNullspace ref weights, referenceNullspace (dropIdx is ref) (dropIdx is weights), ?_, ?_, ?_⟩
  · rw [createReferencePositionsNullspaceFunction, if_pos (by rw [lr, lw])]
  · rw [createReferencePositionsNullspaceFunction, if_pos (by rw [dropIdx_length', dropIdx_length', lr, lw])]
  · intro xs lx _
    refine .inl ⟨_, by rw [referenceNullspace, if_neg (by omega)], by simp [lr, lw, lx], ?_⟩
    rw [referenceNullspace, if_neg (by rw [dropIdx_length', dropIdx_length', lr, lx]; omega),
      dropIdx_zipWith _ _ _ _ (by simp [lr, lw, lx]), dropIdx_zipWith _ _ _ _ (by rw [lx, lr])]

end

end K
