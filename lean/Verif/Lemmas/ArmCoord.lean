import Verif.Lemmas.Smooth
import Verif.Props.IkConverge
/-!
# End pose and Jacobian of an arm as functions of the vector of its joint positions
-/

namespace K
open Prog Filter Topology

noncomputable section

/-- a rooted non-branching chain with rigid transforms, nothing locked -/
structure RootedArm (h : KHeap ℝ) (c : Chain) : Prop where
  unlocked : h.Unlocked
  wf : c.Wf h
  root : ∃ n rest, c.nodes = n :: rest ∧ liveParent h n = none
  serial : Serial h c.nodes
  nodup : c.nodes.Nodup
  rigid : AllRigid h c.nodes

theorem RootedArm.same {h h' : KHeap ℝ} {c : Chain} (l : RootedArm h c) (s : SameBut h h') :
    RootedArm h' c := by
  obtain ⟨n, rest, e, r⟩ := l.root
  exact ⟨s.unlocked l.unlocked, s.chainWf l.wf, ⟨n, rest, e, by rw [s.liveParent]; exact r⟩,
    fun pre a b post e => by rw [s.liveParent]; exact l.serial pre a b post e, l.nodup,
    s.allRigid l.rigid⟩

theorem RootedArm.movableNodup {h : KHeap ℝ} {c : Chain} (l : RootedArm h c) : c.movableNodes.Nodup := by
  rw [l.wf.movable]; exact l.nodup.filter _

theorem RootedArm.movable {h : KHeap ℝ} {c : Chain} (l : RootedArm h c) {n : NodeId}
    (hn : n ∈ c.movableNodes) : (h.get n).joint.jointType ≠ .fixed := by
  rw [l.wf.movable, List.mem_filter] at hn
  exact (decide_eq_true_iff (p := Movable h n)).1 hn.2

/-- the positions of the movable joints -/
abbrev Coord (c : Chain) : Type := Fin c.movableNodes.length → ℝ

/-- where they are -/
def coordOf (g : KHeap ℝ) (c : Chain) : Coord c := fun i => (g.get c.movableNodes[i]).joint.position

/-- the position of each joint, given those of the movable ones -/
def posAt (h : KHeap ℝ) (c : Chain) (x : Coord c) (m : NodeId) : ℝ :=
  if hm : m ∈ c.movableNodes then x ⟨c.movableNodes.idxOf m, List.idxOf_lt_length_iff.2 hm⟩
  else (h.get m).joint.position

/-- the joint descriptions -/
def jointsOf (h : KHeap ℝ) (m : NodeId) : Joint ℝ := (h.get m).joint

/-- the pose of the end -/
def poseAt (h : KHeap ℝ) (c : Chain) (x : Coord c) : Iso ℝ :=
  prodAt (jointsOf h) (posAt h c x) Iso.one c.nodes

/-- the pose of the node `k` -/
def nodeAt (h : KHeap ℝ) (c : Chain) (x : Coord c) (k : NodeId) : Iso ℝ :=
  prodAt (jointsOf h) (posAt h c x) Iso.one (c.nodes.take (c.nodes.idxOf k + 1))

/-- the column of the node `k` -/
def colAt (h : KHeap ℝ) (c : Chain) (x : Coord c) (k : NodeId) : List ℝ :=
  twist (colLin (poseAt h c x).trans (jointsOf h k) (nodeAt h c x k))
    (colAng (jointsOf h k) (nodeAt h c x k))

/-- the Jacobian -/
def jacAt (h : KHeap ℝ) (c : Chain) (x : Coord c) : Mat ℝ := c.movableNodes.map (colAt h c x)

/-- row `i` of the Jacobian -/
def rowAt (h : KHeap ℝ) (c : Chain) (x : Coord c) (i : Nat) : Coord c →L[ℝ] ℝ :=
  ∑ k, ((colAt h c x c.movableNodes[k]).getD i 0) • ContinuousLinearMap.proj k

theorem posAt_movable {h : KHeap ℝ} {c : Chain} (nd : c.movableNodes.Nodup) (x : Coord c)
    (k : Fin c.movableNodes.length) : posAt h c x c.movableNodes[k] = x k := by
  have hm : c.movableNodes[k] ∈ c.movableNodes := List.getElem_mem _
  unfold posAt
  rw [dif_pos hm]
  congr 1
  exact Fin.ext (List.Nodup.idxOf_getElem nd k.1 k.2)

theorem posAt_coordOf (h g : KHeap ℝ) (c : Chain) (m : NodeId) (hm : m ∈ c.movableNodes) :
    posAt h c (coordOf g c) m = (g.get m).joint.position := by
  unfold posAt coordOf
  rw [dif_pos hm]
  simp

theorem posAt_c1 (h : KHeap ℝ) (c : Chain) (m : NodeId) : ContDiff ℝ 1 fun x : Coord c => posAt h c x m := by
  unfold posAt
  split
  · exact contDiff_apply ℝ ℝ _
  · exact contDiff_const

theorem at_fixed (j : Joint ℝ) (f : j.jointType = .fixed) (x : ℝ) :
    (j.at x).localTransform = j.localTransform := by
  rcases j with ⟨nm, jt, p, v, lim, o, c1, c2⟩
  have : jt = .fixed := f
  subst this; rfl

theorem RootedArm.prod {h g : KHeap ℝ} {c : Chain} (l : RootedArm h c) (sb : SameBut h g) (X : Iso ℝ)
    (ns : List NodeId) (sub : ∀ m ∈ ns, m ∈ c.nodes) :
    prodFrom g X ns = prodAt (jointsOf h) (posAt h c (coordOf g c)) X ns := by
  induction ns generalizing X with
  | nil => rfl
  | cons m ms ih =>
    have lt : (g.get m).joint.localTransform =
        ((jointsOf h m).at (posAt h c (coordOf g c) m)).localTransform := by
      by_cases hm : m ∈ c.movableNodes
      · rw [posAt_coordOf h g c m hm]
        obtain ⟨p, wt, wv, e⟩ := sb.node m
        rw [e]; rfl
      · have fx : (h.get m).joint.jointType = .fixed := by
          rw [l.wf.movable, List.mem_filter] at hm
          have : ¬ Movable h m := fun x => hm ⟨sub m (by simp), decide_eq_true x⟩
          exact not_not.1 this
        rw [at_fixed (jointsOf h m) fx]
        have fx' : (g.get m).joint.jointType = .fixed := by rw [sb.jointType]; exact fx
        obtain ⟨p, wt, wv, e⟩ := sb.node m
        rw [e]
        exact at_fixed (h.get m).joint fx p
    show prodFrom g (X.mul _) ms = prodAt _ _ (X.mul _) ms
    rw [lt]
    exact ih _ fun k hk => sub k (by simp [hk])

theorem RootedArm.endPose {h g : KHeap ℝ} {c : Chain} (l : RootedArm h c) (sb : SameBut h g) :
    endPose g c.nodes = poseAt h c (coordOf g c) := l.prod sb Iso.one c.nodes fun _ h => h

theorem RootedArm.jacobian {h g : KHeap ℝ} {c : Chain} (l : RootedArm h c) (sb : SameBut h g) :
    ∃ g', run (jacobian c) g = .ok (jacAt h c (coordOf g c)) g' := by
  have lg := l.same sb
  obtain ⟨n, rest, hc, root⟩ := lg.root
  obtain ⟨jac, g', W, e, hW, hjac⟩ := jacobian_columns g lg.unlocked c lg.wf n rest hc lg.serial root
  refine ⟨g', ?_⟩
  rw [e, hjac]
  congr 1
  refine List.map_congr_left fun k hk => ?_
  have hk' := l.wf.sub k hk
  have il := List.idxOf_lt_length_iff.2 hk'
  have split : c.nodes = c.nodes.take (c.nodes.idxOf k) ++ k :: c.nodes.drop (c.nodes.idxOf k + 1) := by
    conv_lhs => rw [← List.take_append_drop (c.nodes.idxOf k) c.nodes, List.drop_eq_getElem_cons il]
    simp
  have tk : c.nodes.take (c.nodes.idxOf k) ++ [k] = c.nodes.take (c.nodes.idxOf k + 1) := by
    rw [← List.take_concat_get' _ _ il]; simp
  have wk : W k = nodeAt h c (coordOf g c) k := by
    rw [hW _ _ _ split, tk]
    exact l.prod sb _ _ fun m hm => List.mem_of_mem_take hm
  have jt : (g.get k).joint.jointType = (jointsOf h k).jointType := sb.jointType k
  rw [wk, l.endPose sb]
  unfold colAt colLin colAng
  rw [jt]

theorem RootedArm.pose_c1 (h : KHeap ℝ) (c : Chain) (ns : List NodeId) :
    Iso.C1 fun x : Coord c => prodAt (jointsOf h) (posAt h c x) Iso.one ns :=
  prodAt_c1 _ _ _ (fun m _ => posAt_c1 h c m) _ (.const _)

theorem RootedArm.pose_rigid {h : KHeap ℝ} {c : Chain} (l : RootedArm h c) (x : Coord c) :
    (poseAt h c x).IsRigid :=
  prodAt_isRigid _ _ _ (fun n hn => l.rigid n hn) _ Iso.one_isRigid

theorem colAt_continuous (h : KHeap ℝ) (c : Chain) (k : NodeId) (i : Nat) :
    Continuous fun x : Coord c => (colAt h c x k).getD i 0 := by
  have a := colAng_continuous (jointsOf h k) (RootedArm.pose_c1 h c (c.nodes.take (c.nodes.idxOf k + 1)))
  have b := colLin_continuous (jointsOf h k) (RootedArm.pose_c1 h c (c.nodes.take (c.nodes.idxOf k + 1)))
    (RootedArm.pose_c1 h c c.nodes).trans
  match i with
  | 0 => exact b.1
  | 1 => exact b.2.1
  | 2 => exact b.2.2
  | 3 => exact a.1
  | 4 => exact a.2.1
  | 5 => exact a.2.2
  | n + 6 => exact continuous_const

theorem rowAt_continuous (h : KHeap ℝ) (c : Chain) (i : Nat) : Continuous fun x : Coord c => rowAt h c x i :=
  continuous_finsetSum _ fun _ _ => (colAt_continuous h c _ i).smul continuous_const

theorem rowSum_jacAt (h : KHeap ℝ) (c : Chain) (x d : Coord c) (i : Nat) (l : List ℝ)
    (hl : l.length = c.movableNodes.length) (hd : ∀ k : Fin c.movableNodes.length, d k = l.getD k 0) :
    rowSum (jacAt h c x) i l = rowAt h c x i d := by
  have : ((jacAt h c x).zip l).map (fun p => p.1.getD i 0 * p.2) =
      List.ofFn fun k : Fin c.movableNodes.length => (colAt h c x c.movableNodes[k]).getD i 0 * d k := by
    refine List.ext_getElem (by simp [jacAt, hl]) fun k h1 h2 => ?_
    have hk : k < c.movableNodes.length := by simpa using h2
    simp [jacAt, hd, List.getD_eq_getElem?_getD, List.getElem?_eq_getElem (hl ▸ hk)]
  unfold rowSum rowAt
  rw [this, List.sum_ofFn]
  simp [sum_apply]

/-- the twist of the end when the joints start to move from where they are -/
theorem RootedArm.twist {h : KHeap ℝ} {c : Chain} (l : RootedArm h c) (d : Coord c) :
    Iso.HasTwist (fun t : ℝ => poseAt h c (coordOf h c + t • d))
      ⟨rowAt h c (coordOf h c) 0 d, rowAt h c (coordOf h c) 1 d, rowAt h c (coordOf h c) 2 d⟩
      ⟨rowAt h c (coordOf h c) 3 d, rowAt h c (coordOf h c) 4 d, rowAt h c (coordOf h c) 5 d⟩ 0 := by
  obtain ⟨n, rest, hc, root⟩ := l.root
  obtain ⟨jac, g, e, -, tw⟩ := path_twist h l.unlocked c l.wf n rest hc l.serial root l.rigid
    (fun m t => posAt h c (coordOf h c + t • d) m)
    (fun m => if hm : m ∈ c.movableNodes then d ⟨c.movableNodes.idxOf m, List.idxOf_lt_length_iff.2 hm⟩ else 0) 0
    (fun m _ => by
      by_cases hm : m ∈ c.movableNodes
      · simp only [zero_smul, add_zero]; exact posAt_coordOf h h c m hm
      · simp [posAt, hm])
    (fun m _ => by
      by_cases hm : m ∈ c.movableNodes
      · simp only [posAt, dif_pos hm, Pi.add_apply, Pi.smul_apply, smul_eq_mul]
        simpa using ((hasDerivAt_id (0 : ℝ)).mul_const
          (d ⟨c.movableNodes.idxOf m, List.idxOf_lt_length_iff.2 hm⟩)).const_add
          (coordOf h c ⟨c.movableNodes.idxOf m, List.idxOf_lt_length_iff.2 hm⟩)
      · simp only [posAt, dif_neg hm]
        exact hasDerivAt_const _ _)
  obtain ⟨g', e'⟩ := l.jacobian (SameBut.refl h)
  rw [e'] at e; cases e
  have row : ∀ i, rowSum (jacAt h c (coordOf h c)) i (c.movableNodes.map fun m =>
      if hm : m ∈ c.movableNodes then d ⟨c.movableNodes.idxOf m, List.idxOf_lt_length_iff.2 hm⟩ else 0) =
        rowAt h c (coordOf h c) i d := by
    intro i
    refine rowSum_jacAt h c _ d i _ (by simp) fun k => ?_
    have hm : c.movableNodes[k] ∈ c.movableNodes := List.getElem_mem _
    simp only [List.getD_eq_getElem?_getD, List.getElem?_map, List.getElem?_eq_getElem k.2, Option.map_some,
      Option.getD_some]
    rw [dif_pos (List.getElem_mem _)]
    congr 1
    exact Fin.ext (List.Nodup.idxOf_getElem l.movableNodup k.1 k.2).symm
  simp only [row] at tw
  exact tw

/-- the derivative of the constrained pose difference, where the constrained coordinates have been reached -/
theorem RootedArm.diff_strict {h : KHeap ℝ} {c : Chain} (l : RootedArm h c) {target : Iso ℝ}
    (rt : target.IsRigid) {i : Nat} (hi : i < 6)
    (rot : 3 ≤ i → ∀ v, target.rot.rotate v = (K.endPose h c.nodes).rot.rotate v) :
    HasStrictFDerivAt (fun x => (calcPoseDiff target (poseAt h c x)).getD i 0)
      (-rowAt h c (coordOf h c) i) (coordOf h c) := by
  have ep := l.endPose (SameBut.refl h)
  have rE := l.pose_rigid (coordOf h c)
  by_cases i3 : 3 ≤ i
  · have s := poseDiff_strict (target := ⟨(poseAt h c (coordOf h c)).trans, target.rot⟩) rt
      (RootedArm.pose_c1 h c c.nodes) (fun x => l.pose_rigid x) (x0 := coordOf h c)
      (fun p => by
        simp only [Iso.apply]
        rw [rot i3, ep]; rfl)
      (rowAt h c (coordOf h c)) l.twist i hi
    refine s.congr_of_eventuallyEq (Eventually.of_forall fun x => ?_)
    match i, hi, i3 with
    | 3, _, _ => rfl
    | 4, _, _ => rfl
    | 5, _, _ => rfl
  · have s := poseDiff_strict (target := poseAt h c (coordOf h c)) rE
      (RootedArm.pose_c1 h c c.nodes) (fun x => l.pose_rigid x) (x0 := coordOf h c)
      (fun p => rfl) (rowAt h c (coordOf h c)) l.twist i hi
    have s' := s.add_const ((calcPoseDiff target (poseAt h c (coordOf h c))).getD i 0)
    refine s'.congr_of_eventuallyEq (Eventually.of_forall fun x => ?_)
    match i, hi, i3 with
    | 0, _, _ => simp [calcPoseDiff, V3.sub, poseAt]
    | 1, _, _ => simp [calcPoseDiff, V3.sub, poseAt]
    | 2, _, _ => simp [calcPoseDiff, V3.sub, poseAt]
    | n + 3, _, i3 => omega

end
end K
