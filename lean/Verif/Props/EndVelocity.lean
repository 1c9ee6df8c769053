import Verif.Lemmas.PathDeriv
import Verif.Lemmas.LinAlg
import Verif.Props.Jacobian
/-!
# C58: the Jacobian maps joint velocities to the velocity of the end
-/

namespace K
open Prog

noncomputable section

/-- move all joints of the chain, then ask for the end pose -/
def moveTo (c : Chain) (q : List ℝ) : KProg ℝ (Iso ℝ) := do
  c.setJointPositionsUnchecked q
  c.endTransform

/-- effect of the loop of `set_joint_positions_unchecked` -/
def putAll (ps : List (NodeId × ℝ)) (h : KHeap ℝ) : KHeap ℝ :=
  ps.foldl (fun h p => h.modify p.1 fun s =>
    { s with joint := s.joint.setJointPositionUnchecked p.2 }) h

theorem run_setJointPositionsUnchecked (c : Chain) (xs : List ℝ) (h : KHeap ℝ) (u : h.Unlocked) :
    run (c.setJointPositionsUnchecked xs) h = .ok () (putAll (c.movableNodes.zip xs) h) :=
  run_forEach_modify u fun p _ h' u' => run_poke p.1 _ h' (u' p.1)

theorem putAll_unlocked (ps : List (NodeId × ℝ)) {h : KHeap ℝ} (u : h.Unlocked) :
    (putAll ps h).Unlocked := by
  induction ps generalizing h with
  | nil => exact u
  | cons p ps ih => exact ih (u.modify _ _)

theorem putAll_other (ps : List (NodeId × ℝ)) (h : KHeap ℝ) (n : NodeId)
    (hn : n ∉ ps.map Prod.fst) : (putAll ps h).get n = h.get n := by
  induction ps generalizing h with
  | nil => rfl
  | cons p ps ih =>
    simp only [List.map_cons, List.mem_cons, not_or] at hn
    show (putAll ps _).get n = _
    rw [ih _ hn.2, Heap.get_modify_of_ne _ _ hn.1]

theorem putAll_mem (ps : List (NodeId × ℝ)) (h : KHeap ℝ) (nd : (ps.map Prod.fst).Nodup)
    (p : NodeId × ℝ) (hp : p ∈ ps) :
    ((putAll ps h).get p.1).joint = (h.get p.1).joint.setJointPositionUnchecked p.2 := by
  induction ps generalizing h with
  | nil => cases hp
  | cons q ps ih =>
    simp only [List.map_cons, List.nodup_cons] at nd
    rcases List.mem_cons.1 hp with rfl | hp
    · show ((putAll ps _).get p.1).joint = _
      rw [putAll_other _ _ _ nd.1]; simp
    · show ((putAll ps _).get p.1).joint = _
      rw [ih _ nd.2 hp, Heap.get_modify_of_ne]
      rintro e
      exact nd.1 (e ▸ List.mem_map_of_mem hp)

theorem unchecked_localTransform (j : Joint ℝ) (x : ℝ) :
    (j.setJointPositionUnchecked x).localTransform = (j.at x).localTransform := rfl

/-- `W` gives the poses along the list, starting after `X` -/
def Along (J : NodeId → Joint ℝ) (W : NodeId → Iso ℝ) : Iso ℝ → List NodeId → Prop
  | _, [] => True
  | X, n :: ns => X.mul (J n).localTransform = W n ∧ Along J W (W n) ns

theorem totLin_sum (J : NodeId → Joint ℝ) (W : NodeId → Iso ℝ) (r : NodeId → ℝ) (pn : V3 ℝ)
    (π : V3 ℝ → ℝ) (h0 : π V3.zero = 0) (ha : ∀ a b, π (a.add b) = π a + π b) (X : Iso ℝ)
    (ns : List NodeId) (al : Along J W X ns) :
    π (totLin J r pn X ns) = (ns.map fun n => π ((colLin pn (J n) (W n)).scale (r n))).sum := by
  induction ns generalizing X with
  | nil => simpa [totLin] using h0
  | cons n ns ih =>
    rw [totLin, ha, al.1, ih _ al.2]; simp

theorem totAng_sum (J : NodeId → Joint ℝ) (W : NodeId → Iso ℝ) (r : NodeId → ℝ)
    (π : V3 ℝ → ℝ) (h0 : π V3.zero = 0) (ha : ∀ a b, π (a.add b) = π a + π b) (X : Iso ℝ)
    (ns : List NodeId) (al : Along J W X ns) :
    π (totAng J r X ns) = (ns.map fun n => π ((colAng (J n) (W n)).scale (r n))).sum := by
  induction ns generalizing X with
  | nil => simpa [totAng] using h0
  | cons n ns ih =>
    rw [totAng, ha, al.1, ih _ al.2]; simp

theorem along_of (h : KHeap ℝ) (W : NodeId → Iso ℝ) (pre ns : List NodeId)
    (hW : ∀ p k post, pre ++ ns = p ++ k :: post → W k = prodFrom h Iso.one (p ++ [k])) :
    Along (fun n => (h.get n).joint) W (prodFrom h Iso.one pre) ns := by
  induction ns generalizing pre with
  | nil => trivial
  | cons n ns ih =>
    have e := hW pre n ns rfl
    refine ⟨?_, ?_⟩
    · rw [e]; simp [prodFrom]
    · rw [e]
      exact ih (pre ++ [n]) fun p k post x => hW p k post (by rw [← x]; simp)

theorem sum_filter_zero {α : Type} (f : α → ℝ) (g : α → Bool) (xs : List α)
    (z : ∀ x ∈ xs, g x = false → f x = 0) : (xs.map f).sum = ((xs.filter g).map f).sum := by
  induction xs with
  | nil => rfl
  | cons x xs ih =>
    have := ih fun y hy => z y (by simp [hy])
    cases e : g x
    · rw [List.filter_cons_of_neg (by simp [e])]
      simp [z x (by simp) e, this]
    · rw [List.filter_cons_of_pos (by simp [e])]
      simp [this]

theorem zip_map_sum {α : Type} (mv : List α) (f : α → List ℝ) (r : α → ℝ) (i : Nat) :
    rowSum (mv.map f) i (mv.map r) = (mv.map fun n => (f n).getD i 0 * r n).sum := by
  induction mv with
  | nil => rfl
  | cons n mv ih =>
    simp only [rowSum, List.map_cons, List.zip_cons_cons, List.sum_cons] at ih ⊢
    rw [ih]

/-- the columns of the Jacobian, from the world poses of the joints -/
theorem jacobian_columns (h : KHeap ℝ) (u : h.Unlocked) (c : Chain) (w : c.Wf h) (n : NodeId)
    (rest : List NodeId) (hc : c.nodes = n :: rest) (s : Serial h c.nodes)
    (root : liveParent h n = none) :
    ∃ jac h', ∃ W : NodeId → Iso ℝ, run (jacobian c) h = .ok jac h' ∧
      (∀ p k post, c.nodes = p ++ k :: post → W k = prodFrom h Iso.one (p ++ [k])) ∧
      jac = c.movableNodes.map fun k => twist (colLin (endPose h c.nodes).trans (h.get k).joint (W k))
        (colAng (h.get k).joint (W k)) := by
  have b : Base h (n :: rest) n Iso.one := .inl ⟨root, rfl⟩
  have s' := s
  rw [hc] at s'
  obtain ⟨jac, h', e, ow, cache, f⟩ := run_jacobian c h u w (hc ▸ b.ready s')
  have hW : ∀ p k post, c.nodes = p ++ k :: post →
      (h'.get k).joint.worldTransformCache = some (prodFrom h Iso.one (p ++ [k])) := by
    intro p k post split
    obtain ⟨X, wx, cx⟩ := cache k (by rw [split]; simp)
    rw [hc] at wx
    rw [cx, wx.unique (b.worldIn s' p post k (hc ▸ split))]
  refine ⟨jac, h', fun k => (h'.get k).joint.worldTransformCache.getD Iso.one, e, ?_, ?_⟩
  · intro p k post split
    show (h'.get k).joint.worldTransformCache.getD Iso.one = _
    rw [hW p k post split]; rfl
  · clear e
    generalize c.movableNodes = mv at f
    induction f with
    | nil => rfl
    | @cons k col ks cols hk f ih =>
      rw [List.map_cons, ih]
      congr 1
      obtain ⟨ti, ct, jc⟩ := hk
      beta_reduce
      rw [ct]
      have hj : (h'.get k).joint.jointType = (h.get k).joint.jointType := (ow.same k).jointType
      unfold jacobianColumn at jc
      rw [hj] at jc
      unfold colLin colAng twist
      cases e' : (h.get k).joint.jointType with
      | fixed => rw [e'] at jc; cases jc
      | linear a => rw [e'] at jc; cases jc; simp [V3.zero]
      | rotational a => rw [e'] at jc; cases jc; simp

theorem prodAt_prodFrom (h : KHeap ℝ) (p : NodeId → ℝ) (X : Iso ℝ) (ns : List NodeId)
    (e : ∀ m ∈ ns, ((h.get m).joint.at (p m)).localTransform = (h.get m).joint.localTransform) :
    prodAt (fun m => (h.get m).joint) p X ns = prodFrom h X ns := by
  induction ns generalizing X with
  | nil => rfl
  | cons m ms ih =>
    have a := ih (X.mul (h.get m).joint.localTransform) fun k hk => e k (by simp [hk])
    simp only [prodAt, prodFrom, List.foldl_cons, e m List.mem_cons_self] at a ⊢
    exact a

/-- The joints of a rooted non-branching chain move along `p`, at time `t` being where they are and having
the velocities `r`: the Jacobian times the velocities of the movable joints is the twist of the end. -/
theorem path_twist (h : KHeap ℝ) (u : h.Unlocked) (c : Chain) (w : c.Wf h) (n : NodeId)
    (rest : List NodeId) (hc : c.nodes = n :: rest) (s : Serial h c.nodes)
    (root : liveParent h n = none) (ar : AllRigid h c.nodes) (p : NodeId → ℝ → ℝ) (r : NodeId → ℝ) (t : ℝ)
    (hx : ∀ m ∈ c.nodes, p m t = (h.get m).joint.position)
    (hp : ∀ m ∈ c.nodes, HasDerivAt (p m) (r m) t) :
    ∃ jac h', run (jacobian c) h = .ok jac h' ∧
      prodAt (fun m => (h.get m).joint) (fun m => p m t) Iso.one c.nodes = endPose h c.nodes ∧
      Iso.HasTwist (fun x => prodAt (fun m => (h.get m).joint) (fun m => p m x) Iso.one c.nodes)
        ⟨rowSum jac 0 (c.movableNodes.map r), rowSum jac 1 (c.movableNodes.map r),
          rowSum jac 2 (c.movableNodes.map r)⟩
        ⟨rowSum jac 3 (c.movableNodes.map r), rowSum jac 4 (c.movableNodes.map r),
          rowSum jac 5 (c.movableNodes.map r)⟩ t := by
  obtain ⟨jac, h', W, e, hW, hjac⟩ := jacobian_columns h u c w n rest hc s root
  let J : NodeId → Joint ℝ := fun m => (h.get m).joint
  have ht : prodAt J (fun m => p m t) Iso.one c.nodes = endPose h c.nodes := by
    have one : ∀ m ∈ c.nodes, ((J m).at (p m t)).localTransform = (h.get m).joint.localTransform := by
      intro m hm; rw [hx m hm]; rfl
    exact prodAt_prodFrom h (fun m => p m t) Iso.one c.nodes one
  have tw := prodAt_twist J p r t c.nodes (fun m hm => ar m hm) hx hp
    (fun _ => Iso.one) V3.zero V3.zero (Iso.hasTwist_const _ _) (fun _ => Iso.one_isRigid)
    (endPose h c.nodes).trans (by rw [ht])
  have al : Along J W Iso.one c.nodes := along_of h W [] c.nodes hW
  generalize hq' : c.movableNodes.map r = q'
  replace hq' := hq'.symm
  have fixedJ : ∀ m ∈ c.nodes, decide (Movable h m) = false → (J m).jointType = .fixed := by
    intro m _ x
    have x : ¬ Movable h m := by simpa using x
    exact not_not.1 x
  have linSum : ∀ (π : V3 ℝ → ℝ) (i : Nat), π V3.zero = 0 → (∀ a b, π (a.add b) = π a + π b) →
      (∀ a x, π (a.scale x) = π a * x) → (∀ d a : V3 ℝ, (twist d a).getD i 0 = π d) →
      π (totLin J r (endPose h c.nodes).trans Iso.one c.nodes) = rowSum jac i q' := by
    intro π i h0 ha hs hi
    rw [totLin_sum J W r _ π h0 ha _ _ al, hjac, hq', zip_map_sum,
      sum_filter_zero _ (fun m => decide (Movable h m)) _ ?_, ← w.movable]
    · congr 1
      refine List.map_congr_left fun k _ => ?_
      rw [hi, hs]
    · intro m hm x
      simp only [colLin, fixedJ m hm x, hs, h0, zero_mul]
  have angSum : ∀ (π : V3 ℝ → ℝ) (i : Nat), π V3.zero = 0 → (∀ a b, π (a.add b) = π a + π b) →
      (∀ a x, π (a.scale x) = π a * x) → (∀ d a : V3 ℝ, (twist d a).getD i 0 = π a) →
      π (totAng J r Iso.one c.nodes) = rowSum jac i q' := by
    intro π i h0 ha hs hi
    rw [totAng_sum J W r π h0 ha _ _ al, hjac, hq', zip_map_sum,
      sum_filter_zero _ (fun m => decide (Movable h m)) _ ?_, ← w.movable]
    · congr 1
      refine List.map_congr_left fun k _ => ?_
      rw [hi, hs]
    · intro m hm x
      simp only [colAng, fixedJ m hm x, hs, h0, zero_mul]
  have e1 : (V3.zero.add (V3.zero.cross ((endPose h c.nodes).trans.sub (Iso.one : Iso ℝ).trans))).add
      (totLin J r (endPose h c.nodes).trans Iso.one c.nodes) =
      ⟨rowSum jac 0 q', rowSum jac 1 q', rowSum jac 2 q'⟩ := by
    rw [← linSum V3.x 0 rfl (fun _ _ => rfl) (fun _ _ => rfl) fun _ _ => rfl,
      ← linSum V3.y 1 rfl (fun _ _ => rfl) (fun _ _ => rfl) fun _ _ => rfl,
      ← linSum V3.z 2 rfl (fun _ _ => rfl) (fun _ _ => rfl) fun _ _ => rfl]
    ext <;> simp [V3.add, V3.cross, V3.zero]
  have e2 : V3.zero.add (totAng J r Iso.one c.nodes) =
      ⟨rowSum jac 3 q', rowSum jac 4 q', rowSum jac 5 q'⟩ := by
    rw [← angSum V3.x 3 rfl (fun _ _ => rfl) (fun _ _ => rfl) fun _ _ => rfl,
      ← angSum V3.y 4 rfl (fun _ _ => rfl) (fun _ _ => rfl) fun _ _ => rfl,
      ← angSum V3.z 5 rfl (fun _ _ => rfl) (fun _ _ => rfl) fun _ _ => rfl]
    rw [V3.zero_add']
  rw [e1, e2] at tw
  exact ⟨jac, h', e, ht, tw⟩

/-- **C58.**  Let the joints of a rooted non-branching chain (unit axes and origin rotations) move
along any path `q`, at time `t` being where they are and having the velocities `q'`.  Then the end of the
chain moves with the velocity (rows 0-2 of `jac * q'`) and the angular velocity (rows 3-5 of
`jac * q'`), with `jac` the result of `jacobian`. -/
theorem C58_end_velocity (h : KHeap ℝ) (u : h.Unlocked) (c : Chain) (w : c.Wf h) (n : NodeId)
    (rest : List NodeId) (hc : c.nodes = n :: rest) (s : Serial h c.nodes) (nd : c.nodes.Nodup)
    (root : liveParent h n = none) (ar : AllRigid h c.nodes)
    (q : ℝ → List ℝ) (q' : List ℝ) (t : ℝ) (len : ∀ x, (q x).length = c.dof)
    (len' : q'.length = c.dof) (start : run c.jointPositions h = .ok (q t) h)
    (der : ∀ i < c.dof, HasDerivAt (fun x => (q x).getD i 0) (q'.getD i 0) t) :
    ∃ jac h', ∃ E : ℝ → Iso ℝ, run (jacobian c) h = .ok jac h' ∧
      (∀ x, ∃ g, run (moveTo c (q x)) h = .ok (E x) g) ∧ run c.endTransform h = .ok (E t) h ∧
      V3.HasDeriv (fun x => (E x).trans)
        ⟨rowSum jac 0 q', rowSum jac 1 q', rowSum jac 2 q'⟩ t ∧
      ∀ v, V3.HasDeriv (fun x => (E x).rot.rotate v)
        ((⟨rowSum jac 3 q', rowSum jac 4 q', rowSum jac 5 q'⟩ : V3 ℝ).cross ((E t).rot.rotate v)) t := by
  have mnd : c.movableNodes.Nodup := by rw [w.movable]; exact nd.filter _
  let J : NodeId → Joint ℝ := fun m => (h.get m).joint
  let p : NodeId → ℝ → ℝ := fun m x =>
    if m ∈ c.movableNodes then (q x).getD (c.movableNodes.idxOf m) 0 else (J m).position
  let r : NodeId → ℝ := fun m =>
    if m ∈ c.movableNodes then q'.getD (c.movableNodes.idxOf m) 0 else 0
  have qt : q t = posList h c.movableNodes := by
    have := run_jointPositions h u c w
    rw [this] at start
    injection start with a _
    exact a.symm
  have hx : ∀ m, p m t = (J m).position := by
    intro m
    by_cases hm : m ∈ c.movableNodes
    · simp only [p, hm, if_true, qt, posList]
      have hl : c.movableNodes.idxOf m < c.movableNodes.length := List.idxOf_lt_length_iff.2 hm
      simp [List.getD_eq_getElem?_getD, hl, J]
    · simp only [p, hm, if_false]
  have hp : ∀ m, HasDerivAt (p m) (r m) t := by
    intro m
    by_cases hm : m ∈ c.movableNodes
    · have hl : c.movableNodes.idxOf m < c.movableNodes.length := List.idxOf_lt_length_iff.2 hm
      have := der (c.movableNodes.idxOf m) (by rw [w.dof]; exact hl)
      simpa only [p, r, hm, if_true] using this
    · simp only [p, r, hm, if_false]
      exact hasDerivAt_const _ _
  have hend : ∀ x, endPose (putAll (c.movableNodes.zip (q x)) h) c.nodes =
      prodAt J (fun m => p m x) Iso.one c.nodes := by
    intro x
    have one : ∀ m, ((putAll (c.movableNodes.zip (q x)) h).get m).joint.localTransform =
        ((J m).at (p m x)).localTransform := by
      intro m
      have lz : (c.movableNodes.zip (q x)).map Prod.fst = c.movableNodes := by
        rw [List.map_fst_zip]
        rw [len, w.dof]
      by_cases hm : m ∈ c.movableNodes
      · have hl : c.movableNodes.idxOf m < c.movableNodes.length := List.idxOf_lt_length_iff.2 hm
        have hq : c.movableNodes.idxOf m < (q x).length := by rw [len, w.dof]; exact hl
        have mem : (m, (q x)[c.movableNodes.idxOf m]) ∈ c.movableNodes.zip (q x) := by
          refine List.mem_of_getElem? (i := c.movableNodes.idxOf m) ?_
          rw [List.getElem?_zip_eq_some]
          exact ⟨by simp [hl], by simp⟩
        have := putAll_mem _ h (by rw [lz]; exact mnd) _ mem
        rw [this, unchecked_localTransform]
        simp only [p, hm, if_true, List.getD_eq_getElem?_getD, List.getElem?_eq_getElem hq,
          Option.getD_some]
        rfl
      · rw [putAll_other _ _ _ (by rw [lz]; exact hm)]
        simp only [p, hm, if_false]
        rfl
    unfold endPose prodAt
    generalize (Iso.one : Iso ℝ) = X
    induction c.nodes generalizing X with
    | nil => rfl
    | cons m ms ih => rw [List.foldl_cons, List.foldl_cons, one, ih]
  have hq' : q' = c.movableNodes.map r := by
    apply List.ext_getElem (by rw [len', w.dof]; simp)
    intro i h1 h2
    have hl : i < c.movableNodes.length := by simpa using h2
    have hm : c.movableNodes[i] ∈ c.movableNodes := List.getElem_mem hl
    simp only [List.getElem_map, r, hm, if_true, mnd.idxOf_getElem i hl]
    simp [List.getD_eq_getElem?_getD, h1]
  obtain ⟨jac, h', e, ht, tw⟩ := path_twist h u c w n rest hc s root ar p r t (fun m _ => hx m) fun m _ => hp m
  rw [← hq'] at tw
  refine ⟨jac, h', fun x => prodAt J (fun m => p m x) Iso.one c.nodes, e, fun x => ?_, ?_, tw.1, tw.2⟩
  · refine ⟨putAll (c.movableNodes.zip (q x)) h, ?_⟩
    rw [moveTo, run_bind, run_setJointPositionsUnchecked c _ h u, Res.bind_ok,
      run_endTransform _ _ (putAll_unlocked _ u), hend]
  · show _ = Res.ok (prodAt J (fun m => p m t) Iso.one c.nodes) h
    rw [run_endTransform _ _ u, ht]

/-- the path 0, 1, 3 of `exTree`, three joints turning about y, all moving at once with the velocities
1, 2 and 3 -/
example (q0 : List ℝ) (st : run (Chain.jointPositions ⟨[0, 1, 3], [0, 1, 3], 3⟩) exTree = .ok q0 exTree) :
    ∃ jac h', ∃ E : ℝ → Iso ℝ, run (jacobian ⟨[0, 1, 3], [0, 1, 3], 3⟩) exTree = .ok jac h' ∧
      (∀ x, ∃ g, run (moveTo ⟨[0, 1, 3], [0, 1, 3], 3⟩
        (List.zipWith (fun a b => a + x * b) q0 [1, 2, 3])) exTree = .ok (E x) g) ∧
      V3.HasDeriv (fun x => (E x).trans)
        ⟨rowSum jac 0 [1, 2, 3], rowSum jac 1 [1, 2, 3], rowSum jac 2 [1, 2, 3]⟩ 0 := by
  have p1 : liveParent exTree 1 = some 0 := by simp [liveParent, exTree]
  have p3 : liveParent exTree 3 = some 1 := by simp [liveParent, exTree]
  have w : Chain.Wf exTree ⟨[0, 1, 3], [0, 1, 3], 3⟩ :=
    ⟨by simp [exTree, Movable, NodeImpl.fresh, Joint.new], rfl⟩
  have l0 : q0.length = 3 := by
    rw [run_jointPositions _ (fun _ => rfl) _ w] at st
    cases st; rfl
  obtain ⟨jac, h', E, a, b, -, c, -⟩ := C58_end_velocity exTree (fun _ => rfl) ⟨[0, 1, 3], [0, 1, 3], 3⟩
    w 0 [1, 3] rfl
    (fun pre a b post e => by
      match pre, e with
      | [], e => cases e; exact p1
      | [x], e => cases e; exact p3
      | x :: y :: pre, e =>
        have := congrArg List.length e
        simp at this; omega)
    (by simp) (by simp [liveParent, exTree, NodeImpl.fresh])
    (fun n hn => exTree_rigid n (by simp at hn ⊢; tauto))
    (fun x => List.zipWith (fun a b => a + x * b) q0 [1, 2, 3]) [1, 2, 3] 0
    (fun x => by simp [l0]) rfl
    (by
      rw [st]
      congr 1
      refine List.ext_getElem (by simp [l0]) fun i h1 h2 => ?_
      simp)
    (fun i hi => by
      have h1 : i < q0.length := by rw [l0]; exact hi
      have h2 : i < [(1 : ℝ), 2, 3].length := hi
      simp only [List.getD_eq_getElem?_getD, List.getElem?_zipWith,
        List.getElem?_eq_getElem h1, List.getElem?_eq_getElem h2, Option.getD_some]
      simpa using ((hasDerivAt_id (0 : ℝ)).mul_const ([(1 : ℝ), 2, 3][i])).const_add (q0[i]))
  exact ⟨jac, h', E, a, b, c⟩

end
end K
