import Verif.Props.EndVelocity
import Verif.Props.ChainSet
import Verif.Props.IkEx
/-!
# C67: the Jacobian of a chain with mimic joints
-/

namespace K
open Prog

noncomputable section

theorem SameBut.local_pos {h h' : KHeap ℝ} (s : SameBut h h') {m : NodeId} {y : ℝ}
    (e : posOf h' m = some y) :
    (h'.get m).joint.localTransform = ((h.get m).joint.at y).localTransform := by
  obtain ⟨p, wt, wv, eq⟩ := s.node m
  have : p = y := by
    simp only [posOf, eq, Joint.jointPosition] at e
    split at e
    · cases e
    · injection e
  subst this
  rw [eq]; rfl

theorem endPose_prodAt (h h' : KHeap ℝ) (p : NodeId → ℝ) (ns : List NodeId)
    (e : ∀ m ∈ ns, (h'.get m).joint.localTransform = ((h.get m).joint.at (p m)).localTransform) :
    endPose h' ns = prodAt (fun m => (h.get m).joint) p Iso.one ns := by
  unfold endPose prodAt
  generalize (Iso.one : Iso ℝ) = X
  induction ns generalizing X with
  | nil => rfl
  | cons m ms ih =>
    simp only [List.foldl_cons]
    rw [e m List.mem_cons_self, ih fun k hk => e k (List.mem_cons_of_mem _ hk)]

/-- **C67**, one master: let joint `k`, movable and following no other joint, be at `q`, with its followers
where it puts them.  Then the end of the chain moves under `k.set_joint_position(x)`, as `x` passes `q`,
with the twist `jac * v`: 1 for `k` itself, the multiplier for each follower, 0 for the others. -/
theorem C67_master (h : KHeap ℝ) (u : h.Unlocked) (o : OneLevel h) (rel : MimicRelation h)
    (c : Chain) (w : c.Wf h) (n : NodeId)
    (rest : List NodeId) (hc : c.nodes = n :: rest) (s : Serial h c.nodes)
    (root : liveParent h n = none) (ar : AllRigid h c.nodes)
    (k : NodeId) (free : (h.get k).mimicParent = none) (q : ℝ)
    (hq : run (Node.jointPosition k) h = .ok (some q) h) :
    ∃ jac h', ∃ r : NodeId → ℝ, ∃ E : ℝ → Iso ℝ, run (jacobian c) h = .ok jac h' ∧
      r k = 1 ∧ (∀ m mi, m ∈ (h.get k).mimicChildren → (h.get m).mimic = some mi → r m = mi.multiplier) ∧
      (∀ m, m ≠ k → m ∉ (h.get k).mimicChildren → r m = 0) ∧
      (∀ x g, run (Node.setJointPosition k x) h = .ok (.ok ()) g → run c.endTransform g = .ok (E x) g) ∧
      run c.endTransform h = .ok (E q) h ∧
      V3.HasDeriv (fun x => (E x).trans)
        ⟨rowSum jac 0 (c.movableNodes.map r), rowSum jac 1 (c.movableNodes.map r),
          rowSum jac 2 (c.movableNodes.map r)⟩ q ∧
      ∀ v, V3.HasDeriv (fun x => (E x).rot.rotate v)
        ((⟨rowSum jac 3 (c.movableNodes.map r), rowSum jac 4 (c.movableNodes.map r),
          rowSum jac 5 (c.movableNodes.map r)⟩ : V3 ℝ).cross ((E q).rot.rotate v)) q := by
  classical
  have hq : (h.get k).joint.position = q := by
    rw [run_Node_jointPosition k h (u k)] at hq
    injection hq with a _
    unfold Joint.jointPosition at a
    split at a
    · cases a
    · injection a
  have knc : k ∉ (h.get k).mimicChildren := fun hk => by
    have := (o k k hk).1; rw [free] at this; cases this
  let mul : NodeId → ℝ := fun m => ((h.get m).mimic.map Mimic.multiplier).getD 0
  let org : NodeId → ℝ := fun m => ((h.get m).mimic.map Mimic.origin).getD 0
  let p : NodeId → ℝ → ℝ := fun m x => if m = k then x
    else if m ∈ (h.get k).mimicChildren then x * mul m + org m else (h.get m).joint.position
  let r : NodeId → ℝ := fun m => if m = k then 1 else if m ∈ (h.get k).mimicChildren then mul m else 0
  have hx : ∀ m, p m q = (h.get m).joint.position := by
    intro m
    by_cases e : m = k
    · simp [p, e, hq]
    · by_cases e' : m ∈ (h.get k).mimicChildren
      · obtain ⟨mi, hm⟩ := Option.isSome_iff_exists.1 (o k m e').2.1
        have := rel k m mi e' hm
        simp [p, e, e', mul, org, hm, this, hq]
      · simp [p, e, e']
  have hp : ∀ m, HasDerivAt (p m) (r m) q := by
    intro m
    by_cases e : m = k
    · simp only [p, r, e, if_true]; exact hasDerivAt_id q
    · by_cases e' : m ∈ (h.get k).mimicChildren
      · simpa [p, r, e, e'] using ((hasDerivAt_id q).mul_const (mul m)).add_const (org m)
      · simpa [p, r, e, e'] using hasDerivAt_const q (h.get m).joint.position
  obtain ⟨jac, h', e, ht, tw⟩ := path_twist h u c w n rest hc s root ar p r q (fun m _ => hx m)
    fun m _ => hp m
  refine ⟨jac, h', r, _, e, by simp [r], ?_, ?_, ?_, ?_, tw.1, tw.2⟩
  · intro m mi hm hmi
    have : m ≠ k := fun x => knc (x ▸ hm)
    simp [r, this, hm, mul, hmi]
  · intro m h1 h2; simp [r, h1, h2]
  · intro x g ok
    obtain ⟨a, b, f, sb⟩ := C05_children_follow h g u o.mimicWF k x free ok
    rw [run_endTransform _ _ (sb.unlocked u), endPose_prodAt h g (fun m => p m x)]
    intro m _
    by_cases e : m = k
    · subst e; rw [sb.local_pos (y := x) a]; simp [p]
    · by_cases e' : m ∈ (h.get k).mimicChildren
      · obtain ⟨mi, hm, hp⟩ := b m e'
        rw [sb.local_pos (y := x * mi.multiplier + mi.origin) hp]; simp [p, e, e', mul, org, hm]
      · rw [f m e e']; simp only [p, e, e', if_false]; rfl
  · rw [run_endTransform _ _ u]
    show _ = Res.ok (prodAt _ (fun m => p m q) Iso.one c.nodes) h
    rw [ht]

/-- the velocity that joint `m` of chain `c` gets when the joints are set along a path with velocities
`q'`: its own, if it follows no joint; the multiplier times that of its master, if that is in the chain;
otherwise 0 -/
structure Follows (h : KHeap ℝ) (c : Chain) (q' : List ℝ) (v : List ℝ) : Prop where
  length : v.length = c.dof
  free : ∀ (i : Nat) (m : NodeId), c.movableNodes[i]? = some m → (h.get m).mimicParent = none → v[i]? = q'[i]?
  follower : ∀ (i j : Nat) (m k : NodeId) (mi : Mimic ℝ) (y : ℝ), c.movableNodes[i]? = some m →
    c.movableNodes[j]? = some k → m ∈ (h.get k).mimicChildren → (h.get m).mimic = some mi → q'[j]? = some y →
    v[i]? = some (mi.multiplier * y)
  still : ∀ (i : Nat) (m : NodeId), c.movableNodes[i]? = some m → (h.get m).mimicParent.isSome →
    (∀ k ∈ c.movableNodes, m ∉ (h.get k).mimicChildren) → v[i]? = some 0

/-- **C67**, all joints: under `set_joint_positions(q(x))` the end of the chain moves with the twist
`jac * v` where `v` are not the velocities of `q` but those with the followers moving with their masters. -/
theorem C67_set_joint_positions (h : KHeap ℝ) (u : h.Unlocked) (o : OneLevel h) (rel : MimicRelation h)
    (c : Chain) (w : c.Wf h) (n : NodeId)
    (rest : List NodeId) (hc : c.nodes = n :: rest) (s : Serial h c.nodes) (nd : c.nodes.Nodup)
    (root : liveParent h n = none) (ar : AllRigid h c.nodes)
    (q : ℝ → List ℝ) (q' : List ℝ) (t : ℝ)
    (len' : q'.length = c.dof) (start : run c.jointPositions h = .ok (q t) h)
    (der : ∀ i < c.dof, HasDerivAt (fun x => (q x).getD i 0) (q'.getD i 0) t) :
    ∃ jac h' v, ∃ E : ℝ → Iso ℝ, run (jacobian c) h = .ok jac h' ∧ Follows h c q' v ∧
      (∀ x g, run (c.setJointPositions (q x)) h = .ok (.ok ()) g → run c.endTransform g = .ok (E x) g) ∧
      run c.endTransform h = .ok (E t) h ∧
      V3.HasDeriv (fun x => (E x).trans) ⟨rowSum jac 0 v, rowSum jac 1 v, rowSum jac 2 v⟩ t ∧
      ∀ b, V3.HasDeriv (fun x => (E x).rot.rotate b)
        ((⟨rowSum jac 3 v, rowSum jac 4 v, rowSum jac 5 v⟩ : V3 ℝ).cross ((E t).rot.rotate b)) t := by
  classical
  have mnd : c.movableNodes.Nodup := by rw [w.movable]; exact nd.filter _
  have qt : q t = posList h c.movableNodes := by
    have := run_jointPositions h u c w
    rw [this] at start
    injection start with a _
    exact a.symm
  let mul : NodeId → ℝ := fun m => ((h.get m).mimic.map Mimic.multiplier).getD 0
  let org : NodeId → ℝ := fun m => ((h.get m).mimic.map Mimic.origin).getD 0
  let own : NodeId → Prop := fun m => m ∈ c.movableNodes ∧ (h.get m).mimicParent = none
  let foll : NodeId → NodeId → Prop := fun m k => own k ∧ m ∈ (h.get k).mimicChildren
  let ix : NodeId → Nat := fun m => c.movableNodes.idxOf m
  let p : NodeId → ℝ → ℝ := fun m x => if own m then (q x).getD (ix m) 0
    else if e : ∃ k, foll m k then (q x).getD (ix e.choose) 0 * mul m + org m else (h.get m).joint.position
  let r : NodeId → ℝ := fun m => if own m then q'.getD (ix m) 0
    else if e : ∃ k, foll m k then q'.getD (ix e.choose) 0 * mul m else 0
  have ixlt : ∀ {m}, m ∈ c.movableNodes → ix m < c.movableNodes.length := fun hm =>
    List.idxOf_lt_length_iff.2 hm
  have qtx : ∀ {m}, m ∈ c.movableNodes → (q t).getD (ix m) 0 = (h.get m).joint.position := by
    intro m hm
    simp [qt, posList, List.getD_eq_getElem?_getD, ixlt hm, ix]
  have uniq : ∀ {m k k'}, m ∈ (h.get k).mimicChildren → foll m k' → k' = k := by
    intro m k k' a b
    have h1 := (o k m a).1; have h2 := (o k' m b.2).1
    rw [h1] at h2; injection h2 with h2; exact h2.symm
  have hx : ∀ m, p m t = (h.get m).joint.position := by
    intro m
    by_cases e : own m
    · simp only [p, e, if_true]; exact qtx e.1
    · by_cases e' : ∃ k, foll m k
      · obtain ⟨f1, f2⟩ := e'.choose_spec
        obtain ⟨mi, hm⟩ := Option.isSome_iff_exists.1 (o _ m f2).2.1
        have := rel _ m mi f2 hm
        simp only [p, e, e', if_false, dif_pos, qtx f1.1]
        simp [mul, org, hm, this]
      · simp [p, e, e']
  have hp : ∀ m, HasDerivAt (p m) (r m) t := by
    intro m
    by_cases e : own m
    · simp only [p, r, e, if_true]
      exact der _ (by rw [w.dof]; exact ixlt e.1)
    · by_cases e' : ∃ k, foll m k
      · simp only [p, r, e, e', if_false, dif_pos]
        exact ((der _ (by rw [w.dof]; exact ixlt e'.choose_spec.1.1)).mul_const _).add_const _
      · simpa [p, r, e, e'] using hasDerivAt_const t (h.get m).joint.position
  obtain ⟨jac, h', e, ht, tw⟩ := path_twist h u c w n rest hc s root ar p r t (fun m _ => hx m)
    fun m _ => hp m
  have at' : ∀ {i m}, c.movableNodes[i]? = some m → m ∈ c.movableNodes ∧ ix m = i := by
    intro i m hm
    obtain ⟨hl, rfl⟩ := List.getElem?_eq_some_iff.1 hm
    exact ⟨List.getElem_mem _, mnd.idxOf_getElem i hl⟩
  have lt' : ∀ {i m}, c.movableNodes[i]? = some m → i < q'.length := by
    intro i m hm
    rw [len', w.dof]; exact (List.getElem?_eq_some_iff.1 hm).1
  refine ⟨jac, h', c.movableNodes.map r, _, e, ⟨?_, ?_, ?_, ?_⟩, ?_, ?_, tw.1, tw.2⟩
  · simp [w.dof]
  · intro i m hm fr
    obtain ⟨mm, im⟩ := at' hm
    have : own m := ⟨mm, fr⟩
    simp only [List.getElem?_map, hm, Option.map_some, r, this, if_true, im]
    simp [List.getD_eq_getElem?_getD, List.getElem?_eq_getElem (lt' hm)]
  · intro i j m k mi y hm hk mk hmi hy
    obtain ⟨mm, im⟩ := at' hm
    obtain ⟨kk, jk⟩ := at' hk
    have o1 := o k m mk
    have no : ¬ own m := fun x => by have := x.2; rw [o1.1] at this; cases this
    have fk : foll m k := ⟨⟨kk, o1.2.2⟩, mk⟩
    have ex : ∃ k, foll m k := ⟨k, fk⟩
    have : ex.choose = k := uniq mk ex.choose_spec
    simp only [List.getElem?_map, hm, Option.map_some, r, no, if_false, dif_pos ex, this, jk]
    simp [List.getD_eq_getElem?_getD, hy, mul, hmi, mul_comm]
  · intro i m hm pm nf
    have no : ¬ own m := fun x => by rw [x.2] at pm; cases pm
    have ne : ¬ ∃ k, foll m k := fun ⟨k, fk⟩ => nf k fk.1.1 fk.2
    simp only [List.getElem?_map, hm, Option.map_some, r, no, if_false, dif_neg ne]
  · intro x g ok
    obtain ⟨len, a, f, sb⟩ := C07_set_effect h g u o c w nd (q x) ok
    have hz : ∀ {m}, m ∈ c.movableNodes → (m, (q x).getD (ix m) 0) ∈ c.movableNodes.zip (q x) := by
      intro m hm
      have h1 := ixlt hm
      have h2 : ix m < (q x).length := by rw [len, w.dof]; exact h1
      refine List.mem_of_getElem? (i := ix m) ?_
      rw [List.getElem?_zip_eq_some]
      exact ⟨by simp [ix, ixlt hm], by simp [List.getD_eq_getElem?_getD, List.getElem?_eq_getElem h2]⟩
    rw [run_endTransform _ _ (sb.unlocked u), endPose_prodAt h g (fun m => p m x)]
    intro m _
    by_cases e : own m
    · rw [sb.local_pos (a m _ (hz e.1) e.2).1]; simp only [p, e, if_true]
    · by_cases e' : ∃ k, foll m k
      · obtain ⟨f1, f2⟩ := e'.choose_spec
        obtain ⟨mi, hm, hp⟩ := (a _ _ (hz f1.1) f1.2).2 m f2
        rw [sb.local_pos hp]
        simp only [p, e, if_false, dif_pos e']
        simp [mul, org, hm]
      · rw [f m fun k kk fr => ⟨fun x => e ⟨x ▸ kk, x ▸ fr⟩, fun x => e' ⟨k, ⟨kk, fr⟩, x⟩⟩]
        simp only [p, e, e', if_false]; rfl
  · rw [run_endTransform _ _ u]
    show _ = Res.ok (prodAt _ (fun m => p m t) Iso.one c.nodes) h
    rw [ht]

/-! ## witnesses -/

/-- two sliders along x, the second below the first and moving twice as far -/
def railTwice : KHeap ℝ :=
  { get := fun n =>
      if n = 0 then { NodeImpl.fresh (slider "a" none 0) with children := [1], mimicChildren := [1] }
      else if n = 1 then { NodeImpl.fresh (slider "b" none 0) with
        parent := some 0, mimicParent := some 0, mimic := some ⟨2, 0⟩ }
      else NodeImpl.fresh (Joint.new "c" .fixed)
    next := 2, dead := fun _ => false, held := fun _ => false }

theorem railTwice_sliders : Sliders railTwice := by
  rintro n (rfl | rfl) <;> simp [railTwice, slider, Joint.new, NodeImpl.fresh]

theorem railTwice_mimic : OneLevel railTwice ∧ MimicRelation railTwice := by
  have : ∀ m c, c ∈ (railTwice.get m).mimicChildren → m = 0 ∧ c = 1 := by
    intro m c hc
    simp only [railTwice] at hc
    split at hc
    · exact ⟨by assumption, by simpa using hc⟩
    · split at hc <;> simp [NodeImpl.fresh] at hc
  constructor
  · intro m c hc
    obtain ⟨rfl, rfl⟩ := this m c hc
    exact ⟨rfl, rfl, rfl⟩
  · intro m c mi hc hm
    obtain ⟨rfl, rfl⟩ := this m c hc
    cases hm
    simp [railTwice, slider, NodeImpl.fresh]

theorem railTwice_chain : Serial railTwice arm2.nodes ∧ liveParent railTwice 0 = none ∧
    AllRigid railTwice arm2.nodes := by
  refine ⟨fun pre a b post e => ?_, rfl, fun n hn => ?_⟩
  · match pre, e with
    | [], e => cases e; rfl
    | x :: pre, e =>
      have := congrArg List.length e
      simp [arm2] at this; omega
  · have : n = 0 ∨ n = 1 := by simpa [arm2] using hn
    obtain ⟨a, b⟩ := railTwice_sliders n this
    exact ⟨by rw [b]; exact Iso.one_isRigid, by rw [a]; simp [V3.IsUnit]⟩

/-- **C67**, refutation of the expected claim "column `i` is the derivative of the end pose when joint `i` is
set" for a joint with followers: the column of joint "a" says that the end moves as fast as the joint, but
`set_joint_position` of "a" moves it three times as fast. -/
theorem C67_column_refuted : (∃ g, run (jacobian arm2) railTwice =
      .ok [[1, 0, 0, 0, 0, 0], [1, 0, 0, 0, 0, 0]] g) ∧
    ∀ x, ∃ g, run (Node.setJointPosition 0 x) railTwice = .ok (.ok ()) g ∧
      run arm2.endTransform g = .ok (atX (3 * x)) g := by
  obtain ⟨s, root, ar⟩ := railTwice_chain
  constructor
  · obtain ⟨jac, h', W, e, hW, rfl⟩ := jacobian_columns railTwice (fun _ => rfl) arm2 railTwice_sliders.wf2
      0 [1] rfl s root
    refine ⟨h', ?_⟩
    rw [e]
    have l : ∀ n, n = 0 ∨ n = 1 → (railTwice.get n).joint.localTransform = Iso.one := by
      intro n hn
      obtain ⟨a, b⟩ := railTwice_sliders n hn
      have p : (railTwice.get n).joint.position = 0 := by
        rcases hn with rfl | rfl <;> simp [railTwice, slider, NodeImpl.fresh]
      simp [Joint.localTransform, Joint.jointTransform, a, b, p, Iso.one_mul', V3.scale]
      rfl
    have w0 : W 0 = Iso.one := by
      rw [hW [] 0 [1] rfl]; simp [prodFrom, l 0 (.inl rfl), Iso.one_mul']
    have w1 : W 1 = Iso.one := by
      rw [hW [0] 1 [] rfl]; simp [prodFrom, l 0 (.inl rfl), l 1 (.inr rfl), Iso.one_mul']
    have c : ∀ n, n = 0 ∨ n = 1 → W n = Iso.one → ∀ pn, twist (colLin pn (railTwice.get n).joint (W n))
        (colAng (railTwice.get n).joint (W n)) = [1, 0, 0, 0, 0, 0] := by
      intro n hn hw pn
      simp only [colLin, colAng, (railTwice_sliders n hn).1, hw]
      have : (Iso.one : Iso ℝ).rot = Quat.one := rfl
      rw [this, Quat.rotate_one]
      simp [twist, V3.zero]
    simp [arm2, c 0 (.inl rfl) w0, c 1 (.inr rfl) w1]
  · intro x
    obtain ⟨o, -⟩ := railTwice_mimic
    have r := run_setJointPosition 0 x railTwice (fun _ => rfl) o.mimicWF
    have ok : (setPos 0 x railTwice).1 = .ok () := by
      simp [setPos, railTwice, NodeImpl.fresh, slider, Joint.new, Joint.setJointPosition, Joint.isMovable,
        mimicLoop, Heap.setJoint, Heap.get_modify]
    rw [ok] at r
    refine ⟨_, r, ?_⟩
    obtain ⟨a, b, -, sb⟩ := C05_children_follow railTwice _ (fun _ => rfl) o.mimicWF 0 x rfl r
    obtain ⟨mi, hm, hp⟩ := b 1 (by simp [railTwice])
    cases hm
    have pos : ∀ {j : Joint ℝ} {y : ℝ}, j.jointPosition = some y → j.position = y := by
      intro j y e
      unfold Joint.jointPosition at e
      split at e
      · cases e
      · injection e
    rw [run_endTransform _ _ (sb.unlocked fun _ => rfl), (railTwice_sliders.same sb).pose2, pos a, pos hp]
    congr 2; ring

/-- `railTwice` meets the hypotheses of `C67_set_joint_positions`; along (x, 0) the velocities that count are
(1, 2) -/
example : ∃ jac h' v, run (jacobian arm2) railTwice = .ok jac h' ∧ Follows railTwice arm2 [1, 0] v ∧ v = [1, 2] := by
  obtain ⟨s, root, ar⟩ := railTwice_chain
  obtain ⟨o, rel⟩ := railTwice_mimic
  obtain ⟨jac, h', v, E, e, f, -⟩ := C67_set_joint_positions railTwice (fun _ => rfl) o rel arm2
    railTwice_sliders.wf2 0 [1] rfl s (by simp [arm2]) root ar (fun x => [x, 0]) [1, 0] 0 rfl
    (by rw [run_jointPositions _ (fun _ => rfl) _ railTwice_sliders.wf2]; rfl)
    (by
      intro i hi
      match i, hi with
      | 0, _ => exact hasDerivAt_id _
      | 1, _ => exact hasDerivAt_const _ _
      | i + 2, hi => simp [arm2] at hi)
  refine ⟨jac, h', v, e, f, ?_⟩
  have a := f.free 0 0 rfl rfl
  have b := f.follower 1 0 1 0 ⟨2, 0⟩ 1 rfl rfl (by simp [railTwice]) rfl rfl
  match v, f.length, a, b with
  | [x, y], _, a, b => simp at a b; simp [a, b]

/-- **C67**: a successful solve does not move followers: here "a" (node 0) alone is the arm, "b" mimics it
with multiplier 2 and stays. -/
theorem C67_ik_leaves_followers : ∃ h h' : KHeap ℝ, OneLevel h ∧ MimicRelation h ∧
    run (solveWithConstraints (railSolver 1) arm1 (atX 10) (onlyX [])) h = .ok (.ok ()) h' ∧
    ¬ MimicRelation h' := by
  have s := railTwice_sliders
  have u : railTwice.Unlocked := fun _ => rfl
  have pr : ParentsReady railTwice arm1.nodes := by
    intro pre n post e p hp
    have : n = 0 := by
      have : n ∈ arm1.nodes := by rw [e]; simp
      simpa [arm1] using this
    subst this
    simp [liveParent, railTwice, NodeImpl.fresh] at hp
  obtain ⟨h1, o, e⟩ := loop1 u s pr 10 1
  have m := moved_clampAll [(0, (10 : ℝ))] [0] (by simp) h1
  have sb := o.moved.sameBut.trans m.sameBut
  have p0 := clamp0 s o.moved.sameBut 10
  have l0 : (railTwice.get 0).joint.limits = none := rfl
  simp only [l0] at p0
  rw [p0] at e
  have r := run_solve_reached u s.wf1 rfl (c := onlyX []) (is := []) (by simp [onlyX, arm1])
    (by simp [onlyX_count]; simp [onlyX, arm1]) rfl e
    (by rw [onlyX_reached]; simp)
  refine ⟨railTwice, _, railTwice_mimic.1, railTwice_mimic.2, r, fun rel => ?_⟩
  have z : arm1.movableNodes.zip (posList (clampAll [(0, (10 : ℝ))] h1) arm1.movableNodes) = [(0, 10)] := by
    show [(0, ((clampAll [(0, (10 : ℝ))] h1).get 0).joint.position)] = _
    rw [p0]
  rw [z] at rel
  have m2 := moved_clampAll [(0, (10 : ℝ))] [0] (by simp) (clampAll [(0, (10 : ℝ))] h1)
  have sb2 := sb.trans m2.sameBut
  have q := rel 0 1 ⟨2, 0⟩ (by rw [sb2.mimicChildren]; simp [railTwice]) (by rw [sb2.mimic]; rfl)
  have q0 := clamp0 s sb 10
  simp only [l0] at q0
  rw [q0, m2.outside 1 (by simp), m.outside 1 (by simp), o.position 1] at q
  have : (railTwice.get 1).joint.position = 0 := by simp [railTwice, slider, NodeImpl.fresh]
  rw [this] at q
  norm_num at q

end
end K
