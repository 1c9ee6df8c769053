import Verif.Props.Frame
import Verif.Props.Com
import Verif.Props.Singular
import Verif.Props.Traverse
/-!
# C101: a robot mounted on the end of another robot

`set_parent` called with the first node of one arm and the last node of another makes one longer arm.
-/

namespace K
open Prog

noncomputable section

/-! ## specification -/

/-- the nodes of `a` and then those of `b` -/
def Chain.followedBy (a b : Chain) : Chain :=
  ⟨a.nodes ++ b.nodes, a.movableNodes ++ b.movableNodes, a.dof + b.dof⟩

/-- the upper half of a column: the velocity of the end -/
def velocityPart (col : List ℝ) : V3 ℝ := ⟨col.getD 0 0, col.getD 1 0, col.getD 2 0⟩
/-- the lower half of a column: the angular velocity of the end -/
def spinPart (col : List ℝ) : V3 ℝ := ⟨col.getD 3 0, col.getD 4 0, col.getD 5 0⟩

/-- the column for a point that is carried along at the offset `d` from the end -/
def carriedColumn (d : V3 ℝ) (col : List ℝ) : List ℝ :=
  twist ((velocityPart col).add ((spinPart col).cross d)) (spinPart col)

/-- the column seen from a place that is turned by `q` -/
def seenColumn (q : Quat ℝ) (col : List ℝ) : List ℝ :=
  twist (q.rotate (velocityPart col)) (q.rotate (spinPart col))

/-- two arms without a common node, the second one starting at `r` and the first one ending at `e`, which has
not been dropped; in `g` the second one is mounted on the first one -/
structure Mounting (h g : KHeap ℝ) (a b : Chain) (e r : NodeId) : Prop where
  first : RootedArm h a
  second : RootedArm h b
  apart : ∀ n ∈ a.nodes, n ∉ b.nodes
  last : a.nodes.getLast? = some e
  head : b.nodes.head? = some r
  alive : h.dead e = false
  mount : run (Node.setParent r e) h = .ok () g

namespace Mounting
variable {h g : KHeap ℝ} {a b : Chain} {e r : NodeId}

/-! ## what `set_parent` leaves alone -/

theorem heap (m : Mounting h g a b e r) : g = (h.modify r fun s => { s with parent := some e }).modify e
      fun s => { s with children := s.children ++ [r] } := by
  have := m.mount
  rw [run_Node_setParent _ _ _ m.first.unlocked] at this
  injection this with _ x
  exact x.symm

theorem e_mem (m : Mounting h g a b e r) : e ∈ a.nodes := List.mem_of_getLast? m.last
theorem r_mem (m : Mounting h g a b e r) : r ∈ b.nodes := List.mem_of_head? m.head
theorem not_r (m : Mounting h g a b e r) {n : NodeId} (hn : n ∈ a.nodes) : n ≠ r :=
  fun q => m.apart n hn (q ▸ m.r_mem)
theorem ne (m : Mounting h g a b e r) : e ≠ r := fun x => m.apart e m.e_mem (x ▸ m.r_mem)

theorem joint (m : Mounting h g a b e r) (n : NodeId) : (g.get n).joint = (h.get n).joint := by
  rw [m.heap]
  simp only [Heap.modify]
  split
  · split <;> rfl
  · split <;> rfl

theorem link (m : Mounting h g a b e r) (n : NodeId) : (g.get n).link = (h.get n).link := by
  rw [m.heap]
  simp only [Heap.modify]
  split
  · split <;> rfl
  · split <;> rfl

theorem parent (m : Mounting h g a b e r) (n : NodeId) :
    (g.get n).parent = if n = r then some e else (h.get n).parent := by
  rw [m.heap]
  simp only [Heap.modify]
  split
  · split <;> rfl
  · split <;> rfl

theorem liveParent (m : Mounting h g a b e r) (n : NodeId) :
    K.liveParent g n = if n = r then some e else K.liveParent h n := by
  have d : g.dead = h.dead := by rw [m.heap]; rfl
  unfold K.liveParent
  rw [m.parent, d]
  by_cases hn : n = r
  · simp [hn, m.alive]
  · simp [hn]

theorem unlocked (m : Mounting h g a b e r) : g.Unlocked := by
  have d : g.held = h.held := by rw [m.heap]; rfl
  intro n
  rw [d]
  exact m.first.unlocked n

theorem a_split (m : Mounting h g a b e r) : ∃ pre, a.nodes = pre ++ [e] := by
  have l := m.last
  rcases List.eq_nil_or_concat a.nodes with x | ⟨pre, z, x⟩
  · rw [x] at l; simp at l
  · rw [x] at l
    simp only [List.concat_eq_append, List.getLast?_append, List.getLast?_singleton, Option.some_or,
      Option.some.injEq] at l
    exact ⟨pre, by rw [x, ← l]; simp⟩

theorem b_split (m : Mounting h g a b e r) : ∃ rest, b.nodes = r :: rest := by
  have l := m.head
  cases x : b.nodes with
  | nil => rw [x] at l; simp at l
  | cons z rest => rw [x] at l; simp at l; exact ⟨rest, by rw [l]⟩

theorem root_b (m : Mounting h g a b e r) : K.liveParent h r = none := by
  obtain ⟨n, rest, x, y⟩ := m.second.root
  have l := m.head
  rw [x] at l; simp at l
  exact l ▸ y

/-- the other nodes of the second arm have their parents in it -/
theorem inner_b (m : Mounting h g a b e r) {n : NodeId} (hn : n ∈ b.nodes) (nr : n ≠ r) :
    ∃ p ∈ b.nodes, K.liveParent h n = some p := by
  obtain ⟨rest, hb⟩ := m.b_split
  obtain ⟨pre, post, x⟩ := List.append_of_mem hn
  rcases List.eq_nil_or_concat pre with rfl | ⟨pre', q, rfl⟩
  · rw [hb] at x; cases x; exact absurd rfl nr
  · exact ⟨q, by rw [x]; simp, m.second.serial pre' q n post (by rw [x]; simp)⟩

/-! ## the longer arm -/

theorem wf (m : Mounting h g a b e r) : (a.followedBy b).Wf g where
  movable := by
    have mv : ∀ n, decide (Movable g n) = decide (Movable h n) := fun n =>
      decide_eq_decide.2 (by unfold Movable; rw [m.joint])
    show a.movableNodes ++ b.movableNodes = (a.nodes ++ b.nodes).filter _
    rw [List.filter_append, m.first.wf.movable, m.second.wf.movable]
    simp only [mv]
  dof := by
    show a.dof + b.dof = (a.movableNodes ++ b.movableNodes).length
    rw [List.length_append, m.first.wf.dof, m.second.wf.dof]

theorem serial (m : Mounting h g a b e r) : Serial g (a.nodes ++ b.nodes) := by
  intro pre x y post split
  rw [m.liveParent]
  obtain ⟨rest, hb⟩ := m.b_split
  obtain ⟨ini, ha⟩ := m.a_split
  rcases List.append_eq_append_iff.1 split with ⟨as, h1, h2⟩ | ⟨bs, h1, h2⟩
  · -- the pair starts in `b`
    cases as with
    | nil =>
      simp only [List.nil_append] at h2
      have := m.second.serial [] x y post (by rw [h2]; rfl)
      have yr : y ≠ r := by
        rintro rfl
        rw [m.root_b] at this; cases this
      rw [if_neg yr]; exact this
    | cons z as =>
      have := m.second.serial (z :: as) x y post h2
      have yr : y ≠ r := by
        rintro rfl
        rw [m.root_b] at this; cases this
      rw [if_neg yr]; exact this
  · cases bs with
    | nil =>
      simp only [List.nil_append] at h2
      have := m.second.serial [] x y post (by rw [← h2]; rfl)
      have yr : y ≠ r := by
        rintro rfl
        rw [m.root_b] at this; cases this
      rw [if_neg yr]; exact this
    | cons z bs =>
      simp only [List.cons_append, List.cons.injEq] at h2
      obtain ⟨rfl, h2⟩ := h2
      cases bs with
      | nil =>
        -- the joint between the two arms
        simp only [List.nil_append] at h2
        rw [hb] at h2
        cases h2
        have : x = e := by
          have l := m.last
          rw [h1] at l
          simpa using l
        rw [if_pos rfl, this]
      | cons w bs =>
        simp only [List.cons_append, List.cons.injEq] at h2
        obtain ⟨rfl, h2⟩ := h2
        have ya : y ∈ a.nodes := by rw [h1]; simp
        rw [if_neg (m.not_r ya)]
        exact m.first.serial pre x y bs h1

theorem arm (m : Mounting h g a b e r) : RootedArm g (a.followedBy b) where
  unlocked := m.unlocked
  wf := m.wf
  root := by
    obtain ⟨n, rest, x, y⟩ := m.first.root
    refine ⟨n, rest ++ b.nodes, by show a.nodes ++ b.nodes = _; rw [x]; rfl, ?_⟩
    rw [m.liveParent, if_neg (m.not_r (n := n) (by rw [x]; simp))]
    exact y
  serial := m.serial
  nodup := List.nodup_append.2 ⟨m.first.nodup, m.second.nodup, fun x hx y hy q => m.apart x hx (q ▸ hy)⟩
  rigid := by
    intro n hn
    rw [m.joint]
    rcases List.mem_append.1 hn with x | x
    · exact m.first.rigid n x
    · exact m.second.rigid n x

/-! ## poses -/

theorem prod (m : Mounting h g a b e r) (X : Iso ℝ) (ns : List NodeId) : prodFrom g X ns = prodFrom h X ns := by
  simp only [prodFrom, m.joint]

theorem pose_rigid (m : Mounting h g a b e r) : (endPose h a.nodes).IsRigid :=
  foldl_mul_rigid h _ m.first.rigid _ Iso.one_isRigid

/-- poses along the second arm -/
theorem prod_b (m : Mounting h g a b e r) (ns : List NodeId) (hs : ∀ n ∈ ns, n ∈ b.nodes) :
    prodFrom g Iso.one (a.nodes ++ ns) = (endPose h a.nodes).mul (prodFrom h Iso.one ns) := by
  rw [m.prod]
  show List.foldl _ _ _ = _
  rw [List.foldl_append]
  exact prodFrom_mul h ns (fun n hn => m.second.rigid n (hs n hn)) (endPose h a.nodes) m.pose_rigid

theorem endPose (m : Mounting h g a b e r) :
    K.endPose g (a.followedBy b).nodes = (K.endPose h a.nodes).mul (K.endPose h b.nodes) :=
  m.prod_b b.nodes fun _ x => x

theorem world_a (m : Mounting h g a b e r) {n : NodeId} {X : Iso ℝ} (w : World h n X) (hn : n ∈ a.nodes) :
    World g n X := by
  obtain ⟨z, rest, ha, root⟩ := m.first.root
  have pa : ParentsAhead h a.nodes := by
    rw [ha]; exact Serial.parentsAhead (ha ▸ m.first.serial) root
  induction w with
  | @root n x =>
    rw [← m.joint]
    refine .root ?_
    rw [m.liveParent, if_neg (m.not_r hn)]
    exact x
  | @step n p X x _ ih =>
    rw [← m.joint]
    refine .step ?_ (ih (pa.closed _ _ hn x))
    rw [m.liveParent, if_neg (m.not_r hn)]
    exact x

theorem world_e (m : Mounting h g a b e r) : World g e (K.endPose h a.nodes) := by
  obtain ⟨z, rest, ha, root⟩ := m.first.root
  obtain ⟨z', X, -, -, hz, wz, ex, -, -, -⟩ := C13_end_transform h m.first.unlocked a z rest ha m.first.serial root
  rw [run_endTransform _ _ m.first.unlocked] at ex
  injection ex with ex _
  have := m.last
  rw [hz] at this
  injection this with this
  subst this; subst ex
  exact m.world_a wz m.e_mem

theorem world_b (m : Mounting h g a b e r) {n : NodeId} {Y : Iso ℝ} (w : World h n Y) (hn : n ∈ b.nodes) :
    World g n ((K.endPose h a.nodes).mul Y) := by
  induction w with
  | @root n x =>
    have : n = r := by
      by_contra nr
      obtain ⟨p, -, y⟩ := m.inner_b hn nr
      rw [x] at y; cases y
    subst this
    rw [Iso.one_mul', ← m.joint]
    exact .step (by rw [m.liveParent, if_pos rfl]) m.world_e
  | @step n p X x w ih =>
    have nr : n ≠ r := by
      rintro rfl
      rw [m.root_b] at x; cases x
    obtain ⟨q, hq, y⟩ := m.inner_b hn nr
    rw [x] at y; cases y
    have cl : ∀ n p, n ∈ b.nodes → K.liveParent h n = some p → p ∈ b.nodes := by
      intro n p hn x
      have nr : n ≠ r := by
        rintro rfl
        rw [m.root_b] at x; cases x
      obtain ⟨q, hq, y⟩ := m.inner_b hn nr
      rw [x] at y; cases y; exact hq
    rw [← Iso.mul_assoc' m.pose_rigid (w.rigid b.nodes cl m.second.rigid hq), ← m.joint]
    exact .step (by rw [m.liveParent, if_neg nr]; exact x) (ih hq)

end Mounting

/-- the nodes of a non-branching chain, backwards, are the ancestors of its last node -/
theorem RootedArm.lineage {h : KHeap ℝ} {c : Chain} (l : RootedArm h c) {z : NodeId}
    (hz : c.nodes.getLast? = some z) : Lineage h z c.nodes.reverse := by
  obtain ⟨n, rest, hc, root⟩ := l.root
  have s := l.serial
  rw [hc] at s hz ⊢
  clear hc l
  have : ∀ (rest : List NodeId) (n z : NodeId) (ps : List NodeId), Lineage h n (n :: ps) →
      Serial h (n :: rest) → (n :: rest).getLast? = some z → Lineage h z ((n :: rest).reverse ++ ps) := by
    intro rest
    induction rest with
    | nil =>
      intro n z ps l _ hz
      simp at hz
      subst hz
      simpa using l
    | cons m rest ih =>
      intro n z ps l s hz
      have := ih m z (n :: ps) (.step (s [] n m rest rfl) l) s.tail (by simpa [List.getLast?_cons_cons] using hz)
      simpa using this
  simpa using this rest n z [] (.root root) s hz

variable {h g : KHeap ℝ} {a b : Chain} {e r : NodeId}

/-! ## C101 -/

/-- **C101**, the longer arm: mounting a second arm on the end of a first one makes one arm again, with the nodes,
the movable joints and the degrees of freedom of the first one followed by those of the second one; this is what
`from_end` with the last node of the second arm returns. -/
theorem C101_arm (m : Mounting h g a b e r) (z : NodeId) (hz : b.nodes.getLast? = some z) :
    RootedArm g (a.followedBy b) ∧
      ∀ fuel, a.nodes.length + b.nodes.length ≤ fuel → run (Chain.fromEnd fuel z) g = .ok (a.followedBy b) g := by
  refine ⟨m.arm, fun fuel hf => ?_⟩
  have lz : (a.followedBy b).nodes.getLast? = some z := by
    show (a.nodes ++ b.nodes).getLast? = _
    rw [List.getLast?_append, hz]; rfl
  have l := m.arm.lineage lz
  obtain ⟨c, x, y, w⟩ := C07_from_nodes g m.unlocked (a.followedBy b).nodes
  have : c = a.followedBy b := by
    obtain ⟨cn, cm, cd⟩ := c
    have w1 := w.movable
    have w2 := w.dof
    have v1 := m.wf.movable
    have v2 := m.wf.dof
    simp only at y w1 w2
    subst y
    subst w2
    rw [← v1] at w1
    subst w1
    rw [← v2]
  rw [this] at x
  simp only [Chain.fromEnd, run_bind, run_ancestors g m.unlocked z _ l fuel (by
    simpa [Chain.followedBy, Nat.add_comm] using hf), Res.bind_ok, List.reverse_reverse, x]

/-- **C101**, the end: `end_transform` of the longer arm is the product of those of the two arms. -/
theorem C101_end (m : Mounting h g a b e r) :
    ∃ X Y, run a.endTransform h = .ok X h ∧ run b.endTransform h = .ok Y h ∧
      run (a.followedBy b).endTransform g = .ok (X.mul Y) g := by
  refine ⟨_, _, run_endTransform a h m.first.unlocked, run_endTransform b h m.first.unlocked, ?_⟩
  rw [run_endTransform _ g m.unlocked, m.endPose]

/-- **C101**, the poses: every node of the first arm stays where it was, and the nodes of the second arm are
carried to the end of the first one. -/
theorem C101_poses (m : Mounting h g a b e r) :
    ∃ X Xs Ys h1 h2 g1, run a.endTransform h = .ok X h ∧ run a.updateTransforms h = .ok Xs h1 ∧
      run b.updateTransforms h = .ok Ys h2 ∧
      run (a.followedBy b).updateTransforms g = .ok (Xs ++ Ys.map X.mul) g1 := by
  have pa : ∀ {h : KHeap ℝ} {c : Chain}, RootedArm h c → ParentsAhead h c.nodes := fun {h c} l => by
    obtain ⟨z, rest, ha, root⟩ := l.root
    rw [ha]; exact Serial.parentsAhead (ha ▸ l.serial) root
  obtain ⟨Xs, h1, e1, w1, -⟩ := C12_update_transforms h m.first.unlocked a (pa m.first)
  obtain ⟨Ys, h2, e2, w2, -⟩ := C12_update_transforms h m.first.unlocked b (pa m.second)
  obtain ⟨Zs, g1, e3, w3, -⟩ := C12_update_transforms g m.unlocked (a.followedBy b) (pa m.arm)
  refine ⟨_, Xs, Ys, h1, h2, g1, run_endTransform a h m.first.unlocked, e1, e2, ?_⟩
  rw [e3]
  congr 1
  have f1 : List.Forall₂ (World g) a.nodes Xs := by
    have : ∀ (ns : List NodeId) (Xs : List (Iso ℝ)), (∀ n ∈ ns, n ∈ a.nodes) →
        List.Forall₂ (World h) ns Xs → List.Forall₂ (World g) ns Xs := by
      intro ns Xs hs w
      induction w with
      | nil => exact .nil
      | @cons n X ns Xs wn _ ih => exact .cons (m.world_a wn (hs n (by simp))) (ih fun k hk => hs k (by simp [hk]))
    exact this _ _ (fun _ x => x) w1
  have f2 : List.Forall₂ (World g) b.nodes (Ys.map (endPose h a.nodes).mul) := by
    have : ∀ (ns : List NodeId) (Ys : List (Iso ℝ)), (∀ n ∈ ns, n ∈ b.nodes) →
        List.Forall₂ (World h) ns Ys → List.Forall₂ (World g) ns (Ys.map (endPose h a.nodes).mul) := by
      intro ns Xs hs w
      induction w with
      | nil => exact .nil
      | @cons n X ns Xs wn _ ih => exact .cons (m.world_b wn (hs n (by simp))) (ih fun k hk => hs k (by simp [hk]))
    exact this _ _ (fun _ x => x) w2
  have f : List.Forall₂ (World g) (a.nodes ++ b.nodes) (Xs ++ Ys.map (endPose h a.nodes).mul) := by
    have : ∀ (ns : List NodeId) (Xs : List (Iso ℝ)), List.Forall₂ (World g) ns Xs →
        List.Forall₂ (World g) (ns ++ b.nodes) (Xs ++ Ys.map (endPose h a.nodes).mul) := by
      intro ns Xs w
      induction w with
      | nil => exact f2
      | cons x _ ih => exact .cons x ih
    exact this _ _ f1
  have uniq : ∀ (ns : List NodeId) (As Bs : List (Iso ℝ)), List.Forall₂ (World g) ns As →
      List.Forall₂ (World g) ns Bs → As = Bs := by
    intro ns As Bs p
    induction p generalizing Bs with
    | nil => intro q; cases q; rfl
    | cons x _ ih =>
      intro q
      cases q with
      | cons y q => rw [x.unique y, ih _ q]
  exact uniq _ _ _ w3 f

/-- **C101**, the Jacobian: its columns are those of the first arm for a point carried along at the distance
between the two ends, followed by those of the second arm as seen from the end of the first one. -/
theorem C101_jacobian (m : Mounting h g a b e r) :
    ∃ X Y J K' J' h1 h2 g1, run a.endTransform h = .ok X h ∧ run b.endTransform h = .ok Y h ∧
      run (jacobian a) h = .ok J h1 ∧ run (jacobian b) h = .ok K' h2 ∧
      run (jacobian (a.followedBy b)) g = .ok J' g1 ∧
      J' = J.map (carriedColumn (X.rot.rotate Y.trans)) ++ K'.map (seenColumn X.rot) := by
  obtain ⟨na, ra, ha, roota⟩ := m.first.root
  obtain ⟨nb, rb, hb, rootb⟩ := m.second.root
  obtain ⟨nc, rc, hc, rootc⟩ := m.arm.root
  obtain ⟨J, h1, W, e1, hW, hJ⟩ := jacobian_columns h m.first.unlocked a m.first.wf na ra ha m.first.serial roota
  obtain ⟨J2, h2, V, e2, hV, hJ2⟩ := jacobian_columns h m.first.unlocked b m.second.wf nb rb hb m.second.serial rootb
  obtain ⟨J3, g1, U, e3, hU, hJ3⟩ := jacobian_columns g m.unlocked (a.followedBy b) m.arm.wf nc rc hc m.arm.serial rootc
  refine ⟨_, _, J, J2, J3, h1, h2, g1, run_endTransform a h m.first.unlocked, run_endTransform b h m.first.unlocked,
    e1, e2, e3, ?_⟩
  rw [hJ3, hJ, hJ2, List.map_map, List.map_map]
  show (a.movableNodes ++ b.movableNodes).map _ = _
  rw [List.map_append]
  have rX : (endPose h a.nodes).rot.IsUnit := m.pose_rigid
  congr 1
  · refine List.map_congr_left fun k hk => ?_
    have ka := m.first.wf.sub k hk
    obtain ⟨pre, post, s⟩ := List.append_of_mem ka
    have w : U k = W k := by
      rw [hU pre k (post ++ b.nodes) (by show a.nodes ++ b.nodes = _; rw [s]; simp), hW _ _ _ s, m.prod]
    simp only [Function.comp, m.joint, w, m.endPose, carriedColumn, velocityPart, spinPart, twist, colLin, colAng,
      List.getD_cons_zero, List.getD_cons_succ]
    cases (h.get k).joint.jointType with
    | fixed => simp [V3.add, V3.cross, V3.zero]
    | linear x => simp [V3.add, V3.cross, V3.zero]
    | rotational x =>
      simp only [Iso.mul, V3.add, V3.cross, V3.sub]
      simp only [List.cons.injEq, and_true]
      refine ⟨?_, ?_, ?_⟩ <;> ring
  · refine List.map_congr_left fun k hk => ?_
    have kb := m.second.wf.sub k hk
    obtain ⟨pre, post, s⟩ := List.append_of_mem kb
    have w : U k = (endPose h a.nodes).mul (V k) := by
      rw [hU (a.nodes ++ pre) k post (by show a.nodes ++ b.nodes = _; rw [s]; simp), hV _ _ _ s,
        List.append_assoc, m.prod_b]
      intro n hn
      rw [s]
      rcases List.mem_append.1 hn with x | x
      · simp [x]
      · simp at x; simp [x]
    have rV : (V k).rot.IsUnit := by
      rw [hV _ _ _ s]
      refine foldl_mul_rigid h _ (fun n hn => m.second.rigid n ?_) _ Iso.one_isRigid
      rw [s]
      rcases List.mem_append.1 hn with x | x
      · simp [x]
      · simp at x; simp [x]
    have sub : ((endPose h a.nodes).mul (endPose h b.nodes)).trans.sub ((endPose h a.nodes).mul (V k)).trans =
        (endPose h a.nodes).rot.rotate ((endPose h b.nodes).trans.sub (V k).trans) := apply_sub _ _ _
    have col : ∀ d w : V3 ℝ, seenColumn (endPose h a.nodes).rot (twist d w) =
        twist ((endPose h a.nodes).rot.rotate d) ((endPose h a.nodes).rot.rotate w) := fun d w => rfl
    simp only [Function.comp, col, m.joint, w, m.endPose, colLin, colAng]
    cases (h.get k).joint.jointType with
    | fixed => simp only [Quat.rotate_zero]
    | linear x => simp only [Quat.rotate_zero, Iso.mul, Quat.rotate_mul rX rV]
    | rotational x =>
      simp only [sub]
      simp only [Iso.mul, Quat.rotate_mul rX rV, Quat.rotate_cross rX]

theorem totalMass_append (h : KHeap ℝ) (ns ms : List NodeId) :
    totalMass h (ns ++ ms) = totalMass h ns + totalMass h ms := by
  simp [totalMass]

theorem totalMoment_append (h : KHeap ℝ) (ns ms : List NodeId) (Xs Ys : List (Iso ℝ)) (l : ns.length = Xs.length) :
    totalMoment h (ns ++ ms) (Xs ++ Ys) = (totalMoment h ns Xs).add (totalMoment h ms Ys) := by
  induction ns generalizing Xs with
  | nil =>
    have : Xs = [] := List.length_eq_zero_iff.1 (by simpa using l.symm)
    subst this
    simp [totalMoment, V3.zero_add']
  | cons n ns ih =>
    cases Xs with
    | nil => simp at l
    | cons X Xs =>
      simp only [List.cons_append, totalMoment, ih Xs (by simpa using l), V3.add_assoc']

/-- **C101**, the center of mass of the longer arm: the weighted mean of the center of mass of the first arm and
that of the second one carried to the end of the first. -/
theorem C101_center_of_mass (m : Mounting h g a b e r) (ma : totalMass h a.nodes ≠ 0) (mb : totalMass h b.nodes ≠ 0)
    (mc : totalMass h a.nodes + totalMass h b.nodes ≠ 0) :
    ∃ X u v w h1 h2 g1, run a.endTransform h = .ok X h ∧ run (centerOfMass a) h = .ok u h1 ∧
      run (centerOfMass b) h = .ok v h2 ∧ run (centerOfMass (a.followedBy b)) g = .ok w g1 ∧
      w.scale (totalMass h a.nodes + totalMass h b.nodes) =
        (u.scale (totalMass h a.nodes)).add ((X.apply v).scale (totalMass h b.nodes)) := by
  have pa : ∀ {h : KHeap ℝ} {c : Chain}, RootedArm h c → ParentsAhead h c.nodes := fun {h c} l => by
    obtain ⟨z, rest, ha, root⟩ := l.root
    rw [ha]; exact Serial.parentsAhead (ha ▸ l.serial) root
  obtain ⟨Xs, u, h1, w1, e1, -, m1⟩ := C23_center_of_mass h m.first.unlocked a (pa m.first)
  obtain ⟨Ys, v, h2, w2, e2, -, m2⟩ := C23_center_of_mass h m.first.unlocked b (pa m.second)
  obtain ⟨Zs, w, g1, w3, e3, -, m3⟩ := C23_center_of_mass g m.unlocked (a.followedBy b) (pa m.arm)
  obtain ⟨X, Xs', Ys', h1', h2', g1', eX, p1, p2, p3⟩ := C101_poses m
  have up : ∀ {h : KHeap ℝ} {c : Chain} {Xs Xs' : List (Iso ℝ)} {h'}, RootedArm h c →
      List.Forall₂ (World h) c.nodes Xs → run c.updateTransforms h = .ok Xs' h' → Xs' = Xs := by
    intro h c Xs Xs' h' l w x
    obtain ⟨As, h'', e, w', -⟩ := C12_update_transforms h l.unlocked c (pa l)
    rw [x] at e
    injection e with e _
    subst e
    clear x
    generalize c.nodes = ns at w w'
    induction w generalizing Xs' with
    | nil => cases w'; rfl
    | cons x _ ih =>
      cases w' with
      | cons y q => rw [x.unique y, ih q]
  have q1 := up m.first w1 p1
  have q2 := up m.second w2 p2
  have q3 := up m.arm w3 p3
  subst q1 q2 q3
  refine ⟨X, u, v, w, h1, h2, g1, eX, e1, e2, e3, ?_⟩
  have lk : ∀ n, massOf g n = massOf h n := fun n => by simp only [massOf, m.link]
  have lm : ∀ n X, momentOf g n X = momentOf h n X := fun n X => by simp only [momentOf, m.link]
  have tm : ∀ ns, totalMass g ns = totalMass h ns := fun ns => by
    unfold totalMass
    congr 1
    exact List.map_congr_left fun n _ => lk n
  have tmo : ∀ ns Xs, totalMoment g ns Xs = totalMoment h ns Xs := by
    intro ns
    induction ns with
    | nil => intro Xs; rfl
    | cons n ns ih =>
      intro Xs
      cases Xs with
      | nil => rfl
      | cons X Xs => simp only [totalMoment, lm, ih]
  have rX : X.IsRigid := by
    rw [run_endTransform a h m.first.unlocked] at eX
    injection eX with eX _
    exact eX ▸ m.pose_rigid
  have rY : ∀ Y ∈ Ys', Y.IsRigid := by
    have cl := (pa m.second).closed
    have : ∀ (ns : List NodeId) (Ys : List (Iso ℝ)), (∀ n ∈ ns, n ∈ b.nodes) →
        List.Forall₂ (World h) ns Ys → ∀ Y ∈ Ys, Y.IsRigid := by
      intro ns Xs hs w
      induction w with
      | nil => simp
      | @cons n X ns Xs wn _ ih =>
        intro Y hY
        rcases List.mem_cons.1 hY with rfl | hY
        · exact wn.rigid b.nodes cl m.second.rigid (hs n (by simp))
        · exact ih (fun k hk => hs k (by simp [hk])) Y hY
    exact this _ _ (fun _ x => x) w2
  have M1 := m1 ma
  have M2 := m2 mb
  have tc : totalMass g (a.followedBy b).nodes = totalMass h a.nodes + totalMass h b.nodes := by
    rw [tm]; exact totalMass_append h _ _
  have M3 := m3 (by rw [tc]; exact mc)
  rw [tc, tmo] at M3
  rw [M3]
  show totalMoment h (a.nodes ++ b.nodes) _ = _
  rw [totalMoment_append h _ _ _ _ w1.length_eq, ← M1,
    totalMoment_moved h X rX b.nodes Ys' w2.length_eq rY, ← M2, Quat.rotate_scale]
  simp only [Iso.apply]
  ext <;> simp only [V3.add, V3.scale] <;> ring

/-- **C101**, taking apart: if nothing was recorded as parent of the second arm and it was no child of the first
one, `remove_parent` afterwards restores the state in which the two arms were apart. -/
theorem C101_apart (m : Mounting h g a b e r) (free : (h.get r).parent = none) (nc : r ∉ (h.get e).children) :
    run (Node.removeParent r e) g = .ok () h := by
  rw [run_Node_removeParent _ _ _ m.unlocked, m.heap]
  congr 1
  have ne := m.ne
  obtain ⟨get, next, dead, held⟩ := h
  simp only [Heap.modify] at *
  congr 1
  funext n
  by_cases h1 : n = e
  · subst h1
    have : ((get n).children ++ [r]).filter (fun x => x != r) = (get n).children := by
      rw [List.filter_append]
      simp only [List.filter_cons, bne_self_eq_false, List.filter_nil, List.append_nil]
      simp only [Bool.false_eq_true, if_false, List.append_nil]
      refine List.filter_eq_self.2 fun x hx => ?_
      simp only [bne_iff_ne, ne_eq]
      exact fun q => nc (q ▸ hx)
    simp only [if_true, if_neg ne, this]
  · by_cases h2 : n = r
    · subst h2
      simp only [if_neg h1, if_true, ← free]
    · simp only [if_neg h1, if_neg h2]

end
end K
