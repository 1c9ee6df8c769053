import Verif.Lemmas.Deriv
import Verif.Lemmas.Ik
import Verif.Props.Fk
/-!
# C21, C22: the Jacobian is the derivative of forward kinematics
-/

namespace K
open Prog

noncomputable section

/-- set one joint, then ask for the end pose -/
def endAt (c : Chain) (k : NodeId) (x : ℝ) : KProg ℝ (Iso ℝ) := do
  Node.setJointPositionUnchecked k x
  c.endTransform
/-- set one joint, then update all transforms -/
def updateAt (c : Chain) (k : NodeId) (x : ℝ) : KProg ℝ (List (Iso ℝ)) := do
  Node.setJointPositionUnchecked k x
  c.updateTransforms

/-- a column with linear part `d` and angular part `w` -/
def twist (d w : V3 ℝ) : List ℝ := [d.x, d.y, d.z, w.x, w.y, w.z]

/-- product of local transforms, from the left -/
def prodFrom (h : KHeap ℝ) (X : Iso ℝ) (ns : List NodeId) : Iso ℝ :=
  ns.foldl (fun t n => t.mul (h.get n).joint.localTransform) X

theorem prodFrom_mul (h : KHeap ℝ) (ns : List NodeId) (ar : AllRigid h ns) (X : Iso ℝ)
    (hX : X.IsRigid) : prodFrom h X ns = X.mul (prodFrom h Iso.one ns) := by
  have := foldl_mul_left h ns ar X Iso.one hX Iso.one_isRigid
  rwa [Iso.mul_one'] at this

/-- the heap after `set_joint_position_unchecked` -/
def setAt (h : KHeap ℝ) (k : NodeId) (x : ℝ) : KHeap ℝ :=
  h.modify k fun s => { s with joint := s.joint.setJointPositionUnchecked x }

theorem run_setAt (h : KHeap ℝ) (u : h.Unlocked) (k : NodeId) (x : ℝ) :
    run (Node.setJointPositionUnchecked k x) h = .ok () (setAt h k x) := run_poke _ _ _ (u k)

theorem setAt_unlocked {h : KHeap ℝ} (u : h.Unlocked) (k : NodeId) (x : ℝ) : (setAt h k x).Unlocked :=
  fun m => by rw [setAt, Heap.held_modify]; exact u m

theorem setAt_self (h : KHeap ℝ) (k : NodeId) (x : ℝ) :
    ((setAt h k x).get k).joint.localTransform = ((h.get k).joint.at x).localTransform := by
  simp [setAt, Heap.modify, Joint.setJointPositionUnchecked, Joint.at, Joint.localTransform,
    Joint.jointTransform]

theorem setAt_other (h : KHeap ℝ) (k m : NodeId) (x : ℝ) (ne : m ≠ k) :
    (setAt h k x).get m = h.get m := by simp [setAt, Heap.modify, ne]

theorem setAt_liveParent (h : KHeap ℝ) (k m : NodeId) (x : ℝ) :
    liveParent (setAt h k x) m = liveParent h m := by
  unfold liveParent
  by_cases e : m = k
  · subst e; simp [setAt, Heap.modify]
  · rw [setAt_other _ _ _ _ e]; simp [setAt, Heap.modify]

theorem setAt_rigid (h : KHeap ℝ) (k : NodeId) (x : ℝ) (ns : List NodeId) (ar : AllRigid h ns) :
    AllRigid (setAt h k x) ns := by
  intro m hm
  by_cases e : m = k
  · subst e
    have := ar m hm
    simpa [setAt, Heap.modify, Joint.setJointPositionUnchecked, Joint.IsRigid] using this
  · rw [setAt_other _ _ _ _ e]; exact ar m hm

theorem prodFrom_congr (h h' : KHeap ℝ) (ns : List NodeId)
    (e : ∀ m ∈ ns, (h'.get m).joint.localTransform = (h.get m).joint.localTransform) (X : Iso ℝ) :
    prodFrom h' X ns = prodFrom h X ns := by
  induction ns generalizing X with
  | nil => rfl
  | cons m ns ih =>
    simp only [prodFrom, List.foldl_cons] at ih ⊢
    rw [e m (by simp), ih fun a ha => e a (by simp [ha])]

/-- the product with one joint moved -/
theorem prodFrom_setAt (h : KHeap ℝ) (pre post : List NodeId) (k : NodeId) (X : Iso ℝ)
    (hX : X.IsRigid) (nd : (pre ++ k :: post).Nodup) (ar : AllRigid h (pre ++ k :: post)) (x : ℝ) :
    prodFrom (setAt h k x) X (pre ++ k :: post) =
      ((prodFrom h X pre).mul ((h.get k).joint.at x).localTransform).mul (prodFrom h Iso.one post) := by
  have nk : k ∉ pre ∧ k ∉ post := by
    rw [List.nodup_append] at nd
    exact ⟨fun hk => nd.2.2 k hk k (by simp) rfl, (List.nodup_cons.1 nd.2.1).1⟩
  have e1 : prodFrom (setAt h k x) X pre = prodFrom h X pre :=
    prodFrom_congr h _ pre (fun m hm => by
      rw [setAt_other _ _ _ _ (by rintro rfl; exact nk.1 hm)]) X
  have hp : (prodFrom h X pre).IsRigid := foldl_mul_rigid h pre (fun m hm => ar m (by simp [hm])) X hX
  have rk : ((h.get k).joint.at x).localTransform.IsRigid :=
    Joint.localTransform_isRigid ((ar k (by simp)).at x)
  have := prodFrom_mul (setAt h k x) post
    (setAt_rigid h k x post fun m hm => ar m (by simp [hm])) _ (hp.mul rk)
  rw [prodFrom_congr h _ post (fun m hm => by
    rw [setAt_other _ _ _ _ (by rintro rfl; exact nk.2 hm)]) Iso.one] at this
  rw [← this]
  simp only [prodFrom, List.foldl_append, List.foldl_cons] at e1 ⊢
  rw [e1, setAt_self]

/-- what the transforms of the chain are relative to: the world for a root, else the pose cached in the
parent, which is outside the chain -/
def Base (h : KHeap ℝ) (ns : List NodeId) (n : NodeId) (C : Iso ℝ) : Prop :=
  (liveParent h n = none ∧ C = Iso.one) ∨
    ∃ p, liveParent h n = some p ∧ p ∉ ns ∧ (h.get p).joint.worldTransformCache = some C

theorem Base.ready {h : KHeap ℝ} {n : NodeId} {rest : List NodeId} {C : Iso ℝ}
    (b : Base h (n :: rest) n C) (s : Serial h (n :: rest)) : ParentsReady h (n :: rest) := by
  intro pre m post e q hq
  rcases List.eq_nil_or_concat pre with rfl | ⟨pre', a, rfl⟩
  · simp only [List.nil_append, List.cons.injEq] at e
    rw [← e.1] at hq
    rcases b with ⟨hp, -⟩ | ⟨p, hp, out, cache⟩
    · rw [hp] at hq; cases hq
    · rw [hp] at hq; cases hq
      exact .inr ⟨out, by simp [cache]⟩
  · have := s pre' a m post (by simp [e])
    rw [hq] at this; cases this
    exact .inl (by simp)

theorem Base.worldIn {h : KHeap ℝ} {n : NodeId} {rest : List NodeId} {C : Iso ℝ}
    (b : Base h (n :: rest) n C) (s : Serial h (n :: rest)) (pre post : List NodeId) (k : NodeId)
    (e : n :: rest = pre ++ k :: post) : WorldIn h (· ∈ n :: rest) k (prodFrom h C (pre ++ [k])) := by
  have w0 : WorldIn h (· ∈ n :: rest) n (C.mul (h.get n).joint.localTransform) := by
    rcases b with ⟨hp, rfl⟩ | ⟨p, hp, out, cache⟩
    · exact .root hp
    · exact .cut hp out cache
  cases pre with
  | nil =>
    simp only [List.nil_append, List.cons.injEq] at e
    rw [← e.1]
    exact w0
  | cons m pre =>
    simp only [List.cons_append, List.cons.injEq] at e
    obtain ⟨rfl, e⟩ := e
    have sub : Serial h (n :: (pre ++ [k])) := by
      intro p1 a b p2 e2
      refine s p1 a b (p2 ++ post) ?_
      rw [e]
      have : n :: (pre ++ k :: post) = n :: (pre ++ [k]) ++ post := by simp
      rw [this, e2]; simp
    obtain ⟨z, hz, wz⟩ := WorldIn.serial (i := (· ∈ n :: rest)) (pre ++ [k]) n _ sub
      (fun a ha => by
        rw [e]
        simp only [List.mem_cons, List.mem_append, List.not_mem_nil, or_false] at ha ⊢
        tauto) w0
    have : z = k := by
      rw [← List.cons_append, List.getLast?_concat] at hz
      exact (Option.some.inj hz).symm
    subst this
    exact wz

/-- the Jacobian of a non-branching chain, cut off or not -/
theorem jacobian_core (h : KHeap ℝ) (u : h.Unlocked) (c : Chain) (w : c.Wf h) (n : NodeId)
    (rest : List NodeId) (hc : c.nodes = n :: rest) (s : Serial h c.nodes) (nd : c.nodes.Nodup)
    (C : Iso ℝ) (hC : C.IsRigid) (b : Base h c.nodes n C) (ar : AllRigid h c.nodes) :
    ∃ jac h', run (jacobian c) h = .ok jac h' ∧ jac.length = c.dof ∧
      ∀ (i : Nat) (k : NodeId) (col : List ℝ), c.movableNodes[i]? = some k → jac[i]? = some col →
        ∃ d a : V3 ℝ,
          col = twist (d.add (a.cross ((endPose h c.nodes).trans.sub (prodFrom h C c.nodes).trans))) a ∧
          V3.HasDeriv (fun x => (prodFrom (setAt h k x) C c.nodes).trans) d (h.get k).joint.position ∧
          ∀ v, V3.HasDeriv (fun x => (prodFrom (setAt h k x) C c.nodes).rot.rotate v)
            (a.cross ((prodFrom h C c.nodes).rot.rotate v)) (h.get k).joint.position := by
  rw [hc] at b s
  obtain ⟨jac, h', e, ow, cache, f⟩ := run_jacobian c h u w (hc ▸ b.ready s)
  refine ⟨jac, h', e, by rw [w.dof, f.length_eq], fun i k col hk hcol => ?_⟩
  have hi : i < c.movableNodes.length := by
    by_contra x; rw [List.getElem?_eq_none (by omega)] at hk; cases hk
  have hi' : i < jac.length := by rw [← f.length_eq]; exact hi
  have ic := f.get (i := i) hi hi'
  rw [List.getElem?_eq_getElem hi] at hk
  rw [List.getElem?_eq_getElem hi'] at hcol
  cases hk; cases hcol
  simp only [List.get_eq_getElem] at ic
  generalize hk : c.movableNodes[i] = k at ic
  generalize jac[i] = col at ic
  have km : k ∈ c.nodes := w.sub k (hk ▸ List.getElem_mem hi)
  obtain ⟨pre, post, split⟩ := List.append_of_mem km
  obtain ⟨ti, ct, jc⟩ := ic
  obtain ⟨X, wx, cx⟩ := cache k km
  rw [ct] at cx; cases cx
  have wk := b.worldIn s pre post k (hc ▸ split)
  rw [hc] at wx
  have := wx.unique wk
  subst this
  have hj : (h'.get k).joint.jointType = (h.get k).joint.jointType := (ow.same k).jointType
  have jc' : jacobianColumn (endPose h c.nodes).trans (h.get k).joint
      ((prodFrom h C pre).mul (h.get k).joint.localTransform) = .ok col := by
    rw [← jc]
    unfold jacobianColumn
    rw [hj]
    simp only [prodFrom, List.foldl_append, List.foldl_cons, List.foldl_nil]
  rw [split] at ar nd
  have hA : (prodFrom h C pre).IsRigid := foldl_mul_rigid h pre (fun m hm => ar m (by simp [hm])) C hC
  have hB : (prodFrom h Iso.one post).IsRigid :=
    foldl_mul_rigid h post (fun m hm => ar m (by simp [hm])) _ Iso.one_isRigid
  obtain ⟨d, a, e1, e2, e3⟩ := column_deriv _ _ _ hA hB (ar k (by simp)) _ _ jc'
  have full : ((prodFrom h C pre).mul (h.get k).joint.localTransform).mul (prodFrom h Iso.one post) =
      prodFrom h C c.nodes := by
    rw [split]
    have := prodFrom_mul h post (fun m hm => ar m (by simp [hm])) _
      (hA.mul (Joint.localTransform_isRigid (ar k (by simp))))
    rw [← this]
    simp only [prodFrom, List.foldl_append, List.foldl_cons]
  rw [full] at e1 e3
  refine ⟨d, a, e1, ?_, fun v => ?_⟩
  · rw [split]
    simp only [prodFrom_setAt h pre post k C hC nd ar]
    exact e2
  · rw [split]
    simp only [prodFrom_setAt h pre post k C hC nd ar]
    rw [← split]
    exact e3 v

/-- **C21.**  For a non-branching chain starting at a node without a parent, with unit axes and unit
origin rotations: `jacobian` returns `dof` columns.  For the `i`-th movable node `k`, at position `q`,
let `T x` be the end pose after setting that joint to `x`.  The `i`-th column is `(d, a)` where `d` is
the derivative of the position of `T x` and `a` the angular velocity of `T x`: any vector `v` carried by
the end frame moves with velocity `a × v`. -/
theorem C21_jacobian (h : KHeap ℝ) (u : h.Unlocked) (c : Chain) (w : c.Wf h) (n : NodeId)
    (rest : List NodeId) (hc : c.nodes = n :: rest) (s : Serial h c.nodes) (nd : c.nodes.Nodup)
    (root : liveParent h n = none) (ar : AllRigid h c.nodes) :
    ∃ jac h', run (jacobian c) h = .ok jac h' ∧ jac.length = c.dof ∧
      ∀ (i : Nat) (k : NodeId) (col : List ℝ), c.movableNodes[i]? = some k → jac[i]? = some col →
        ∃ (q : ℝ) (T : ℝ → Iso ℝ) (d a : V3 ℝ), run (Node.jointPosition k) h = .ok (some q) h ∧
          (∀ x, ∃ g, run (endAt c k x) h = .ok (T x) g) ∧
          col = twist d a ∧ V3.HasDeriv (fun x => (T x).trans) d q ∧
          ∀ v, V3.HasDeriv (fun x => (T x).rot.rotate v) (a.cross ((T q).rot.rotate v)) q := by
  obtain ⟨jac, h', e, l, f⟩ := jacobian_core h u c w n rest hc s nd Iso.one Iso.one_isRigid
    (.inl ⟨root, rfl⟩) ar
  refine ⟨jac, h', e, l, fun i k col hk hcol => ?_⟩
  obtain ⟨d, a, e1, e2, e3⟩ := f i k col hk hcol
  have mv : (h.get k).joint.jointType ≠ .fixed := by
    have hm : k ∈ c.movableNodes := List.mem_of_getElem? hk
    rw [w.movable, List.mem_filter] at hm
    exact (decide_eq_true_iff (p := Movable h k)).1 hm.2
  have q : (h.get k).joint.jointPosition = some (h.get k).joint.position := by
    unfold Joint.jointPosition
    split
    · rename_i x; exact absurd x mv
    · rfl
  have z : prodFrom (setAt h k (h.get k).joint.position) Iso.one c.nodes = prodFrom h Iso.one c.nodes :=
    prodFrom_congr _ _ _ (fun m hm => by
      by_cases x : m = k
      · subst x; rw [setAt_self]; rfl
      · rw [setAt_other _ _ _ _ x]) _
  refine ⟨(h.get k).joint.position, fun x => prodFrom (setAt h k x) Iso.one c.nodes, d, a,
    by rw [run_Node_jointPosition k h (u k), q], fun x => ⟨setAt h k x, ?_⟩, ?_, e2, fun v => ?_⟩
  · rw [endAt, run_bind, run_setAt h u, Res.bind_ok, run_endTransform _ _ (setAt_unlocked u k x)]
    rfl
  · rw [e1]
    have : ∀ p : V3 ℝ, d.add (a.cross (p.sub p)) = d := by
      intro p; ext <;> simp [V3.add, V3.cross, V3.sub]
    show twist (d.add (a.cross ((prodFrom h Iso.one c.nodes).trans.sub _))) a = _
    rw [this]
  · simp only [z]; exact e3 v

theorem Lineage.suffix {T : Type} [Scalar T] {h : KHeap T} {n : NodeId} {ps : List NodeId}
    (l : Lineage h n ps) (m : NodeId)
    (hm : m ∈ ps) : ∃ qs, Lineage h m qs ∧ qs.length ≤ ps.length := by
  induction l with
  | @root n e =>
    have : m = n := by simpa using hm
    subst this
    exact ⟨_, .root e, Nat.le_refl _⟩
  | @step n p ps e l ih =>
    rcases List.mem_cons.1 hm with rfl | hm
    · exact ⟨_, .step e l, Nat.le_refl _⟩
    · obtain ⟨qs, a, b⟩ := ih hm
      exact ⟨qs, a, by simp; omega⟩

theorem Lineage.nodup' {T : Type} [Scalar T] {h : KHeap T} {n : NodeId} {ps : List NodeId}
    (l : Lineage h n ps) : ps.Nodup := by
  induction l with
  | root e => simp
  | @step n p ps e l ih =>
    refine List.nodup_cons.2 ⟨fun hm => ?_, ih⟩
    obtain ⟨qs, a, b⟩ := l.suffix n hm
    have := a.unique (.step e l)
    subst this
    simp at b

/-- **C21** for `SerialChain::from_end(n)` over any forest: it makes a chain to which C21 applies. -/
theorem C21_from_end (h : KHeap ℝ) (u : h.Unlocked) (f : Forest h) (n : NodeId)
    (ar : ∀ m, (h.get m).joint.IsRigid) :
    ∃ c : Chain, (∃ N, ∀ fuel, N ≤ fuel → run (Chain.fromEnd fuel n) h = .ok c h) ∧
    ∃ jac h', run (jacobian c) h = .ok jac h' ∧ jac.length = c.dof ∧
      ∀ (i : Nat) (k : NodeId) (col : List ℝ), c.movableNodes[i]? = some k → jac[i]? = some col →
        ∃ (q : ℝ) (T : ℝ → Iso ℝ) (d a : V3 ℝ), run (Node.jointPosition k) h = .ok (some q) h ∧
          (∀ x, ∃ g, run (endAt c k x) h = .ok (T x) g) ∧
          col = twist d a ∧ V3.HasDeriv (fun x => (T x).trans) d q ∧
          ∀ v, V3.HasDeriv (fun x => (T x).rot.rotate v) (a.cross ((T q).rot.rotate v)) q := by
  obtain ⟨ps, l, -, -, c, a, w, cn⟩ := C10_ancestors h u f n
  obtain ⟨s, r, rest, e, hr⟩ := l.serial
  exact ⟨c, a, C21_jacobian h u c w r rest (cn.trans e) (cn ▸ s)
    (cn ▸ (List.nodup_reverse.2 l.nodup')) hr fun m _ => ar m⟩

/-- **C22.**  For a chain cut below the root whose parent has the cached pose `C`: the angular part
`a` of a column is the angular velocity of the end in the world, but the linear part is its velocity `d`
in the world plus `a × (e - e')`, where `e` is the position of `end_transform()`, which is relative to
the cut, and `e'` the position of the end in the world (the last result of `update_transforms()`).  The
columns of prismatic joints (`a = 0`) are right, and so are all columns if `e = e'`. -/
theorem C22_cut_chain (h : KHeap ℝ) (u : h.Unlocked) (c : Chain) (w : c.Wf h) (n p : NodeId)
    (rest : List NodeId) (hc : c.nodes = n :: rest) (s : Serial h c.nodes) (nd : c.nodes.Nodup)
    (hp : liveParent h n = some p) (out : p ∉ c.nodes) (C : Iso ℝ)
    (cache : (h.get p).joint.worldTransformCache = some C) (hC : C.IsRigid) (ar : AllRigid h c.nodes) :
    ∃ jac h', run (jacobian c) h = .ok jac h' ∧ jac.length = c.dof ∧
      ∀ (i : Nat) (k : NodeId) (col : List ℝ), c.movableNodes[i]? = some k → jac[i]? = some col →
        ∃ (q : ℝ) (E : Iso ℝ) (T : ℝ → Iso ℝ) (d a : V3 ℝ),
          run (Node.jointPosition k) h = .ok (some q) h ∧
          run c.endTransform h = .ok E h ∧
          (∀ x, ∃ Xs g, run (updateAt c k x) h = .ok Xs g ∧ Xs.getLast? = some (T x)) ∧
          col = twist (d.add (a.cross (E.trans.sub (T q).trans))) a ∧
          V3.HasDeriv (fun x => (T x).trans) d q ∧
          ∀ v, V3.HasDeriv (fun x => (T x).rot.rotate v) (a.cross ((T q).rot.rotate v)) q := by
  obtain ⟨jac, h', e, l, f⟩ := jacobian_core h u c w n rest hc s nd C hC
    (.inr ⟨p, hp, out, cache⟩) ar
  refine ⟨jac, h', e, l, fun i k col hk hcol => ?_⟩
  obtain ⟨d, a, e1, e2, e3⟩ := f i k col hk hcol
  have km : k ∈ c.movableNodes := List.mem_of_getElem? hk
  have mv : (h.get k).joint.jointType ≠ .fixed := by
    have hm := km
    rw [w.movable, List.mem_filter] at hm
    exact (decide_eq_true_iff (p := Movable h k)).1 hm.2
  have q : (h.get k).joint.jointPosition = some (h.get k).joint.position := by
    unfold Joint.jointPosition
    split
    · rename_i x; exact absurd x mv
    · rfl
  have z : prodFrom (setAt h k (h.get k).joint.position) C c.nodes = prodFrom h C c.nodes :=
    prodFrom_congr _ _ _ (fun m hm => by
      by_cases x : m = k
      · subst x; rw [setAt_self]; rfl
      · rw [setAt_other _ _ _ _ x]) _
  refine ⟨(h.get k).joint.position, endPose h c.nodes, fun x => prodFrom (setAt h k x) C c.nodes, d, a,
    by rw [run_Node_jointPosition k h (u k), q], run_endTransform c h u, fun x => ?_, ?_, e2,
    fun v => ?_⟩
  · have s' : Serial (setAt h k x) c.nodes := fun pre a b post e => by
      rw [setAt_liveParent]; exact s pre a b post e
    have pk : p ≠ k := fun e => out (e ▸ w.sub k km)
    obtain ⟨X, Xs, g, r1, r2, r3⟩ := C13_cut_chain (setAt h k x) (setAt_unlocked u k x) c n p rest hc s'
      nd (by rw [setAt_liveParent]; exact hp) out C (by rw [setAt_other _ _ _ _ pk]; exact cache) hC
      (setAt_rigid h k x _ ar)
    refine ⟨Xs, g, by rw [updateAt, run_bind, run_setAt h u, Res.bind_ok, r2], ?_⟩
    rw [run_endTransform _ _ (setAt_unlocked u k x)] at r1
    cases r1
    rw [r3]
    exact congrArg some (prodFrom_mul _ _ (setAt_rigid h k x _ ar) C hC).symm
  · simp only [z]; exact e1
  · simp only [z]; exact e3 v

/-- **C22**, missing cache: on a cut chain whose outside parent has no cached pose, `jacobian` panics. -/
theorem C22_missing_cache (h : KHeap ℝ) (u : h.Unlocked) (c : Chain) (n p : NodeId)
    (rest : List NodeId) (hc : c.nodes = n :: rest)
    (hp : liveParent h n = some p)
    (cache : (h.get p).joint.worldTransformCache = none) :
    ∃ h', run (jacobian c) h = .panic "cache must exist" h' := by
  obtain ⟨h', e⟩ := C12_missing_cache_panics h u c [] rest n p hc
    (fun pre m post e => by simp at e) hp (by simp) cache
  refine ⟨h', ?_⟩
  simp only [jacobian, run_bind, run_endTransform _ _ u, Res.bind_ok, e]
  rfl

/-! ## instances -/

/-- node 1, a joint turning about z, below a fixed node 0 at (5, 0, 0) whose pose is cached -/
def exCut : KHeap ℝ :=
  { get := fun n =>
      if n = 0 then
        { NodeImpl.fresh ((Joint.new "base" .fixed).setWorldTransform ⟨⟨5, 0, 0⟩, Quat.one⟩) with
          children := [1] }
      else { NodeImpl.fresh (Joint.new "j" (.rotational ⟨0, 0, 1⟩)) with parent := some 0 }
    next := 2, dead := fun _ => false, held := fun _ => false }

def exCutChain : Chain := ⟨[1], [1], 1⟩

theorem exCut_hyps : exCut.Unlocked ∧ exCutChain.Wf exCut ∧ Serial exCut [1] ∧
    liveParent exCut 1 = some 0 ∧ AllRigid exCut [1] := by
  refine ⟨fun _ => rfl, ⟨?_, rfl⟩, ?_, ?_, ?_⟩
  · simp [exCutChain, exCut, Movable, NodeImpl.fresh, Joint.new]
  · intro pre a b post e
    have := congrArg List.length e
    simp at this
    omega
  · simp [liveParent, exCut]
  · intro n hn
    have : n = 1 := by simpa using hn
    subst this
    exact ⟨by simp [exCut, NodeImpl.fresh, Joint.new, Iso.IsRigid, Iso.one, Quat.one_isUnit],
      by simp [exCut, NodeImpl.fresh, Joint.new, V3.IsUnit]⟩

/-- **C22**, refutation of the expected claim: for the chain made of node 1 of `exCut` the end does not
move when the joint turns, yet the column says it moves with velocity (0, -5, 0). -/
theorem C22_refuted : (∃ g, run (jacobian exCutChain) exCut = .ok [[0, -5, 0, 0, 0, 1]] g) ∧
    ∀ x, ∃ X g', run (updateAt exCutChain 1 x) exCut = .ok [X] g' ∧ X.trans = ⟨5, 0, 0⟩ := by
  obtain ⟨u, w, s, hp, ar⟩ := exCut_hyps
  have cache : (exCut.get 0).joint.worldTransformCache = some ⟨⟨5, 0, 0⟩, Quat.one⟩ := by
    simp [exCut, NodeImpl.fresh, Joint.setWorldTransform]
  have bs : Base exCut [1] 1 ⟨⟨5, 0, 0⟩, Quat.one⟩ := .inr ⟨0, hp, by simp, cache⟩
  constructor
  · obtain ⟨jac, h', e, ow, wc, f⟩ := run_jacobian exCutChain exCut u w (bs.ready s)
    refine ⟨h', ?_⟩
    rw [e]
    cases f with
    | @cons _ col _ _ ic t =>
      cases t
      obtain ⟨ti, ct, jc⟩ := ic
      obtain ⟨X, wx, cx⟩ := wc 1 (by simp [exCutChain])
      rw [ct] at cx; cases cx
      have := WorldIn.unique wx (bs.worldIn s [] [] 1 rfl)
      subst this
      congr 2
      have hj : (h'.get 1).joint.jointType = .rotational ⟨0, 0, 1⟩ := by
        rw [(ow.same 1).jointType]; simp [exCut, NodeImpl.fresh, Joint.new]
      have jt : (exCut.get 1).joint.localTransform = Iso.one := by
        have : (exCut.get 1).joint = Joint.new "j" (.rotational ⟨0, 0, 1⟩) := by simp [exCut, NodeImpl.fresh]
        rw [this]
        show Iso.one.mul ⟨V3.zero, Quat.fromAxisAngle ⟨0, 0, 1⟩ 0⟩ = _
        rw [Iso.one_mul']
        simp [Iso.one, Quat.fromAxisAngle, Quat.one, Scalar.cos, Scalar.sin]
      have ep : endPose exCut exCutChain.nodes = Iso.one := by
        simp only [endPose, exCutChain, List.foldl_cons, List.foldl_nil, jt, Iso.mul_one']
      have pf : prodFrom exCut ⟨⟨5, 0, 0⟩, Quat.one⟩ ([] ++ [1]) = ⟨⟨5, 0, 0⟩, Quat.one⟩ := by
        simp only [prodFrom, List.nil_append, List.foldl_cons, List.foldl_nil, jt, Iso.mul_one']
      rw [ep, pf] at jc
      unfold jacobianColumn at jc
      rw [hj] at jc
      simp only [Quat.rotate_one, Except.ok.injEq] at jc
      rw [← jc]
      simp [V3.cross, V3.sub, Iso.one, V3.zero]
  · intro x
    have s' : Serial (setAt exCut 1 x) [1] := fun pre a b post e => by
      rw [setAt_liveParent]; exact s pre a b post e
    have bs' : Base (setAt exCut 1 x) [1] 1 ⟨⟨5, 0, 0⟩, Quat.one⟩ :=
      .inr ⟨0, by rw [setAt_liveParent]; exact hp, by simp, by
        rw [setAt_other _ _ _ _ (by omega)]; exact cache⟩
    obtain ⟨Xs, g, e, f, -⟩ := C12_cut_chain (setAt exCut 1 x) (setAt_unlocked u 1 x) exCutChain
      (bs'.ready s')
    cases f with
    | @cons _ X _ _ wx t =>
      cases t
      refine ⟨X, g, by rw [updateAt, run_bind, run_setAt _ u, Res.bind_ok, e], ?_⟩
      rw [WorldIn.unique wx (bs'.worldIn s' [] [] 1 rfl)]
      simp only [prodFrom, List.nil_append, List.foldl_cons, List.foldl_nil, setAt_self]
      simp [exCut, NodeImpl.fresh, Joint.new, Joint.at, Joint.localTransform, Joint.jointTransform,
        Iso.mul, Iso.one, Quat.rotate_zero, V3.add, V3.zero, Quat.rotate_one]

/-- the path 0, 1, 3 of `exTree`, three joints turning about y, meets the hypotheses of C21 -/
example : ∃ jac h', run (jacobian ⟨[0, 1, 3], [0, 1, 3], 3⟩) exTree = .ok jac h' ∧ jac.length = 3 := by
  have p1 : liveParent exTree 1 = some 0 := by simp [liveParent, exTree]
  have p3 : liveParent exTree 3 = some 1 := by simp [liveParent, exTree]
  obtain ⟨jac, h', e, l, -⟩ := C21_jacobian exTree (fun _ => rfl) ⟨[0, 1, 3], [0, 1, 3], 3⟩
    ⟨by simp [exTree, Movable, NodeImpl.fresh, Joint.new], rfl⟩ 0 [1, 3] rfl
    (fun pre a b post e => by
      match pre, e with
      | [], e => cases e; exact p1
      | [x], e => cases e; exact p3
      | x :: y :: pre, e =>
        have := congrArg List.length e
        simp at this; omega)
    (by simp) (by simp [liveParent, exTree, NodeImpl.fresh])
    (fun n hn => exTree_rigid n (by simp at hn ⊢; tauto))
  exact ⟨jac, h', e, l⟩

end
end K
