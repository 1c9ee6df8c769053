import Verif.Lemmas.Fk
import Verif.Lemmas.RealGeom
import Verif.Props.Traverse
import Mathlib.Tactic.NormNum
/-!
# C12, C13, C14, C46: forward kinematics
-/

set_option linter.unusedSectionVars false

namespace K
open Prog
variable {T : Type} [Scalar T]

/-! ## C12 -/

/-- **C12** (specification is functional): a node has at most one pose in the world. -/
theorem C12_world_unique (h : KHeap T) (n : NodeId) (X Y : Iso T) (a : World h n X)
    (b : World h n Y) : X = Y := a.unique b

/-- **C12**.  For a chain that lists every node after its parent, `update_transforms()` returns; the
`i`-th result is the product of local transforms along the path from the root to the `i`-th node and is
what `world_transform()` of that node answers afterwards; nothing but cached world transforms of the
chain's nodes changes; a second call returns the same list and changes nothing. -/
theorem C12_update_transforms (h : KHeap T) (u : h.Unlocked) (c : Chain)
    (pa : ParentsAhead h c.nodes) :
    ∃ Xs h', run c.updateTransforms h = .ok Xs h' ∧
      List.Forall₂ (World h) c.nodes Xs ∧
      (∀ n ∈ c.nodes, ∃ X, World h n X ∧ run (Node.worldTransform n) h' = .ok (some X) h') ∧
      OnlyWorld c.nodes h h' ∧
      run c.updateTransforms h' = .ok Xs h' := by
  obtain ⟨Xs, h', e, ow, b, w⟩ := run_updateTransforms h u c pa.ready
  have wd : ∀ n X, n ∈ c.nodes → WorldIn h (· ∈ c.nodes) n X → World h n X :=
    fun n X hn w => w.world (fun n p hn hp => pa.closed n p hn hp) hn
  refine ⟨Xs, h', e, ?_, fun n hn => ?_, ow, run_updateTransforms_again h u c pa.ready e⟩
  · clear e b
    generalize hns : c.nodes = ns at w wd
    have : ∀ ms : List NodeId, (∀ m ∈ ms, m ∈ ns) → ∀ Xs : List (Iso T),
        List.Forall₂ (fun n X => WorldIn h (· ∈ ns) n X) ms Xs → List.Forall₂ (World h) ms Xs := by
      intro ms hs Xs w
      induction w with
      | nil => exact .nil
      | cons a _ ih =>
        exact .cons (wd _ _ (hs _ (by simp)) a) (ih fun m hm => hs m (by simp [hm]))
    exact this ns (fun _ h => h) Xs w
  · obtain ⟨X, wx, cx⟩ := b n hn
    exact ⟨X, wd n X hn wx, by
      rw [run_Node_worldTransform n h' (ow.unlocked u n)]; simp [Joint.worldTransform, cx]⟩

/-- **C12** (chains cut off from the root).  If the parents outside the chain have a cached transform,
the products start from there. -/
theorem C12_cut_chain (h : KHeap T) (u : h.Unlocked) (c : Chain) (r : ParentsReady h c.nodes) :
    ∃ Xs h', run c.updateTransforms h = .ok Xs h' ∧
      List.Forall₂ (fun n X => WorldIn h (· ∈ c.nodes) n X) c.nodes Xs ∧
      (∀ n ∈ c.nodes, ∃ X, WorldIn h (· ∈ c.nodes) n X ∧
        run (Node.worldTransform n) h' = .ok (some X) h') ∧
      OnlyWorld c.nodes h h' ∧
      run c.updateTransforms h' = .ok Xs h' := by
  obtain ⟨Xs, h', e, ow, b, w⟩ := run_updateTransforms h u c r
  refine ⟨Xs, h', e, w, fun n hn => ?_, ow, run_updateTransforms_again h u c r e⟩
  obtain ⟨X, wx, cx⟩ := b n hn
  exact ⟨X, wx, by
    rw [run_Node_worldTransform n h' (ow.unlocked u n)]; simp [Joint.worldTransform, cx]⟩

/-- **C12** (missing cache).  If the parent of some node lies outside the nodes listed before it and has
no cached transform, the call panics there. -/
theorem C12_missing_cache_panics (h : KHeap T) (u : h.Unlocked) (c : Chain) (pre post : List NodeId)
    (n p : NodeId) (e : c.nodes = pre ++ n :: post) (r : ParentsReady h pre)
    (hp : liveParent h n = some p) (hpre : p ∉ pre)
    (hc : (h.get p).joint.worldTransformCache = none) :
    ∃ h', run (c.updateTransforms : KProg T _) h = .panic "cache must exist" h' :=
  let ⟨h', a, _⟩ := run_updateTransforms_panic h u c pre post n p e r hp hpre hc
  ⟨h', a⟩

/-- `from_root` of a real root lists every node after its parent -/
theorem parentsAhead_of_parentsFirst {h : KHeap T} {r : NodeId} {ns : List NodeId}
    (hr : liveParent h r = none) (pf : ParentsFirst h (· = r) ns) : ParentsAhead h ns := by
  intro pre n post e
  rcases pf pre n post e with rfl | ⟨p, hp, x⟩
  · exact .inl hr
  · unfold liveParent; rw [x]
    by_cases d : h.dead p = true
    · simp [d]
    · simp [d, hp]

/-- **C12** for `Chain::from_root(r)`, `r` without a parent, over any forest. -/
theorem C12_from_root (h : KHeap T) (u : h.Unlocked) (f : Forest h) (r : NodeId)
    (hr : liveParent h r = none) :
    ∃ (c : Chain) (Xs : List (Iso T)) (h' : KHeap T),
      (∀ fuel, h.next + 1 ≤ fuel → run (Chain.fromRoot fuel r) h = .ok c h) ∧
      run c.updateTransforms h = .ok Xs h' ∧ List.Forall₂ (World h) c.nodes Xs ∧
      (∀ n, Below h r n → ∃ X, World h n X ∧ run (Node.worldTransform n) h' = .ok (some X) h') := by
  obtain ⟨c, a, -, -, -, mem, pf⟩ := C09_from_root h u f r
  obtain ⟨Xs, h', e, w, b, -, -⟩ := C12_update_transforms h u c (parentsAhead_of_parentsFirst hr pf)
  exact ⟨c, Xs, h', a, e, w, fun n hn => b n ((mem n).2 hn)⟩

theorem Lineage.parentsAhead {h : KHeap T} {n : NodeId} {ps : List NodeId} (l : Lineage h n ps) :
    ParentsAhead h ps.reverse := by
  obtain ⟨-, hstep, hlast⟩ := C10_lineage_shape h n ps l
  intro pre m post e
  have e' : ps = post.reverse ++ m :: pre.reverse := by
    have := congrArg List.reverse e
    simpa using this
  cases hp : pre.reverse with
  | nil =>
    left
    exact hlast post.reverse m (by rw [e', hp])
  | cons p rest =>
    right
    refine ⟨p, ?_, hstep post.reverse m p rest (by rw [e', hp])⟩
    have : p ∈ pre.reverse := by simp [hp]
    simpa using this

/-- **C12** for `Chain::from_end(e)` over any forest. -/
theorem C12_from_end (h : KHeap T) (u : h.Unlocked) (f : Forest h) (n : NodeId) :
    ∃ (c : Chain) (Xs : List (Iso T)) (h' : KHeap T) (X : Iso T),
      (∃ N, ∀ fuel, N ≤ fuel → run (Chain.fromEnd fuel n) h = .ok c h) ∧
      run c.updateTransforms h = .ok Xs h' ∧ List.Forall₂ (World h) c.nodes Xs ∧
      World h n X ∧ Xs.getLast? = some X ∧ run (Node.worldTransform n) h' = .ok (some X) h' := by
  obtain ⟨ps, l, -, -, c, ⟨N, a⟩, -, cn⟩ := C10_ancestors h u f n
  obtain ⟨Xs, h', e, w, b, -, -⟩ := C12_update_transforms h u c (cn ▸ l.parentsAhead)
  obtain ⟨hd, -, -⟩ := C10_lineage_shape h n ps l
  obtain ⟨ps', rfl⟩ : ∃ ps', ps = n :: ps' := by
    cases ps with
    | nil => cases hd
    | cons x xs => simp at hd; exact ⟨xs, by rw [hd]⟩
  have last : ∀ (ns : List NodeId) (Xs : List (Iso T)), List.Forall₂ (World h) (ns ++ [n]) Xs →
      ∃ X, World h n X ∧ Xs.getLast? = some X := by
    intro ns
    induction ns with
    | nil => intro Xs w; cases w with
      | cons a t => cases t; exact ⟨_, a, rfl⟩
    | cons m ns ih => intro Xs w; cases w with
      | @cons _ Y _ Ys a t =>
        obtain ⟨X, wx, lx⟩ := ih Ys t
        refine ⟨X, wx, ?_⟩
        cases Ys with
        | nil => cases lx
        | cons y ys => rw [List.getLast?_cons_cons]; exact lx
  obtain ⟨X, wx, lx⟩ := last ps'.reverse Xs (by simpa [cn] using w)
  obtain ⟨Y, wy, ry⟩ := b n (by simp [cn])
  rw [← wx.unique wy] at ry
  exact ⟨c, Xs, h', X, ⟨N, a⟩, e, w, wx, lx, ry⟩

/-! ## C13 -/

/-- consecutive entries are parent and child -/
def Serial (h : KHeap T) (ns : List NodeId) : Prop :=
  ∀ pre a b post, ns = pre ++ a :: b :: post → liveParent h b = some a

theorem Serial.tail {h : KHeap T} {n : NodeId} {ns : List NodeId} (s : Serial h (n :: ns)) :
    Serial h ns := fun pre a b post e => s (n :: pre) a b post (by simp [e])

theorem Serial.parentsAhead {h : KHeap T} {n : NodeId} {ns : List NodeId} (s : Serial h (n :: ns))
    (hr : liveParent h n = none) : ParentsAhead h (n :: ns) := by
  intro pre m post e
  rcases List.eq_nil_or_concat pre with rfl | ⟨pre', q, rfl⟩
  · simp only [List.nil_append, List.cons.injEq] at e
    exact .inl (e.1 ▸ hr)
  · exact .inr ⟨q, by simp, s pre' q m post (by simp [e])⟩

theorem Serial.world {h : KHeap T} (rest : List NodeId) (n : NodeId) (X : Iso T)
    (s : Serial h (n :: rest)) (w : World h n X) :
    ∃ z, (n :: rest).getLast? = some z ∧
      World h z (rest.foldl (fun t n => t.mul (h.get n).joint.localTransform) X) := by
  induction rest generalizing n X with
  | nil => exact ⟨n, rfl, w⟩
  | cons m rest ih =>
    have hp : liveParent h m = some n := s [] n m rest rfl
    obtain ⟨z, hz, wz⟩ := ih m _ s.tail (.step hp w)
    exact ⟨z, by rw [List.getLast?_cons_cons]; exact hz, wz⟩

/-- **C13** (from a real root).  For a non-branching chain starting at a node without a parent,
`end_transform()` changes nothing, needs no update before, and is the last element returned by
`update_transforms()`, i.e. the pose of the last node. -/
theorem C13_end_transform (h : KHeap T) (u : h.Unlocked) (c : Chain) (n : NodeId)
    (rest : List NodeId) (hc : c.nodes = n :: rest) (s : Serial h c.nodes)
    (hr : liveParent h n = none) :
    ∃ z X Xs h', c.nodes.getLast? = some z ∧ World h z X ∧
      run c.endTransform h = .ok X h ∧
      run c.updateTransforms h = .ok Xs h' ∧ Xs.getLast? = some X ∧
      run c.endTransform h' = .ok X h' := by
  rw [hc] at s
  have pa : ParentsAhead h c.nodes := hc ▸ s.parentsAhead hr
  obtain ⟨Xs, h', e, w, -, ow, -⟩ := C12_update_transforms h u c pa
  obtain ⟨z, hz, wz⟩ := Serial.world rest n _ s (.root hr)
  have ep : endPose h c.nodes = rest.foldl (fun t n => t.mul (h.get n).joint.localTransform)
      (Iso.one.mul (h.get n).joint.localTransform) := by rw [hc]; rfl
  have last : ∀ (ns : List NodeId) (Xs : List (Iso T)), List.Forall₂ (World h) ns Xs →
      ns.getLast? = some z → ∃ X, World h z X ∧ Xs.getLast? = some X := by
    intro ns Xs w
    induction w with
    | nil => intro h; cases h
    | @cons m Y ns Ys a t ih =>
      intro hl
      cases t with
      | nil => cases hl; exact ⟨_, a, rfl⟩
      | cons a' t' =>
        rw [List.getLast?_cons_cons] at hl
        obtain ⟨X, wx, lx⟩ := ih hl
        exact ⟨X, wx, by rw [List.getLast?_cons_cons]; exact lx⟩
  obtain ⟨X, wx, lx⟩ := last c.nodes Xs w (hc ▸ hz)
  rw [← ep] at wz
  have := wx.unique wz
  subst this
  refine ⟨z, _, Xs, h', hc ▸ hz, wz, run_endTransform c h u, e, lx, ?_⟩
  rw [run_endTransform c h' (ow.unlocked u)]
  congr 1
  unfold endPose
  congr 1
  funext t m
  rw [ow.localT]

/-- `from_end` gives a non-branching chain from a real root. -/
theorem Lineage.serial {h : KHeap T} {n : NodeId} {ps : List NodeId} (l : Lineage h n ps) :
    Serial h ps.reverse ∧ ∃ r rest, ps.reverse = r :: rest ∧ liveParent h r = none := by
  obtain ⟨-, hstep, hlast⟩ := C10_lineage_shape h n ps l
  constructor
  · intro pre a b post e
    have e' : ps = post.reverse ++ b :: a :: pre.reverse := by
      have := congrArg List.reverse e
      simpa using this
    exact hstep _ _ _ _ e'
  · rcases List.eq_nil_or_concat ps with rfl | ⟨ps', r, rfl⟩
    · cases l
    · exact ⟨r, ps'.reverse, by simp, hlast ps' r (by simp)⟩

/-- **C13** for `SerialChain::from_end(n)` over any forest: `end_transform()` is the pose of `n`. -/
theorem C13_from_end (h : KHeap T) (u : h.Unlocked) (f : Forest h) (n : NodeId) :
    ∃ (c : Chain) (X : Iso T), (∃ N, ∀ fuel, N ≤ fuel → run (Chain.fromEnd fuel n) h = .ok c h) ∧
      World h n X ∧ run c.endTransform h = .ok X h := by
  obtain ⟨ps, l, -, -, c, a, -, cn⟩ := C10_ancestors h u f n
  obtain ⟨s, r, rest, e, hr⟩ := l.serial
  obtain ⟨z, X, -, -, hz, wz, ex, -, -, -⟩ := C13_end_transform h u c r rest (cn.trans e)
    (cn ▸ s) hr
  obtain ⟨hd, -, -⟩ := C10_lineage_shape h n ps l
  rw [cn, List.getLast?_reverse, hd] at hz
  cases hz
  exact ⟨c, X, a, wz, ex⟩

/-! ## over the reals -/

section real

/-- every node of the list has a rigid origin and a unit axis -/
def AllRigid (h : KHeap ℝ) (ns : List NodeId) : Prop := ∀ n ∈ ns, (h.get n).joint.IsRigid

theorem foldl_mul_rigid (h : KHeap ℝ) (ns : List NodeId) (ar : AllRigid h ns) (X : Iso ℝ)
    (hX : X.IsRigid) :
    (ns.foldl (fun t n => t.mul (h.get n).joint.localTransform) X).IsRigid := by
  induction ns generalizing X with
  | nil => exact hX
  | cons n ns ih =>
    exact ih (fun m hm => ar m (by simp [hm])) _
      (hX.mul (Joint.localTransform_isRigid (ar n (by simp))))

theorem foldl_mul_left (h : KHeap ℝ) (ns : List NodeId) (ar : AllRigid h ns) (C X : Iso ℝ)
    (hC : C.IsRigid) (hX : X.IsRigid) :
    ns.foldl (fun t n => t.mul (h.get n).joint.localTransform) (C.mul X) =
      C.mul (ns.foldl (fun t n => t.mul (h.get n).joint.localTransform) X) := by
  induction ns generalizing X with
  | nil => rfl
  | cons n ns ih =>
    simp only [List.foldl_cons]
    rw [Iso.mul_assoc' hC hX, ih (fun m hm => ar m (by simp [hm])) _
      (hX.mul (Joint.localTransform_isRigid (ar n (by simp))))]

theorem WorldIn.serial {h : KHeap ℝ} {i : NodeId → Prop} (rest : List NodeId) (n : NodeId)
    (X : Iso ℝ) (s : Serial h (n :: rest)) (hi : ∀ m ∈ n :: rest, i m) (w : WorldIn h i n X) :
    ∃ z, (n :: rest).getLast? = some z ∧
      WorldIn h i z (rest.foldl (fun t n => t.mul (h.get n).joint.localTransform) X) := by
  induction rest generalizing n X with
  | nil => exact ⟨n, rfl, w⟩
  | cons m rest ih =>
    have hp : liveParent h m = some n := s [] n m rest rfl
    obtain ⟨z, hz, wz⟩ := ih m _ s.tail (fun k hk => hi k (by simp [hk]))
      (.step hp (hi n (by simp)) w)
    exact ⟨z, by rw [List.getLast?_cons_cons]; exact hz, wz⟩

/-- **C13** (chain cut below the root, exact arithmetic).  If the parent of the first node lies outside
the chain and holds the cached transform `C`, then the last element of `update_transforms()` is
`C * end_transform()`. -/
theorem C13_cut_chain (h : KHeap ℝ) (u : h.Unlocked) (c : Chain) (n p : NodeId)
    (rest : List NodeId) (hc : c.nodes = n :: rest) (s : Serial h c.nodes) (nd : c.nodes.Nodup)
    (hp : liveParent h n = some p) (out : p ∉ c.nodes) (C : Iso ℝ)
    (cache : (h.get p).joint.worldTransformCache = some C) (hC : C.IsRigid)
    (ar : AllRigid h c.nodes) :
    ∃ X Xs h', run c.endTransform h = .ok X h ∧ run c.updateTransforms h = .ok Xs h' ∧
      Xs.getLast? = some (C.mul X) := by
  have pr : ParentsReady h c.nodes := by
    intro pre m post e q hq
    rcases List.eq_nil_or_concat pre with rfl | ⟨pre', a, rfl⟩
    · rw [hc] at e
      simp only [List.nil_append, List.cons.injEq] at e
      rw [← e.1, hp] at hq; cases hq
      exact .inr ⟨out, by simp [cache]⟩
    · have := s pre' a m post (by simp [e])
      rw [hq] at this; cases this
      exact .inl (by simp)
  obtain ⟨Xs, h', e, w, -, -, -⟩ := C12_cut_chain h u c pr
  refine ⟨_, Xs, h', run_endTransform c h u, e, ?_⟩
  have w0 : WorldIn h (· ∈ c.nodes) n (C.mul (h.get n).joint.localTransform) := .cut hp out cache
  obtain ⟨z, hz, wz⟩ := WorldIn.serial rest n _ (hc ▸ s) (fun m hm => hc ▸ hm) w0
  have last : ∀ (ns : List NodeId) (Xs : List (Iso ℝ)),
      List.Forall₂ (fun n X => WorldIn h (· ∈ c.nodes) n X) ns Xs →
      ns.getLast? = some z → ∃ X, WorldIn h (· ∈ c.nodes) z X ∧ Xs.getLast? = some X := by
    intro ns Xs w
    induction w with
    | nil => intro h; cases h
    | @cons m Y ns Ys a t ih =>
      intro hl
      cases t with
      | nil => cases hl; exact ⟨_, a, rfl⟩
      | cons a' t' =>
        rw [List.getLast?_cons_cons] at hl
        obtain ⟨X, wx, lx⟩ := ih hl
        exact ⟨X, wx, by rw [List.getLast?_cons_cons]; exact lx⟩
  obtain ⟨X, wx, lx⟩ := last c.nodes Xs w (hc ▸ hz)
  rw [lx]
  congr 1
  rw [wx.unique wz]
  unfold endPose
  rw [hc, List.foldl_cons, Iso.one_mul']
  exact foldl_mul_left h rest (fun m hm => ar m (by simp [hc, hm])) C _ hC
    (Joint.localTransform_isRigid (ar n (by simp [hc])))

/-! ## C14 -/

/-- squared distance of two points -/
noncomputable def dist2 (p q : V3 ℝ) : ℝ := (p.sub q).dot (p.sub q)
/-- oriented volume spanned by three vectors -/
noncomputable def triple (a b c : V3 ℝ) : ℝ := a.dot (b.cross c)

theorem World.rigid {h : KHeap ℝ} {n : NodeId} {X : Iso ℝ} (w : World h n X) (ns : List NodeId)
    (cl : ∀ n p, n ∈ ns → liveParent h n = some p → p ∈ ns) (ar : AllRigid h ns) (hn : n ∈ ns) :
    X.IsRigid := by
  induction w with
  | root e => exact Iso.one_isRigid.mul (Joint.localTransform_isRigid (ar _ hn))
  | step e _ ih => exact (ih (cl _ _ hn e)).mul (Joint.localTransform_isRigid (ar _ hn))

theorem apply_sub (X : Iso ℝ) (p q : V3 ℝ) : (X.apply p).sub (X.apply q) = X.rot.rotate (p.sub q) := by
  rw [Quat.rotate_sub]
  ext <;> simp only [Iso.apply, V3.sub, V3.add] <;> ring

/-- **C14**.  With unit axes and unit origin rotations, every transform returned by
`update_transforms()` has a unit rotation, preserves distances and preserves orientation. -/
theorem C14_rigid (h h' : KHeap ℝ) (u : h.Unlocked) (c : Chain) (pa : ParentsAhead h c.nodes)
    (ar : AllRigid h c.nodes) (Xs : List (Iso ℝ)) (e : run c.updateTransforms h = .ok Xs h') :
    ∀ X ∈ Xs, X.rot.IsUnit ∧
      (∀ p q, dist2 (X.apply p) (X.apply q) = dist2 p q) ∧
      (∀ o a b c, triple ((X.apply a).sub (X.apply o)) ((X.apply b).sub (X.apply o))
        ((X.apply c).sub (X.apply o)) = triple (a.sub o) (b.sub o) (c.sub o)) := by
  obtain ⟨Ys, h1, e1, w, -, -, -⟩ := C12_update_transforms h u c pa
  rw [e] at e1; cases e1
  intro X hX
  have : ∃ n ∈ c.nodes, World h n X := by
    clear e ar pa
    generalize c.nodes = ns at w
    induction w with
    | nil => cases hX
    | cons a _ ih =>
      rcases List.mem_cons.1 hX with rfl | hX
      · exact ⟨_, by simp, a⟩
      · obtain ⟨n, hn, w⟩ := ih hX
        exact ⟨n, by simp [hn], w⟩
  obtain ⟨n, hn, w⟩ := this
  have rg : X.rot.IsUnit := w.rigid c.nodes pa.closed ar hn
  refine ⟨rg, fun p q => ?_, fun o a b c => ?_⟩
  · rw [dist2, apply_sub, Quat.rotate_dot rg]; rfl
  · simp only [triple, apply_sub, Quat.rotate_cross rg, Quat.rotate_dot rg]

/-! ## C46 -/

theorem World.moved {h h' : KHeap ℝ} {r : NodeId} {X : Iso ℝ} {ns : List NodeId} (hX : X.IsRigid)
    (lp : ∀ n, liveParent h' n = liveParent h n)
    (loc : ∀ n, n ≠ r → (h'.get n).joint.localTransform = (h.get n).joint.localTransform)
    (locr : (h'.get r).joint.localTransform = X.mul (h.get r).joint.localTransform)
    (hr : liveParent h r = none) (only : ∀ n ∈ ns, liveParent h n = none → n = r)
    (cl : ∀ n p, n ∈ ns → liveParent h n = some p → p ∈ ns) (ar : AllRigid h ns) {n : NodeId}
    (hn : n ∈ ns) {Y : Iso ℝ} (w : World h n Y) : World h' n (X.mul Y) := by
  induction w with
  | @root n e =>
    have := only n hn e
    subst this
    rw [Iso.one_mul', ← locr, ← Iso.one_mul' (h'.get n).joint.localTransform]
    exact .root (by rw [lp]; exact e)
  | @step n p Y e w ih =>
    have hp := cl _ _ hn e
    have ne : n ≠ r := fun x => by rw [x, hr] at e; cases e
    rw [← Iso.mul_assoc' hX (w.rigid ns cl ar hp), ← loc n ne]
    exact .step (by rw [lp]; exact e) (ih hp)

/-- **C46**.  For a chain whose nodes all hang below its first node, a real root: after composing the
chain's origin with a pose `X` on the left (`chain.set_origin(X * chain.origin())`), every world
transform computed by `update_transforms` is `X` times what it would have been. -/
theorem C46_moving_the_origin (h : KHeap ℝ) (u : h.Unlocked) (c : Chain) (r : NodeId)
    (rest : List NodeId) (hc : c.nodes = r :: rest) (pa : ParentsAhead h c.nodes)
    (only : ∀ n ∈ c.nodes, liveParent h n = none → n = r) (ar : AllRigid h c.nodes) (X : Iso ℝ)
    (hX : X.IsRigid) :
    ∃ h' Xs g Ys g', run (do c.setOrigin (X.mul (← c.origin))) h = .ok () h' ∧
      run c.updateTransforms h = .ok Xs g ∧ run c.updateTransforms h' = .ok Ys g' ∧
      Ys = Xs.map X.mul := by
  have hr : liveParent h r = none := by
    rcases pa [] r rest (by simp [hc]) with x | ⟨p, hp, -⟩
    · exact x
    · cases hp
  obtain ⟨Xs, g, e, w, -, -, -⟩ := C12_update_transforms h u c pa
  let h' := h.modify r fun s => { s with joint := s.joint.setOrigin (X.mul (h.get r).joint.origin) }
  have lp : ∀ n, liveParent h' n = liveParent h n := by
    intro n; unfold liveParent
    have : (h'.get n).parent = (h.get n).parent := by
      simp only [h', Heap.get_modify]; split <;> rfl
    rw [this]; rfl
  have loc : ∀ n, n ≠ r → (h'.get n).joint.localTransform = (h.get n).joint.localTransform := by
    intro n hn; simp only [h', Heap.get_modify, hn, if_false]
  have locr : (h'.get r).joint.localTransform = X.mul (h.get r).joint.localTransform := by
    have := ar r (by simp [hc])
    have e : (h'.get r).joint.localTransform =
        (X.mul (h.get r).joint.origin).mul (h.get r).joint.jointTransform := by
      simp only [h', Heap.get_modify_self]; rfl
    rw [e, Iso.mul_assoc' hX this.1]; rfl
  have pa' : ParentsAhead h' c.nodes := fun pre n post e => by rw [lp]; exact pa pre n post e
  obtain ⟨Ys, g', e', w', -, -, -⟩ := C12_update_transforms h' (u.modify _ _) c pa'
  refine ⟨h', Xs, g, Ys, g', ?_, e, e', ?_⟩
  · simp only [Chain.origin, Chain.setOrigin, hc, run_bind, run_Node_origin _ _ (u r), Res.bind_ok,
      run_Node_setOrigin _ _ _ u]
    rfl
  · refine forall₂_unique (R := World h') (fun _ _ _ a b => World.unique a b) w' ?_
    have mv : ∀ n Y, n ∈ c.nodes → World h n Y → World h' n (X.mul Y) := fun n Y hn w =>
      World.moved hX lp loc locr hr only pa.closed ar hn w
    clear e e' w' pa pa' only ar hc
    generalize c.nodes = ns at w mv
    induction w with
    | nil => exact .nil
    | cons a _ ih => exact .cons (mv _ _ (by simp) a) (ih fun n Y hn => mv n Y (by simp [hn]))

end real

/-! ## examples -/

section examples

theorem exTree_parentsAhead : ParentsAhead exTree [0, 2, 1, 3] := by
  have l0 : liveParent exTree 0 = none := by simp [liveParent, exTree, NodeImpl.fresh]
  have l1 : liveParent exTree 1 = some 0 := by simp [liveParent, exTree]
  have l2 : liveParent exTree 2 = some 0 := by simp [liveParent, exTree]
  have l3 : liveParent exTree 3 = some 1 := by simp [liveParent, exTree]
  intro pre n post e
  match pre, e with
  | [], e => simp at e; rw [← e.1]; exact .inl l0
  | [a], e => simp at e; rw [← e.2.1, ← e.1]; exact .inr ⟨0, by simp, l2⟩
  | [a, b], e => simp at e; rw [← e.2.2.1, ← e.1]; exact .inr ⟨0, by simp, l1⟩
  | [a, b, c], e => simp at e; rw [← e.2.2.2.1, ← e.1, ← e.2.2.1]; exact .inr ⟨1, by simp, l3⟩
  | a :: b :: c :: d :: es, e => simp at e

/-- the branching chain over `exTree` -/
def exTreeChain : Chain := ⟨[0, 2, 1, 3], [0, 2, 1, 3], 4⟩

theorem exTree_rigid : AllRigid exTree [0, 2, 1, 3] := by
  intro n _
  have : (exTree.get n).joint = Joint.new "j" (.rotational ⟨0, 1, 0⟩) := by
    simp only [exTree]
    split
    · rfl
    · split
      · rfl
      · split
        · rfl
        · split <;> rfl
  rw [this]
  exact ⟨by simp [Joint.new, Iso.IsRigid, Iso.one, Quat.one_isUnit], by simp [Joint.new, V3.IsUnit]⟩

/-- the hypotheses of C12, C14 and C46 hold for the branching chain over `exTree` -/
example : ∃ Xs h', run (Chain.updateTransforms ⟨[0, 2, 1, 3], [0, 2, 1, 3], 4⟩) exTree = .ok Xs h' ∧
    Xs.length = 4 ∧ ∀ X ∈ Xs, X.rot.IsUnit := by
  obtain ⟨Xs, h', e, w, -, -, -⟩ := C12_update_transforms exTree (fun _ => rfl)
    ⟨[0, 2, 1, 3], [0, 2, 1, 3], 4⟩ exTree_parentsAhead
  exact ⟨Xs, h', e, by simpa using w.length_eq.symm, fun X hX =>
    (C14_rigid exTree h' (fun _ => rfl) _ exTree_parentsAhead exTree_rigid Xs e X hX).1⟩

example (X : Iso ℝ) (hX : X.IsRigid) : ∃ h' Xs g Ys g',
    run (do exTreeChain.setOrigin (X.mul (← exTreeChain.origin))) exTree = .ok () h' ∧
    run exTreeChain.updateTransforms exTree = .ok Xs g ∧
    run exTreeChain.updateTransforms h' = .ok Ys g' ∧
    Ys = Xs.map X.mul := by
  refine C46_moving_the_origin exTree (fun _ => rfl) _ 0 [2, 1, 3] rfl exTree_parentsAhead ?_
    exTree_rigid X hX
  intro n hn e
  simp only [exTreeChain, List.mem_cons, List.not_mem_nil, or_false] at hn
  rcases hn with rfl | rfl | rfl | rfl
  · rfl
  all_goals simp [liveParent, exTree] at e

/-- C13 applies to the arm 0 - 1 - 3 of `exTree` -/
example : ∃ z X Xs h', [0, 1, 3].getLast? = some z ∧ World exTree z X ∧
    run (Chain.endTransform ⟨[0, 1, 3], [0, 1, 3], 3⟩) exTree = .ok X exTree ∧
    run (Chain.updateTransforms ⟨[0, 1, 3], [0, 1, 3], 3⟩) exTree = .ok Xs h' ∧
    Xs.getLast? = some X ∧ run (Chain.endTransform ⟨[0, 1, 3], [0, 1, 3], 3⟩) h' = .ok X h' := by
  refine C13_end_transform exTree (fun _ => rfl) ⟨[0, 1, 3], [0, 1, 3], 3⟩ 0 [1, 3] rfl ?_
    (by simp [liveParent, exTree, NodeImpl.fresh])
  intro pre a b post e
  match pre, e with
  | [], e => simp at e; rw [← e.2.1, ← e.1]; simp [liveParent, exTree]
  | [x], e => simp at e; rw [← e.2.1, ← e.2.2.1]; simp [liveParent, exTree]
  | [x, y], e => simp at e
  | x :: y :: z :: es, e => simp at e

end examples

end K
