import Verif.Lemmas.Tree
import Verif.Spec.Fk
/-!
# Sequential effect of the transform updates
-/

set_option linter.unusedSectionVars false

namespace K
open Prog
variable {T : Type} [Scalar T]

/-- what `parent_world_transform` reads -/
def pwt (h : KHeap T) (n : NodeId) : Option (Iso T) :=
  match upgradeOpt h (h.get n).parent with
  | some p => (h.get p).joint.worldTransform
  | none => some Iso.one

/-- the write of `update_transforms` at one node -/
def Heap.setWorld (h : KHeap T) (n : NodeId) (t : Iso T) : KHeap T :=
  h.modify n fun s => { s with joint := s.joint.setWorldTransform t }

theorem run_updateTransform (n : NodeId) (h : KHeap T) (u : h.Unlocked) :
    run (Chain.updateTransform n) h = match pwt h n with
      | some t => .ok (t.mul (h.get n).joint.localTransform)
          (h.setWorld n (t.mul (h.get n).joint.localTransform))
      | none => .panic "cache must exist" h := by
  simp only [Chain.updateTransform, run_bind, run_Node_parentWorldTransform _ _ u, Res.bind_ok]
  show (run (expect (pwt h n) _) h).bind _ = _
  cases pwt h n with
  | none => simp
  | some t =>
    simp only [run_expect_some, Res.bind_ok, run_bind, run_Node_joint _ _ (u n), run_poke _ _ _ (u n),
      run_pure]
    rfl

/-! ## uniqueness and framing of the specification -/

theorem WorldIn.unique {h : KHeap T} {i : NodeId → Prop} {n : NodeId} {X Y : Iso T}
    (a : WorldIn h i n X) (b : WorldIn h i n Y) : X = Y := by
  induction a generalizing Y with
  | root e =>
    cases b with
    | root => rfl
    | step e' => rw [e] at e'; cases e'
    | cut e' => rw [e] at e'; cases e'
  | step e hi _ ih =>
    cases b with
    | root e' => rw [e] at e'; cases e'
    | step e' _ w => rw [e] at e'; cases e'; rw [ih w]
    | cut e' ni => rw [e] at e'; cases e'; exact absurd hi ni
  | cut e ni w =>
    cases b with
    | root e' => rw [e] at e'; cases e'
    | step e' hi => rw [e] at e'; cases e'; exact absurd hi ni
    | cut e' _ w' => rw [e] at e'; cases e'; rw [w] at w'; cases w'; rfl

theorem World.unique {h : KHeap T} {n : NodeId} {X Y : Iso T}
    (a : World h n X) (b : World h n Y) : X = Y := by
  induction a generalizing Y with
  | root e =>
    cases b with
    | root => rfl
    | step e' => rw [e] at e'; cases e'
  | step e _ ih =>
    cases b with
    | root e' => rw [e] at e'; cases e'
    | step e' w => rw [e] at e'; cases e'; rw [ih w]

theorem WorldIn.world {h : KHeap T} {i : NodeId → Prop}
    (cl : ∀ n p, i n → liveParent h n = some p → i p) {n : NodeId} {X : Iso T} (hn : i n)
    (w : WorldIn h i n X) : World h n X := by
  induction w with
  | root e => exact .root e
  | step e hi _ ih => exact .step e (ih hi)
  | cut e ni => exact absurd (cl _ _ hn e) ni

theorem SameButWorld.refl (s : NodeImpl T) : SameButWorld s s := rfl
theorem SameButWorld.trans {s s' s'' : NodeImpl T} (a : SameButWorld s s')
    (b : SameButWorld s' s'') : SameButWorld s s'' := by
  unfold SameButWorld at *; rw [b, a]
theorem SameButWorld.set (s : NodeImpl T) (t : Iso T) :
    SameButWorld s { s with joint := s.joint.setWorldTransform t } := rfl
theorem SameButWorld.parent {s s' : NodeImpl T} (a : SameButWorld s s') : s'.parent = s.parent := by
  unfold SameButWorld at a; rw [a]
theorem SameButWorld.link {s s' : NodeImpl T} (a : SameButWorld s s') : s'.link = s.link := by
  unfold SameButWorld at a; rw [a]
theorem SameButWorld.children {s s' : NodeImpl T} (a : SameButWorld s s') :
    s'.children = s.children := by
  unfold SameButWorld at a; rw [a]
theorem SameButWorld.jointType {s s' : NodeImpl T} (a : SameButWorld s s') :
    s'.joint.jointType = s.joint.jointType := by
  unfold SameButWorld at a; rw [a]
theorem SameButWorld.position {s s' : NodeImpl T} (a : SameButWorld s s') :
    s'.joint.position = s.joint.position := by
  unfold SameButWorld at a; rw [a]
theorem SameButWorld.localTransform {s s' : NodeImpl T} (a : SameButWorld s s') :
    s'.joint.localTransform = s.joint.localTransform := by
  unfold SameButWorld at a; rw [a]; rfl
theorem SameButWorld.jointPosition {s s' : NodeImpl T} (a : SameButWorld s s') :
    s'.joint.jointPosition = s.joint.jointPosition := by
  unfold SameButWorld at a; rw [a]; rfl

namespace OnlyWorld
variable {ns ms : List NodeId} {h h' h'' : KHeap T}
theorem refl (ns : List NodeId) (h : KHeap T) : OnlyWorld ns h h :=
  ⟨rfl, rfl, rfl, fun _ => rfl, fun _ _ => rfl⟩
theorem trans (a : OnlyWorld ns h h') (b : OnlyWorld ns h' h'') : OnlyWorld ns h h'' :=
  ⟨b.next.trans a.next, b.dead.trans a.dead, b.held.trans a.held,
    fun n => (a.same n).trans (b.same n), fun n hn => (b.outside n hn).trans (a.outside n hn)⟩
theorem mono (a : OnlyWorld ns h h') (s : ∀ n ∈ ns, n ∈ ms) : OnlyWorld ms h h' :=
  ⟨a.next, a.dead, a.held, a.same, fun n hn => a.outside n fun m => hn (s n m)⟩
theorem unlocked (a : OnlyWorld ns h h') (u : h.Unlocked) : h'.Unlocked := fun n => by
  rw [a.held]; exact u n
theorem liveParent (a : OnlyWorld ns h h') (n : NodeId) : liveParent h' n = liveParent h n := by
  unfold K.liveParent; rw [(a.same n).parent, a.dead]
theorem localT (a : OnlyWorld ns h h') (n : NodeId) :
    (h'.get n).joint.localTransform = (h.get n).joint.localTransform := (a.same n).localTransform
theorem set (h : KHeap T) {n : NodeId} (hn : n ∈ ns) (t : Iso T) :
    OnlyWorld ns h (h.setWorld n t) := by
  refine ⟨rfl, rfl, rfl, fun m => ?_, fun m hm => ?_⟩
  · simp only [Heap.setWorld, Heap.get_modify]; split <;> exact rfl
  · have : m ≠ n := fun e => hm (e ▸ hn)
    simp [Heap.setWorld, Heap.get_modify, this]
/-- the specification does not look at caches of inside nodes -/
theorem worldIn (a : OnlyWorld ns h h') {i : NodeId → Prop} (hi : ∀ n ∈ ns, i n) {n : NodeId}
    {X : Iso T} (w : WorldIn h i n X) : WorldIn h' i n X := by
  induction w with
  | root e => rw [← a.localT]; exact .root (by rw [a.liveParent]; exact e)
  | step e ip _ ih => rw [← a.localT]; exact .step (by rw [a.liveParent]; exact e) ip ih
  | @cut n p X e ip w =>
    rw [← a.localT]
    refine .cut (by rw [a.liveParent]; exact e) ip ?_
    rw [a.outside p fun m => ip (hi p m)]; exact w
theorem world (a : OnlyWorld ns h h') {n : NodeId} {X : Iso T} (w : World h n X) :
    World h' n X := by
  induction w with
  | root e => rw [← a.localT]; exact .root (by rw [a.liveParent]; exact e)
  | step e _ ih => rw [← a.localT]; exact .step (by rw [a.liveParent]; exact e) ih
theorem forest (a : OnlyWorld ns h h') (f : Forest h) : Forest h' := by
  refine ⟨fun p c => ?_, fun p => ?_, fun p c hc => ?_, ?_⟩
  · rw [(a.same p).children, (a.same c).parent]; exact f.agree p c
  · rw [(a.same p).children]; exact f.once p
  · rw [(a.same p).children] at hc; rw [a.next]; exact f.bound p c hc
  · obtain ⟨rank, hr⟩ := f.acyclic
    exact ⟨rank, fun p c e => hr p c (by rwa [(a.same c).parent] at e)⟩
end OnlyWorld

theorem pwt_eq (h : KHeap T) (n : NodeId) : pwt h n = match liveParent h n with
    | some p => (h.get p).joint.worldTransformCache
    | none => some Iso.one := by
  unfold pwt; rw [upgradeOpt_parent]; rfl

/-! ## update_transforms -/

theorem run_updateTransforms_aux (h : KHeap T) (u : h.Unlocked) (ns : List NodeId)
    (r : ParentsReady h ns) (rest pre : List NodeId) (e : ns = pre ++ rest) (g : KHeap T)
    (ow : OnlyWorld ns h g)
    (inv : ∀ n ∈ pre, ∃ X, WorldIn h (· ∈ ns) n X ∧ (g.get n).joint.worldTransformCache = some X) :
    ∃ Xs g', run (mapList rest Chain.updateTransform) g = .ok Xs g' ∧ OnlyWorld ns h g' ∧
      (∀ n ∈ ns, ∃ X, WorldIn h (· ∈ ns) n X ∧ (g'.get n).joint.worldTransformCache = some X) ∧
      List.Forall₂ (fun n X => WorldIn h (· ∈ ns) n X) rest Xs := by
  induction rest generalizing pre g with
  | nil =>
    exact ⟨[], g, rfl, ow, fun n hn => inv n (by simpa [e] using hn), .nil⟩
  | cons n rest ih =>
    have mem : n ∈ ns := by simp [e]
    obtain ⟨t, ht, w⟩ : ∃ t, pwt g n = some t ∧
        WorldIn h (· ∈ ns) n (t.mul (h.get n).joint.localTransform) := by
      rw [pwt_eq, ow.liveParent]
      cases hp : liveParent h n with
      | none => exact ⟨_, rfl, .root hp⟩
      | some p =>
        rcases r pre n rest e p hp with hm | ⟨hm, hc⟩
        · obtain ⟨X, w, c⟩ := inv p hm
          exact ⟨X, c, .step hp (by simp [e, hm]) w⟩
        · cases hx : (h.get p).joint.worldTransformCache with
          | none => exact absurd hx hc
          | some X => exact ⟨X, by simp only [ow.outside p hm, hx], .cut hp hm hx⟩
    have ow' : OnlyWorld ns h (g.setWorld n (t.mul (h.get n).joint.localTransform)) :=
      ow.trans (.set g mem _)
    obtain ⟨Xs, g', hr, a, b, c⟩ := ih (pre ++ [n]) (by simp [e])
      (g.setWorld n (t.mul (h.get n).joint.localTransform)) ow' (by
        intro m hm
        by_cases hmn : m = n
        · subst hmn
          exact ⟨_, w, by simp [Heap.setWorld, Joint.setWorldTransform]⟩
        · rcases List.mem_append.1 hm with hm | hm
          · obtain ⟨X, w, c⟩ := inv m hm
            exact ⟨X, w, by simp only [Heap.setWorld, Heap.get_modify, hmn, if_false, c]⟩
          · exact absurd (List.mem_singleton.1 hm) hmn)
    refine ⟨_ :: Xs, g', ?_, a, b, .cons w c⟩
    simp only [run_mapList_cons, run_updateTransform n g (ow.unlocked u), ht, Res.bind_ok, ow.localT,
      hr]

theorem run_updateTransforms (h : KHeap T) (u : h.Unlocked) (c : Chain)
    (r : ParentsReady h c.nodes) :
    ∃ Xs h', run c.updateTransforms h = .ok Xs h' ∧ OnlyWorld c.nodes h h' ∧
      (∀ n ∈ c.nodes, ∃ X, WorldIn h (· ∈ c.nodes) n X ∧
        (h'.get n).joint.worldTransformCache = some X) ∧
      List.Forall₂ (fun n X => WorldIn h (· ∈ c.nodes) n X) c.nodes Xs :=
  run_updateTransforms_aux h u c.nodes r c.nodes [] rfl h (.refl _ h) (by simp)

theorem ParentsReady.transfer {ns ms : List NodeId} {h h' : KHeap T} (r : ParentsReady h ns)
    (a : OnlyWorld ms h h') (hs : ∀ n ∈ ms, n ∈ ns) : ParentsReady h' ns := by
  intro pre n post e p hp
  rw [a.liveParent] at hp
  rcases r pre n post e p hp with x | ⟨x, y⟩
  · exact .inl x
  · exact .inr ⟨x, by rw [a.outside p fun m => x (hs p m)]; exact y⟩

theorem ParentsAhead.ready {ns : List NodeId} {h : KHeap T} (r : ParentsAhead h ns) :
    ParentsReady h ns := by
  intro pre n post e p hp
  rcases r pre n post e with x | ⟨q, hq, x⟩
  · rw [hp] at x; cases x
  · rw [hp] at x; cases x; exact .inl hq

theorem ParentsAhead.closed {ns : List NodeId} {h : KHeap T} (r : ParentsAhead h ns) (n p : NodeId)
    (hn : n ∈ ns) (hp : liveParent h n = some p) : p ∈ ns := by
  obtain ⟨pre, post, e⟩ := List.append_of_mem hn
  rcases r pre n post e with x | ⟨q, hq, x⟩
  · rw [hp] at x; cases x
  · rw [hp] at x; cases x; simp [e, hq]

/-- two forall₂ over functional relations agree -/
theorem forall₂_unique {α β : Type} {R : α → β → Prop} (hf : ∀ a b c, R a b → R a c → b = c)
    {l : List α} {xs ys : List β} (a : List.Forall₂ R l xs) (b : List.Forall₂ R l ys) : xs = ys := by
  induction a generalizing ys with
  | nil => cases b; rfl
  | cons h _ ih => cases b with
    | cons h' t => rw [hf _ _ _ h h', ih t]

/-- calling it again gives the same result and changes nothing -/
theorem run_updateTransforms_again (h : KHeap T) (u : h.Unlocked) (c : Chain)
    (r : ParentsReady h c.nodes) {Xs : List (Iso T)} {h' : KHeap T}
    (e : run c.updateTransforms h = .ok Xs h') : run c.updateTransforms h' = .ok Xs h' := by
  obtain ⟨Xs1, h1, e1, ow, b, w⟩ := run_updateTransforms h u c r
  rw [e] at e1; cases e1
  obtain ⟨Ys, h2, e2, ow2, b2, w2⟩ := run_updateTransforms h' (ow.unlocked u) c
    (r.transfer ow fun _ h => h)
  have hw : ∀ n X, WorldIn h (· ∈ c.nodes) n X → WorldIn h' (· ∈ c.nodes) n X :=
    fun n X w => ow.worldIn (fun _ h => h) w
  have : Ys = Xs := forall₂_unique (R := fun n X => WorldIn h' (· ∈ c.nodes) n X)
    (fun _ _ _ a b => WorldIn.unique a b) w2
    (w.imp fun n X w => hw n X w)
  subst this
  rw [e2]
  congr 1
  refine Heap.ext' ?_ ow2.next ow2.dead ow2.held
  funext n
  by_cases hn : n ∈ c.nodes
  · obtain ⟨X, wx, cx⟩ := b n hn
    obtain ⟨Y, wy, cy⟩ := b2 n hn
    have := WorldIn.unique (hw _ _ wx) wy
    subst this
    have s := ow2.same n
    unfold SameButWorld at s
    rw [s, cy, ← cx]
  · exact ow2.outside n hn

/-- a missing cache in an outside parent of the first unready node -/
theorem run_updateTransforms_panic (h : KHeap T) (u : h.Unlocked) (c : Chain) (pre post : List NodeId)
    (n p : NodeId) (e : c.nodes = pre ++ n :: post) (r : ParentsReady h pre)
    (hp : liveParent h n = some p) (hpre : p ∉ pre)
    (hc : (h.get p).joint.worldTransformCache = none) :
    ∃ h', run (c.updateTransforms : KProg T _) h = .panic "cache must exist" h' ∧
      OnlyWorld pre h h' := by
  obtain ⟨Xs, g, hr, ow, -, -⟩ := run_updateTransforms h u ⟨pre, [], 0⟩ r
  have hr : run (mapList pre Chain.updateTransform) h = .ok Xs g := hr
  refine ⟨g, ?_, ow⟩
  have : pwt g n = none := by
    rw [pwt_eq, ow.liveParent, hp]
    simp only [ow.outside p hpre, hc]
  simp only [Chain.updateTransforms, e, run_mapList_append, hr, Res.bind_ok, run_mapList_cons,
    run_updateTransform n g (ow.unlocked u), this, Res.bind_panic]

/-! ## end_transform -/

theorem run_foldTransform (ns : List NodeId) (t : Iso T) (h : KHeap T) (u : h.Unlocked) :
    run (Chain.foldTransform ns t) h =
      .ok (ns.foldl (fun t n => t.mul (h.get n).joint.localTransform) t) h := by
  induction ns generalizing t with
  | nil => rfl
  | cons n ns ih =>
    simp only [Chain.foldTransform, run_bind, run_Node_joint _ _ (u n), Res.bind_ok, ih,
      List.foldl_cons]

/-- the value of `end_transform()` -/
def endPose (h : KHeap T) (ns : List NodeId) : Iso T :=
  ns.foldl (fun t n => t.mul (h.get n).joint.localTransform) Iso.one

theorem run_endTransform (c : Chain) (h : KHeap T) (u : h.Unlocked) :
    run c.endTransform h = .ok (endPose h c.nodes) h := run_foldTransform _ _ _ u

end K
