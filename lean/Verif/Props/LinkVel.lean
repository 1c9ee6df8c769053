import Verif.Props.Fk
/-!
# C16, C17: `update_velocities`, `update_link_transforms`
-/

set_option linter.unusedSectionVars false

namespace K
open Prog
open scoped Classical
variable {T : Type} [Scalar T]

/-! ## C16 -/

def pwv (h : KHeap T) (n : NodeId) : Option (Velocity T) :=
  match upgradeOpt h (h.get n).parent with
  | some p => (h.get p).joint.worldVelocity
  | none => some Velocity.zero

/-- the write of `update_velocities` at one node -/
def setVel (h : KHeap T) (n : NodeId) (v : Velocity T) : KHeap T :=
  h.modify n fun s => { s with joint := s.joint.setWorldVelocity v }

private theorem run_Node_parent_held (n : NodeId) (h : KHeap T) (e : h.held n = true) :
    run (Node.parent n) h = .blocked n h := by
  simp [Node.parent, run_bind, run_doLock_held _ _ e]

private theorem run_Node_worldTransform_held (n : NodeId) (h : KHeap T) (e : h.held n = true) :
    run (Node.worldTransform n) h = .blocked n h := by
  simp [Node.worldTransform, Node.joint, run_bind, run_peek_held _ _ e]

theorem run_updateVelocity (n : NodeId) (h : KHeap T) (u : h.Unlocked) :
    run (Chain.updateVelocity n) h = match pwt h n with
      | none => .panic "transform cache must exist" h
      | some _ => match pwv h n with
        | none => .panic "velocity cache must exist" h
        | some v => if (h.get n).joint.jointType = .fixed then .ok v (setVel h n v)
            else .blocked n (h.setHeld n true) := by
  simp only [Chain.updateVelocity, run_bind, run_Node_parentWorldTransform _ _ u, Res.bind_ok]
  show (run (expect (pwt h n) _) h).bind _ = _
  cases pwt h n with
  | none => simp
  | some t =>
    simp only [run_expect_some, Res.bind_ok, run_bind, run_Node_parentWorldVelocity _ _ u]
    show (run (expect (pwv h n) _) h).bind _ = _
    cases pwv h n with
    | none => simp
    | some v =>
      have hh : (h.setHeld n true).held n = true := by simp
      simp only [run_expect_some, Res.bind_ok, run_bind, run_doLock_free _ _ (u n), run_doRead,
        Heap.get_setHeld]
      cases (h.get n).joint.jointType with
      | fixed =>
        simp only [run_pure, Res.bind_ok, run_doUnlock, Heap.setHeld_setHeld_false _ _ (u n),
          run_poke _ _ _ (u n), if_true, setVel]
      | rotational a => simp [run_bind, run_Node_parent_held n _ hh]
      | linear a => simp [run_bind, run_Node_worldTransform_held n _ hh]

theorem setVel_unlocked {h : KHeap T} (u : h.Unlocked) (n : NodeId) (v : Velocity T) :
    (setVel h n v).Unlocked := u.modify _ _

theorem setVel_type (h : KHeap T) (n m : NodeId) (v : Velocity T) :
    ((setVel h n v).get m).joint.jointType = (h.get m).joint.jointType := by
  unfold setVel; rw [Heap.get_modify]; split <;> rfl

theorem setVel_parent (h : KHeap T) (n m : NodeId) (v : Velocity T) :
    ((setVel h n v).get m).parent = (h.get m).parent := by
  unfold setVel; rw [Heap.get_modify]; split <;> rfl

theorem setVel_world (h : KHeap T) (n m : NodeId) (v : Velocity T) :
    ((setVel h n v).get m).joint.worldTransformCache = (h.get m).joint.worldTransformCache := by
  unfold setVel; rw [Heap.get_modify]; split <;> rfl

theorem setVel_vel (h : KHeap T) (n m : NodeId) (v : Velocity T) :
    ((setVel h n v).get m).joint.worldVelocity =
      if m = n then some v else (h.get m).joint.worldVelocity := by
  unfold setVel; rw [Heap.get_modify]; split <;> rfl

theorem setVel_liveParent (h : KHeap T) (n m : NodeId) (v : Velocity T) :
    liveParent (setVel h n v) m = liveParent h m := by
  unfold liveParent; rw [setVel_parent]; rfl

private theorem vel_loop_not_ok (ns : List NodeId) (h : KHeap T) (u : h.Unlocked)
    (mv : ∃ n ∈ ns, (h.get n).joint.jointType ≠ .fixed) (r : List (Velocity T)) (h' : KHeap T) :
    run (mapList ns Chain.updateVelocity) h ≠ .ok r h' := by
  induction ns generalizing h r with
  | nil => obtain ⟨n, hn, -⟩ := mv; cases hn
  | cons n ns ih =>
    intro e
    rw [run_mapList_cons, run_updateVelocity n h u] at e
    cases hp : pwt h n with
    | none => simp [hp] at e
    | some t =>
      cases hv : pwv h n with
      | none => simp [hp, hv] at e
      | some v =>
        simp only [hp, hv] at e
        by_cases hf : (h.get n).joint.jointType = .fixed
        · simp only [hf, if_true, Res.bind_ok] at e
          obtain ⟨r1, h1, e1, e2⟩ := Res.bind_eq_ok e
          cases e2
          refine ih (setVel h n v) (setVel_unlocked u n v) ?_ r1 e1
          obtain ⟨m, hm, hmv⟩ := mv
          rcases List.mem_cons.1 hm with rfl | hm
          · exact absurd hf hmv
          · exact ⟨m, hm, by rw [setVel_type]; exact hmv⟩
        · simp [hf] at e

/-- a loop that returned left no lock and the joint types as they were -/
private theorem transforms_loop_ok (ns : List NodeId) (h : KHeap T) (u : h.Unlocked)
    (r : List (Iso T)) (h' : KHeap T) (e : run (mapList ns Chain.updateTransform) h = .ok r h') :
    h'.Unlocked ∧ ∀ m, (h'.get m).joint.jointType = (h.get m).joint.jointType := by
  induction ns generalizing h r with
  | nil => cases e; exact ⟨u, fun _ => rfl⟩
  | cons n ns ih =>
    rw [run_mapList_cons, run_updateTransform n h u] at e
    cases hp : pwt h n with
    | none => simp [hp] at e
    | some t =>
      simp only [hp, Res.bind_ok] at e
      obtain ⟨r1, h1, e1, e2⟩ := Res.bind_eq_ok e
      cases e2
      obtain ⟨a, b⟩ := ih _ (u.modify _ _) r1 e1
      refine ⟨a, fun m => (b m).trans ?_⟩
      show ((Heap.modify h n _).get m).joint.jointType = _
      rw [Heap.get_modify]; split <;> rfl

/-- **C16** (every chain in every state).  As soon as one joint of the chain is movable,
`update_velocities` does not return. -/
theorem C16_never_returns (h : KHeap T) (u : h.Unlocked) (c : Chain)
    (mv : ∃ n ∈ c.nodes, (h.get n).joint.jointType ≠ .fixed) (r : List (Velocity T)) (h' : KHeap T) :
    run c.updateVelocities h ≠ .ok r h' := by
  intro e
  simp only [Chain.updateVelocities, run_bind] at e
  obtain ⟨ts, h1, e1, e2⟩ := Res.bind_eq_ok e
  obtain ⟨u1, ty⟩ := transforms_loop_ok c.nodes h u ts h1 e1
  obtain ⟨n, hn, hm⟩ := mv
  exact vel_loop_not_ok c.nodes h1 u1 ⟨n, hn, by rw [ty]; exact hm⟩ r h' e2

private theorem vel_loop (ns : List NodeId) (h : KHeap T)
    (pa : ParentsAhead h ns) (tr : ∀ n ∈ ns, (h.get n).joint.worldTransformCache ≠ none)
    (rest pre : List NodeId) (e : ns = pre ++ rest) (g : KHeap T) (u : g.Unlocked)
    (lp : ∀ m, liveParent g m = liveParent h m)
    (ty : ∀ m, (g.get m).joint.jointType = (h.get m).joint.jointType)
    (wt : ∀ m, (g.get m).joint.worldTransformCache = (h.get m).joint.worldTransformCache)
    (inv : ∀ n ∈ pre, (g.get n).joint.worldVelocity = some Velocity.zero) :
    ((∃ n ∈ rest, (h.get n).joint.jointType ≠ .fixed) → ∃ n h', n ∈ rest ∧
      (h.get n).joint.jointType ≠ .fixed ∧ h'.held n = true ∧
      run (mapList rest Chain.updateVelocity) g = .blocked n h') ∧
    ((∀ n ∈ rest, (h.get n).joint.jointType = .fixed) → ∃ h',
      run (mapList rest Chain.updateVelocity) g = .ok (rest.map fun _ => Velocity.zero) h' ∧ h'.Unlocked ∧
      ∀ n ∈ ns, (h'.get n).joint.worldVelocity = some Velocity.zero) := by
  induction rest generalizing pre g with
  | nil =>
    refine ⟨fun ⟨n, hn, _⟩ => (by cases hn), fun _ => ⟨g, rfl, u, fun n hn => inv n (by simpa [e] using hn)⟩⟩
  | cons n rest ih =>
    have hv : ∃ t, pwt g n = some t ∧ pwv g n = some Velocity.zero := by
      have a : pwv g n = match liveParent g n with
          | some p => (g.get p).joint.worldVelocity
          | none => some Velocity.zero := by unfold pwv; rw [upgradeOpt_parent]
      rw [a, pwt_eq, lp]
      rcases pa pre n rest e with x | ⟨p, hp, x⟩
      · rw [x]; exact ⟨_, rfl, rfl⟩
      · rw [x]
        simp only [inv p hp, wt, and_true]
        exact Option.ne_none_iff_exists'.1 (tr p (by simp [e, hp]))
    obtain ⟨t, ht, hz⟩ := hv
    have step : run (mapList (n :: rest) Chain.updateVelocity) g =
        (if (h.get n).joint.jointType = .fixed then .ok Velocity.zero (setVel g n Velocity.zero)
          else .blocked n (g.setHeld n true) : Res _ _).bind fun v h1 =>
            (run (mapList rest Chain.updateVelocity) h1).bind fun vs h2 => .ok (v :: vs) h2 := by
      rw [run_mapList_cons, run_updateVelocity n g u]
      simp only [ht, hz, ty]
    by_cases hf : (h.get n).joint.jointType = .fixed
    · simp only [hf, if_true, Res.bind_ok] at step
      obtain ⟨A, B⟩ := ih (pre ++ [n]) (by simp [e]) (setVel g n Velocity.zero) (setVel_unlocked u n _)
        (fun m => by rw [setVel_liveParent]; exact lp m) (fun m => by rw [setVel_type]; exact ty m)
        (fun m => by rw [setVel_world]; exact wt m) (by
          intro m hm
          rw [setVel_vel]
          split
          · rfl
          · rename_i hne
            rcases List.mem_append.1 hm with hm | hm
            · exact inv m hm
            · exact absurd (List.mem_singleton.1 hm) hne)
      constructor
      · rintro ⟨m, hm, hmv⟩
        have : ∃ n ∈ rest, (h.get n).joint.jointType ≠ .fixed := by
          rcases List.mem_cons.1 hm with rfl | hm
          · exact absurd hf hmv
          · exact ⟨m, hm, hmv⟩
        obtain ⟨k, h', hk, hkm, hh, hr⟩ := A this
        exact ⟨k, h', by simp [hk], hkm, hh, by rw [step, hr]; rfl⟩
      · intro all
        obtain ⟨h', hr, hz⟩ := B fun m hm => all m (by simp [hm])
        exact ⟨h', by rw [step, hr]; rfl, hz⟩
    · simp only [hf, if_false, Res.bind_blocked] at step
      refine ⟨fun _ => ⟨n, _, by simp, hf, by simp, step⟩, fun all => absurd (all n (by simp)) hf⟩

private theorem velocities_cases (h : KHeap T) (u : h.Unlocked) (c : Chain)
    (pa : ParentsAhead h c.nodes) :
    ((∃ n ∈ c.nodes, (h.get n).joint.jointType ≠ .fixed) → ∃ n h', n ∈ c.nodes ∧
      (h.get n).joint.jointType ≠ .fixed ∧ h'.held n = true ∧
      run c.updateVelocities h = .blocked n h') ∧
    ((∀ n ∈ c.nodes, (h.get n).joint.jointType = .fixed) → ∃ h',
      run c.updateVelocities h = .ok (c.nodes.map fun _ => Velocity.zero) h' ∧ h'.Unlocked ∧
      ∀ n ∈ c.nodes, (h'.get n).joint.worldVelocity = some Velocity.zero) := by
  obtain ⟨Xs, g, e, ow, w, -⟩ := run_updateTransforms h u c pa.ready
  have pa' : ParentsAhead g c.nodes := fun pre n post e => by
    simpa only [ow.liveParent] using pa pre n post e
  have ty : ∀ m, (g.get m).joint.jointType = (h.get m).joint.jointType := fun m => (ow.same m).jointType
  obtain ⟨A, B⟩ := vel_loop c.nodes g pa' (fun n hn => by
      obtain ⟨X, -, hX⟩ := w n hn
      rw [hX]; simp) c.nodes [] rfl g (ow.unlocked u) (fun _ => rfl) (fun _ => rfl) (fun _ => rfl)
      (by simp)
  simp only [ty] at A B
  simp only [Chain.updateVelocities, run_bind, e, Res.bind_ok]
  exact ⟨A, B⟩

/-- **C16** (chains from a root).  With a movable joint the call blocks forever: it waits for the mutex
of a movable joint of the chain, which it holds itself. -/
theorem C16_blocks (h : KHeap T) (u : h.Unlocked) (c : Chain) (pa : ParentsAhead h c.nodes)
    (mv : ∃ n ∈ c.nodes, (h.get n).joint.jointType ≠ .fixed) :
    ∃ n h', n ∈ c.nodes ∧ (h.get n).joint.jointType ≠ .fixed ∧ h'.held n = true ∧
      run c.updateVelocities h = .blocked n h' := (velocities_cases h u c pa).1 mv

/-- between `h` and `h'` only caches of nodes in `ns` changed -/
structure OnlyCaches (ns : List NodeId) (h h' : KHeap T) : Prop where
  next : h'.next = h.next
  dead : h'.dead = h.dead
  held : h'.held = h.held
  same : ∀ n, ∃ t v, h'.get n = { h.get n with joint :=
    { (h.get n).joint with worldTransformCache := t, worldVelocityCache := v } }
  outside : ∀ n, n ∉ ns → h'.get n = h.get n

private theorem OnlyCaches.trans {ns : List NodeId} {h h' h'' : KHeap T} (a : OnlyCaches ns h h')
    (b : OnlyCaches ns h' h'') : OnlyCaches ns h h'' where
  next := b.next.trans a.next
  dead := b.dead.trans a.dead
  held := b.held.trans a.held
  same n := by
    obtain ⟨t, v, e⟩ := a.same n
    obtain ⟨t', v', e'⟩ := b.same n
    exact ⟨t', v', by rw [e', e]⟩
  outside n hn := (b.outside n hn).trans (a.outside n hn)

private theorem OnlyCaches.modify {ns : List NodeId} (h : KHeap T) {n : NodeId} (hn : n ∈ ns)
    (f : NodeImpl T → NodeImpl T) (hf : ∀ s, ∃ t v, f s = { s with joint :=
      { s.joint with worldTransformCache := t, worldVelocityCache := v } }) :
    OnlyCaches ns h (h.modify n f) where
  next := rfl
  dead := rfl
  held := rfl
  same m := by
    rw [Heap.get_modify]
    split
    · exact hf _
    · exact ⟨_, _, rfl⟩
  outside m hm := Heap.get_modify_of_ne h f fun e => hm (e ▸ hn)

private theorem vel_loop_frame (ns ms : List NodeId) (hs : ∀ n ∈ ns, n ∈ ms) (h : KHeap T)
    (u : h.Unlocked) (r : List (Velocity T)) (h' : KHeap T)
    (e : run (mapList ns Chain.updateVelocity) h = .ok r h') : OnlyCaches ms h h' := by
  induction ns generalizing h r with
  | nil => cases e; exact ⟨rfl, rfl, rfl, fun _ => ⟨_, _, rfl⟩, fun _ _ => rfl⟩
  | cons n ns ih =>
    rw [run_mapList_cons, run_updateVelocity n h u] at e
    cases hp : pwt h n with
    | none => simp [hp] at e
    | some t =>
      cases hv : pwv h n with
      | none => simp [hp, hv] at e
      | some v =>
        simp only [hp, hv] at e
        by_cases hf : (h.get n).joint.jointType = .fixed
        · simp only [hf, if_true, Res.bind_ok] at e
          obtain ⟨r1, h1, e1, e2⟩ := Res.bind_eq_ok e
          cases e2
          refine OnlyCaches.trans ?_
            (ih (fun m hm => hs m (by simp [hm])) (setVel h n v) (setVel_unlocked u n v) r1 e1)
          exact .modify h (hs n (by simp)) _ fun s => ⟨_, _, rfl⟩
        · simp [hf] at e

/-- **C16** (frame).  Whenever the call returns, it has changed only caches of nodes of the chain. -/
theorem C16_frame (h h' : KHeap T) (u : h.Unlocked) (c : Chain) (r : List (Velocity T))
    (e : run c.updateVelocities h = .ok r h') : OnlyCaches c.nodes h h' := by
  simp only [Chain.updateVelocities, run_bind] at e
  obtain ⟨ts, h1, e1, e2⟩ := Res.bind_eq_ok e
  suffices ∀ (ns ms : List NodeId) (h : KHeap T) (ts : List (Iso T)), h.Unlocked → (∀ n ∈ ns, n ∈ ms) →
      run (mapList ns Chain.updateTransform) h = .ok ts h1 → OnlyCaches ms h h1 from
    (this _ _ h ts u (fun _ hn => hn) e1).trans
      (vel_loop_frame _ _ (fun _ hn => hn) h1 (transforms_loop_ok _ h u _ _ e1).1 r h' e2)
  clear e1 e2 u
  intro ns ms
  induction ns with
  | nil =>
    intro h ts _ _ e
    cases e; exact ⟨rfl, rfl, rfl, fun _ => ⟨_, _, rfl⟩, fun _ _ => rfl⟩
  | cons n ns ih =>
    intro h ts u hs e
    rw [run_mapList_cons, run_updateTransform n h u] at e
    cases p : pwt h n with
    | none => simp [p] at e
    | some t =>
      simp only [p, Res.bind_ok] at e
      obtain ⟨ys, h2, e1, e2⟩ := Res.bind_eq_ok e
      cases e2
      refine OnlyCaches.trans ?_ (ih _ _ (u.modify _ _) (fun m hm => hs m (by simp [hm])) e1)
      exact .modify h (hs n (by simp)) _ fun s => ⟨_, _, rfl⟩

/-- **C16** (only `Fixed` joints).  It returns, every velocity is zero, and only caches of nodes of the
chain have changed. -/
theorem C16_fixed (h : KHeap T) (u : h.Unlocked) (c : Chain) (pa : ParentsAhead h c.nodes)
    (fx : ∀ n ∈ c.nodes, (h.get n).joint.jointType = .fixed) :
    ∃ h', run c.updateVelocities h = .ok (c.nodes.map fun _ => Velocity.zero) h' ∧
      OnlyCaches c.nodes h h' ∧
      ∀ n ∈ c.nodes, run (Node.worldVelocity n) h' = .ok (some Velocity.zero) h' := by
  obtain ⟨h', e, u', z⟩ := (velocities_cases h u c pa).2 fx
  refine ⟨h', e, C16_frame h h' u c _ e, fun n hn => ?_⟩
  rw [run_Node_worldVelocity n _ (u' n)]
  exact congrArg (fun x => Res.ok x _) (z n hn)

/-! ## C17 -/

/-- `l'` is link `l` with the frame `P` put in front of the origin of each of its elements -/
structure PlacedAt (P : Iso T) (l l' : Link T) : Prop where
  name : l'.name = l.name
  inertial : l'.inertial = { l.inertial with worldTransformCache := some (P.mul l.inertial.origin) }
  visuals : List.Forall₂ (fun v v' => v' = { v with worldTransformCache := some (P.mul v.origin) })
    l.visuals l'.visuals
  collisions : List.Forall₂ (fun v v' => v' = { v with worldTransformCache := some (P.mul v.origin) })
    l.collisions l'.collisions

/-- the frame of the parent of a node: its pose, or the identity for a root -/
def ParentFrame (h : KHeap T) (n : NodeId) (P : Iso T) : Prop :=
  liveParent h n = none ∧ P = Iso.one ∨ ∃ p, liveParent h n = some p ∧ World h p P

private theorem forall₂_map {α : Type} (f : α → α) (l : List α) :
    List.Forall₂ (fun a b => b = f a) l (l.map f) := by
  induction l with
  | nil => exact .nil
  | cons a l ih => exact .cons rfl ih

private theorem placeLink_placed (P : Iso T) (l : Link T) : PlacedAt P l (Chain.placeLink P l) :=
  ⟨rfl, rfl, forall₂_map _ _, forall₂_map _ _⟩

theorem placeLink_twice (P : Iso T) (l : Link T) :
    Chain.placeLink P (Chain.placeLink P l) = Chain.placeLink P l := by
  simp [Chain.placeLink, Inertial.setWorldTransform, Visual.setWorldTransform,
    Collision.setWorldTransform]

def setPlace (h : KHeap T) (n : NodeId) (t : Iso T) : KHeap T :=
  h.modify n fun s => { s with link := s.link.map (Chain.placeLink t) }

theorem run_updateLinkTransform (n : NodeId) (h : KHeap T) (u : h.Unlocked) (t : Iso T)
    (e : pwt h n = some t) :
    run (Chain.updateLinkTransform n) h = .ok () (setPlace h n t) := by
  simp only [Chain.updateLinkTransform, run_bind, run_Node_parentWorldTransform _ _ u, Res.bind_ok]
  show (run (expect (pwt h n) _) h).bind _ = _
  rw [e]
  simp only [run_expect_some, Res.bind_ok, run_poke _ _ _ (u n), setPlace]

theorem setPlace_get (h : KHeap T) (n m : NodeId) (t : Iso T) :
    ((setPlace h n t).get m) = { h.get m with
      link := if m = n then (h.get m).link.map (Chain.placeLink t) else (h.get m).link } := by
  unfold setPlace; rw [Heap.get_modify]; split <;> rfl

theorem place_loop (ns : List NodeId) (h : KHeap T) (F : NodeId → Iso T)
    (hF : ∀ n ∈ ns, pwt h n = some (F n)) (rest pre : List NodeId)
    (e : ns = pre ++ rest) (g : KHeap T) (u : g.Unlocked) (hd : g.dead = h.dead)
    (inv : ∀ m, g.get m = { h.get m with
      link := if m ∈ pre then (h.get m).link.map (Chain.placeLink (F m)) else (h.get m).link }) :
    ∃ h', run (forEach rest Chain.updateLinkTransform) g = .ok () h' ∧ ∀ m, h'.get m = { h.get m with
      link := if m ∈ ns then (h.get m).link.map (Chain.placeLink (F m)) else (h.get m).link } := by
  induction rest generalizing pre g with
  | nil => exact ⟨g, rfl, fun m => by rw [inv m]; simp [e]⟩
  | cons n rest ih =>
    have hp : pwt g n = some (F n) := by
      have lp : liveParent g n = liveParent h n := by unfold liveParent; rw [inv n, hd]
      rw [← hF n (by simp [e]), pwt_eq, pwt_eq, lp]
      cases liveParent h n with
      | none => rfl
      | some p => simp only [inv p]
    obtain ⟨h', hr, hh⟩ := ih (pre ++ [n]) (by simp [e]) (setPlace g n (F n)) (u.modify _ _) hd (by
      intro m
      rw [setPlace_get, inv m]
      by_cases hm : m = n
      · subst hm
        by_cases hmp : m ∈ pre
        · simp only [hmp, if_true, List.mem_append, true_or, Option.map_map]
          congr 2
          funext l; exact placeLink_twice _ _
        · simp [hmp]
      · simp [hm])
    exact ⟨h', by rw [run_forEach_cons, run_updateLinkTransform n g u _ hp]; exact hr, hh⟩

/-- **C17** (what it does, any chain whose parents come first).  `update_link_transforms` returns; the
elements of the link of each node are placed in the frame of the node's *parent*; nothing else changes but
cached transforms of the chain's joints. -/
theorem C17_placed_in_parent_frame (h : KHeap T) (u : h.Unlocked) (c : Chain)
    (pa : ParentsAhead h c.nodes) :
    ∃ h', run c.updateLinkTransforms h = .ok () h' ∧
      (∀ n ∈ c.nodes, ∃ P, ParentFrame h n P ∧ match (h.get n).link with
        | none => (h'.get n).link = none
        | some l => ∃ l', (h'.get n).link = some l' ∧ PlacedAt P l l') ∧
      (∀ n ∈ c.nodes, ∃ X, World h n X ∧ (h'.get n).joint.worldTransformCache = some X) ∧
      (∀ n, SameButWorld { h.get n with link := none } { h'.get n with link := none }) ∧
      ∀ n, n ∉ c.nodes → h'.get n = h.get n := by
  obtain ⟨Xs, g, e, ow, w, -⟩ := run_updateTransforms h u c pa.ready
  have hw : ∀ n ∈ c.nodes, ∃ X, World h n X ∧ (g.get n).joint.worldTransformCache = some X :=
    fun n hn => by
      obtain ⟨X, a, b⟩ := w n hn
      exact ⟨X, a.world (fun n p hn hp => pa.closed n p hn hp) hn, b⟩
  have hF : ∀ n ∈ c.nodes, ∃ P, ParentFrame h n P ∧ pwt g n = some P := by
    intro n hn
    rw [pwt_eq, ow.liveParent]
    cases lp : liveParent h n with
    | none => exact ⟨_, .inl ⟨lp, rfl⟩, rfl⟩
    | some p =>
      obtain ⟨X, a, b⟩ := hw p (pa.closed n p hn lp)
      exact ⟨X, .inr ⟨p, lp, a⟩, b⟩
  haveI : Nonempty (Iso T) := ⟨Iso.one⟩
  choose! F F1 F2 using hF
  obtain ⟨h', hr, hh⟩ := place_loop c.nodes g F F2 c.nodes [] rfl g (ow.unlocked u) rfl
    (fun m => by simp)
  refine ⟨h', by simp only [Chain.updateLinkTransforms, run_bind, e, Res.bind_ok, hr], ?_, ?_, ?_, ?_⟩
  · intro n hn
    refine ⟨F n, F1 n hn, ?_⟩
    have : (h'.get n).link = (h.get n).link.map (Chain.placeLink (F n)) := by
      rw [hh n]; simp only [hn, if_true, (ow.same n).link]
    cases hl : (h.get n).link with
    | none => rw [this, hl]; rfl
    | some l => exact ⟨_, by rw [this, hl]; rfl, placeLink_placed _ _⟩
  · intro n hn
    obtain ⟨X, a, b⟩ := hw n hn
    exact ⟨X, a, by rw [hh n]; exact b⟩
  · intro n
    rw [hh n]
    have := ow.same n
    unfold SameButWorld at this ⊢
    rw [this]
  · intro n hn
    rw [hh n, ow.outside n hn]; simp [hn]

/-- one `Fixed` joint at `(1,0,0)` holding a link of which all origins are the identity -/
noncomputable def exLink : KHeap ℝ :=
  { get := fun _ => { NodeImpl.fresh ((Joint.new "j" .fixed).setOrigin ⟨⟨1, 0, 0⟩, Quat.one⟩) with
      link := some Link.default }
    next := 1, dead := fun _ => false, held := fun _ => false }

/-- **C17** (the expected claim is false).  The inertial element of the link of the only node of a chain
is not where the node's own pose puts it. -/
theorem C17_not_in_own_frame : ∃ (h h' : KHeap ℝ) (l' : Link ℝ) (X : Iso ℝ), h.Unlocked ∧
    ParentsAhead h [0] ∧ run (Chain.updateLinkTransforms ⟨[0], [], 0⟩) h = .ok () h' ∧
    World h 0 X ∧ (h'.get 0).link = some l' ∧
    l'.inertial.worldTransformCache ≠ some (X.mul l'.inertial.origin) := by
  have u : exLink.Unlocked := fun _ => rfl
  have lp : ∀ n, liveParent exLink n = none := fun n => by simp [liveParent, exLink, NodeImpl.fresh]
  have pa : ParentsAhead exLink [0] := fun _ n _ _ => .inl (lp n)
  obtain ⟨h', e, a, -, -⟩ := C17_placed_in_parent_frame exLink u ⟨[0], [], 0⟩ pa
  obtain ⟨P, hP, hl⟩ := a 0 (by simp)
  have hP1 : P = Iso.one := by
    rcases hP with ⟨-, x⟩ | ⟨p, hp, -⟩
    · exact x
    · rw [lp] at hp; cases hp
  subst hP1
  have : (exLink.get 0).link = some Link.default := rfl
  simp only [this] at hl
  obtain ⟨l', h1, h2⟩ := hl
  refine ⟨exLink, h', l', _, u, pa, e, .root (lp 0), h1, ?_⟩
  rw [h2.inertial]
  intro c
  have c := congrArg (fun x : Option (Iso ℝ) => x.map fun X => X.trans.x) c
  simp only [Iso.one_mul', Link.default, Inertial.new, Iso.mul_one', Option.map_some,
    Option.some.injEq] at c
  have l0 : ((exLink.get 0).joint.localTransform).trans.x = 1 := by
    have : (exLink.get 0).joint.localTransform = (⟨⟨1, 0, 0⟩, Quat.one⟩ : Iso ℝ).mul Iso.one := rfl
    rw [this, Iso.mul_one']
  rw [l0] at c
  simp [Iso.one, V3.zero] at c

/-! ## the hypotheses can be met -/
section examples

/-- C16_blocks applies to the four-joint tree `exTree` -/
example : ∃ n h', run (Chain.updateVelocities exTreeChain) exTree = .blocked n h' := by
  obtain ⟨n, h', -, -, -, e⟩ := C16_blocks exTree (fun _ => rfl) exTreeChain exTree_parentsAhead
    ⟨1, by simp [exTreeChain], by simp [exTree, NodeImpl.fresh, Joint.new]⟩
  exact ⟨n, h', e⟩

/-- C16_fixed and C17 apply to `exLink` -/
example : ∃ h', run (Chain.updateVelocities ⟨[0], [], 0⟩) exLink = .ok [Velocity.zero] h' := by
  obtain ⟨h', e, -⟩ := C16_fixed exLink (fun _ => rfl) ⟨[0], [], 0⟩
    (fun _ n _ _ => .inl (by simp [liveParent, exLink, NodeImpl.fresh])) (fun _ _ => rfl)
  exact ⟨h', e⟩

end examples

end K
