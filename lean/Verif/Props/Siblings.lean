import Verif.Lemmas.Orderless
import Verif.Props.Display
import Verif.Props.Swing
/-!
# C100: in which order a robot is put together
-/

set_option linter.unusedSectionVars false

namespace K
open Prog
variable {T : Type} [Scalar T] {α β : Type}

/-! ## putting it together -/

theorem attach_swap (h : KHeap T) (x y : NodeId × NodeId) (ne : x.1 ≠ y.1) :
    SameTree
      ((((h.modify x.1 fun s => { s with parent := some x.2 }).modify x.2
          fun s => { s with children := s.children ++ [x.1] }).modify y.1 fun s => { s with parent := some y.2 }).modify y.2
        fun s => { s with children := s.children ++ [y.1] })
      ((((h.modify y.1 fun s => { s with parent := some y.2 }).modify y.2
          fun s => { s with children := s.children ++ [y.1] }).modify x.1 fun s => { s with parent := some x.2 }).modify x.2
        fun s => { s with children := s.children ++ [x.1] }) := by
  obtain ⟨a, p⟩ := x
  obtain ⟨b, q⟩ := y
  refine ⟨fun n => ?_, rfl, rfl, rfl⟩
  simp only at ne
  simp only [Heap.get_modify]
  have sw : ((h.get n).children ++ [a] ++ [b]).Perm ((h.get n).children ++ [b] ++ [a]) := by
    simp only [List.append_assoc]
    exact List.Perm.append_left _ (.swap b a [])
  generalize h.get n = s at sw ⊢
  repeat' split
  all_goals first
    | exact ⟨_, sw, rfl⟩
    | exact NodeImpl.Sib.refl _
    | (exfalso; omega)

/-- **C100.**  The pairs of child and parent may be connected in any order: the robot is the same except for the order in
which children are listed. -/
theorem C100_build {es es' : List (NodeId × NodeId)} (p : es.Perm es') (once : (es.map Prod.fst).Nodup) (h : KHeap T)
    (u : h.Unlocked) :
    ∃ g g', run (attachAll es) h = .ok () g ∧ run (attachAll es') h = .ok () g' ∧ SameTree g g' ∧ g.Unlocked ∧
      g'.Unlocked := by
  have total : ∀ (es : List (NodeId × NodeId)) (h : KHeap T), h.Unlocked →
      ∃ g, run (attachAll es) h = .ok () g ∧ g.Unlocked := by
    intro es
    induction es with
    | nil => exact fun h u => ⟨h, rfl, u⟩
    | cons e es ih =>
      intro h u
      obtain ⟨g, r, ug⟩ := ih _ ((u.modify e.1 fun s => { s with parent := some e.2 }).modify e.2
        fun s => { s with children := s.children ++ [e.1] })
      refine ⟨g, ?_, ug⟩
      show run (Node.setParent e.1 e.2 >>= fun _ => attachAll es) h = _
      rw [run_bind, run_Node_setParent _ _ _ u, Res.bind_ok, r]
  suffices SibEnd (run (attachAll es) h) (run (attachAll es') h) by
    obtain ⟨g, r, ug⟩ := total es h u
    obtain ⟨g', r', ug'⟩ := total es' h u
    rw [r, r'] at this
    cases this with
    | ok _ s => exact ⟨g, g', r, r', s, ug, ug'⟩
  induction p generalizing h with
  | nil => exact .ok () (.refl h)
  | @cons x l l' p ih =>
    show SibEnd (run (Node.setParent x.1 x.2 >>= fun _ => attachAll l) h)
      (run (Node.setParent x.1 x.2 >>= fun _ => attachAll l') h)
    rw [run_bind, run_bind, run_Node_setParent _ _ _ u, Res.bind_ok, Res.bind_ok]
    exact ih (List.nodup_cons.1 once).2 _ ((u.modify _ _).modify _ _)
  | swap x y l =>
    have ne : y.1 ≠ x.1 := fun e => (List.nodup_cons.1 once).1 (by simp [e])
    show SibEnd (run (Node.setParent y.1 y.2 >>= fun _ => Node.setParent x.1 x.2 >>= fun _ => attachAll l) h)
      (run (Node.setParent x.1 x.2 >>= fun _ => Node.setParent y.1 y.2 >>= fun _ => attachAll l) h)
    rw [run_bind, run_bind, run_Node_setParent _ _ _ u, run_Node_setParent _ _ _ u, Res.bind_ok, Res.bind_ok, run_bind,
      run_bind, run_Node_setParent _ _ _ ((u.modify _ _).modify _ _),
      run_Node_setParent _ _ _ ((u.modify _ _).modify _ _), Res.bind_ok, Res.bind_ok]
    exact (Orderless.forEach (fun (e : NodeId × NodeId) => Orderless.setParent e.1 e.2) l).outcome (attach_swap h y x ne)
  | @trans l1 l2 l3 p1 p2 ih1 ih2 =>
    have a := ih1 once h u
    have b := ih2 ((p1.map Prod.fst).nodup_iff.1 once) h u
    generalize run (attachAll l1) h = r1 at a ⊢
    generalize run (attachAll l2) h = r2 at a b
    generalize run (attachAll l3) h = r3 at b ⊢
    cases a with
    | ok _ s => cases b with | ok _ t => exact .ok () (s.trans t)
    | panic m s => cases b with | panic _ t => exact .panic m (s.trans t)
    | blocked n s => cases b with | blocked _ t => exact .blocked n (s.trans t)
    | diverged => exact b

/-! ## using it -/

/-- **C100**, clients: every client that does not list children or descendants has the same outcome - the same answers,
panic, or lock it waits for. -/
theorem C100_sequential {p : Client T α} (free : p.Only Call.OrderFree) {h h' : KHeap T} (same : SameTree h h') :
    SibEnd (run p.prog h) (run p.prog h') := (Orderless.client free).outcome same

/-- **C100**, threads: whatever threads can do - with any interleaving, nodes being freed at any moment - they can do on
the other robot, so that they are at the same point afterwards. -/
theorem C100_threads (ps : List (Client T α)) (free : ∀ p ∈ ps, p.Only Call.OrderFree) {h h' : KHeap T}
    (same : SameTree h h') (d : Config (NodeImpl T) α) (st : DSteps ⟨h, ps.map Client.prog⟩ d) :
    ∃ g, DSteps ⟨h', ps.map Client.prog⟩ ⟨g, d.threads⟩ ∧ SameTree d.heap g := by
  suffices ∃ g, DSteps ⟨h', ps.map Client.prog⟩ ⟨g, d.threads⟩ ∧ SameTree d.heap g ∧
      ∀ p ∈ d.threads, Orderless p by
    obtain ⟨g, a, b, -⟩ := this; exact ⟨g, a, b⟩
  induction st with
  | refl =>
    refine ⟨h', .refl _, same, fun p hp => ?_⟩
    obtain ⟨c, hc, rfl⟩ := List.mem_map.1 hp
    exact Orderless.client (free c hc)
  | @tail d e _ s ih =>
    obtain ⟨g, a, b, o⟩ := ih
    cases s with
    | free G => exact ⟨g.free G, a.tail (DStep.free ⟨g, d.threads⟩ G), b.free G, o⟩
    | thread s =>
      cases s with
      | mk i p p' h' hi hs =>
        obtain ⟨g', x, y, z⟩ := (o p (List.mem_of_getElem? hi)).step b hs
        refine ⟨g', a.tail (.thread (Step.mk ⟨g, d.threads⟩ i p p' g' hi x)), y, fun q hq => ?_⟩
        rcases List.mem_or_eq_of_mem_set hq with hq | rfl
        · exact o q hq
        · exact z

/-! ## listing it -/

namespace SameTree
variable {h h' : KHeap T} (same : SameTree h h')
include same

theorem children (n : NodeId) : (h.get n).children.Perm (h'.get n).children := by
  obtain ⟨cs, p, e⟩ := same.node n
  rw [e]; exact p
theorem parent (n : NodeId) : (h'.get n).parent = (h.get n).parent := by
  obtain ⟨cs, p, e⟩ := same.node n
  rw [e]
theorem joint (n : NodeId) : (h'.get n).joint = (h.get n).joint := by
  obtain ⟨cs, p, e⟩ := same.node n
  rw [e]
theorem link (n : NodeId) : (h'.get n).link = (h.get n).link := by
  obtain ⟨cs, p, e⟩ := same.node n
  rw [e]
theorem display (n : NodeId) : (h'.get n).display = (h.get n).display := by
  obtain ⟨cs, p, e⟩ := same.node n
  rw [e]; rfl
theorem liveParent (n : NodeId) : liveParent h' n = liveParent h n := by
  unfold K.liveParent
  rw [same.parent, same.dead]
theorem unlocked (u : h.Unlocked) : h'.Unlocked := fun n => by rw [same.held]; exact u n
theorem forest (f : Forest h) : Forest h' where
  agree p c := by rw [← (same.children p).mem_iff, same.parent]; exact f.agree p c
  once p := (same.children p).nodup_iff.1 (f.once p)
  bound p c hc := by rw [same.next]; exact f.bound p c ((same.children p).mem_iff.2 hc)
  acyclic := by
    obtain ⟨rank, hr⟩ := f.acyclic
    exact ⟨rank, fun p c e => hr p c (by rw [← same.parent]; exact e)⟩
theorem below {r n : NodeId} (b : Below h r n) : Below h' r n := by
  induction b with
  | refl => exact .refl
  | step _ c ih => exact .step ih ((same.children _).mem_iff.1 c)
theorem below_iff (r n : NodeId) : Below h' r n ↔ Below h r n := ⟨same.symm.below, same.below⟩
theorem depth {r n : NodeId} {k : Nat} (b : DepthBelow h r n k) : DepthBelow h' r n k := by
  induction b with
  | top => exact .top
  | step _ c ih => exact .step ih ((same.children _).mem_iff.1 c)
theorem world {n : NodeId} {X : Iso T} (w : World h n X) : World h' n X := by
  induction w with
  | root e => rw [← same.joint]; exact .root (by rw [same.liveParent]; exact e)
  | step e _ ih => rw [← same.joint]; exact .step (by rw [same.liveParent]; exact e) ih
theorem movable (n : NodeId) : Movable h' n ↔ Movable h n := by
  unfold Movable; rw [same.joint]

end SameTree

/-- **C100**, listing: `children()`, `from_root` and so `joint_positions()` list the same nodes in some order. -/
theorem C100_listing {h h' : KHeap T} (same : SameTree h h') (u : h.Unlocked) (f : Forest h) (r : NodeId) :
    (∃ cs cs', run (Node.children r) h = .ok cs h ∧ run (Node.children r) h' = .ok cs' h' ∧ cs.Perm cs') ∧
    ∃ c c' : Chain, (∀ fuel, h.next + 1 ≤ fuel → run (Chain.fromRoot fuel r) h = .ok c h ∧
        run (Chain.fromRoot fuel r) h' = .ok c' h') ∧
      c.nodes.Perm c'.nodes ∧ c.movableNodes.Perm c'.movableNodes ∧ c.dof = c'.dof ∧
      ∃ xs xs', run c.jointPositions h = .ok xs h ∧ run c'.jointPositions h' = .ok xs' h' ∧
        (c.movableNodes.zip xs).Perm (c'.movableNodes.zip xs') := by
  have u' := same.unlocked u
  refine ⟨⟨_, _, run_Node_children _ _ (u r), run_Node_children _ _ (u' r), same.children r⟩, ?_⟩
  obtain ⟨c, a, w, -, nd, mem, -⟩ := C09_from_root h u f r
  obtain ⟨c', a', w', -, nd', mem', -⟩ := C09_from_root h' u' (same.forest f) r
  have p : c.nodes.Perm c'.nodes :=
    (List.perm_ext_iff_of_nodup nd nd').2 fun n => by rw [mem, mem', same.below_iff]
  have pm : c.movableNodes.Perm c'.movableNodes := by
    rw [w.movable, w'.movable]
    simp only [same.movable]
    exact p.filter _
  refine ⟨c, c', fun fuel hf => ⟨a fuel hf, a' fuel (by rw [same.next]; exact hf)⟩, p, pm,
    by rw [w.dof, w'.dof, pm.length_eq], _, _, run_jointPositions h u c w, run_jointPositions h' u' c' w', ?_⟩
  have z : ∀ (g : KHeap T) (F : NodeId → T) (ns : List NodeId), ns.zip (ns.map F) = ns.map fun n => (n, F n) := by
    intro g F ns
    induction ns with
    | nil => rfl
    | cons n ns ih => simp [ih]
  rw [z h, z h']
  simp only [same.joint]
  exact pm.map _

/-- **C100**, poses: `update_transforms` gives each node the same pose. -/
theorem C100_poses {h h' : KHeap T} (same : SameTree h h') (u : h.Unlocked) (f : Forest h) (r : NodeId)
    (hr : liveParent h r = none) :
    ∃ (c c' : Chain) (Xs Xs' : List (Iso T)) (g g' : KHeap T),
      (∀ fuel, h.next + 1 ≤ fuel → run (Chain.fromRoot fuel r) h = .ok c h ∧
        run (Chain.fromRoot fuel r) h' = .ok c' h') ∧
      run c.updateTransforms h = .ok Xs g ∧ run c'.updateTransforms h' = .ok Xs' g' ∧
      (c.nodes.zip Xs).Perm (c'.nodes.zip Xs') := by
  have u' := same.unlocked u
  obtain ⟨c, a, -, -, nd, mem, pf⟩ := C09_from_root h u f r
  obtain ⟨c', a', -, -, nd', mem', pf'⟩ := C09_from_root h' u' (same.forest f) r
  have p : c.nodes.Perm c'.nodes :=
    (List.perm_ext_iff_of_nodup nd nd').2 fun n => by rw [mem, mem', same.below_iff]
  obtain ⟨Xs, g, e, w, -, -, -⟩ := C12_update_transforms h u c (parentsAhead_of_parentsFirst hr pf)
  obtain ⟨Xs', g', e', w', -, -, -⟩ := C12_update_transforms h' u' c'
    (parentsAhead_of_parentsFirst (by rw [same.liveParent]; exact hr) pf')
  refine ⟨c, c', Xs, Xs', g, g', fun fuel hf => ⟨a fuel hf, a' fuel (by rw [same.next]; exact hf)⟩, e, e', ?_⟩
  let W : NodeId → Iso T := fun n => open Classical in if e : ∃ X, World h n X then e.choose else Iso.one
  have hW : ∀ {n X}, World h n X → W n = X := by
    intro n X w
    have e : ∃ X, World h n X := ⟨X, w⟩
    show (open Classical in if e : ∃ X, World h n X then e.choose else Iso.one) = X
    rw [dif_pos e]
    exact e.choose_spec.unique w
  have z : ∀ {ns : List NodeId} {Ys : List (Iso T)}, List.Forall₂ (World h) ns Ys → ns.zip Ys = ns.map fun n => (n, W n) := by
    intro ns Ys w
    induction w with
    | nil => rfl
    | cons a _ ih => rw [List.zip_cons_cons, ih, List.map_cons, hW a]
  rw [z w, z (w'.imp fun n X x => same.symm.world x)]
  exact p.map _

/-- **C100**, names: with a name that only one node below `r` has, `find` finds that node in both. -/
theorem C100_find {h h' : KHeap T} (same : SameTree h h') (u : h.Unlocked) (f : Forest h) (r n : NodeId)
    (hn : Below h r n) (only : ∀ m, Below h r m → (h.get m).joint.name = (h.get n).joint.name → m = n) :
    ∃ c c' : Chain, (∀ fuel, h.next + 1 ≤ fuel → run (Chain.fromRoot fuel r) h = .ok c h ∧
        run (Chain.fromRoot fuel r) h' = .ok c' h') ∧
      run (c.find (h.get n).joint.name) h = .ok (some n) h ∧ run (c'.find (h.get n).joint.name) h' = .ok (some n) h' := by
  have key : ∀ (g : KHeap T), g.Unlocked → Forest g → (∀ m, (g.get m).joint = (h.get m).joint) →
      (∀ m, Below g r m ↔ Below h r m) → ∃ c : Chain, (∀ fuel, g.next + 1 ≤ fuel → run (Chain.fromRoot fuel r) g = .ok c g) ∧
        run (c.find (h.get n).joint.name) g = .ok (some n) g := by
    intro g ug fg ej eb
    obtain ⟨c, a, -, -, nd, mem, -⟩ := C09_from_root g ug fg r
    obtain ⟨o, e, -, s⟩ := C44_find g ug c (h.get n).joint.name
    refine ⟨c, a, ?_⟩
    obtain ⟨pre, post, sp⟩ := List.append_of_mem ((mem n).2 ((eb n).2 hn))
    rw [e, (s n).2 ⟨pre, post, sp, by rw [ej], fun m hm he => ?_⟩]
    have hm' : m ∈ c.nodes := by rw [sp]; simp [hm]
    have := only m ((eb m).1 ((mem m).1 hm')) (by rw [← ej]; exact he)
    subst this
    rw [sp] at nd
    exact (List.nodup_append.1 nd).2.2 m hm m (by simp) rfl
  obtain ⟨c, a, b⟩ := key h u f (fun _ => rfl) (fun _ => Iff.rfl)
  obtain ⟨c', a', b'⟩ := key h' (same.unlocked u) (same.forest f) same.joint (same.below_iff r)
  exact ⟨c, c', fun fuel hf => ⟨a fuel hf, a' fuel (by rw [same.next]; exact hf)⟩, b, b'⟩

/-- **C100**, text: printing writes the same lines in some order. -/
theorem C100_text {h h' : KHeap T} (same : SameTree h h') (u : h.Unlocked) (f : Forest h) (r : NodeId) :
    ∃ (c c' : Chain) (ls ls' : List String), (∀ fuel, h.next + 1 ≤ fuel →
        run (Chain.fromRoot fuel r) h = .ok c h ∧ run (Chain.fromRoot fuel r) h' = .ok c' h' ∧
        run (c.display fuel) h = .ok (String.join ls) h ∧ run (c'.display fuel) h' = .ok (String.join ls') h') ∧
      ls.Perm ls' ∧ ls.length = c.nodes.length ∧ ls.head? = ls'.head? := by
  have u' := same.unlocked u
  have f' := same.forest f
  obtain ⟨c, a, -, hd, nd, mem, -⟩ := C09_from_root h u f r
  obtain ⟨c', a', -, hd', nd', mem', -⟩ := C09_from_root h' u' f' r
  obtain ⟨ls, e, n1, m1, d1, h1, -⟩ := C43_display h u f c r hd
  obtain ⟨ls', e', n1', m1', d1', h1', -⟩ := C43_display h' u' f' c' r hd'
  have p : ls.Perm ls' := by
    refine (List.perm_ext_iff_of_nodup n1.of_map n1'.of_map).2 fun x => ⟨fun hx => ?_, fun hx => ?_⟩
    · have : x.1 ∈ ls'.map Prod.fst := by
        rw [m1', mem', same.below_iff, and_self, ← mem]
        exact ((m1 _).1 (List.mem_map_of_mem hx)).1
      obtain ⟨y, hy, ey⟩ := List.mem_map.1 this
      have dy := d1' y hy
      rw [ey] at dy
      have : y = x := Prod.ext ey (C43_depth_unique h' f' r _ _ _ dy (same.depth (d1 x hx)))
      exact this ▸ hy
    · have : x.1 ∈ ls.map Prod.fst := by
        rw [m1, mem, and_self, ← same.below_iff, ← mem']
        exact ((m1' _).1 (List.mem_map_of_mem hx)).1
      obtain ⟨y, hy, ey⟩ := List.mem_map.1 this
      have dy := d1 y hy
      rw [ey] at dy
      have : y = x := Prod.ext ey (C43_depth_unique h f r _ _ _ dy (same.symm.depth (d1' x hx)))
      exact this ▸ hy
  have le : lineOf h' = lineOf h := by funext x; simp only [lineOf, same.display]
  refine ⟨c, c', ls.map (lineOf h), ls'.map (lineOf h'), fun fuel hf => ?_, ?_, ?_, ?_⟩
  · have hf' : h'.next + 1 ≤ fuel := by rw [same.next]; exact hf
    exact ⟨a fuel hf, a' fuel hf', e fuel hf, e' fuel hf'⟩
  · rw [le]; exact p.map _
  · have : (ls.map Prod.fst).Perm c.nodes := (List.perm_ext_iff_of_nodup n1 nd).2 fun n => by
      rw [m1, ← mem, and_self]
    simpa using this.length_eq
  · rw [List.head?_map, List.head?_map, h1, h1', le]

/-- **C100**, center of mass: the robot has the same center of mass. -/
theorem C100_center_of_mass {h h' : KHeap ℝ} (same : SameTree h h') (u : h.Unlocked) (f : Forest h) (r : NodeId)
    (hr : liveParent h r = none) :
    ∃ c c' : Chain, (∀ fuel, h.next + 1 ≤ fuel → run (Chain.fromRoot fuel r) h = .ok c h ∧
        run (Chain.fromRoot fuel r) h' = .ok c' h') ∧
      totalMass h' c'.nodes = totalMass h c.nodes ∧
      (totalMass h c.nodes ≠ 0 → ∃ v g g', run (centerOfMass c) h = .ok v g ∧ run (centerOfMass c') h' = .ok v g') := by
  have u' := same.unlocked u
  obtain ⟨c, a, -, -, nd, mem, pf⟩ := C09_from_root h u f r
  obtain ⟨c', a', -, -, nd', mem', pf'⟩ := C09_from_root h' u' (same.forest f) r
  have p : c.nodes.Perm c'.nodes :=
    (List.perm_ext_iff_of_nodup nd nd').2 fun n => by rw [mem, mem', same.below_iff]
  have pa := parentsAhead_of_parentsFirst hr pf
  have pa' := parentsAhead_of_parentsFirst (h := h') (by rw [same.liveParent]; exact hr) pf'
  have tm : totalMass h' c'.nodes = totalMass h c.nodes := by
    rw [totalMass_perm h p]
    have : massOf h' = massOf h := by funext n; simp only [massOf, same.link]
    simp only [totalMass, this]
  refine ⟨c, c', fun fuel hf => ⟨a fuel hf, a' fuel (by rw [same.next]; exact hf)⟩, tm, fun m0 => ?_⟩
  obtain ⟨Xs, v, g, w, e, -, b⟩ := C23_center_of_mass h u c pa
  obtain ⟨Xs', v', g', w', e', -, b'⟩ := C23_center_of_mass h' u' c' pa'
  have b := b m0
  have b' := b' (by rw [tm]; exact m0)
  have mm : totalMoment h' c'.nodes Xs' = totalMoment h c'.nodes Xs' := by
    have : ∀ n X, momentOf h' n X = momentOf h n X := fun n X => by simp only [momentOf, same.link]
    have : ∀ (ns : List NodeId) (Ys : List (Iso ℝ)), totalMoment h' ns Ys = totalMoment h ns Ys := by
      intro ns
      induction ns with
      | nil => intro Ys; cases Ys <;> rfl
      | cons n ns ih =>
        intro Ys
        cases Ys with
        | nil => rfl
        | cons X Ys => simp only [totalMoment, this, ih]
    exact this _ _
  rw [tm, mm, poses_eq (w'.imp fun n X x => same.symm.world x), ← totalMoment_perm h _ p, ← poses_eq w, ← b] at b'
  have hx := congrArg V3.x b'
  have hy := congrArg V3.y b'
  have hz := congrArg V3.z b'
  simp only [V3.scale] at hx hy hz
  have : v' = v := by
    ext
    · exact mul_right_cancel₀ m0 hx
    · exact mul_right_cancel₀ m0 hy
    · exact mul_right_cancel₀ m0 hz
  subst this
  exact ⟨v', g, g', e, e'⟩

end K
