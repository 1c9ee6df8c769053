import Verif.Spec.Loop
import Verif.Props.Topology
import Verif.Props.Traverse
import Verif.Lemmas.Own
/-!
# C76: loops over the lazy iterators

`for n in node.iter_descendants() { body }` and the same over `iter_ancestors`: the iterators read the links one
node at a time, between the runs of the body.
-/

set_option linter.unusedSectionVars false

namespace K
open Prog
variable {T : Type} [Scalar T] {σ α : Type}

/-- a body that makes API calls -/
abbrev Body (T σ : Type) := σ → NodeId → Client T (σ × Bool)

/-- the body does not attach, detach or copy nodes -/
def Body.KeepsLinks (b : Body T σ) : Prop := ∀ s n, (b s n).Only NoTopologyCall

theorem safe_client_links (h : KHeap T) (f : Forest h) (cl : Client T α) (nt : cl.Only NoTopologyCall) :
    Safe h.next (LinksOf h) (fun _ => True) cl.prog := by
  induction cl with
  | done a => trivial
  | call c k ih => exact (safe_topology c nt.1 h f.fresh).bind fun r _ => ih r (nt.2 r)

theorem safe_children (h : KHeap T) (lo : Nat) (n : NodeId) :
    Safe lo (LinksOf h) (fun cs => cs = (h.get n).children) (Node.children n : KProg T _) := by
  intro s hs
  exact hs.2

theorem Descendants.safe_next (h : KHeap T) (lo : Nat) (n : NodeId) (stack : List NodeId) :
    Safe lo (LinksOf h) (fun r => r = (some n, (h.get n).children.reverse ++ stack))
      (Descendants.next (n :: stack) : KProg T _) :=
  (safe_children h lo n).bind fun cs hc => by subst hc; exact rfl

theorem safe_forDescendants (h : KHeap T) (lo : Nat) (body : σ → NodeId → KProg T (σ × Bool))
    (sb : ∀ s n, Safe lo (LinksOf h) (fun _ => True) (body s n)) (fuel : Nat) (s : σ) (ts : List RTree)
    (r : ∀ t ∈ ts, Rep h t) :
    Safe lo (LinksOf h) (fun x => x.2.1 <+: ts.flatMap RTree.pre ∧ (x.2.2 = true → x.2.1 = ts.flatMap RTree.pre))
      (forDescendants body fuel s (ts.map RTree.id)) := by
  induction fuel generalizing s ts with
  | zero => trivial
  | succ fuel ih =>
    cases ts with
    | nil => exact ⟨List.nil_prefix, fun _ => rfl⟩
    | cons t ts =>
      obtain ⟨n, ks⟩ := t
      have rt := r (.node n ks) (by simp)
      have e : (h.get n).children.reverse ++ ts.map RTree.id = (ks.reverse ++ ts).map RTree.id := by
        rw [rt.children]; simp
      have pre : (RTree.node n ks :: ts).flatMap RTree.pre = n :: (ks.reverse ++ ts).flatMap RTree.pre := by
        simp [RTree.pre_node]
      rw [pre]
      refine (Descendants.safe_next h lo n (ts.map RTree.id)).bind ?_
      rintro _ rfl
      refine (sb s n).bind ?_
      rintro ⟨s', stop⟩ -
      cases stop with
      | true => exact ⟨by simp, fun x => by cases x⟩
      | false =>
        rw [e]
        refine (ih s' (ks.reverse ++ ts) ?_).bind ?_
        · intro t ht
          rcases List.mem_append.1 ht with ht | ht
          · exact rt.sub t (List.mem_reverse.1 ht)
          · exact r t (by simp [ht])
        · rintro ⟨s'', ns, fin⟩ ⟨a, b⟩
          exact ⟨List.cons_prefix_cons.2 ⟨rfl, a⟩, fun x => congrArg (n :: ·) (b x)⟩

/-- **C76, loops over the descendants.**  Whatever the body does short of changing the links, the loop visits
the nodes below `r` in the order in which `iter_descendants` lists them before the loop: all of them, or up to
the `break`. -/
theorem C76_for_descendants (body : Body T σ) (kl : body.KeepsLinks) (h h' : KHeap T) (u : h.Unlocked)
    (f : Forest h) (r : NodeId) (fuel : Nat) (s s' : σ) (ns : List NodeId) (fin : Bool)
    (e : run (forDescendants (fun s n => (body s n).prog) fuel s [r]) h = .ok (s', ns, fin) h') :
    ∃ all, (∀ fuel, h.next + 1 ≤ fuel → run (descendants fuel [r]) h = .ok all h) ∧
      ns <+: all ∧ (fin = true → ns = all) := by
  obtain ⟨all, a, -⟩ := C09_descendants h u f r
  refine ⟨all, a, ?_⟩
  obtain ⟨t, rt, rfl⟩ := f.exists_rep r
  have ea := run_descendants h u (h.next + 1) [t] (by simpa using rt) (by simpa using rt.pre_length_le f)
  have := a (h.next + 1) le_rfl
  rw [show [t].map RTree.id = [t.id] from rfl] at ea
  rw [ea] at this
  cases this
  have safe := safe_forDescendants h h.next (fun s n => (body s n).prog)
    (fun s n => safe_client_links h f _ (kl s n)) fuel s [t] (by simpa using rt)
  exact (run_safe_ok safe ⟨le_rfl, fun _ => ⟨rfl, rfl⟩⟩ e).1

/-- **C76, with other threads.**  The same while other threads run any clients that do not change the links, in
every interleaving. -/
theorem C76_for_descendants_threads (body : Body T σ) (kl : body.KeepsLinks) (others : List (Client T α))
    (ok : ∀ cl ∈ others, cl.Only NoTopologyCall) (h : KHeap T) (u : h.Unlocked) (f : Forest h) (r : NodeId)
    (fuel : Nat) (s : σ) (d : Config (NodeImpl T) (Option (σ × List NodeId × Bool)))
    (st : DSteps ⟨h, (do let x ← forDescendants (fun s n => (body s n).prog) fuel s [r]; return some x) ::
      others.map fun cl => do let _ ← cl.prog; return none⟩ d)
    (s' : σ) (ns : List NodeId) (fin : Bool) (i : Nat) (e : d.threads[i]? = some (.ret (some (s', ns, fin)))) :
    ∃ all, (∀ fuel, h.next + 1 ≤ fuel → run (descendants fuel [r]) h = .ok all h) ∧
      ns <+: all ∧ (fin = true → ns = all) := by
  obtain ⟨all, a, -⟩ := C09_descendants h u f r
  refine ⟨all, a, ?_⟩
  obtain ⟨t, rt, rfl⟩ := f.exists_rep r
  have ea := run_descendants h u (h.next + 1) [t] (by simpa using rt) (by simpa using rt.pre_length_le f)
  have := a (h.next + 1) le_rfl
  rw [show [t].map RTree.id = [t.id] from rfl] at ea
  rw [ea] at this
  cases this
  have safe := safe_forDescendants h h.next (fun s n => (body s n).prog)
    (fun s n => safe_client_links h f _ (kl s n)) fuel s [t] (by simpa using rt)
  let Q : Option (σ × List NodeId × Bool) → Prop := fun o => ∀ x, o = some x →
    x.2.1 <+: [t].flatMap RTree.pre ∧ (x.2.2 = true → x.2.1 = [t].flatMap RTree.pre)
  have := (steps_safe (lo := h.next) (P := LinksOf h) (Q := Q) st (by
    intro p hp
    rcases List.mem_cons.1 hp with rfl | hp
    · exact safe.bind fun x hx => fun y hy => by cases hy; exact hx
    · obtain ⟨cl, hcl, rfl⟩ := List.mem_map.1 hp
      exact (safe_client_links h f cl (ok cl hcl)).bind fun _ _ => fun y hy => by cases hy)
    ⟨le_rfl, fun _ => ⟨rfl, rfl⟩⟩).1 _ (List.mem_of_getElem? e)
  exact this _ rfl

/-! ## ancestors -/

/-- a run never kills a node -/
theorem run_keeps_dead {S : Type} (p : Prog S α) (h h' : Heap S) (a : α) (e : run p h = .ok a h') :
    h.next ≤ h'.next ∧ ∀ m < h.next, h'.dead m = h.dead m := by
  induction p generalizing h with
  | ret a => cases e; exact ⟨le_rfl, fun _ _ => rfl⟩
  | lock n k ih =>
    simp only [run] at e
    split at e
    · cases e
    · exact ih (h.setHeld n true) e
  | unlock n k ih => exact ih (h.setHeld n false) e
  | read n k ih => exact ih _ _ e
  | write n f k ih => exact ih (h.modify n f) e
  | upgrade n k ih => exact ih _ _ e
  | alloc s k ih =>
    obtain ⟨x, y⟩ := ih h.next (h.push s) e
    have x : h.next + 1 ≤ h'.next := x
    refine ⟨by omega, fun m hm => (y m (Nat.lt_succ_of_lt hm)).trans ?_⟩
    show (if m = h.next then false else h.dead m) = _
    rw [if_neg (Nat.ne_of_lt hm)]
  | panic m => cases e
  | diverge => cases e

/-- the links of `h`, and no node of `h` dropped -/
structure SameLinks (h g : KHeap T) : Prop where
  next : h.next ≤ g.next
  links : ∀ m, (g.get m).parent = (h.get m).parent ∧ (g.get m).children = (h.get m).children
  dead : ∀ m < h.next, g.dead m = h.dead m

theorem SameLinks.refl (h : KHeap T) : SameLinks h h := ⟨le_rfl, fun _ => ⟨rfl, rfl⟩, fun _ _ => rfl⟩

theorem SameLinks.client {h g g' : KHeap T} (f : Forest h) (cl : Client T α) (nt : cl.Only NoTopologyCall) (a : α)
    (i : SameLinks h g) (e : run cl.prog g = .ok a g') : SameLinks h g' := by
  obtain ⟨n, l⟩ := (run_safe_ok (safe_client_links h f cl nt) ⟨i.next, i.links⟩ e).2
  exact ⟨n, l, fun m hm => ((run_keeps_dead _ _ _ _ e).2 m (lt_of_lt_of_le hm i.next)).trans (i.dead m hm)⟩

theorem SameLinks.liveParent {h g : KHeap T} (f : Forest h) (i : SameLinks h g) (n : NodeId) :
    liveParent g n = K.liveParent h n := by
  unfold K.liveParent
  rw [(i.links n).1]
  cases e : (h.get n).parent with
  | none => rfl
  | some p => simp only [i.dead p (f.bound p n ((f.agree p n).2 e)).2]

theorem parent_ok {n : NodeId} {h h' : KHeap T} {p : Option NodeId} (e : run (Node.parent n) h = .ok p h') :
    p = liveParent h n := by
  cases hh : h.held n with
  | true => simp [Node.parent, run_bind, run, doLock, hh, Res.bind] at e
  | false =>
    rw [run_Node_parent _ _ hh, upgradeOpt_parent] at e
    cases e; rfl

/-- **C76, loops over the ancestors.**  Likewise the loop over `iter_ancestors` visits the node, its parent and
so on up to the root, or up to the `break`. -/
theorem C76_for_ancestors (body : Body T σ) (kl : body.KeepsLinks) (h h' : KHeap T) (f : Forest h) (n : NodeId)
    (ps : List NodeId) (l : Lineage h n ps) (fuel : Nat) (s s' : σ) (ns : List NodeId) (fin : Bool)
    (e : run (forAncestors (fun s n => (body s n).prog) fuel s (some n)) h = .ok (s', ns, fin) h') :
    ns <+: ps ∧ (fin = true → ns = ps) := by
  have key : ∀ (fuel : Nat) (n : NodeId) (ps : List NodeId), Lineage h n ps → ∀ (g h' : KHeap T) (s s' : σ)
      (ns : List NodeId) (fin : Bool), SameLinks h g →
      run (forAncestors (fun s n => (body s n).prog) fuel s (some n)) g = .ok (s', ns, fin) h' →
      ns <+: ps ∧ (fin = true → ns = ps) := by
    intro fuel
    induction fuel with
    | zero => intro n ps _ g h' s s' ns fin _ e; cases e
    | succ fuel ih =>
      intro n ps l g h' s s' ns fin i e
      simp only [forAncestors, Ancestors.next, run_bind] at e
      obtain ⟨x, g1, e1, e2⟩ := Res.bind_eq_ok e
      obtain ⟨p, g0, e0, e1⟩ := Res.bind_eq_ok e1
      cases e1
      have hp := parent_ok e0
      have ip : SameLinks h g1 :=
        i.client f (.call (.parent n) .done) ⟨trivial, fun _ => trivial⟩ p (by
          show run (Node.parent n >>= fun r => .ret r) g = _
          rw [run_bind, e0]; rfl)
      simp only [run_bind] at e2
      obtain ⟨⟨s1, stop⟩, g2, e3, e4⟩ := Res.bind_eq_ok e2
      have i2 := ip.client f (body s n) (kl s n) _ e3
      rw [i.liveParent f] at hp
      cases stop with
      | true =>
        simp only [if_true] at e4
        cases e4
        cases l <;> exact ⟨by simp, fun x => by cases x⟩
      | false =>
        simp only [Bool.false_eq_true, if_false, run_bind] at e4
        obtain ⟨⟨s2, ns2, fin2⟩, g3, e5, e6⟩ := Res.bind_eq_ok e4
        cases e6
        cases l with
        | root el =>
          rw [el] at hp; subst hp
          cases fuel with
          | zero => cases e5
          | succ fuel =>
            simp only [forAncestors, Ancestors.next, run_bind, run_pure, Res.bind_ok] at e5
            cases e5
            exact ⟨List.prefix_rfl, fun _ => rfl⟩
        | step el l =>
          rw [el] at hp; subst hp
          obtain ⟨a, b⟩ := ih _ _ l g2 _ s1 _ ns2 fin2 i2 e5
          exact ⟨List.cons_prefix_cons.2 ⟨rfl, a⟩, fun x => by rw [b x]⟩
  exact key fuel n ps l h h' s s' ns fin (.refl h) e

/-! ## loops that return -/

theorem lk_held {S : Type} {A : List NodeId → NodeId → Prop} {pk : List NodeId → Prop}
    {Q : List NodeId → α → Prop} {p : Prog S α} {L : List NodeId} {h h' : Heap S} {a : α}
    (lk : Lk A pk 0 (fun _ _ => True) (fun _ _ => True) Q p L) (hl : ∀ n, h.held n = true → n ∈ L)
    (e : run p h = .ok a h') : ∃ L', Q L' a ∧ ∀ n, h'.held n = true → n ∈ L' := by
  induction p generalizing L h with
  | ret a => cases e; exact ⟨L, lk, hl⟩
  | lock n k ih =>
    simp only [run] at e
    split at e
    · cases e
    · refine ih (h := h.setHeld n true) lk.2 (fun m hm => ?_) e
      rw [Heap.held_setHeld] at hm
      split at hm
      · simp_all
      · exact List.mem_cons_of_mem _ (hl m hm)
  | unlock n k ih =>
    refine ih (h := h.setHeld n false) lk.2 (fun m hm => ?_) e
    rw [Heap.held_setHeld] at hm
    split at hm
    · cases hm
    · exact (List.mem_erase_of_ne ‹_›).2 (hl m hm)
  | read n k ih => exact ih _ (lk.2 _ trivial) hl e
  | write n f k ih => exact ih (h := h.modify n f) lk.2.2 hl e
  | upgrade n k ih => exact ih _ (lk _) hl e
  | alloc s k ih => exact ih h.next (h := h.push s) (lk _ (Nat.zero_le _)).2 hl e
  | panic m => cases e
  | diverge => cases e

theorem own_client_prog (cl : Client T α) : Own (fun L' _ => L' = [] ∧ True) cl.prog [] := by
  induction cl with
  | done a => exact ⟨rfl, trivial⟩
  | call c k ih => exact (own_call c).bind' fun L r hr => by rw [hr.1]; exact ih r

theorem unlocked_client (cl : Client T α) {h h' : KHeap T} {a : α} (u : h.Unlocked)
    (e : run cl.prog h = .ok a h') : h'.Unlocked := by
  obtain ⟨L', ⟨rfl, -⟩, hl⟩ := lk_held (own_client_prog cl) (fun n hn => by rw [u n] at hn; cases hn) e
  intro n
  cases hn : h'.held n with
  | false => rfl
  | true => exact absurd (hl n hn) (by simp)

/-- **C76, the loop returns.**  If the body always returns without `break`, the loop over `iter_descendants`
returns and has visited every node below `r` once. -/
theorem C76_for_descendants_total (body : Body T σ) (kl : body.KeepsLinks) (h : KHeap T) (u : h.Unlocked)
    (f : Forest h)
    (ret : ∀ s n g, g.Unlocked → SameLinks h g → ∃ s' g', run (body s n).prog g = .ok (s', false) g')
    (r : NodeId) (s : σ) :
    ∃ all, (∀ n, n ∈ all ↔ Below h r n) ∧ all.Nodup ∧ ∀ fuel, h.next + 2 ≤ fuel →
      ∃ s' h', run (forDescendants (fun s n => (body s n).prog) fuel s [r]) h = .ok (s', all, true) h' ∧
        h'.Unlocked ∧ SameLinks h h' := by
  obtain ⟨all, a, -, nd, mem, -⟩ := C09_descendants h u f r
  refine ⟨all, mem, nd, fun fuel le => ?_⟩
  obtain ⟨t, rt, rfl⟩ := f.exists_rep r
  have ea := run_descendants h u (h.next + 1) [t] (by simpa using rt) (by simpa using rt.pre_length_le f)
  have := a (h.next + 1) le_rfl
  rw [show [t].map RTree.id = [t.id] from rfl] at ea
  rw [ea] at this
  cases this
  have key : ∀ (fuel : Nat) (s : σ) (ts : List RTree) (g : KHeap T), (∀ t ∈ ts, Rep h t) → g.Unlocked →
      SameLinks h g → (ts.flatMap RTree.pre).length < fuel →
      ∃ s' h', run (forDescendants (fun s n => (body s n).prog) fuel s (ts.map RTree.id)) g =
        .ok (s', ts.flatMap RTree.pre, true) h' ∧ h'.Unlocked ∧ SameLinks h h' := by
    intro fuel
    induction fuel with
    | zero => intro s ts g _ _ _ l; cases l
    | succ fuel ih =>
      intro s ts g rt ug i l
      cases ts with
      | nil => exact ⟨s, g, rfl, ug, i⟩
      | cons t ts =>
        obtain ⟨n, ks⟩ := t
        have rn := rt (.node n ks) (by simp)
        have e : (g.get n).children.reverse ++ ts.map RTree.id = (ks.reverse ++ ts).map RTree.id := by
          rw [(i.links n).2, rn.children]; simp
        have pre : (RTree.node n ks :: ts).flatMap RTree.pre = n :: (ks.reverse ++ ts).flatMap RTree.pre := by
          simp [RTree.pre_node]
        rw [pre] at l ⊢
        obtain ⟨s1, g1, e1⟩ := ret s n g ug i
        obtain ⟨s2, g2, e2, u2, i2⟩ := ih s1 (ks.reverse ++ ts) g1 (by
          intro t ht
          rcases List.mem_append.1 ht with ht | ht
          · exact rn.sub t (List.mem_reverse.1 ht)
          · exact rt t (by simp [ht])) (unlocked_client _ ug e1) (i.client f _ (kl s n) _ e1)
          (by simpa using l)
        refine ⟨s2, g2, ?_, u2, i2⟩
        rw [List.map_cons, forDescendants]
        simp only [RTree.id, Descendants.next, run_bind, run_Node_children n g (ug n), Res.bind_ok, run_pure, e1, e,
          Bool.false_eq_true, if_false, e2]
  exact key fuel s [t] h (by simpa using rt) u (.refl h) (by
    have : ([t].flatMap RTree.pre).length ≤ h.next + 1 := by simpa using rt.pre_length_le f
    omega)

/-! ## collecting -/

/-- **C76, collecting.**  Calling `next` until it returns `None` gives what the other properties say about
`iter_descendants` and `iter_ancestors`. -/
theorem C76_collect_descendants (fuel : Nat) (stack ns : List NodeId) (h h' : KHeap T)
    (e : run (descendants fuel stack) h = .ok ns h') :
    run (forDescendants (fun _ _ => return ((), false)) (fuel + 1) () stack) h = .ok ((), ns, true) h' := by
  induction fuel generalizing stack ns h h' with
  | zero => cases stack <;> cases e; rfl
  | succ fuel ih =>
    cases stack with
    | nil => cases e; rfl
    | cons n stack =>
      simp only [descendants, run_bind] at e
      obtain ⟨cs, h1, e1, e2⟩ := Res.bind_eq_ok e
      obtain ⟨rest, h2, e3, e4⟩ := Res.bind_eq_ok e2
      cases e4
      rw [forDescendants]
      simp only [Descendants.next, run_bind, e1, Res.bind_ok, run_pure, Bool.false_eq_true, if_false, ih _ _ _ _ e3]

theorem C76_collect_ancestors (fuel : Nat) (at? : Option NodeId) (ns : List NodeId) (h h' : KHeap T)
    (e : run (ancestors fuel at?) h = .ok ns h') :
    run (forAncestors (fun _ _ => return ((), false)) (fuel + 1) () at?) h = .ok ((), ns, true) h' := by
  induction fuel generalizing at? ns h h' with
  | zero => cases at? <;> cases e; rfl
  | succ fuel ih =>
    cases at? with
    | none => cases e; rfl
    | some n =>
      simp only [ancestors, run_bind] at e
      obtain ⟨p, h1, e1, e2⟩ := Res.bind_eq_ok e
      obtain ⟨rest, h2, e3, e4⟩ := Res.bind_eq_ok e2
      cases e4
      rw [forAncestors]
      simp only [Ancestors.next, run_bind, e1, Res.bind_ok, run_pure, Bool.false_eq_true, if_false, ih _ _ _ _ e3]

/-- **C76, the loop inside `from_end_to_root`** is such a loop with a `break` at the given root. -/
theorem C76_until (stop : NodeId) (fuel : Nat) (at? : Option NodeId) (ns : List NodeId) (h h' : KHeap T)
    (e : run (ancestorsUntil stop fuel at?) h = .ok ns h') :
    run (forAncestors (fun _ n => return ((), decide (n = stop))) (fuel + 1) () at?) h =
      .ok ((), ns, !ns.contains stop) h' := by
  induction fuel generalizing at? ns h h' with
  | zero => cases at? <;> cases e; rfl
  | succ fuel ih =>
    cases at? with
    | none => cases e; rfl
    | some n =>
      simp only [ancestorsUntil, run_bind] at e
      obtain ⟨p, h1, e1, e2⟩ := Res.bind_eq_ok e
      rw [forAncestors]
      by_cases hn : n = stop
      · subst hn
        rw [if_pos rfl] at e2
        cases e2
        simp [Ancestors.next, run_bind, e1]
      · rw [if_neg hn, run_bind] at e2
        obtain ⟨rest, h2, e3, e4⟩ := Res.bind_eq_ok e2
        cases e4
        simp [Ancestors.next, run_bind, e1, hn, ih _ _ _ _ e3, Ne.symm hn]

/-! ## bodies that change the links -/

noncomputable def exJoint : Joint ℝ := Joint.new "new" .fixed

/-- at node `m`, once: attach a new node to `p` -/
noncomputable def addAt (m p : NodeId) : Body ℝ Bool := fun done n =>
  if n = m ∧ done = false then
    .call (.newNode exJoint) fun k => .call (.setParent k p) fun _ => .done (true, false)
  else .done (done, false)

/-- at node `m`, once: detach `c` from `p` -/
noncomputable def cutAt (m c p : NodeId) : Body ℝ Bool := fun done n =>
  if n = m ∧ done = false then .call (.removeParent c p) fun _ => .done (true, false)
  else .done (done, false)

/-- at node 2, once: move it from 0 to 1 -/
noncomputable def moveTwo : Body ℝ Bool := fun done n =>
  if n = 2 ∧ done = false then
    .call (.removeParent 2 0) fun _ => .call (.setParent 2 1) fun _ => .done (true, false)
  else .done (done, false)

/-- one turn of the loop -/
theorem run_for_turn {body : σ → NodeId → KProg T (σ × Bool)} {fuel : Nat} {s s1 s' : σ} {n : NodeId}
    {stack cs ns : List NodeId} {g g1 h' : KHeap T} {fin : Bool} (u : g.held n = false)
    (c : (g.get n).children = cs) (b : run (body s n) g = .ok (s1, false) g1)
    (e : run (forDescendants body fuel s1 (cs.reverse ++ stack)) g1 = .ok (s', ns, fin) h') :
    run (forDescendants body (fuel + 1) s (n :: stack)) g = .ok (s', n :: ns, fin) h' := by
  rw [forDescendants]
  simp only [Descendants.next, run_bind, run_Node_children n g u, Res.bind_ok, run_pure, b, c,
    Bool.false_eq_true, if_false, e]

/-- what a loop over the nodes below 0 of `exTree` visits -/
def Visits (b : Body ℝ Bool) (ns : List NodeId) (h' : KHeap ℝ) : Prop :=
  run (forDescendants (fun s n => (b s n).prog) 9 false [0]) exTree = .ok (true, ns, true) h'

noncomputable def exAdd (p : NodeId) : KHeap ℝ :=
  ((exTree.push (NodeImpl.fresh exJoint)).modify 4 fun s => { s with parent := some p }).modify p
    fun s => { s with children := s.children ++ [4] }

theorem run_addAt {m p : NodeId} : run (addAt m p false m).prog exTree = .ok (true, false) (exAdd p) := by
  rw [addAt, if_pos ⟨rfl, rfl⟩]
  simp only [Client.prog, Call.prog, Node.new, run_bind]
  simp only [run, doAlloc, Res.bind_ok]
  rw [run_Node_setParent _ _ _ (Heap.Unlocked.push (fun _ => rfl) _)]
  rfl

/-- **C76, a child attached to the visited node is missed** although it is below the root at the end, while one
attached to a waiting node is visited; a waiting node that is detached is still visited. -/
theorem C76_added_removed : (∃ h', Visits (addAt 2 2) [0, 2, 1, 3] h' ∧ Below h' 0 4) ∧
    (∃ h', Visits (addAt 2 1) [0, 2, 1, 4, 3] h') ∧
    ∃ h', Visits (cutAt 2 1 0) [0, 2, 1, 3] h' ∧ liveParent h' 1 = none := by
  refine ⟨⟨exAdd 2, ?_, ?_⟩, ⟨exAdd 1, ?_⟩, ⟨(exTree.modify 1 fun s => { s with parent := none }).modify 0
        fun s => { s with children := s.children.filter (fun x => x != 1) }, ?_, ?_⟩⟩
  · refine run_for_turn (cs := [1, 2]) rfl (by simp [exTree]) rfl ?_
    refine run_for_turn (cs := []) rfl (by simp [exTree, NodeImpl.fresh]) run_addAt ?_
    refine run_for_turn (cs := [3]) rfl (by simp [exAdd, exTree, Heap.get_modify, Heap.push]) rfl ?_
    refine run_for_turn (cs := []) rfl (by simp [exAdd, exTree, Heap.get_modify, Heap.push, NodeImpl.fresh]) rfl ?_
    rfl
  · exact .step (.step .refl (n := 2) (by simp [exAdd, exTree, Heap.get_modify, Heap.push]))
      (by simp [exAdd, exTree, Heap.get_modify, Heap.push])
  · refine run_for_turn (cs := [1, 2]) rfl (by simp [exTree]) rfl ?_
    refine run_for_turn (cs := []) rfl (by simp [exTree, NodeImpl.fresh]) run_addAt ?_
    refine run_for_turn (cs := [3, 4]) rfl (by simp [exAdd, exTree, Heap.get_modify, Heap.push]) rfl ?_
    refine run_for_turn (cs := []) rfl (by simp [exAdd, exTree, Heap.get_modify, Heap.push, NodeImpl.fresh]) rfl ?_
    refine run_for_turn (cs := []) rfl (by simp [exAdd, exTree, Heap.get_modify, Heap.push, NodeImpl.fresh]) rfl ?_
    rfl
  · refine run_for_turn (cs := [1, 2]) rfl (by simp [exTree]) rfl ?_
    refine run_for_turn (cs := []) rfl (by simp [exTree, NodeImpl.fresh]) (s1 := true) (g1 :=
      (exTree.modify 1 fun s => { s with parent := none }).modify 0
        fun s => { s with children := s.children.filter (fun x => x != 1) }) ?_ ?_
    · rw [cutAt, if_pos ⟨rfl, rfl⟩]
      simp only [Client.prog, Call.prog, run_bind]
      rw [run_Node_removeParent _ _ _ (fun _ => rfl)]
      rfl
    refine run_for_turn (cs := [3]) rfl (by simp [exTree, Heap.get_modify]) rfl ?_
    refine run_for_turn (cs := []) rfl (by simp [exTree, Heap.get_modify, NodeImpl.fresh]) rfl ?_
    rfl
  · simp [liveParent, exTree, Heap.get_modify]

/-- **C76, a node that is moved below a waiting node is visited twice.** -/
theorem C76_twice : ∃ h', Visits moveTwo [0, 2, 1, 2, 3] h' := by
  let g := (exTree.modify 2 fun s => { s with parent := none }).modify 0
        fun s => { s with children := s.children.filter (fun x => x != 2) }
  let g' := (g.modify 2 fun s => { s with parent := some 1 }).modify 1
        fun s => { s with children := s.children ++ [2] }
  refine ⟨g', ?_⟩
  refine run_for_turn (cs := [1, 2]) rfl (by simp [exTree]) rfl ?_
  refine run_for_turn (cs := []) rfl (by simp [exTree, NodeImpl.fresh]) (s1 := true) (g1 := g') ?_ ?_
  · rw [moveTwo, if_pos ⟨rfl, rfl⟩]
    simp only [Client.prog, Call.prog, run_bind]
    rw [run_Node_removeParent _ _ _ (fun _ => rfl)]
    simp only [Res.bind_ok]
    rw [run_Node_setParent _ _ _ (fun _ => rfl)]
    rfl
  refine run_for_turn (cs := [3, 2]) rfl (by simp [g', g, exTree, Heap.get_modify]) rfl ?_
  refine run_for_turn (cs := []) rfl (by simp [g', g, exTree, Heap.get_modify, NodeImpl.fresh]) rfl ?_
  refine run_for_turn (cs := []) rfl (by simp [g', g, exTree, Heap.get_modify, NodeImpl.fresh]) rfl ?_
  rfl

/-- attach a new node to the last one attached -/
noncomputable def grow : Body ℝ NodeId := fun last _ =>
  .call (.newNode exJoint) fun k => .call (.setParent k last) fun _ => .done (k, false)

/-- **C76, a loop that never ends**: a body that attaches a new leaf below the node that waits. -/
theorem C76_endless (fuel : Nat) : run (forDescendants (fun s n => (grow s n).prog) fuel 3 [1]) exTree = .diverged := by
  have key : ∀ (fuel : Nat) (p last : NodeId) (g : KHeap ℝ), g.Unlocked → (g.get p).children = [last] →
      (g.get last).children = [] → last < g.next →
      run (forDescendants (fun s n => (grow s n).prog) fuel last [p]) g = .diverged := by
    intro fuel
    induction fuel with
    | zero => intros; rfl
    | succ fuel ih =>
      intro p last g u c e lt
      have ne : last ≠ g.next := Nat.ne_of_lt lt
      rw [forDescendants]
      simp only [Descendants.next, run_bind, run_Node_children p g (u p), Res.bind_ok, run_pure, c, grow, Client.prog,
        Call.prog, Node.new]
      simp only [run, doAlloc, Res.bind_ok]
      rw [run_Node_setParent _ _ _ (u.push _)]
      simp only [Res.bind_ok, Bool.false_eq_true, if_false, run_bind, List.reverse_singleton, List.append_nil]
      have := ih last g.next (((g.push (NodeImpl.fresh exJoint)).modify g.next fun s => { s with parent := some last }).modify
        last fun s => { s with children := s.children ++ [g.next] }) (u.push (NodeImpl.fresh exJoint))
        (by simp [Heap.get_modify, Heap.push, ne, e]) (by simp [Heap.get_modify, Heap.push, ne.symm, NodeImpl.fresh])
        (Nat.lt_succ_self _)
      exact (congrArg (Res.bind · _) this).trans rfl
  exact key fuel 1 3 exTree (fun _ => rfl) (by simp [exTree]) (by simp [exTree, NodeImpl.fresh]) (by decide)

/-! ## example -/

/-- a body that moves the joint and counts -/
noncomputable def exBody : Body ℝ Nat := fun k n =>
  .call (.setJointPositionUnchecked n 1) fun _ => .done (k + 1, false)

example : ∃ all, (∀ n, n ∈ all ↔ Below exTree 0 n) ∧ all.Nodup ∧ ∀ fuel, 6 ≤ fuel →
    ∃ s' h', run (forDescendants (fun s n => (exBody s n).prog) fuel 0 [0]) exTree = .ok (s', all, true) h' ∧
      h'.Unlocked ∧ SameLinks exTree h' :=
  C76_for_descendants_total exBody (fun _ _ => ⟨trivial, fun _ => trivial⟩) exTree (fun _ => rfl) exTree_forest
    (fun s n g u _ => ⟨s + 1, _, by
      simp only [exBody, Client.prog, Call.prog, run_bind, run_Node_setJointPositionUnchecked n 1 g u, Res.bind_ok]
      rfl⟩) 0 0

end K
