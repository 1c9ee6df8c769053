import Verif.Lemmas.MirrorCalls
import Verif.Props.Clone
/-!
# C88: which node objects a robot consists of is not seen
-/

set_option linter.unusedSectionVars false

namespace K
open Prog
variable {T : Type} [Scalar T] {α β : Type} {ρ : Equiv.Perm NodeId}

/-- **C88.** Which node objects a robot consists of is not seen: if the contents of the nodes are moved to other objects
(`ρ`, leaving alone the ids that were never allocated), a client that is given the other handles has the same outcome -
the same result, the same panic, or it waits for the corresponding lock - and leaves the corresponding memory. -/
theorem C88_sequential (p : Client T α) (h : KHeap T) (fix : ∀ n, h.next ≤ n → ρ n = n) :
    run (p.rename ρ).prog (h.rename ρ) = (run p.prog h).rename ρ := by
  rw [Client.prog_rename]
  exact run_rename _ _ fix

/-- **C88**, one call: the answer is the same, with the handles in it exchanged. -/
theorem C88_call (c : Call T β) (h : KHeap T) (fix : ∀ n, h.next ≤ n → ρ n = n) :
    (∀ a g, run c.prog h = .ok a g → run (c.rename ρ).prog (h.rename ρ) = .ok (c.answer ρ a) (g.rename ρ)) ∧
    (∀ m g, run c.prog h = .panic m g → run (c.rename ρ).prog (h.rename ρ) = .panic m (g.rename ρ)) ∧
    (∀ n g, run c.prog h = .blocked n g → run (c.rename ρ).prog (h.rename ρ) = .blocked (ρ n) (g.rename ρ)) ∧
    (run c.prog h = .diverged → run (c.rename ρ).prog (h.rename ρ) = .diverged) := by
  have e : run (c.rename ρ).prog (h.rename ρ) =
      ((run c.prog h).rename ρ).bind fun a g => .ok (c.answer ρ a) g := by
    rw [Mirror.call c, run_bind, run_rename _ _ fix]
    rfl
  refine ⟨fun a g x => ?_, fun m g x => ?_, fun n g x => ?_, fun x => ?_⟩ <;> rw [e, x] <;> rfl

theorem step_rename {c d : Config (NodeImpl T) α} (fix : ∀ n, c.heap.next ≤ n → ρ n = n) (s : Step c d) :
    Step ⟨c.heap.rename ρ, c.threads.map (Prog.rename ρ)⟩ ⟨d.heap.rename ρ, d.threads.map (Prog.rename ρ)⟩ ∧
      c.heap.next ≤ d.heap.next := by
  cases s with
  | mk i p p' h' hi hs =>
    obtain ⟨a, b⟩ := step1_rename p p' c.heap h' fix hs
    refine ⟨?_, b⟩
    have := Step.mk ⟨c.heap.rename ρ, c.threads.map (Prog.rename ρ)⟩ i (p.rename ρ) (p'.rename ρ) (h'.rename ρ)
      (by simp [hi]) a
    rwa [← List.map_set] at this

theorem dsteps_rename {c d : Config (NodeImpl T) α} (fix : ∀ n, c.heap.next ≤ n → ρ n = n) (s : DSteps c d) :
    DSteps ⟨c.heap.rename ρ, c.threads.map (Prog.rename ρ)⟩ ⟨d.heap.rename ρ, d.threads.map (Prog.rename ρ)⟩ ∧
      c.heap.next ≤ d.heap.next := by
  induction s with
  | refl => exact ⟨.refl _, Nat.le_refl _⟩
  | @tail d e _ s ih =>
    obtain ⟨a, b⟩ := ih
    cases s with
    | thread s =>
      obtain ⟨x, y⟩ := step_rename (ρ := ρ) (fun n hn => fix n (Nat.le_trans b hn)) s
      exact ⟨a.tail (.thread x), Nat.le_trans b y⟩
    | free F =>
      refine ⟨a.tail ?_, b⟩
      rw [Heap.rename_free]
      exact DStep.free ⟨d.heap.rename ρ, d.threads.map (Prog.rename ρ)⟩ _

/-- **C88**, threads: whatever threads can do - with any interleaving, nodes being freed at any moment - threads that
are given the other handles can do with the other objects, with the same results and panics, and each waiting for the
corresponding lock. -/
theorem C88_threads (ps : List (Client T α)) (h : KHeap T) (fix : ∀ n, h.next ≤ n → ρ n = n)
    (d : Config (NodeImpl T) α) (st : DSteps ⟨h, ps.map Client.prog⟩ d) :
    ∃ d', DSteps ⟨h.rename ρ, ps.map fun p => (p.rename ρ).prog⟩ d' ∧ d'.heap = d.heap.rename ρ ∧
      (∀ (i : Nat) a, d.threads[i]? = some (Prog.ret a) ↔ d'.threads[i]? = some (Prog.ret a)) ∧
      (∀ (i : Nat) m, d.threads[i]? = some (Prog.panic m) ↔ d'.threads[i]? = some (Prog.panic m)) ∧
      ∀ (i : Nat) n, (∃ k, d.threads[i]? = some (Prog.lock n k)) ↔ ∃ k, d'.threads[i]? = some (Prog.lock (ρ n) k) := by
  obtain ⟨a, -⟩ := dsteps_rename (ρ := ρ) fix st
  simp only [List.map_map] at a
  refine ⟨⟨d.heap.rename ρ, d.threads.map (Prog.rename ρ)⟩, ?_, rfl, fun i b => ?_, fun i m => ?_, fun i n => ?_⟩
  · have ea : (ps.map fun p => (p.rename ρ).prog) = ps.map (Prog.rename ρ ∘ Client.prog) :=
      List.map_congr_left fun p _ => Client.prog_rename p
    rw [ea]; exact a
  all_goals
    simp only [List.getElem?_map]
    cases d.threads[i]? with
    | none => simp
    | some p => cases p <;> simp [Prog.rename]

/-! ## a copy -/

/-- exchanging the nodes of a list with others -/
theorem exists_exchange (ns : List NodeId) (φ : NodeId → NodeId) (inj : ∀ a ∈ ns, ∀ b ∈ ns, φ a = φ b → a = b)
    (out : ∀ n ∈ ns, φ n ∉ ns) : ∃ ρ : Equiv.Perm NodeId, (∀ n ∈ ns, ρ n = φ n ∧ ρ (φ n) = n) ∧
      (∀ m, m ∉ ns → (∀ n ∈ ns, φ n ≠ m) → ρ m = m) ∧ ρ.symm = ρ := by
  classical
  let f : NodeId → NodeId := fun m =>
    if m ∈ ns then φ m else if x : ∃ n ∈ ns, φ n = m then Classical.choose x else m
  have f1 : ∀ n ∈ ns, f n = φ n := fun n hn => if_pos hn
  have f2 : ∀ n ∈ ns, f (φ n) = n := by
    intro n hn
    have x : ∃ k ∈ ns, φ k = φ n := ⟨n, hn, rfl⟩
    simp only [f, if_neg (out n hn), dif_pos x]
    exact inj _ (Classical.choose_spec x).1 n hn (Classical.choose_spec x).2
  have f3 : ∀ m, m ∉ ns → (∀ n ∈ ns, φ n ≠ m) → f m = m := by
    intro m hm h
    have x : ¬ ∃ n ∈ ns, φ n = m := fun ⟨n, a, b⟩ => h n a b
    simp only [f, if_neg hm, dif_neg x]
  have inv : Function.Involutive f := by
    intro m
    by_cases hm : m ∈ ns
    · rw [f1 m hm, f2 m hm]
    · by_cases x : ∃ n ∈ ns, φ n = m
      · obtain ⟨n, hn, rfl⟩ := x
        rw [f2 n hn, f1 n hn]
      · have : f m = m := f3 m hm fun n hn e => x ⟨n, hn, e⟩
        rw [this, this]
  exact ⟨⟨f, f, inv, inv⟩, fun n hn => ⟨f1 n hn, f2 n hn⟩, f3, rfl⟩

theorem eq_of_perm_short {l l' : List NodeId} (p : l.Perm l') (s : l.length ≤ 1) : l = l' := by
  match l, s with
  | [], _ => exact (List.nil_perm.1 p).symm
  | [a], _ => exact (List.singleton_perm.1 p).symm ▸ rfl

/-- the nodes of a path have at most one child in it -/
theorem path_short {h : KHeap T} {ns : List NodeId} (nd : ns.Nodup)
    (path : ∀ pre a b post, ns = pre ++ a :: b :: post → liveParent h b = some a)
    (root : ∀ r, ns.head? = some r → liveParent h r = none) (n : NodeId) :
    (ns.filter fun m => decide (liveParent h m = some n)).length ≤ 1 := by
  suffices ∀ x ∈ ns.filter (fun m => decide (liveParent h m = some n)),
      ∀ y ∈ ns.filter (fun m => decide (liveParent h m = some n)), x = y by
    have nd' := nd.filter fun m => decide (liveParent h m = some n)
    match e : ns.filter fun m => decide (liveParent h m = some n) with
    | [] => simp
    | [_] => simp
    | a :: b :: l =>
      rw [e] at this nd'
      have := this a (by simp) b (by simp)
      simp [this] at nd'
  have pred : ∀ x ∈ ns, liveParent h x = some n → ∃ pre post, ns = pre ++ n :: x :: post := by
    intro x hx e
    obtain ⟨pre, post, e1⟩ := List.append_of_mem hx
    rcases pre.eq_nil_or_concat with rfl | ⟨pre', z, rfl⟩
    · have := root x (by rw [e1]; rfl)
      rw [this] at e; cases e
    · have := path pre' z x post (by rw [e1]; simp)
      rw [e] at this; cases this
      exact ⟨pre', post, by rw [e1]; simp⟩
  intro x hx y hy
  rw [List.mem_filter, decide_eq_true_eq] at hx hy
  obtain ⟨p1, s1, e1⟩ := pred x hx.1 hx.2
  obtain ⟨p2, s2, e2⟩ := pred y hy.1 hy.2
  have i1 : ns.idxOf n = p1.length := by
    rw [e1] at nd ⊢
    have : n ∉ p1 := fun hm => (List.nodup_append.1 nd).2.2 n hm n (by simp) rfl
    rw [List.idxOf_append_of_notMem this]; simp
  have i2 : ns.idxOf n = p2.length := by
    rw [e2] at nd ⊢
    have : n ∉ p2 := fun hm => (List.nodup_append.1 nd).2.2 n hm n (by simp) rfl
    rw [List.idxOf_append_of_notMem this]; simp
  have a1 : ns[p1.length + 1]? = some x := by rw [e1]; simp
  have a2 : ns[p2.length + 1]? = some y := by rw [e2]; simp
  rw [← i1] at a1
  rw [← i2, a1] at a2
  exact Option.some.inj a2

/-- **C88**, copies: after cloning a serial robot, original and copy are interchangeable: the memory is the same with
the nodes of the one and of the other exchanged (and no others). So a client that is given the handles of the copy
instead of those of the original gets the same results, and does to the copy what it would do to the original. -/
theorem C88_clone (h : KHeap T) (u : h.Unlocked) (f : Forest h) (c : Chain) (w : c.Wf h) (r : NodeId)
    (cr : CloneReady h c r) (own : OwnRobot h c) (fuel : Nat) (hf : h.next + c.nodes.length + 1 ≤ fuel)
    (path : ∀ pre a b post, c.nodes = pre ++ a :: b :: post → liveParent h b = some a) :
    ∃ c' g, ∃ ρ : Equiv.Perm NodeId, run (c.clone fuel) h = .ok c' g ∧ c' = c.rename ρ ∧ g.rename ρ = g ∧
      (∀ n ∈ c.nodes, h.next ≤ ρ n ∧ ρ n < g.next ∧ ρ (ρ n) = n) ∧
      (∀ n, n ∉ c.nodes → n ∉ c'.nodes → ρ n = n) ∧
      ∀ {α : Type} (p : Client T α), run (p.rename ρ).prog g = (run p.prog g).rename ρ := by
  obtain ⟨c', g, φ, e, copy, en, -, wc, ug, nx, fresh, inj, other⟩ := C19_path h u f c w r cr fuel hf path
  have lt := cr.node
  obtain ⟨ρ, r1, r3, rs⟩ := exists_exchange c.nodes φ inj fun n hn hm => by
    have := (fresh n hn).1; have := lt _ hm; omega
  have same : ∀ m < h.next, g.get m = h.get m ∧ g.dead m = h.dead m := fun m hm =>
    other m fun n hn e => by have := (fresh n hn).1; omega
  -- what is seen of parents and mimic parents is all there is
  have lp : ∀ n ∈ c.nodes, liveParent h n = (h.get n).parent := by
    intro n hn
    rcases cr.parent n hn with rfl | ⟨p, hp, e⟩
    · rw [cr.root]; simp [liveParent, cr.root]
    · rw [e, (liveParent_eq_some e).1]
  have lm : ∀ n ∈ c.nodes, liveMimic h n = (h.get n).mimicParent := by
    intro n hn
    unfold liveMimic
    cases x : (h.get n).mimicParent with
    | none => rfl
    | some m => simp [own.alive m (own.mimicParent n hn m x)]
  have par : ∀ n ∈ c.nodes, ∀ p, (h.get n).parent = some p → p ∈ c.nodes := by
    intro n hn p e
    rw [← lp n hn] at e
    exact (cr.closed n hn).parent p e
  have ch : ∀ n ∈ c.nodes, (c.nodes.filter fun m => decide (liveParent h m = some n)) = (h.get n).children := by
    intro n hn
    refine eq_of_perm_short ?_ (path_short cr.nodup path (fun r' hr' => ?_) n)
    · rw [List.perm_ext_iff_of_nodup (cr.nodup.filter _) (f.once n)]
      intro m
      rw [List.mem_filter, decide_eq_true_eq, f.agree]
      constructor
      · rintro ⟨hm, x⟩; rw [← lp m hm]; exact x
      · intro x
        have hm := own.children n hn m ((f.agree n m).2 x)
        exact ⟨hm, by rw [lp m hm]; exact x⟩
    · rw [cr.first] at hr'; cases hr'
      have rmem : r ∈ c.nodes := List.mem_of_mem_head? (by rw [cr.first]; rfl)
      rw [lp r rmem, cr.root]
  have ρφ : ∀ l : List NodeId, (∀ n ∈ l, n ∈ c.nodes) → (l.map φ).map ρ = l := by
    intro l hl
    rw [List.map_map]
    refine (List.map_congr_left fun n hn => (r1 n (hl n hn)).2).trans (List.map_id _)
  have ρφ' : ∀ o : Option NodeId, (∀ n, o = some n → n ∈ c.nodes) → (o.map φ).map ρ = o := by
    intro o ho
    cases o with
    | none => rfl
    | some n => simp [(r1 n (ho n rfl)).2]
  have back : ∀ n ∈ c.nodes, (g.get (φ n)).rename ρ = h.get n := by
    intro n hn
    have cn := copy n hn
    have e1 : (g.get (φ n)).parent.map ρ = (h.get n).parent := by
      rw [cn.parent, lp n hn, ρφ' _ (par n hn)]
    have e2 : (g.get (φ n)).children.map ρ = (h.get n).children := by
      rw [cn.children, ρφ _ (fun m hm => (List.mem_filter.1 hm).1), ← ch n hn]
    have e3 : (g.get (φ n)).mimicParent.map ρ = (h.get n).mimicParent := by
      rw [cn.mimicParent, lm n hn, ρφ' _ (own.mimicParent n hn)]
    have e4 : (g.get (φ n)).mimicChildren.map ρ = (h.get n).mimicChildren := by
      rw [cn.mimicChildren, ρφ _ (fun m hm => (List.mem_filter.1 hm).1), own.mimicChildren n hn]
      exact List.filter_congr fun m hm => decide_eq_decide.2 (by rw [lm m hm])
    have e5 : (g.get (φ n)).mimic = (h.get n).mimic := by
      rw [cn.mimic, lm n hn]
      cases x : (h.get n).mimicParent with
      | none => simp [own.mimic n hn x]
      | some m => simp
    unfold NodeImpl.rename
    rw [e1, e2, e3, e4, e5, cn.joint, cn.link]
  have fixed : ∀ k, k ∉ c.nodes → k < h.next → ρ k = k := fun k hk hlt =>
    r3 k hk fun n hn e => by have := (fresh n hn).1; omega
  have ρρ : ∀ m, ρ (ρ m) = m := fun m => by
    have := ρ.symm_apply_apply m
    rwa [rs] at this
  have sym : g.rename ρ = g := by
    have get : ∀ m, (g.get (ρ.symm m)).rename ρ = g.get m := by
      intro m
      rw [rs]
      by_cases hm : m ∈ c.nodes
      · rw [(r1 m hm).1, back m hm, (same m (lt m hm)).1]
      · by_cases x : ∃ n ∈ c.nodes, φ n = m
        · obtain ⟨n, hn, rfl⟩ := x
          rw [(r1 n hn).2, (same n (lt n hn)).1, ← back n hn]
          have := NodeImpl.rename_symm' (ρ := ρ) (g.get (φ n))
          rwa [rs] at this
        · have x' : ∀ n ∈ c.nodes, φ n ≠ m := fun n hn e => x ⟨n, hn, e⟩
          rw [r3 m hm x', (other m x').1]
          have o := own.outside m hm
          have e1 : (h.get m).parent.map ρ = (h.get m).parent := by
            cases y : (h.get m).parent with
            | none => rfl
            | some p =>
              have hc := (f.agree p m).2 y
              rw [Option.map_some, fixed p (fun hp => hm (own.children p hp m hc)) (f.bound p m hc).2]
          have e2 : (h.get m).children.map ρ = (h.get m).children := by
            refine (List.map_congr_left fun k hk => ?_).trans (List.map_id _)
            exact fixed k (fun hk' => hm (par k hk' m ((f.agree m k).1 hk))) (f.bound m k hk).1
          have e3 : (h.get m).mimicParent.map ρ = (h.get m).mimicParent := by
            cases y : (h.get m).mimicParent with
            | none => rfl
            | some p => rw [Option.map_some, fixed p (o.1 p y).1 (o.1 p y).2]
          have e4 : (h.get m).mimicChildren.map ρ = (h.get m).mimicChildren := by
            refine (List.map_congr_left fun k hk => ?_).trans (List.map_id _)
            exact fixed k (o.2 k hk).1 (o.2 k hk).2
          unfold NodeImpl.rename
          rw [e1, e2, e3, e4]
    have dead : ∀ m, g.dead (ρ.symm m) = g.dead m := by
      intro m
      rw [rs]
      by_cases hm : m ∈ c.nodes
      · rw [(r1 m hm).1, (fresh m hm).2.2, (same m (lt m hm)).2, own.alive m hm]
      · by_cases x : ∃ n ∈ c.nodes, φ n = m
        · obtain ⟨n, hn, rfl⟩ := x
          rw [(r1 n hn).2, (fresh n hn).2.2, (same n (lt n hn)).2, own.alive n hn]
        · rw [r3 m hm fun n hn e => x ⟨n, hn, e⟩]
    have held : ∀ m, g.held (ρ.symm m) = g.held m := fun m => by rw [ug, ug]
    show (⟨fun m => (g.get (ρ.symm m)).rename ρ, g.next, fun m => g.dead (ρ.symm m), fun m => g.held (ρ.symm m)⟩ :
      KHeap T) = g
    simp only [get, dead, held]
  have enρ : c'.nodes = c.nodes.map ρ := by
    rw [en]; exact List.map_congr_left fun n hn => (r1 n hn).1.symm
  have mv : c'.movableNodes = c.movableNodes.map ρ := by
    rw [wc.movable, w.movable, en, List.filter_map]
    have : (c.nodes.filter ((fun n => decide (Movable g n)) ∘ φ)) = c.nodes.filter fun n => decide (Movable h n) :=
      List.filter_congr fun n hn => decide_eq_decide.2 (by simp only [Movable, (copy n hn).joint])
    rw [this]
    exact List.map_congr_left fun n hn => (r1 n (List.mem_filter.1 hn).1).1.symm
  refine ⟨c', g, ρ, e, ?_, sym, ?_, ?_, ?_⟩
  · have hd : c'.dof = c.dof := by rw [wc.dof, mv, w.dof, List.length_map]
    rcases c' with ⟨a, b, d⟩
    simp only at enρ mv hd
    rw [enρ, mv, hd]; rfl
  · intro n hn
    rw [ρρ, (r1 n hn).1]
    exact ⟨(fresh n hn).1, (fresh n hn).2.1, rfl⟩
  · intro n hn hn'
    refine r3 n hn fun k hk e => hn' ?_
    rw [en, ← e]; exact List.mem_map_of_mem hk
  · intro α p
    have := C88_sequential p g (ρ := ρ) fun n hn => r3 n (fun hm => by have := lt n hm; omega) fun k hk e => by
      have := (fresh k hk).2.1; omega
    rwa [sym] at this

/-- **C88**, solving for a copy: inverse kinematics for the copy of a serial robot gives the same answer as for the
original and moves the joints of the copy to where it moves those of the original. -/
theorem C88_solve (h : KHeap T) (u : h.Unlocked) (f : Forest h) (c : Chain) (w : c.Wf h) (r : NodeId)
    (cr : CloneReady h c r) (own : OwnRobot h c) (fuel : Nat) (hf : h.next + c.nodes.length + 1 ≤ fuel)
    (path : ∀ pre a b post, c.nodes = pre ++ a :: b :: post → liveParent h b = some a) :
    ∃ c' g, run (c.clone fuel) h = .ok c' g ∧ ∀ (s : IkSolver T) (t : Iso T) (k : Constraints),
      (∀ m g1, run (solveWithConstraints s c t k) g = .panic m g1 →
        ∃ g2, run (solveWithConstraints s c' t k) g = .panic m g2) ∧
      ∀ a g1, run (solveWithConstraints s c t k) g = .ok a g1 →
        ∃ g2, run (solveWithConstraints s c' t k) g = .ok a g2 ∧
          c'.movableNodes.map (posOf g2) = c.movableNodes.map (posOf g1) ∧
          c'.nodes.map (fun n => (g2.get n).joint) = c.nodes.map fun n => (g1.get n).joint := by
  obtain ⟨c', g, ρ, e, ec, sym, -, -, all⟩ := C88_clone h u f c w r cr own fuel hf path
  refine ⟨c', g, e, fun s t k => ?_⟩
  have key : run (solveWithConstraints s c' t k) g = (run (solveWithConstraints s c t k) g).rename ρ := by
    have := all (Client.call (.solve s c t k) Client.done)
    have e1 : ((Client.call (.solve s c t k) Client.done : Client T _).rename ρ).prog =
        solveWithConstraints s c' t k := by rw [ec]; exact bind_ret' _
    have e2 : (Client.call (.solve s c t k) Client.done : Client T _).prog = solveWithConstraints s c t k :=
      bind_ret' _
    rwa [e1, e2] at this
  refine ⟨fun m g1 x => ⟨g1.rename ρ, by rw [key, x]; rfl⟩, fun a g1 x => ⟨g1.rename ρ, by rw [key, x]; rfl, ?_, ?_⟩⟩
  · rw [ec]
    show (c.movableNodes.map ρ).map _ = _
    rw [List.map_map]
    refine List.map_congr_left fun n _ => ?_
    show posOf (g1.rename ρ) (ρ n) = _
    unfold posOf
    rw [Heap.rename_get]; rfl
  · rw [ec]
    show (c.nodes.map ρ).map _ = _
    rw [List.map_map]
    refine List.map_congr_left fun n _ => ?_
    show ((g1.rename ρ).get (ρ n)).joint = _
    rw [Heap.rename_get]; rfl

end K
