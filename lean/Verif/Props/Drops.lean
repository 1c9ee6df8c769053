import Verif.Props.Region
/-!
# C83: handles dropped while other threads run

`DSteps` (`Model/Prog.lean`): between any two primitive steps of the threads the last handles to some nodes may go
away; from then on `Weak::upgrade` fails for these nodes.  (The universal theorems about threads of C04, C18, C41, C50, C52,
C54, C55, C62, C66, C69, C71, C76, C80 are stated for `DSteps` or `PDSteps`.)  Here: as long as none of the nodes that
the programs can come to is freed, dropping handles has no effect on anybody; but a call that looks twice for the same
parent can see both answers.
-/

set_option linter.unusedSectionVars false

namespace K
open Prog
variable {S T α : Type} [Scalar T]

/-- the heaps are the same, apart from which nodes are freed -/
structure SameMemory (h g : Heap S) : Prop where
  get : ∀ n, g.get n = h.get n
  held : ∀ n, g.held n = h.held n
  next : g.next = h.next

/-- a program that creates no node frees none and brings none back to life -/
private theorem step_dead {R W : NodeId → Prop} {C : S → Prop} {Q : α → Prop} {p p' : Prog S α} {h h' : Heap S}
    (sp : Stays R W C Q p) (e : step1 p h = some (p', h')) : h'.dead = h.dead := by
  cases p with
  | ret a => cases e
  | lock n k =>
    simp only [step1] at e
    split at e
    · cases e
    · cases e; rfl
  | unlock n k => cases e; rfl
  | read n k => cases e; rfl
  | write n f k => cases e; rfl
  | upgrade n k => cases e; rfl
  | alloc s k => exact sp.elim
  | panic m => cases e
  | diverge => cases e; rfl

private theorem unseen {R : NodeId → Prop} {C : S → Prop} {Q : Nat → α → Prop} {c d : Config S α}
    (sp : ∀ i p, c.threads[i]? = some p → Stays R R C (Q i) p) (inv : ∀ n, R n → C (c.heap.get n))
    (st : DSteps c d) (keep : ∀ n, R n → d.heap.dead n = c.heap.dead n) :
    ∃ e, Steps c e ∧ e.threads = d.threads ∧ SameMemory e.heap d.heap ∧ e.heap.dead = c.heap.dead ∧
      (∀ n, R n → C (d.heap.get n)) ∧ ∀ i p, d.threads[i]? = some p → Stays R R C (Q i) p := by
  have mono : ∀ {d e : Config S α}, DStep d e → (∀ i p, d.threads[i]? = some p → Stays R R C (Q i) p) →
      ∀ n, d.heap.dead n = true → e.heap.dead n = true := by
    intro d e s sp n hd
    cases s with
    | free F => simp [Heap.free, hd]
    | thread s =>
      obtain ⟨i, p, p', h', hi, hs⟩ := s
      show h'.dead n = true
      rw [step_dead (sp i p hi) hs]; exact hd
  have grow : ∀ {d : Config S α}, DSteps c d → (∀ n, c.heap.dead n = true → d.heap.dead n = true) ∧
      (∀ n, R n → C (d.heap.get n)) ∧ ∀ i p, d.threads[i]? = some p → Stays R R C (Q i) p := by
    intro d st
    induction st with
    | refl => exact ⟨fun _ h => h, inv, sp⟩
    | tail _ s ih =>
      obtain ⟨m, iv, sd⟩ := ih
      refine ⟨fun n hn => mono s sd n (m n hn), ?_⟩
      cases s with
      | free F => exact ⟨iv, sd⟩
      | thread s =>
        obtain ⟨i, p, p', h', hi, hs⟩ := s
        obtain ⟨sp', iv', -⟩ := (sd i p hi).step iv hs
        refine ⟨iv', fun j q hq => ?_⟩
        by_cases ij : j = i
        · subst ij
          obtain rfl : q = p' := by
            have lt : j < _ := (List.getElem?_eq_some_iff.1 hi).1
            simp [lt] at hq; exact hq.symm
          exact sp'
        · rw [List.getElem?_set_ne (Ne.symm ij)] at hq; exact sd j q hq
  induction st with
  | refl => exact ⟨c, .refl _, rfl, ⟨fun _ => rfl, fun _ => rfl, rfl⟩, rfl, inv, sp⟩
  | @tail d f st s ih =>
    obtain ⟨gd, iv, sd⟩ := grow st
    obtain ⟨-, iv1, sd1⟩ := grow (st.tail s)
    have keep' : ∀ n, R n → d.heap.dead n = c.heap.dead n := by
      intro n hn
      cases hc : c.heap.dead n with
      | true => exact gd n hc
      | false =>
        cases hd : d.heap.dead n with
        | false => rfl
        | true =>
          have := keep n hn
          rw [mono s sd n hd, hc] at this
          cases this
    obtain ⟨e, se, et, em, ed, -, -⟩ := ih keep'
    cases s with
    | free F => exact ⟨e, se, et, ⟨em.get, em.held, em.next⟩, ed, iv1, sd1⟩
    | thread s =>
      obtain ⟨i, p, p', h', hi, hs⟩ := s
      have ag : Agree R d.heap e.heap := ⟨fun n _ => (em.get n).symm, fun n _ => (em.held n).symm,
        fun n hn => by rw [ed, keep' n hn]⟩
      obtain ⟨-, -, out, nx, mv⟩ := (sd i p hi).step iv hs
      obtain ⟨g', eg, ag'⟩ := mv e.heap ag
      have ive : ∀ n, R n → C (e.heap.get n) := fun n hn => by rw [← em.get n]; exact iv n hn
      obtain ⟨-, -, out', nx', -⟩ := (sd i p hi).step ive eg
      refine ⟨⟨g', e.threads.set i p'⟩, se.tail (.mk e i p p' g' (et ▸ hi) eg), by rw [et], ⟨fun n => ?_, fun n => ?_, ?_⟩,
        (step_dead (sd i p hi) eg).trans ed, iv1, sd1⟩
      · by_cases hn : R n
        · exact (ag'.get n hn).symm
        · exact (out.get n hn).trans ((em.get n).trans (out'.get n hn).symm)
      · by_cases hn : R n
        · exact (ag'.held n hn).symm
        · exact (out.held n hn).trans ((em.held n).trans (out'.held n hn).symm)
      · exact nx.trans (em.next.trans nx'.symm)

/-- **C83** (drops elsewhere are not seen).  If the clients only use handles to nodes of `R`, links of these nodes lead
to nodes of `R`, and none of them is freed, then whatever is freed besides, and whenever, the threads could have got
where they are without any drop, with the same content of every node. -/
theorem C83_unseen {R : NodeId → Prop} {h : KHeap T} {cs : List (Client T α)}
    (closed : ∀ n, R n → (h.get n).LinksIn R) (cf : ∀ c ∈ cs, c.Confined R) {d : Config (NodeImpl T) α}
    (st : DSteps (Config.ofClients h cs) d) (keep : ∀ n, R n → d.heap.dead n = h.dead n) :
    ∃ e, Steps (Config.ofClients h cs) e ∧ e.threads = d.threads ∧ SameMemory e.heap d.heap := by
  obtain ⟨e, se, et, em, -⟩ := unseen (R := R) (C := NodeImpl.LinksIn R) (Q := fun _ _ => True)
    (c := Config.ofClients h cs) (fun i p e => by
      simp only [Config.ofClients, List.getElem?_map, Option.map_eq_some_iff] at e
      obtain ⟨c, ec, rfl⟩ := e
      exact stays_client c (cf c (List.mem_of_getElem? ec))) closed st keep
  exact ⟨e, se, et, em⟩

/-- **C83** for one thread: if it returns although handles are dropped meanwhile, it returns what it returns
without, and leaves every node as it leaves it without. -/
theorem C83_alone {R : NodeId → Prop} {h : KHeap T} {c : Client T α} (closed : ∀ n, R n → (h.get n).LinksIn R)
    (cf : c.Confined R) {d : Config (NodeImpl T) α} (st : DSteps (Config.ofClients h [c]) d)
    (keep : ∀ n, R n → d.heap.dead n = h.dead n) (a : α) (e : d.threads = [.ret a]) :
    ∃ g, run c.prog h = .ok a g ∧ SameMemory g d.heap := by
  obtain ⟨f, sf, ft, fm⟩ := C83_unseen closed (by simpa using cf) st keep
  have one : ∀ {x : Config (NodeImpl T) α}, Steps (Config.ofClients h [c]) x →
      ∃ p, x.threads = [p] ∧ run c.prog h = run p x.heap := by
    intro x sx
    induction sx with
    | refl => exact ⟨_, rfl, rfl⟩
    | tail _ s ih =>
      obtain ⟨p, hp, er⟩ := ih
      obtain ⟨i, q, q', h', hi, hs⟩ := s
      rw [hp] at hi
      match i, hi with
      | 0, hi =>
        cases hi
        exact ⟨q', by simp [hp], er.trans (run_step1 hs)⟩
  obtain ⟨p, hp, er⟩ := one sf
  rw [ft, e] at hp
  cases hp
  exact ⟨_, er, fm⟩

/-! ## Threads on separate robots -/

private theorem regions_drops {R : Nat → NodeId → Prop} {C : Nat → S → Prop} {Q : Nat → α → Prop} {c d : Config S α}
    (sep : ∀ i j n, i ≠ j → R i n → ¬ R j n)
    (sp : ∀ i p, c.threads[i]? = some p → Stays (R i) (R i) (C i) (Q i) p)
    (inv : ∀ i n, R i n → C i (c.heap.get n)) (st : DSteps c d) :
    (∀ i, (∀ n, R i n → d.heap.dead n = c.heap.dead n) → ∀ p', d.threads[i]? = some p' →
        ∃ p h, c.threads[i]? = some p ∧ run p c.heap = run p' h ∧ Agree (R i) h d.heap) ∧
      (∀ i p, d.threads[i]? = some p → Stays (R i) (R i) (C i) (Q i) p) ∧
      (∀ i n, R i n → C i (d.heap.get n)) ∧ (∀ n, c.heap.dead n = true → d.heap.dead n = true) ∧
      d.threads.length = c.threads.length := by
  induction st with
  | refl => exact ⟨fun i _ p' e => ⟨p', _, e, rfl, .refl _ _⟩, sp, inv, fun _ h => h, rfl⟩
  | @tail d f st s ih =>
    obtain ⟨ih, sd, inv1, mono, len⟩ := ih
    cases s with
    | free F =>
      refine ⟨fun i keep p' e => ?_, sd, inv1, fun n hn => by simp [Heap.free, mono n hn], len⟩
      have keep' : ∀ n, R i n → d.heap.dead n = c.heap.dead n := by
        intro n hn
        have k := keep n hn
        simp only [Heap.free] at k
        cases hc : c.heap.dead n with
        | true => exact mono n hc
        | false =>
          cases hd : d.heap.dead n with
          | false => rfl
          | true => rw [hd, hc] at k; simp at k
      obtain ⟨p, g, e1, e2, ag⟩ := ih i keep' p' e
      exact ⟨p, g, e1, e2, ag.get, ag.held, fun n hn => by
        rw [keep n hn, ← keep' n hn]; exact ag.dead n hn⟩
    | thread s =>
      obtain ⟨j, q, q', h', hj, hs⟩ := s
      have hd := step_dead (sd j q hj) hs
      obtain ⟨sq', inv', fr, -, mv⟩ := (sd j q hj).step (inv1 j) hs
      refine ⟨fun i keep p' e => ?_, fun i p' e => ?_, fun i n hn => ?_, fun n hn => ?_, by simpa using len⟩
      · have keep' : ∀ n, R i n → d.heap.dead n = c.heap.dead n := fun n hn => by
          have := keep n hn
          simp only [hd] at this; exact this
        by_cases ij : i = j
        · subst ij
          obtain rfl : p' = q' := by
            have lt : i < _ := (List.getElem?_eq_some_iff.1 hj).1
            simp [lt] at e; exact e.symm
          obtain ⟨p, hp, ej, er, ag⟩ := ih i keep' q hj
          obtain ⟨g', e1, a1⟩ := mv hp ag.symm
          exact ⟨p, g', ej, er.trans (run_step1 e1), a1.symm⟩
        · rw [List.getElem?_set_ne (Ne.symm ij)] at e
          obtain ⟨p, g, e1, e2, a⟩ := ih i keep' p' e
          exact ⟨p, g, e1, e2, a.trans (fr.mono fun n hn => sep i j n ij hn)⟩
      · by_cases ij : i = j
        · subst ij
          obtain rfl : p' = q' := by
            have lt : i < _ := (List.getElem?_eq_some_iff.1 hj).1
            simp [lt] at e; exact e.symm
          exact sq'
        · rw [List.getElem?_set_ne (Ne.symm ij)] at e; exact sd i p' e
      · by_cases ij : i = j
        · subst ij; exact inv' n hn
        · rw [fr.get n (sep i j n ij hn)]; exact inv1 i n hn
      · rw [show (⟨h', d.threads.set j q'⟩ : Config S α).heap.dead = d.heap.dead from hd]; exact mono n hn

/-- **C82, C83** (drops on the other robots).  A thread whose own nodes are not freed gets what it gets alone and
never waits, whatever the other threads do and whatever is freed on their robots meanwhile. -/
theorem C83_separate {R : Nat → NodeId → Prop} {h : KHeap T} {cs : List (Client T α)} (sep : Separate R h)
    (cf : ∀ i (c : Client T α), cs[i]? = some c → c.Confined (R i))
    {d : Config (NodeImpl T) α} (st : DSteps (Config.ofClients h cs) d) (i : Nat) (c : Client T α)
    (hc : cs[i]? = some c) (keep : ∀ n, R i n → d.heap.dead n = h.dead n) :
    (∀ a, d.threads[i]? = some (.ret a) → ∃ g, run c.prog h = .ok a g ∧ Agree (R i) g d.heap) ∧
      (∀ m, d.threads[i]? = some (.panic m) → ∃ g, run c.prog h = .panic m g ∧ Agree (R i) g d.heap) ∧
      ∀ a g, run c.prog h = .ok a g → d.threads[i]? = some (.ret a) ∨
        ∃ p p' h', d.threads[i]? = some p ∧ step1 p d.heap = some (p', h') := by
  obtain ⟨th, sp, inv, -, len⟩ := regions_drops (R := R) (C := fun i => NodeImpl.LinksIn (R i)) (Q := fun _ _ => True)
    (c := Config.ofClients h cs) sep.disjoint (fun i p e => by
      simp only [Config.ofClients, List.getElem?_map, Option.map_eq_some_iff] at e
      obtain ⟨c, ec, rfl⟩ := e
      exact stays_client c (cf i c ec)) sep.closed st
  have th : ∀ p', d.threads[i]? = some p' → ∃ g, run c.prog h = run p' g ∧ Agree (R i) g d.heap := by
    intro p' e
    obtain ⟨p, g, e1, e2, ag⟩ := th i keep p' e
    simp only [Config.ofClients, List.getElem?_map, hc, Option.map_some, Option.some.injEq] at e1
    subst e1
    exact ⟨g, e2, ag⟩
  refine ⟨fun a e => th _ e, fun m e => th _ e, fun a g e => ?_⟩
  have lt : i < d.threads.length := by
    rw [len]; simpa [Config.ofClients] using (List.getElem?_eq_some_iff.1 hc).1
  obtain ⟨g', er, ag⟩ := th _ (List.getElem?_eq_getElem lt)
  rw [e] at er
  obtain ⟨g2, ok, -⟩ := ((sp i _ (List.getElem?_eq_getElem lt)).run_agree (h := g') (g := d.heap)
    (fun n hn => by rw [← ag.get n hn]; exact inv i n hn) ag).1 a g er.symm
  rw [List.getElem?_eq_getElem lt]
  rcases run_ok_step ok with x | ⟨p', h', x⟩
  · exact .inl (by rw [x])
  · exact .inr ⟨_, p', h', rfl, x⟩

/-! ## A call that sees both the node and its absence -/

/-- shifted by 1 along x -/
noncomputable def shifted : Iso ℝ := ⟨⟨1, 0, 0⟩, Quat.one⟩

/-- node 0 stands at `shifted`; nodes 1 and 2 are children of it, fixed to it where it is -/
noncomputable def exForked : KHeap ℝ where
  get := fun n =>
    if n = 0 then { NodeImpl.fresh ((Joint.new "a" .fixed).setWorldTransform shifted) with children := [1, 2] }
    else { NodeImpl.fresh (Joint.new "b" .fixed) with parent := some 0 }
  next := 3
  dead := fun _ => false
  held := fun _ => false

/-- the two children, without their parent -/
def forks : Chain := ⟨[1, 2], [], 0⟩

private theorem local_fixed (h : KHeap ℝ) (n : NodeId) (e : (h.get n).joint.jointType = .fixed)
    (o : (h.get n).joint.origin = Iso.one) : (h.get n).joint.localTransform = Iso.one := by
  simp only [Joint.localTransform, Joint.jointTransform, e, o, Iso.one_mul']

private theorem update_fork (h : KHeap ℝ) (u : h.Unlocked) (n : NodeId) (t : Iso ℝ) (w : pwt h n = some t)
    (e : (h.get n).joint.jointType = .fixed) (o : (h.get n).joint.origin = Iso.one) :
    run (Chain.updateTransform n) h = .ok t (h.setWorld n t) := by
  rw [run_updateTransform n h u, w]
  simp only [local_fixed h n e o, Iso.mul_one']

/-- **C83** (torn).  `update_transforms` of nodes 1 and 2 while the last handle to their parent is dropped: before the
drop it gives both nodes the pose of the parent, after the drop both are roots; there is an execution in which one has
the pose of the parent and the other is a root. -/
theorem C83_torn : ∃ d : Config (NodeImpl ℝ) (List (Iso ℝ)),
    DSteps (Config.ofClients exForked [.call (.updateTransforms forks) .done]) d ∧
    d.threads = [.ret [shifted, Iso.one]] ∧
    (∃ g, run (forks.updateTransforms : KProg ℝ _) exForked = .ok [shifted, shifted] g) ∧
    (∃ g, run (forks.updateTransforms : KProg ℝ _) (exForked.free fun n => n == 0) = .ok [Iso.one, Iso.one] g) ∧
    shifted ≠ Iso.one := by
  have u : exForked.Unlocked := fun _ => rfl
  let F : NodeId → Bool := fun n => n == 0
  let h1 := exForked.setWorld 1 shifted
  have u1 : h1.Unlocked := u.modify 1 _
  have r1 : run (Chain.updateTransform 1) exForked = .ok shifted h1 := update_fork _ u 1 _ rfl rfl rfl
  have r2 : run (Chain.updateTransform 2) h1 = .ok shifted (h1.setWorld 2 shifted) :=
    update_fork _ u1 2 _ rfl rfl rfl
  have r3 : run (Chain.updateTransform 2) (h1.free F) = .ok Iso.one ((h1.free F).setWorld 2 Iso.one) :=
    update_fork (h1.free F) u1 2 _ rfl rfl rfl
  have r4 : run (Chain.updateTransform 1) (exForked.free F) = .ok Iso.one ((exForked.free F).setWorld 1 Iso.one) :=
    update_fork (exForked.free F) u 1 _ rfl rfl rfl
  have r5 : run (Chain.updateTransform 2) ((exForked.free F).setWorld 1 Iso.one) =
      .ok Iso.one (((exForked.free F).setWorld 1 Iso.one).setWorld 2 Iso.one) :=
    update_fork _ (Heap.Unlocked.modify (h := exForked.free F) u 1 _) 2 _ rfl rfl rfl
  let rest : Iso ℝ → KProg ℝ (List (Iso ℝ)) := fun y =>
    (mapList [2] Chain.updateTransform >>= fun ys => pure (y :: ys)) >>= .ret
  let rest2 : Iso ℝ → KProg ℝ (List (Iso ℝ)) := fun y =>
    ((mapList [] Chain.updateTransform >>= fun ys => pure (y :: ys)) >>= fun ys => pure (shifted :: ys)) >>= .ret
  have e0 : (Client.call (.updateTransforms forks) .done : Client ℝ (List (Iso ℝ))).prog =
      Chain.updateTransform 1 >>= rest := Prog.bind_assoc _ _ _
  have e1 : rest shifted = Chain.updateTransform 2 >>= rest2 := by
    show ((Chain.updateTransform 2 >>= _) >>= _) >>= _ = _
    simp only [Prog.bind_assoc, rest2]
  have s0 : Steps (Config.ofClients exForked [.call (.updateTransforms forks) .done])
      ⟨h1, [rest shifted]⟩ := by
    have := steps_run (f := rest) (i := 0) (ts := [Chain.updateTransform 1 >>= rest]) r1 rfl
    rw [← e0] at this
    exact this
  have s1 : Steps ⟨h1.free F, [rest shifted]⟩
      ⟨(h1.free F).setWorld 2 Iso.one, [.ret [shifted, Iso.one]]⟩ :=
    steps_run (f := rest2) (i := 0) (ts := [rest shifted]) r3 (by rw [e1]; rfl)
  have join : ∀ {a b c : Config (NodeImpl ℝ) (List (Iso ℝ))}, DSteps a b → Steps b c → DSteps a c := by
    intro a b c x y
    induction y with
    | refl => exact x
    | tail _ s ih => exact ih.tail (.thread s)
  refine ⟨_, join (s0.drops.tail (.free _ F)) s1, rfl, ⟨h1.setWorld 2 shifted, ?_⟩,
    ⟨((exForked.free F).setWorld 1 Iso.one).setWorld 2 Iso.one, ?_⟩, ?_⟩
  · simp only [Chain.updateTransforms, forks, run_mapList_cons, run_mapList_nil, r1, r2, Res.bind_ok, run_pure]
  · simp only [Chain.updateTransforms, forks, run_mapList_cons, run_mapList_nil, Res.bind_ok, run_pure]
    show (run (Chain.updateTransform 1) (exForked.free F)).bind _ = _
    simp only [r4, r5, Res.bind_ok]
  · intro e
    have := congrArg (fun i : Iso ℝ => i.trans.x) e
    simp [shifted, Iso.one, V3.zero] at this

/-! ## Concrete cases -/

/-- **C83_separate**: one thread moves the second rail and reads where it is, while the other one solves for the
first rail and nodes of the first rail are freed: its result is the one it has alone. -/
example (s : IkSolver ℝ) (t : Iso ℝ) (con : Constraints) (p0 p1 p2 p3 x : ℝ)
    (d : Config (NodeImpl ℝ) (Option ℝ)) (r : Option ℝ)
    (st : DSteps (Config.ofClients (twoRails p0 p1 p2 p3) [solveThread s t con, moveThread x]) d)
    (keep : d.heap.dead 2 = false ∧ d.heap.dead 3 = false)
    (e : d.threads[1]? = some (.ret r)) :
    ∃ g, run (moveThread x).prog (twoRails p0 p1 p2 p3) = .ok r g := by
  have cf : ∀ i (c : Client ℝ (Option ℝ)), [solveThread s t con, moveThread x][i]? = some c → c.Confined (twoRegions i) := by
    intro i c hc
    match i, hc with
    | 0, hc =>
      cases hc
      exact ⟨⟨by simp [arm2, twoRegions], by simp [arm2, twoRegions]⟩, fun _ _ => trivial⟩
    | 1, hc =>
      cases hc
      exact ⟨by simp [Call.In, twoRegions], fun _ _ => ⟨by simp [Call.In, twoRegions], fun _ _ => trivial⟩⟩
  obtain ⟨g, er, -⟩ := (C83_separate (twoRails_separate p0 p1 p2 p3) cf st 1 (moveThread x) rfl (by
    intro n hn
    obtain ⟨-, rfl | rfl⟩ : 1 = 1 ∧ (n = 2 ∨ n = 3) := by simpa [twoRegions] using hn
    · exact keep.1
    · exact keep.2)).1 r e
  exact ⟨g, er⟩

/-- **C83_unseen** and **C83_alone**: if the parent is kept, `update_transforms` of the two children gives both the
pose of the parent, whatever other nodes are freed meanwhile. -/
example (d : Config (NodeImpl ℝ) (List (Iso ℝ))) (l : List (Iso ℝ))
    (st : DSteps (Config.ofClients exForked [.call (.updateTransforms forks) .done]) d)
    (keep : ∀ n < 3, d.heap.dead n = false) (e : d.threads = [.ret l]) : l = [shifted, shifted] := by
  obtain ⟨g, er, -⟩ := C83_alone (R := (· < 3)) (h := exForked) (c := .call (.updateTransforms forks) .done) (fun n hn => by
      constructor
      all_goals simp only [exForked]; split <;> simp [NodeImpl.fresh]
      ) ⟨⟨by simp [forks], by simp [forks]⟩, fun _ _ => trivial⟩ st (fun n hn => keep n hn) l e
  obtain ⟨-, -, -, ⟨g', e'⟩, -⟩ := C83_torn
  have e2 : run (Client.call (.updateTransforms forks) .done : Client ℝ (List (Iso ℝ))).prog exForked =
      .ok [shifted, shifted] g' := by
    show run (forks.updateTransforms >>= .ret) exForked = _
    rw [run_bind, e']; rfl
  rw [e2] at er
  cases er; rfl

end K
