import Verif.Lemmas.Region
import Verif.Lemmas.Sched
import Verif.Props.IkEx
/-!
# C82: threads that work on separate robots do not influence each other

Every thread runs any client that only uses handles to nodes of its own region; the regions are disjoint and
no link (parent, child, mimic) leads from one into another.  Then every interleaving gives each thread what it
would have got alone, and leaves its nodes as it would have left them alone — whatever the other threads do, also
if they panic, wait for ever or do not end.
-/

set_option linter.unusedSectionVars false

namespace K
open Prog
variable {T α : Type} [Scalar T] {R : Nat → NodeId → Prop} {h : KHeap T} {cs : List (Client T α)}

/-- the threads run the clients -/
def Config.ofClients (h : KHeap T) (cs : List (Client T α)) : Config (NodeImpl T) α :=
  ⟨h, cs.map Client.prog⟩

private theorem regions (sep : Separate R h) (cf : ∀ i (c : Client T α), cs[i]? = some c → c.Confined (R i))
    {d : Config (NodeImpl T) α} (st : Steps (Config.ofClients h cs) d) :
    (∀ i p', d.threads[i]? = some p' → ∃ c g, cs[i]? = some c ∧ run c.prog h = run p' g ∧
        Agree (R i) g d.heap ∧ Stays (R i) (R i) (NodeImpl.LinksIn (R i)) (fun _ => True) p') ∧
      (∀ i n, R i n → (d.heap.get n).LinksIn (R i)) ∧
      Agree (fun n => ∀ i, ¬ R i n) h d.heap ∧ d.heap.next = h.next ∧ d.threads.length = cs.length := by
  have key := steps_regions (R := R) (C := fun i => NodeImpl.LinksIn (R i)) (Q := fun _ _ => True)
    (c := Config.ofClients h cs) (d := d) sep.disjoint (fun i p e => by
      simp only [Config.ofClients, List.getElem?_map, Option.map_eq_some_iff] at e
      obtain ⟨c, ec, rfl⟩ := e
      exact stays_client c (cf i c ec)) sep.closed st
  refine ⟨fun i p' e => ?_, key.2.1, key.2.2.1, key.2.2.2.1, by simpa [Config.ofClients] using key.2.2.2.2⟩
  obtain ⟨p, g, e1, e2, ag, s⟩ := key.1 i p' e
  simp only [Config.ofClients, List.getElem?_map, Option.map_eq_some_iff] at e1
  obtain ⟨c, ec, rfl⟩ := e1
  exact ⟨c, g, ec, e2, ag, s⟩

theorem run_ok_step {S : Type} {p : Prog S α} {h h' : Heap S} {a : α} (e : run p h = .ok a h') :
    p = .ret a ∨ ∃ p' h1, step1 p h = some (p', h1) := by
  cases p with
  | ret b => cases e; exact .inl rfl
  | lock n k =>
    refine .inr ⟨k, h.setHeld n true, ?_⟩
    simp only [run] at e
    split at e
    · cases e
    · rename_i nh; simp only [step1, nh]; rfl
  | unlock n k => exact .inr ⟨_, _, rfl⟩
  | read n k => exact .inr ⟨_, _, rfl⟩
  | write n f k => exact .inr ⟨_, _, rfl⟩
  | upgrade n k => exact .inr ⟨_, _, rfl⟩
  | alloc s k => exact .inr ⟨_, _, rfl⟩
  | panic m => cases e
  | diverge => cases e

/-- A thread that has finished has the result it would have alone, and has left its nodes as it would alone. -/
theorem C82_result (sep : Separate R h) (cf : ∀ i (c : Client T α), cs[i]? = some c → c.Confined (R i))
    {d : Config (NodeImpl T) α} (st : Steps (Config.ofClients h cs) d) (i : Nat) (c : Client T α)
    (hc : cs[i]? = some c) (a : α) (e : d.threads[i]? = some (.ret a)) :
    ∃ g, run c.prog h = .ok a g ∧ Agree (R i) g d.heap := by
  obtain ⟨c', g, ec, er, ag, -⟩ := (regions sep cf st).1 i _ e
  obtain rfl : c' = c := by rw [hc] at ec; exact (Option.some.inj ec).symm
  exact ⟨g, er, ag⟩

/-- A thread that has panicked panics alone, too. -/
theorem C82_panic (sep : Separate R h) (cf : ∀ i (c : Client T α), cs[i]? = some c → c.Confined (R i))
    {d : Config (NodeImpl T) α} (st : Steps (Config.ofClients h cs) d) (i : Nat) (c : Client T α)
    (hc : cs[i]? = some c) (m : String) (e : d.threads[i]? = some (.panic m)) :
    ∃ g, run c.prog h = .panic m g ∧ Agree (R i) g d.heap := by
  obtain ⟨c', g, ec, er, ag, -⟩ := (regions sep cf st).1 i _ e
  obtain rfl : c' = c := by rw [hc] at ec; exact (Option.some.inj ec).symm
  exact ⟨g, er, ag⟩

/-- A thread never waits for another one: if it returns alone, then at every moment it has finished or can make
its next step. -/
theorem C82_progress (sep : Separate R h) (cf : ∀ i (c : Client T α), cs[i]? = some c → c.Confined (R i))
    {d : Config (NodeImpl T) α} (st : Steps (Config.ofClients h cs) d) (i : Nat) (c : Client T α)
    (hc : cs[i]? = some c) (a : α) (g : KHeap T) (e : run c.prog h = .ok a g) :
    d.threads[i]? = some (.ret a) ∨
      ∃ p p' h', d.threads[i]? = some p ∧ step1 p d.heap = some (p', h') := by
  obtain ⟨th, inv, -, -, len⟩ := regions sep cf st
  have lt : i < d.threads.length := by rw [len]; exact (List.getElem?_eq_some_iff.1 hc).1
  obtain ⟨c', g', ec, er, ag, sp⟩ := th i _ (List.getElem?_eq_getElem lt)
  obtain rfl : c' = c := by rw [hc] at ec; exact (Option.some.inj ec).symm
  rw [e] at er
  have ok := (sp.run_agree (h := g') (g := d.heap) (fun n hn => by rw [← ag.get n hn]; exact inv i n hn) ag).1
    a g er.symm
  obtain ⟨g2, ok, -⟩ := ok
  rw [List.getElem?_eq_getElem lt]
  rcases run_ok_step ok with x | ⟨p', h', x⟩
  · exact .inl (by rw [x])
  · exact .inr ⟨_, p', h', rfl, x⟩

/-- If every thread returns alone, then every execution so far can be completed, with these results. -/
theorem C82_finish (sep : Separate R h) (cf : ∀ i (c : Client T α), cs[i]? = some c → c.Confined (R i))
    (as : Nat → α) (al : ∀ i (c : Client T α), cs[i]? = some c → ∃ g, run c.prog h = .ok (as i) g)
    {d : Config (NodeImpl T) α} (st : Steps (Config.ofClients h cs) d) :
    ∃ e, Steps d e ∧ ∀ i < cs.length, e.threads[i]? = some (.ret (as i)) := by
  suffices ∀ k ≤ cs.length, ∃ e, Steps d e ∧ ∀ i < k, e.threads[i]? = some (.ret (as i)) from
    this _ le_rfl
  intro k
  induction k with
  | zero => exact fun _ => ⟨d, .refl _, fun i lt => absurd lt (Nat.not_lt_zero i)⟩
  | succ k ih =>
    intro le
    obtain ⟨e, se, done⟩ := ih (by omega)
    obtain ⟨th, inv, -, -, len⟩ := regions sep cf (st.trans se)
    have lt : k < e.threads.length := by omega
    obtain ⟨c, g, ec, er, ag, sp⟩ := th k _ (List.getElem?_eq_getElem lt)
    obtain ⟨g1, e1⟩ := al k c ec
    rw [e1] at er
    obtain ⟨g2, ok, -⟩ := (sp.run_agree (h := g) (g := e.heap)
      (fun n hn => by rw [← ag.get n hn]; exact inv k n hn) ag).1 _ _ er.symm
    have b : e.threads[k]? = some (e.threads[k] >>= Prog.ret) := by
      rw [List.getElem?_eq_getElem lt]
      congr 1
      generalize e.threads[k] = p
      show p = p.bind Prog.ret
      induction p with
      | ret a => rfl
      | panic m => rfl
      | diverge => rfl
      | lock n k ih => simp only [Prog.bind, ← ih]
      | unlock n k ih => simp only [Prog.bind, ← ih]
      | read n k ih => simp only [Prog.bind, ← ih]
      | write n f k ih => simp only [Prog.bind, ← ih]
      | upgrade n k ih => simp only [Prog.bind, ← ih]
      | alloc s k ih => simp only [Prog.bind, ← ih]
    refine ⟨_, se.trans (steps_run ok b), fun i hi => ?_⟩
    by_cases ik : i = k
    · subst ik; simp [lt]
    · show (e.threads.set k _)[i]? = _
      rw [List.getElem?_set_ne (Ne.symm ik)]; exact done i (by omega)

/-- Two executions in which all threads have finished end in the same results and the same memory. -/
theorem C82_deterministic (sep : Separate R h) (cf : ∀ i (c : Client T α), cs[i]? = some c → c.Confined (R i))
    {d e : Config (NodeImpl T) α} (sd : Steps (Config.ofClients h cs) d) (se : Steps (Config.ofClients h cs) e)
    (dd : ∀ p ∈ d.threads, ∃ a, p = .ret a) (de : ∀ p ∈ e.threads, ∃ a, p = .ret a) : d = e := by
  obtain ⟨td, -, od, nd, ld⟩ := regions sep cf sd
  obtain ⟨te, -, oe, ne, le⟩ := regions sep cf se
  have both : ∀ i, i < cs.length → ∃ a g, d.threads[i]? = some (.ret a) ∧ e.threads[i]? = some (.ret a) ∧
      Agree (R i) g d.heap ∧ Agree (R i) g e.heap := by
    intro i lt
    have ltd : i < d.threads.length := by omega
    have lte : i < e.threads.length := by omega
    obtain ⟨a, ea⟩ := dd _ (List.getElem_mem ltd)
    obtain ⟨b, eb⟩ := de _ (List.getElem_mem lte)
    have ha : d.threads[i]? = some (.ret a) := by rw [List.getElem?_eq_getElem ltd, ea]
    have hb : e.threads[i]? = some (.ret b) := by rw [List.getElem?_eq_getElem lte, eb]
    obtain ⟨c, g, ec, er, ag, -⟩ := td i _ ha
    obtain ⟨c', g', ec', er', ag', -⟩ := te i _ hb
    obtain rfl : c = c' := Option.some.inj (ec.symm.trans ec')
    have := er.symm.trans er'
    simp only [run, Res.ok.injEq] at this
    obtain ⟨rfl, rfl⟩ := this
    exact ⟨a, g, ha, hb, ag, ag'⟩
  have ths : d.threads = e.threads := by
    apply List.ext_getElem?
    intro i
    by_cases lt : i < cs.length
    · obtain ⟨a, g, ha, hb, -⟩ := both i lt; rw [ha, hb]
    · rw [List.getElem?_eq_none (by omega), List.getElem?_eq_none (by omega)]
  -- a region without a thread is left alone as well
  have reg : ∀ n, (∃ i, i < cs.length ∧ R i n) → d.heap.get n = e.heap.get n ∧ d.heap.held n = e.heap.held n ∧
      d.heap.dead n = e.heap.dead n := by
    rintro n ⟨i, lt, hn⟩
    obtain ⟨a, g, -, -, x, y⟩ := both i lt
    exact ⟨(x.get n hn).trans (y.get n hn).symm, (x.held n hn).trans (y.held n hn).symm,
      (x.dead n hn).trans (y.dead n hn).symm⟩
  have sep' : Separate (fun i n => i < cs.length ∧ R i n) h := by
    refine ⟨fun i j n ij hi hj => sep.disjoint i j n ij hi.2 hj.2, fun i n hn => ?_⟩
    obtain ⟨a, b, c, f⟩ := sep.closed i n hn.2
    exact ⟨fun p e => ⟨hn.1, a p e⟩, fun p e => ⟨hn.1, b p e⟩, fun p e => ⟨hn.1, c p e⟩, fun p e => ⟨hn.1, f p e⟩⟩
  have cf' : ∀ i (c : Client T α), cs[i]? = some c → c.Confined (fun n => i < cs.length ∧ R i n) := by
    intro i c hc
    have : (fun n => i < cs.length ∧ R i n) = R i := by
      funext n; simp [(List.getElem?_eq_some_iff.1 hc).1]
    rw [this]; exact cf i c hc
  obtain ⟨-, -, od, -, -⟩ := regions sep' cf' sd
  obtain ⟨-, -, oe, -, -⟩ := regions sep' cf' se
  have all : ∀ n, d.heap.get n = e.heap.get n ∧ d.heap.held n = e.heap.held n ∧
      d.heap.dead n = e.heap.dead n := by
    intro n
    by_cases ex : ∃ i, i < cs.length ∧ R i n
    · exact reg n ex
    · push Not at ex
      have out : ∀ i, ¬ (i < cs.length ∧ R i n) := fun i x => ex i x.1 x.2
      exact ⟨(od.get n out).trans (oe.get n out).symm, (od.held n out).trans (oe.held n out).symm,
        (od.dead n out).trans (oe.dead n out).symm⟩
  obtain ⟨⟨dg, dn, ddd, dh⟩, dt⟩ := d
  obtain ⟨⟨eg, en, edd, eh⟩, et⟩ := e
  simp only at ths nd ne all
  obtain rfl : dt = et := ths
  obtain rfl : dg = eg := funext fun n => (all n).1
  obtain rfl : dh = eh := funext fun n => (all n).2.1
  obtain rfl : ddd = edd := funext fun n => (all n).2.2
  obtain rfl : dn = en := nd.trans ne.symm
  rfl

/-- A node that belongs to no thread is not touched, no node is created, and the threads stay separate. -/
theorem C82_outside (sep : Separate R h) (cf : ∀ i (c : Client T α), cs[i]? = some c → c.Confined (R i))
    {d : Config (NodeImpl T) α} (st : Steps (Config.ofClients h cs) d) :
    (∀ n, (∀ i, ¬ R i n) → d.heap.get n = h.get n ∧ d.heap.held n = h.held n ∧ d.heap.dead n = h.dead n) ∧
      d.heap.next = h.next ∧ Separate R d.heap := by
  obtain ⟨-, inv, out, nx, -⟩ := regions sep cf st
  exact ⟨fun n hn => ⟨out.get n hn, out.held n hn, out.dead n hn⟩, nx, sep.disjoint, inv⟩

/-- All this holds with poisoned mutexes, too.  A thread whose program does not panic alone does not panic, finds
none of its mutexes poisoned and gets what it gets alone, whatever other threads panic and poison. -/
theorem C82_poison (sep : Separate R h) (cf : ∀ i (c : Client T α), cs[i]? = some c → c.Confined (R i))
    {d : PConfig (NodeImpl T) α} (st : PSteps (.init (Config.ofClients h cs)) d) (i : Nat) (c : Client T α)
    (hc : cs[i]? = some c) :
    (∀ a, d.threads[i]? = some (.ret a) → ∃ g, run c.prog h = .ok a g ∧ Agree (R i) g d.heap) ∧
      (∀ m, d.threads[i]? = some (.panic m) → ∃ g, run c.prog h = .panic m g) ∧
      (∀ n, R i n → d.poisoned n = true → ∃ m, d.threads[i]? = some (.panic m)) ∧
      ∀ a g, run c.prog h = .ok a g → d.threads[i]? = some (.ret a) ∨ ∃ p p' h',
        d.threads[i]? = some p ∧ step1 p d.heap = some (p', h') ∧ ∀ n k, p = .lock n k → d.poisoned n = false := by
  have key := psteps_regions (R := R) (C := fun i => NodeImpl.LinksIn (R i)) (Q := fun _ _ => True)
    (c := Config.ofClients h cs) (d := d) sep.disjoint (fun i p e => by
      simp only [Config.ofClients, List.getElem?_map, Option.map_eq_some_iff] at e
      obtain ⟨c, ec, rfl⟩ := e
      exact stays_client c (cf i c ec)) sep.closed st
  obtain ⟨th, inv, -, -, -, -, len⟩ := key
  have th : ∀ p', d.threads[i]? = some p' → ∃ g, run c.prog h = run p' g ∧
      Stays (R i) (R i) (NodeImpl.LinksIn (R i)) (fun _ => True) p' ∧
      ((Agree (R i) g d.heap ∧ ∀ n, R i n → d.poisoned n = false) ∨ ∃ m, p' = .panic m) := by
    intro p' e
    obtain ⟨p, g, e1, e2, s, x⟩ := th i p' e
    simp only [Config.ofClients, List.getElem?_map, hc, Option.map_some, Option.some.injEq] at e1
    subst e1
    exact ⟨g, e2, s, x⟩
  have lt : i < d.threads.length := by
    rw [len]; simpa [Config.ofClients] using (List.getElem?_eq_some_iff.1 hc).1
  refine ⟨fun a e => ?_, fun m e => ?_, fun n hn bad => ?_, fun a g e => ?_⟩
  · obtain ⟨g, er, -, x | ⟨m, x⟩⟩ := th _ e
    · exact ⟨g, er, x.1⟩
    · cases x
  · obtain ⟨g, er, -⟩ := th _ e
    exact ⟨g, er⟩
  · obtain ⟨g, er, -, x | ⟨m, x⟩⟩ := th _ (List.getElem?_eq_getElem lt)
    · rw [x.2 n hn] at bad; cases bad
    · exact ⟨m, by rw [List.getElem?_eq_getElem lt, x]⟩
  · obtain ⟨g', er, sp, x⟩ := th _ (List.getElem?_eq_getElem lt)
    rw [e] at er
    rcases x with ⟨ag, po⟩ | ⟨m, x⟩
    · obtain ⟨g2, ok, -⟩ := (sp.run_agree (h := g') (g := d.heap)
        (fun n hn => by rw [← ag.get n hn]; exact inv i n hn) ag).1 a g er.symm
      rw [List.getElem?_eq_getElem lt]
      rcases run_ok_step ok with x | ⟨p', h', x⟩
      · exact .inl (by rw [x])
      · refine .inr ⟨_, p', h', rfl, x, fun n k e => po n ?_⟩
        rw [e] at sp; exact sp.1
    · rw [x] at er; cases er

/-! ## Two robots -/

/-- two rails of two sliders each: nodes 0 and 1, nodes 2 and 3 -/
noncomputable def twoRails (p0 p1 p2 p3 : ℝ) : KHeap ℝ :=
  { get := fun n =>
      if n = 0 then { NodeImpl.fresh (slider "a" none p0) with children := [1] }
      else if n = 1 then { NodeImpl.fresh (slider "b" none p1) with parent := some 0 }
      else if n = 2 then { NodeImpl.fresh (slider "c" none p2) with children := [3] }
      else { NodeImpl.fresh (slider "d" none p3) with parent := some 2 }
    next := 4, dead := fun _ => false, held := fun _ => false }

/-- the nodes of the two rails -/
def twoRegions (i n : Nat) : Prop := if i = 0 then n = 0 ∨ n = 1 else i = 1 ∧ (n = 2 ∨ n = 3)

theorem twoRails_separate (p0 p1 p2 p3 : ℝ) : Separate twoRegions (twoRails p0 p1 p2 p3) := by
  constructor
  · intro i j n ij hi hj
    unfold twoRegions at hi hj
    split at hi <;> split at hj <;> omega
  · intro i n hn
    unfold twoRegions at hn
    split at hn
    · rename_i e
      rcases hn with rfl | rfl <;> constructor <;> simp [twoRails, NodeImpl.fresh, twoRegions, e]
    · rename_i e
      obtain ⟨rfl, rfl | rfl⟩ := hn <;> constructor <;> simp [twoRails, NodeImpl.fresh, twoRegions]

/-- one thread solves for the first rail, with any solver, target and constraints -/
noncomputable def solveThread (s : IkSolver ℝ) (t : Iso ℝ) (con : Constraints) : Client ℝ (Option ℝ) :=
  .call (.solve s arm2 t con) fun _ => .done none
/-- the other one moves the second rail and reads where it is -/
noncomputable def moveThread (x : ℝ) : Client ℝ (Option ℝ) :=
  .call (.setJointPosition 2 x) fun _ => .call (.jointPosition 2) fun r => .done r

/-- What a thread reads that has just set its own joint is what it has set, however the solver in the other
thread moves its arm meanwhile — also when the solver panics or never finishes. -/
example (s : IkSolver ℝ) (t : Iso ℝ) (con : Constraints) (p0 p1 p2 p3 x : ℝ)
    (d : Config (NodeImpl ℝ) (Option ℝ)) (r : Option ℝ)
    (st : Steps (Config.ofClients (twoRails p0 p1 p2 p3) [solveThread s t con, moveThread x]) d)
    (e : d.threads[1]? = some (.ret r)) : r = some x := by
  have cf : ∀ i (c : Client ℝ (Option ℝ)), [solveThread s t con, moveThread x][i]? = some c → c.Confined (twoRegions i) := by
    intro i c hc
    match i, hc with
    | 0, hc =>
      cases hc
      exact ⟨⟨by simp [arm2, twoRegions], by simp [arm2, twoRegions]⟩, fun _ _ => trivial⟩
    | 1, hc =>
      cases hc
      exact ⟨by simp [Call.In, twoRegions], fun _ _ => ⟨by simp [Call.In, twoRegions], fun _ _ => trivial⟩⟩
  obtain ⟨g, er, -⟩ := C82_result (twoRails_separate p0 p1 p2 p3) cf st 1 (moveThread x) rfl r e
  have wf : MimicWF (twoRails p0 p1 p2 p3) := by
    intro m c hc
    simp only [twoRails] at hc
    split at hc
    · cases hc
    · split at hc
      · cases hc
      · split at hc <;> cases hc
  have s2 : setPos 2 x (twoRails p0 p1 p2 p3) = (.ok (), (twoRails p0 p1 p2 p3).setJoint 2 x) := rfl
  have : run (moveThread x).prog (twoRails p0 p1 p2 p3) = .ok (some x) ((twoRails p0 p1 p2 p3).setJoint 2 x) := by
    simp only [moveThread, Client.prog, Call.prog, run_bind,
      run_setJointPosition 2 x (twoRails p0 p1 p2 p3) (fun _ => rfl) wf, Res.bind_ok, s2,
      run_Node_jointPosition 2 ((twoRails p0 p1 p2 p3).setJoint 2 x) rfl]
    rfl
  rw [this] at er
  cases er; rfl

/-- **A mimic link between the robots breaks this.**  Node 0 mimics node 1; one thread sets node 1, the other
one reads node 0: what it reads depends on the schedule, although the threads use different handles. -/
theorem C82_links_needed : ∃ (h : KHeap ℝ) (cs : List (Client ℝ (Option ℝ))) (R : Nat → NodeId → Prop),
    (∀ i j n, i ≠ j → R i n → ¬ R j n) ∧ (∀ i (c : Client ℝ (Option ℝ)), cs[i]? = some c → c.Confined (R i)) ∧
    ∃ d e, Steps (Config.ofClients h cs) d ∧ Steps (Config.ofClients h cs) e ∧
      d.threads[1]? = some (.ret (some 0)) ∧ e.threads[1]? = some (.ret (some 1)) := by
  let h : KHeap ℝ := railMimic none none 0 0
  let a : Client ℝ (Option ℝ) := .call (.setJointPosition 1 1) fun _ => .done none
  let b : Client ℝ (Option ℝ) := .call (.jointPosition 0) fun r => .done r
  have wf : MimicWF h := by
    intro m c hc
    simp only [h, railMimic] at hc
    split at hc
    · cases hc
    · split at hc
      · obtain rfl : c = 0 := by simpa using hc
        exact ⟨rfl, rfl⟩
      · cases hc
  have r1 : run (Node.jointPosition 0) h = .ok (some 0) h := run_Node_jointPosition 0 h rfl
  have r2 := run_setJointPosition 1 (1 : ℝ) h (fun _ => rfl) wf
  have r3 : run (Node.jointPosition 0) (setPos 1 (1 : ℝ) h).2 = .ok (some 1) (setPos 1 (1 : ℝ) h).2 := by
    rw [run_Node_jointPosition 0 _ rfl]
    congr 1
    show some ((1 : ℝ) * 1 + 0) = some 1
    norm_num
  refine ⟨h, [a, b], fun i n => (i = 0 ∧ n = 1) ∨ (i = 1 ∧ n = 0), ?_, ?_, ?_⟩
  · intro i j n ij hi hj; omega
  · intro i c hc
    match i, hc with
    | 0, hc => cases hc; exact ⟨.inl ⟨rfl, rfl⟩, fun _ _ => trivial⟩
    | 1, hc => cases hc; exact ⟨.inr ⟨rfl, rfl⟩, fun _ _ => trivial⟩
  · exact ⟨_, _, steps_run (i := 1) (f := fun r => .ret r) r1 rfl,
      (steps_run (i := 0) (f := fun _ => .ret none) r2 rfl).trans
        (steps_run (i := 1) (f := fun r => .ret r) r3 rfl), rfl, rfl⟩

end K
