import Verif.Lemmas.SharedCalls
import Verif.Props.Region
/-!
# C93: threads that work on a robot with a common base

Every thread runs any client that changes its own nodes (an arm) only, and looks at these and at nodes common to all
threads (the base), whose world transforms have been computed before.  Then every interleaving gives each thread what it
would have got alone and leaves its nodes as it would have left them alone, although the threads lock the common nodes
and write their cached transforms again and again.  A thread may have to wait for a common node, but never for long: the
thread that holds it waits for nobody.
-/

set_option linter.unusedSectionVars false

namespace K
open Prog
variable {T α : Type} [Scalar T] {R : Nat → NodeId → Prop} {S : NodeId → Prop} {h : KHeap T} {cs : List (Client T α)}

private theorem begins (on : OnBase R S h) (wk : ∀ i (c : Client T α), cs[i]? = some c → c.Works (R i) S) :
    Begin R S h.get (fun i => NodeImpl.LinksUp (R i) S) (fun _ _ => True) (Config.ofClients h cs) where
  disjoint := on.disjoint
  own := on.own
  threads i p e := by
    simp only [Config.ofClients, List.getElem?_map, Option.map_eq_some_iff] at e
    obtain ⟨c, ec, rfl⟩ := e
    exact shares_client ⟨on.own i, on.parent, on.mimicParent, on.root, on.known⟩ c (wk i c ec)
  inv := on.links
  get _ _ := rfl
  dead := on.alive
  free := on.free

private theorem client {i : Nat} {c : Client T α} (hc : cs[i]? = some c) {p : Prog (NodeImpl T) α}
    (e : (Config.ofClients h cs).threads[i]? = some p) : p = c.prog := by
  simp only [Config.ofClients, List.getElem?_map, hc, Option.map_some, Option.some.injEq] at e
  exact e.symm

/-- A thread that has finished has the result it would have alone, and has left its nodes as it would alone. -/
theorem C93_result (on : OnBase R S h) (wk : ∀ i (c : Client T α), cs[i]? = some c → c.Works (R i) S)
    {d : Config (NodeImpl T) α} (st : Steps (Config.ofClients h cs) d) (i : Nat) (c : Client T α)
    (hc : cs[i]? = some c) (a : α) (e : d.threads[i]? = some (.ret a)) :
    ∃ g, run c.prog h = .ok a g ∧ Agree (R i) g d.heap := by
  obtain ⟨os, s⟩ := steps_shared (begins on wk) st
  obtain ⟨p, g, ep, er, al, -⟩ := s.threads i _ e
  rw [client hc ep] at er
  exact ⟨g, er, al.own⟩

/-- A thread that has panicked panics alone, too. -/
theorem C93_panic (on : OnBase R S h) (wk : ∀ i (c : Client T α), cs[i]? = some c → c.Works (R i) S)
    {d : Config (NodeImpl T) α} (st : Steps (Config.ofClients h cs) d) (i : Nat) (c : Client T α)
    (hc : cs[i]? = some c) (m : String) (e : d.threads[i]? = some (.panic m)) :
    ∃ g, run c.prog h = .panic m g ∧ Agree (R i) g d.heap := by
  obtain ⟨os, s⟩ := steps_shared (begins on wk) st
  obtain ⟨p, g, ep, er, al, -⟩ := s.threads i _ e
  rw [client hc ep] at er
  exact ⟨g, er, al.own⟩

/-- A thread that returns alone has finished, or can make its next step, or waits for a common node; in the last case
another thread holds the node and can make its next step, which is not to wait for another node. -/
theorem C93_progress (on : OnBase R S h) (wk : ∀ i (c : Client T α), cs[i]? = some c → c.Works (R i) S)
    {d : Config (NodeImpl T) α} (st : Steps (Config.ofClients h cs) d) (i : Nat) (c : Client T α)
    (hc : cs[i]? = some c) (a : α) (g : KHeap T) (e : run c.prog h = .ok a g) :
    d.threads[i]? = some (.ret a) ∨
      (∃ p p' h', d.threads[i]? = some p ∧ step1 p d.heap = some (p', h')) ∨
      ∃ n k j p p' h', S n ∧ d.threads[i]? = some (.lock n k) ∧ j ≠ i ∧ d.threads[j]? = some p ∧
        step1 p d.heap = some (p', h') ∧ p ≠ .diverge ∧ ∀ n k, p ≠ .lock n k := by
  obtain ⟨os, s⟩ := steps_shared (begins on wk) st
  have lt : i < d.threads.length := by
    rw [s.length]; simpa [Config.ofClients] using (List.getElem?_eq_some_iff.1 hc).1
  obtain ⟨p, g', ep, er, al, sq⟩ := s.threads i _ (List.getElem?_eq_getElem lt)
  rw [client hc ep] at er
  replace er := e.symm.trans er
  rw [List.getElem?_eq_getElem lt]
  generalize d.threads[i] = q at er sq
  rcases s.waits on.own i q er.symm al sq with x | x | ⟨n, k, j, p, p', h', sn, rfl, x⟩
  · exact .inl (by rw [x])
  · exact .inr (.inl ⟨q, x.choose, x.choose_spec.choose, rfl, x.choose_spec.choose_spec⟩)
  · exact .inr (.inr ⟨n, k, j, p, p', h', sn, rfl, x⟩)

/-- If every thread returns alone, then every execution so far can be completed, with these results. -/
theorem C93_finish (on : OnBase R S h) (wk : ∀ i (c : Client T α), cs[i]? = some c → c.Works (R i) S)
    (as : Nat → α) (al : ∀ i (c : Client T α), cs[i]? = some c → ∃ g, run c.prog h = .ok (as i) g)
    {d : Config (NodeImpl T) α} (st : Steps (Config.ofClients h cs) d) :
    ∃ e, Steps d e ∧ ∀ i < cs.length, e.threads[i]? = some (.ret (as i)) := by
  have b := begins on wk
  obtain ⟨os, s⟩ := steps_shared b st
  obtain ⟨d', os', sd, s', fr⟩ := s.releaseAll b
  suffices ∀ k ≤ cs.length, ∃ e, Steps d' e ∧ (∀ n, S n → e.heap.held n = false) ∧
      ∀ i < k, e.threads[i]? = some (.ret (as i)) by
    obtain ⟨e, se, -, x⟩ := this _ le_rfl
    exact ⟨e, sd.trans se, x⟩
  intro k
  induction k with
  | zero => exact fun _ => ⟨d', .refl _, fr, fun i lt => absurd lt (Nat.not_lt_zero i)⟩
  | succ k ih =>
    intro le
    obtain ⟨e, se, fe, done⟩ := ih (by omega)
    obtain ⟨os, s⟩ := steps_shared b ((st.trans sd).trans se)
    have len : e.threads.length = cs.length := by simpa [Config.ofClients] using s.length
    have lt : k < e.threads.length := by omega
    obtain ⟨p, g, ep, er, ag, sp⟩ := s.threads k _ (List.getElem?_eq_getElem lt)
    obtain ⟨c, ec⟩ : ∃ c, cs[k]? = some c := ⟨_, List.getElem?_eq_getElem (by omega)⟩
    rw [client ec ep] at er
    obtain ⟨g1, e1⟩ := al k c ec
    replace er := e1.symm.trans er
    have no : os k = none := by
      cases x : os k with
      | none => rfl
      | some n =>
        have := s.holds k n x
        rw [fe n this.1] at this; cases this.2.1
    have gf : ∀ n, S n → g.held n = false := fun n sn => by
      cases x : g.held n
      · rfl
      · have := (ag.held n sn).1 x; rw [no] at this; cases this
    obtain ⟨g2, ok, a2, free⟩ := sp.run_agree (h := g) (g := e.heap) (on.own k)
      (fun n hn => by rw [← ag.own.get n hn]; exact s.inv k n hn) ag.get ag.dead
      (fun n e => (s.holds k n e).1) (fun n sn => (ag.held n sn).1)
      ⟨fun n hn => hn.elim (ag.own.get n) fun sn => (s.get n sn).trans (ag.get n sn).symm,
        fun n hn => hn.elim (ag.own.held n) fun sn => (fe n sn).trans (gf n sn).symm,
        fun n hn => hn.elim (ag.own.dead n) fun sn => by rw [s.dead, ag.dead n sn]; exact on.alive n sn⟩ er.symm
    have b : e.threads[k]? = some (e.threads[k] >>= Prog.ret) := by
      rw [List.getElem?_eq_getElem lt]
      congr 1
      generalize e.threads[k] = p
      show p = p.bind Prog.ret
      induction p with
      | ret a => rfl
      | panic m => rfl
      | diverge => rfl
      | lock n k ih => simp only [Prog.bind, ← ih]
      | unlock n k ih => simp only [Prog.bind, ← ih]
      | read n k ih => simp only [Prog.bind, ← ih]
      | write n f k ih => simp only [Prog.bind, ← ih]
      | upgrade n k ih => simp only [Prog.bind, ← ih]
      | alloc s k ih => simp only [Prog.bind, ← ih]
    refine ⟨_, se.trans (steps_run ok b), fun n sn => (a2.held n (.inr sn)).trans (free n sn), fun i hi => ?_⟩
    by_cases ik : i = k
    · subst ik; simp [lt]
    · show (e.threads.set k _)[i]? = _
      rw [List.getElem?_set_ne (Ne.symm ik)]; exact done i (by omega)

/-- The common nodes stay as they are and alive, a node that belongs to nobody is not touched, no node is created and
none freed, and the links of the threads' nodes stay within their nodes and the common ones. -/
theorem C93_outside (on : OnBase R S h) (wk : ∀ i (c : Client T α), cs[i]? = some c → c.Works (R i) S)
    {d : Config (NodeImpl T) α} (st : Steps (Config.ofClients h cs) d) :
    (∀ n, S n → d.heap.get n = h.get n) ∧
      (∀ n, (∀ i, ¬ R i n) → ¬ S n → d.heap.get n = h.get n ∧ d.heap.held n = h.held n) ∧
      d.heap.dead = h.dead ∧ d.heap.next = h.next ∧ ∀ i n, R i n → (d.heap.get n).LinksUp (R i) S := by
  obtain ⟨os, s⟩ := steps_shared (begins on wk) st
  exact ⟨s.get, s.out, s.dead, s.next, s.inv⟩

private theorem OnBase.restrict (on : OnBase R S h) (k : Nat) : OnBase (fun i n => i < k ∧ R i n) S h where
  disjoint i j n ij hi hj := on.disjoint i j n ij hi.2 hj.2
  own i n hn := on.own i n hn.2
  links i n hn := by
    obtain ⟨a, b, c, f⟩ := on.links i n hn.2
    exact ⟨fun p e => (a p e).imp_left fun x => ⟨hn.1, x⟩, fun p e => ⟨hn.1, b p e⟩,
      fun p e => (c p e).imp_left fun x => ⟨hn.1, x⟩, fun p e => ⟨hn.1, f p e⟩⟩
  alive := on.alive
  free := on.free
  parent := on.parent
  mimicParent := on.mimicParent
  root := on.root
  known := on.known

/-- Two executions in which all threads have finished end in the same results and the same memory. -/
theorem C93_deterministic (on : OnBase R S h) (wk : ∀ i (c : Client T α), cs[i]? = some c → c.Works (R i) S)
    {d e : Config (NodeImpl T) α} (sd : Steps (Config.ofClients h cs) d) (se : Steps (Config.ofClients h cs) e)
    (dd : ∀ p ∈ d.threads, ∃ a, p = .ret a) (de : ∀ p ∈ e.threads, ∃ a, p = .ret a) : d = e := by
  have wk' : ∀ i (c : Client T α), cs[i]? = some c → c.Works (fun n => i < cs.length ∧ R i n) S := by
    intro i c hc
    have : (fun n => i < cs.length ∧ R i n) = R i := by
      funext n; simp [(List.getElem?_eq_some_iff.1 hc).1]
    rw [this]; exact wk i c hc
  have on' := on.restrict cs.length
  obtain ⟨os, s⟩ := steps_shared (begins on' wk') sd
  obtain ⟨os', s'⟩ := steps_shared (begins on' wk') se
  have ld : d.threads.length = cs.length := by simpa [Config.ofClients] using s.length
  have le : e.threads.length = cs.length := by simpa [Config.ofClients] using s'.length
  have both : ∀ i, i < cs.length → ∃ a g, d.threads[i]? = some (.ret a) ∧ e.threads[i]? = some (.ret a) ∧
      Agree (R i) g d.heap ∧ Agree (R i) g e.heap := by
    intro i lt
    obtain ⟨a, ea⟩ := dd _ (List.getElem_mem (by omega : i < d.threads.length))
    obtain ⟨b, eb⟩ := de _ (List.getElem_mem (by omega : i < e.threads.length))
    have ha : d.threads[i]? = some (.ret a) := by rw [List.getElem?_eq_getElem (by omega), ea]
    have hb : e.threads[i]? = some (.ret b) := by rw [List.getElem?_eq_getElem (by omega), eb]
    have ec : cs[i]? = some cs[i] := List.getElem?_eq_getElem lt
    obtain ⟨g, er, ag⟩ := C93_result on wk sd i _ ec a ha
    obtain ⟨g', er', ag'⟩ := C93_result on wk se i _ ec b hb
    have := er.symm.trans er'
    simp only [Res.ok.injEq] at this
    obtain ⟨rfl, rfl⟩ := this
    exact ⟨a, g, ha, hb, ag, ag'⟩
  have ths : d.threads = e.threads := by
    apply List.ext_getElem?
    intro i
    by_cases lt : i < cs.length
    · obtain ⟨a, g, ha, hb, -⟩ := both i lt; rw [ha, hb]
    · rw [List.getElem?_eq_none (by omega), List.getElem?_eq_none (by omega)]
  have all : ∀ n, d.heap.get n = e.heap.get n ∧ d.heap.held n = e.heap.held n := by
    intro n
    by_cases sn : S n
    · exact ⟨(s.get n sn).trans (s'.get n sn).symm, (s.idle dd n sn).trans (s'.idle de n sn).symm⟩
    · by_cases ex : ∃ i, i < cs.length ∧ R i n
      · obtain ⟨i, lt, hn⟩ := ex
        obtain ⟨a, g, -, -, x, y⟩ := both i lt
        exact ⟨(x.get n hn).trans (y.get n hn).symm, (x.held n hn).trans (y.held n hn).symm⟩
      · push Not at ex
        have o1 := s.out n (fun i x => ex i x.1 x.2) sn
        have o2 := s'.out n (fun i x => ex i x.1 x.2) sn
        exact ⟨o1.1.trans o2.1.symm, o1.2.trans o2.2.symm⟩
  have nx := s.next.trans s'.next.symm
  have dead := s.dead.trans s'.dead.symm
  obtain ⟨⟨dg, dn, ddd, dh⟩, dt⟩ := d
  obtain ⟨⟨eg, en, edd, eh⟩, et⟩ := e
  simp only at ths all nx dead
  obtain rfl : dt = et := ths
  obtain rfl : dg = eg := funext fun n => (all n).1
  obtain rfl : dh = eh := funext fun n => (all n).2
  obtain rfl : ddd = edd := dead
  obtain rfl : dn = en := nx
  rfl

/-- All this holds with poisoned mutexes, too: no mutex of a common node is ever poisoned, and one of a thread's own
nodes only if this thread panics, as it does alone.  A thread whose program does not panic alone gets what it gets alone,
whatever other threads panic. -/
theorem C93_poison (on : OnBase R S h) (wk : ∀ i (c : Client T α), cs[i]? = some c → c.Works (R i) S)
    {d : PConfig (NodeImpl T) α} (st : PSteps (.init (Config.ofClients h cs)) d) (i : Nat) (c : Client T α)
    (hc : cs[i]? = some c) :
    (∀ a, d.threads[i]? = some (.ret a) → ∃ g, run c.prog h = .ok a g ∧ Agree (R i) g d.heap) ∧
      (∀ m, d.threads[i]? = some (.panic m) → ∃ g, run c.prog h = .panic m g) ∧
      (∀ n, S n → d.poisoned n = false) ∧
      (∀ n, R i n → d.poisoned n = true → ∃ m, d.threads[i]? = some (.panic m)) ∧
      ∀ a g, run c.prog h = .ok a g → d.threads[i]? = some (.ret a) ∨
        (∃ p p' h', d.threads[i]? = some p ∧ step1 p d.heap = some (p', h') ∧
          ∀ n k, p = .lock n k → d.poisoned n = false) ∨
        ∃ n k j p p' h', S n ∧ d.threads[i]? = some (.lock n k) ∧ j ≠ i ∧ d.threads[j]? = some p ∧
          step1 p d.heap = some (p', h') ∧ p ≠ .diverge ∧ ∀ n k, p ≠ .lock n k := by
  obtain ⟨e, os, se, s, u⟩ := psteps_shared (begins on wk) st
  have len : e.threads.length = cs.length := by simpa [Config.ofClients] using s.length
  have lt : i < e.threads.length := by rw [len]; exact (List.getElem?_eq_some_iff.1 hc).1
  have fine : (∀ m, e.threads[i]? ≠ some (.panic m)) → ∀ n, InSight (R i) S n →
      d.heap.held n = e.heap.held n ∧ d.poisoned n = false := by
    intro np n hn
    by_contra bad
    have : d.heap.held n ≠ e.heap.held n ∨ d.poisoned n = true := by
      by_cases x : d.heap.held n = e.heap.held n
      · refine .inr ?_
        cases y : d.poisoned n
        · exact absurd ⟨x, y⟩ bad
        · rfl
      · exact .inl x
    obtain ⟨j, m, rj, ej⟩ := u.odd n this
    rcases hn with hn | hn
    · by_cases ij : i = j
      · subst ij; exact np m ej
      · exact on.disjoint i j n ij hn rj
    · exact on.own j n rj hn
  rw [u.threads]
  refine ⟨fun a x => ?_, fun m x => ?_, fun n sn => ?_, fun n rn bad => ?_, fun a g x => ?_⟩
  · obtain ⟨g, er, ag⟩ := C93_result on wk se i c hc a x
    refine ⟨g, er, fun n hn => ?_, fun n hn => ?_, fun n hn => ?_⟩
    · rw [u.get]; exact ag.get n hn
    · rw [(fine (fun m y => by rw [x] at y; cases y) n (.inl hn)).1]; exact ag.held n hn
    · rw [u.dead]; exact ag.dead n hn
  · obtain ⟨g, er, -⟩ := C93_panic on wk se i c hc m x
    exact ⟨g, er⟩
  · by_contra bad
    obtain ⟨j, m, rj, -⟩ := u.odd n (.inr (by simpa using bad))
    exact on.own j n rj sn
  · obtain ⟨j, m, rj, ej⟩ := u.odd n (.inr bad)
    by_cases ij : i = j
    · subst ij; exact ⟨m, ej⟩
    · exact absurd rj (on.disjoint i j n ij rn)
  · have np : ∀ m, e.threads[i]? ≠ some (.panic m) := fun m y => by
      obtain ⟨g', er, -⟩ := C93_panic on wk se i c hc m y
      rw [x] at er; cases er
    have fine := fine np
    obtain ⟨p, g', ep, er, al, sq⟩ := s.threads i _ (List.getElem?_eq_getElem lt)
    rw [client hc ep] at er
    replace er := x.symm.trans er
    rw [List.getElem?_eq_getElem lt]
    generalize e.threads[i] = q at er sq
    rcases s.waits on.own i q er.symm al sq with y | ⟨p', h', y⟩ | ⟨n, k, j, p, p', h', sn, rfl, ji, ej, y, nd, nl⟩
    · exact .inl (by rw [y])
    · refine .inr (.inl ?_)
      cases q with
      | ret a => cases y
      | panic m => cases y
      | diverge => cases er
      | alloc s k => exact sq.elim
      | lock n k =>
        have sn : InSight (R i) S n := sq.2.imp And.left And.left
        simp only [step1] at y
        split at y
        · cases y
        · rename_i hf
          refine ⟨_, k, d.heap.setHeld n true, rfl, ?_, fun n' k' e' => ?_⟩
          · simp only [step1, (fine n sn).1, hf]; rfl
          · cases e'; exact (fine n sn).2
      | unlock n k => exact ⟨_, _, _, rfl, rfl, (fun n' k' e' => by cases e')⟩
      | read n k => exact ⟨_, _, _, rfl, rfl, (fun n' k' e' => by cases e')⟩
      | write n f k => exact ⟨_, _, _, rfl, rfl, (fun n' k' e' => by cases e')⟩
      | upgrade n k => exact ⟨_, _, _, rfl, rfl, (fun n' k' e' => by cases e')⟩
    · have : ∃ p'' h'', step1 p d.heap = some (p'', h'') := by
        cases p with
        | ret a => cases y
        | panic m => cases y
        | diverge => exact absurd rfl nd
        | lock n k => exact absurd rfl (nl n k)
        | alloc s k => exact ⟨_, _, rfl⟩
        | unlock n k => exact ⟨_, _, rfl⟩
        | read n k => exact ⟨_, _, rfl⟩
        | write n f k => exact ⟨_, _, rfl⟩
        | upgrade n k => exact ⟨_, _, rfl⟩
      obtain ⟨p'', h'', z⟩ := this
      exact .inr (.inr ⟨n, k, j, p, p'', h'', sn, rfl, ji, ej, z, nd, nl⟩)

/-! ## A robot with two arms -/

/-- the fixed joint that carries both arms, `z` above the ground -/
noncomputable def torso (z : ℝ) : Joint ℝ :=
  { Joint.new "torso" .fixed with origin := ⟨⟨0, 0, z⟩, Quat.one⟩ }

/-- a torso (node 0) with two arms of two sliders each: nodes 1 and 2, nodes 3 and 4 -/
noncomputable def twoArms (z : ℝ) (cache : Option (Iso ℝ)) (p1 p2 p3 p4 : ℝ) : KHeap ℝ :=
  { get := fun n =>
      if n = 0 then { NodeImpl.fresh ({ torso z with worldTransformCache := cache } : Joint ℝ) with children := [1, 3] }
      else if n = 1 then { NodeImpl.fresh (slider "a" none p1) with parent := some 0, children := [2] }
      else if n = 2 then { NodeImpl.fresh (slider "b" none p2) with parent := some 1 }
      else if n = 3 then { NodeImpl.fresh (slider "c" none p3) with parent := some 0, children := [4] }
      else { NodeImpl.fresh (slider "d" none p4) with parent := some 3 }
    next := 5, dead := fun _ => false, held := fun _ => false }

/-- the transform of the torso in the world -/
noncomputable def torsoWorld (z : ℝ) : Iso ℝ := Iso.one.mul (torso z).localTransform

/-- the nodes of the two arms -/
def armNodes (i n : Nat) : Prop := if i = 0 then n = 1 ∨ n = 2 else i = 1 ∧ (n = 3 ∨ n = 4)

/-- the arms, from the torso on -/
def leftArm : Chain := ⟨[0, 1, 2], [1, 2], 2⟩
def rightArm : Chain := ⟨[0, 3, 4], [3, 4], 2⟩

theorem twoArms_onBase (z p1 p2 p3 p4 : ℝ) :
    OnBase armNodes (fun n => n = 0) (twoArms z (some (torsoWorld z)) p1 p2 p3 p4) where
  disjoint i j n ij hi hj := by
    unfold armNodes at hi hj
    split at hi <;> split at hj <;> omega
  own i n hi := by
    unfold armNodes at hi
    split at hi <;> omega
  links i n hn := by
    unfold armNodes at hn
    split at hn
    · rename_i e
      rcases hn with rfl | rfl <;> constructor <;> simp [twoArms, NodeImpl.fresh, armNodes, InSight, e]
    · rename_i e
      obtain ⟨rfl, rfl | rfl⟩ := hn <;> constructor <;> simp [twoArms, NodeImpl.fresh, armNodes, InSight]
  alive _ _ := rfl
  free _ _ := rfl
  parent n p hn e := by subst hn; cases e
  mimicParent n p hn e := by subst hn; cases e
  root n hn _ := by subst hn; rfl
  known n p hn e := by subst hn; cases e

/-- one thread solves for the left arm, with any solver, target and constraints -/
noncomputable def leftThread (s : IkSolver ℝ) (t : Iso ℝ) (con : Constraints) : Client ℝ (List (Iso ℝ)) :=
  .call (.solve s leftArm t con) fun _ => .done []
/-- the other one moves the right arm and computes where its nodes are -/
noncomputable def rightThread (x : ℝ) : Client ℝ (List (Iso ℝ)) :=
  .call (.setJointPosition 3 x) fun _ => .call (.updateTransforms rightArm) fun r => .done r

theorem arms_work (s : IkSolver ℝ) (t : Iso ℝ) (con : Constraints) (x : ℝ) (i : Nat) (c : Client ℝ (List (Iso ℝ)))
    (hc : [leftThread s t con, rightThread x][i]? = some c) : c.Works (armNodes i) (fun n => n = 0) := by
  match i, hc with
  | 0, hc =>
    cases hc
    exact ⟨⟨by simp [leftArm, armNodes, InSight], by simp [leftArm, armNodes]⟩, fun _ _ => trivial⟩
  | 1, hc =>
    cases hc
    exact ⟨by simp [Call.Uses, armNodes], fun _ _ => ⟨⟨by simp [rightArm, armNodes, InSight], by simp [rightArm, armNodes]⟩,
      fun _ _ => trivial⟩⟩

/-- The right arm is where the torso and its own joints put it, however the solver in the other thread moves the left
arm meanwhile — also when the solver panics.  Both threads lock the torso and write its cached transform. -/
example (s : IkSolver ℝ) (t : Iso ℝ) (con : Constraints) (z p1 p2 p3 p4 x : ℝ)
    (d : Config (NodeImpl ℝ) (List (Iso ℝ))) (r : List (Iso ℝ))
    (st : Steps (Config.ofClients (twoArms z (some (torsoWorld z)) p1 p2 p3 p4)
      [leftThread s t con, rightThread x]) d)
    (e : d.threads[1]? = some (.ret r)) :
    r = [torsoWorld z, (torsoWorld z).mul (slider "c" none x).localTransform,
      ((torsoWorld z).mul (slider "c" none x).localTransform).mul (slider "d" none p4).localTransform] := by
  obtain ⟨g, er, -⟩ := C93_result (twoArms_onBase z p1 p2 p3 p4) (arms_work s t con x) st 1 _ rfl r e
  have : ∃ g', run (rightThread x).prog (twoArms z (some (torsoWorld z)) p1 p2 p3 p4) =
      .ok [torsoWorld z, (torsoWorld z).mul (slider "c" none x).localTransform,
        ((torsoWorld z).mul (slider "c" none x).localTransform).mul (slider "d" none p4).localTransform] g' :=
    ⟨_, rfl⟩
  obtain ⟨g', e'⟩ := this
  rw [e'] at er
  cases er; rfl

/-- **The transform of the base has to be computed before.**  Otherwise one thread computes it and another one that asks
for it gets an answer that depends on the schedule. -/
theorem C93_known_needed : ∃ (h : KHeap ℝ) (R : Nat → NodeId → Prop) (S : NodeId → Prop)
    (cs : List (Client ℝ Bool)), (∀ i j n, i ≠ j → R i n → ¬ R j n) ∧ (∀ i n, R i n → ¬ S n) ∧
    (∀ i n, R i n → (h.get n).LinksUp (R i) S) ∧ (∀ n, h.dead n = false) ∧ (∀ n, h.held n = false) ∧
    (∀ n p, S n → (h.get n).parent = some p → S p) ∧ (∀ n p, S n → (h.get n).mimicParent = some p → S p) ∧
    (∀ i (c : Client ℝ Bool), cs[i]? = some c → c.Works (R i) S) ∧
    ∃ d e, Steps (Config.ofClients h cs) d ∧ Steps (Config.ofClients h cs) e ∧
      d.threads[1]? = some (.ret false) ∧ e.threads[1]? = some (.ret true) := by
  let h := twoArms 1 none 0 0 0 0
  let a : Client ℝ Bool := .call (.updateTransforms leftArm) fun _ => .done true
  let b : Client ℝ Bool := .call (.worldTransform 0) fun r => .done r.isSome
  have on := twoArms_onBase 1 0 0 0 0
  have r1 : run (Node.worldTransform 0) h = .ok none h := run_Node_worldTransform 0 h rfl
  have r2 : ∃ l g, run leftArm.updateTransforms h = .ok l g ∧
      run (Node.worldTransform 0) g = .ok (some (torsoWorld 1)) g :=
    ⟨_, _, rfl, run_Node_worldTransform 0 _ rfl⟩
  obtain ⟨l, g, r2, r3⟩ := r2
  refine ⟨h, armNodes, fun n => n = 0, [a, b], on.disjoint, on.own, ?_, fun _ => rfl, fun _ => rfl, ?_, ?_, ?_, ?_⟩
  · intro i n hn
    have := on.links i n hn
    have ne : n ≠ 0 := fun e => on.own i n hn e
    simpa [h, twoArms, ne] using this
  · intro n p hn e; subst hn; cases e
  · intro n p hn e; subst hn; cases e
  · intro i c hc
    match i, hc with
    | 0, hc =>
      cases hc
      exact ⟨⟨by simp [leftArm, armNodes, InSight], by simp [leftArm, armNodes]⟩, fun _ _ => trivial⟩
    | 1, hc => cases hc; exact ⟨.inr rfl, fun _ _ => trivial⟩
  · exact ⟨_, _, steps_run (i := 1) (f := fun r => .ret r.isSome) r1 rfl,
      (steps_run (i := 0) (f := fun _ => .ret true) r2 rfl).trans
        (steps_run (i := 1) (f := fun r => .ret r.isSome) r3 rfl), rfl, rfl⟩

end K
