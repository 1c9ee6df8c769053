import Verif.Lemmas.Jammed
import Verif.Props.MimicShared
import Verif.Props.Limits
import Verif.Props.Watch
/-!
# C108: poisoning shows nothing that was not there before
-/

set_option linter.unusedSectionVars false

namespace K
open Prog
variable {T : Type} [Scalar T] {α : Type}

/-- Take any execution with poisoning, of any client threads, with nodes freed at any moments. There is an execution
without poisoning that ends with the same content of all nodes and with every thread at the same place, except that the
threads that got a `PoisonError` still wait for the mutex that is poisoned, and that the poisoned mutexes are still
held. -/
theorem C108_execution (h : KHeap T) (u : h.Unlocked) (ts : List (Client T α)) (d : PConfig (NodeImpl T) α)
    (st : PDSteps (.init (start h ts)) d) :
    ∃ e, DSteps (start h ts) e ∧ e.heap.SameNodes d.heap ∧
      (∀ n, e.heap.held n = true ↔ d.heap.held n = true ∨ d.poisoned n = true) ∧
      e.threads.length = d.threads.length ∧
      ∀ (i : Nat) (p : KProg T α), d.threads[i]? = some p → e.threads[i]? = some p ∨
        (p = .panic "PoisonError" ∧ ∃ n k, e.threads[i]? = some (Prog.lock n k) ∧ d.poisoned n = true) := by
  obtain ⟨e, se, w⟩ := (Jammed.start u ts).steps st
  exact ⟨e, se, w.same, fun n => by rw [w.held n]; simp, w.length, fun i p hi => (w.thread i p hi).2⟩

/-- And every execution without poisoning is one with poisoning, in which the panicking threads have not yet dropped
their guards. -/
theorem C108_back (h : KHeap T) (ts : List (Client T α)) (e : Config (NodeImpl T) α) (st : DSteps (start h ts) e) :
    ∃ d, PDSteps (.init (start h ts)) d ∧ d.plain = e ∧ ∀ n, d.poisoned n = false := by
  obtain ⟨o, ps⟩ := DSteps.lift st (fun _ => none)
  exact ⟨_, ps, rfl, fun _ => rfl⟩

/-- So whatever holds of the content of the nodes in all executions without poisoning, holds in all executions with
poisoning. -/
theorem C108_nodes (h : KHeap T) (u : h.Unlocked) (ts : List (Client T α)) (I : (NodeId → NodeImpl T) → Prop)
    (inv : ∀ e, DSteps (start h ts) e → I e.heap.get) (d : PConfig (NodeImpl T) α)
    (st : PDSteps (.init (start h ts)) d) : I d.heap.get := by
  obtain ⟨e, se, s, -⟩ := C108_execution h u ts d st
  rw [← s.1]; exact inv e se

/-- C04 with poisoning: limited joints stay within their limits also where threads panic while they hold mutexes. -/
theorem C108_limits [LawfulOrd T] (ts : List (Client T α)) (a : ∀ cl ∈ ts, cl.Only LimitCall) (h : KHeap T)
    (u : h.Unlocked) (w : AllWithin h) (pl : ProperLimits h) (d : PConfig (NodeImpl T) α)
    (st : PDSteps (.init (start h ts)) d) : AllWithin d.heap :=
  C108_nodes h u ts (fun g => ∀ n, Within (g n).joint.limits (g n).joint.position)
    (fun e se => C04_limits_under_interleaving ts a h w pl e se) d st

/-- C62 with poisoning: where a mimic joint is not where its master puts it, somebody is just setting the master, or
nobody can use the master any more. -/
theorem C108_mimic (h : KHeap T) (u : h.Unlocked) (one : OneLevel h) (own : MimicOwned h)
    (rel : MimicRelation h) (acc : FollowersAccept h) (ts : List (Client T α))
    (only : ∀ cl ∈ ts, cl.Only (FollowingCall h)) (d : PConfig (NodeImpl T) α)
    (st : PDSteps (.init (start h ts)) d) (m c : NodeId) (mi : Mimic T) (free : d.heap.held m = false)
    (clean : d.poisoned m = false) (hc : c ∈ (d.heap.get m).mimicChildren) (hm : (d.heap.get c).mimic = some mi) :
    (d.heap.get c).joint.position = (d.heap.get m).joint.position * mi.multiplier + mi.origin := by
  obtain ⟨e, se, s, hd, -⟩ := C108_execution h u ts d st
  rw [← s.1] at hc hm ⊢
  refine C62_relation h u one own rel acc ts only e se m c mi ?_ hc hm
  cases x : e.heap.held m with
  | false => rfl
  | true =>
    rcases (hd m).1 x with y | y
    · rw [free] at y; cases y
    · rw [clean] at y; cases y

/-! ## what is not so -/

/-- The links of a follower in one thread, `set_link` in a second, a position for the master in a third. -/
def exJam (l : Link T) (x : T) : List (Client T Unit) :=
  [.call (.setLink 1 (some l)) fun _ => .call (.iterLinks ⟨[1], [1], 1⟩) fun _ => .done (),
    .call (.setLink 1 none) fun _ => .done (),
    .call (.setJointPosition 0 x) fun _ => .done ()]

private theorem PSteps.into {c d e : PConfig S α} (st : PSteps c d) (g : d.heap.get = e.heap.get)
    (nx : d.heap.next = e.heap.next) (dd : d.heap.dead = e.heap.dead) (hd : d.heap.held = e.heap.held)
    (t : d.threads = e.threads) (o : d.owner = e.owner) (p : d.poisoned = e.poisoned) : PSteps c e := by
  obtain ⟨⟨_, _, _, _⟩, _, _, _⟩ := d
  obtain ⟨⟨_, _, _, _⟩, _, _, _⟩ := e
  dsimp only at *
  subst g nx dd hd t o p
  exact st

private theorem jam_first (g : NodeId → NodeImpl T) (nx : Nat) (l : Link T) (r : KProg T Unit) :
    ∃ g' : NodeId → NodeImpl T,
      PSteps ⟨⟨g, nx, fun _ => false, fun _ => false⟩,
          [Client.prog (.call (.setLink 1 (some l)) fun _ => .call (.iterLinks ⟨[1], [1], 1⟩) fun _ => .done ()),
            Client.prog (.call (.setLink 1 none) fun _ => .done ()), r], fun _ => none, fun _ => false⟩
        ⟨⟨g', nx, fun _ => false, fun _ => false⟩,
          [.panic "called `Option::unwrap()` on a `None` value", .ret (), r], fun _ => none, fun n => n == 1⟩ ∧
      (∀ n, n ≠ 1 → g' n = g n) ∧ (g' 1).mimic = (g 1).mimic := by
  refine ⟨fun n => if n = 1 then { g 1 with link := none } else g n, ?_, fun n c => if_neg c, rfl⟩
  have s1 := (prunSched_psteps (c := (⟨⟨g, nx, fun _ => false, fun _ => false⟩,
          [Client.prog (.call (.setLink 1 (some l)) fun _ => .call (.iterLinks ⟨[1], [1], 1⟩) fun _ => .done ()),
            Client.prog (.call (.setLink 1 none) fun _ => .done ()), r], fun _ => none, fun _ => false⟩ :
              PConfig (NodeImpl T) Unit))
    (is := [0, 0, 0, 0, 0, 0, 1, 1, 1, 0, 0]) (fun _ => rfl) rfl).tail
    (PStep.unwind _ 0 "called `Option::unwrap()` on a `None` value" 1 rfl rfl)
  refine PSteps.into s1 (funext fun n => ?_) rfl rfl (funext fun n => ?_) rfl (funext fun n => ?_) (funext fun n => ?_)
  all_goals
    match n with
    | 0 => rfl
    | 1 => rfl
    | n + 2 => rfl

private theorem jam_second (ax : V3 T) (g : NodeId → NodeImpl T) (nx : Nat) (x : T) (a b : KProg T Unit) :
    ∃ d : PConfig (NodeImpl T) Unit,
      PSteps ⟨⟨fun n => if n = 0 then { NodeImpl.fresh (Joint.new "j" (.rotational ax)) with mimicChildren := [1, 2] }
          else g n, nx, fun _ => false, fun _ => false⟩,
          [a, b, Client.prog (.call (.setJointPosition 0 x) fun _ => .done ())], fun _ => none, fun n => n == 1⟩ d ∧
      d.heap.Unlocked ∧
      (d.heap.get 0).mimicChildren = [1, 2] ∧ (d.heap.get 0).joint.position = x ∧ d.heap.get 2 = g 2 ∧
      d.poisoned 0 = true ∧ d.poisoned 2 = false := by
  have s2 := (PSteps.refl _).tail (PStep.run (⟨⟨fun n => if n = 0 then { NodeImpl.fresh (Joint.new "j" (.rotational ax)) with mimicChildren := [1, 2] }
          else g n, nx, fun _ => false, fun _ => false⟩,
          [a, b, Client.prog (.call (.setJointPosition 0 x) fun _ => .done ())], fun _ => none, fun n => n == 1⟩ :
              PConfig (NodeImpl T) Unit) 2 _ _ _ rfl rfl fun n k e => by cases e; rfl)
  have s3 := s2.tail (PStep.run _ 2 _ _ _ rfl rfl fun n k e => by cases e)
  have s4 := s3.tail (PStep.run _ 2 _ _ _ rfl rfl fun n k e => by cases e)
  have s5 := s4.tail (PStep.poison _ 2 1 _ rfl rfl rfl)
  have s6 := s5.tail (PStep.unwind _ 2 "PoisonError" 0 rfl rfl)
  refine ⟨_, s6, fun n => ?_, rfl, rfl, rfl, rfl, rfl⟩
  match n with
  | 0 => rfl
  | n + 1 => rfl

/-- All of C62 is met, and yet there is an execution after which no mutex is locked and the followers are not where
their master puts them: the first follower was poisoned, and so the setter panicked halfway. The master is poisoned,
too; the second follower, which is at the wrong place, is not. -/
theorem C108_halfway (l : Link ℝ) : exMimic.Unlocked ∧ OneLevel exMimic ∧ MimicOwned exMimic ∧
    MimicRelation exMimic ∧ FollowersAccept exMimic ∧ (∀ cl ∈ exJam l 1, cl.Only (FollowingCall exMimic)) ∧
    ∃ d : PConfig (NodeImpl ℝ) Unit, PDSteps (.init (start exMimic (exJam l 1))) d ∧ d.heap.Unlocked ∧
      ¬ MimicRelation d.heap ∧ d.poisoned 0 = true ∧ d.poisoned 2 = false := by
  refine ⟨fun _ => rfl, exMimic_oneLevel, exMimic_owned, exMimic_relation, exMimic_accept, ?_, ?_⟩
  · intro cl hcl
    simp only [exJam, List.mem_cons, List.not_mem_nil, or_false] at hcl
    rcases hcl with rfl | rfl | rfl
    · exact ⟨trivial, fun _ => ⟨trivial, fun _ => trivial⟩⟩
    · exact ⟨trivial, fun _ => trivial⟩
    · exact ⟨trivial, fun _ => trivial⟩
  · obtain ⟨g', st1, same, -⟩ := jam_first exMimic.get 3 l
      (Client.prog (.call (.setJointPosition 0 (1 : ℝ)) fun _ => .done ()))
    obtain ⟨d, st, ud, kids, pos, two, p0, p2⟩ := jam_second (T := ℝ) ⟨0, 1, 0⟩ g' 3 1
      (.panic "called `Option::unwrap()` on a `None` value") (.ret ())
    have eq : (fun n => if n = 0 then { NodeImpl.fresh (Joint.new "j" (.rotational (⟨0, 1, 0⟩ : V3 ℝ))) with
        mimicChildren := [1, 2] } else g' n) = g' := by
      funext n
      by_cases c : n = 0
      · rw [if_pos c, c, same 0 (by decide)]; rfl
      · rw [if_neg c]
    rw [eq] at st
    rw [same 2 (by decide)] at two
    refine ⟨d, (st1.trans st).drops, ud, fun r => ?_, p0, p2⟩
    have := r 0 2 ⟨2, 0⟩ (by rw [kids]; simp) (by rw [two]; rfl)
    rw [two, pos, show (exMimic.get 2).joint.position = 0 from rfl] at this
    norm_num at this

/-! ## the hypotheses are met -/

/-- `C108_execution` for this execution: without poisoning the same positions are there while the third thread holds the
master and waits for the follower that the first has not let go. -/
example (l : Link ℝ) : ∃ e, DSteps (start exMimic (exJam l 1)) e ∧ e.heap.held 0 = true ∧ e.heap.held 2 = false ∧
    ¬ MimicRelation e.heap := by
  obtain ⟨u, -, -, -, -, -, d, st, ud, no, p0, p2⟩ := C108_halfway l
  obtain ⟨e, se, s, hd, -⟩ := C108_execution exMimic u (exJam l 1) d st
  refine ⟨e, se, (hd 0).2 (.inr p0), ?_, fun r => no ?_⟩
  · cases x : e.heap.held 2 with
    | false => rfl
    | true =>
      rcases (hd 2).1 x with y | y
      · rw [ud 2] at y; cases y
      · rw [p2] at y; cases y
  · intro m c mi hc hm
    rw [← s.1] at hc hm ⊢
    exact r m c mi hc hm

/-- `C108_mimic` for this execution before the setter runs: node 1 is poisoned, its master is not -/
example (l : Link ℝ) : ∃ d : PConfig (NodeImpl ℝ) Unit, PDSteps (.init (start exMimic (exJam l 1))) d ∧
    d.poisoned 1 = true ∧ (d.heap.get 1).joint.position = (d.heap.get 0).joint.position * (-1) + 1 / 2 := by
  obtain ⟨u, one, own, rel, acc, only, -⟩ := C108_halfway l
  obtain ⟨g', st, same, mi⟩ := jam_first exMimic.get 3 l
    (Client.prog (.call (.setJointPosition 0 (1 : ℝ)) fun _ => .done ()))
  refine ⟨_, st.drops, rfl, ?_⟩
  have kids : (g' 0).mimicChildren = [1, 2] := by rw [same 0 (by decide)]; rfl
  exact C108_mimic exMimic u one own rel acc (exJam l 1) only _ st.drops 0 1 ⟨-1, 1 / 2⟩ rfl rfl
    (by show 1 ∈ (g' 0).mimicChildren; rw [kids]; simp) mi

end K
