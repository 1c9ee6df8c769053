import Verif.Lemmas.Eased
import Verif.Lemmas.Sched
import Verif.Props.IkEx
/-!
# C106: limits only refuse

Looser limits change nothing for a client that got through with the tighter ones - as long as it does not use the
clamped setters or inverse kinematics.
-/

namespace K
open Prog
variable {T : Type} [Scalar T] {α β : Type} (W : Loosening T)

/-- **C106.** Limits only refuse: a client that gives up when a position is refused, and uses neither the clamped
setters nor inverse kinematics, either gives up, or has the same outcome on the robot with looser limits - the same
result, the same panic, the same lock it waits for - and leaves the memory the same but for the limits. -/
theorem C106_client {p q : Client T (Option α)} (same : p.Loosens W q) (h : KHeap T) :
    (∃ g, run p.prog h = .ok none g) ∨ run q.prog (W.heap h) = (run p.prog h).loosened W :=
  Loosened.client same h

/-- **C106**, one call: it is refused, or it gives the same answer with the looser limits. -/
theorem C106_call (c : Call T β) (u : c.Unclamped) (h : KHeap T) :
    (∀ a g, run c.prog h = .ok a g →
      c.Refused a ∨ run (c.loosened W).prog (W.heap h) = .ok (c.looseAnswer W a) (W.heap g)) ∧
    (∀ m g, run c.prog h = .panic m g → run (c.loosened W).prog (W.heap h) = .panic m (W.heap g)) ∧
    (∀ n g, run c.prog h = .blocked n g → run (c.loosened W).prog (W.heap h) = .blocked n (W.heap g)) ∧
    (run c.prog h = .diverged → run (c.loosened W).prog (W.heap h) = .diverged) := by
  have := Loosened.call (W := W) c u h
  refine ⟨fun a g x => ?_, fun m g x => ?_, fun n g x => ?_, fun x => ?_⟩ <;> rw [x] at this <;>
    rcases this with ⟨a', g', e, y⟩ | this
  · cases e; exact .inl y
  · cases e' : run (c.loosened W).prog (W.heap h) <;> rw [e'] at this <;> simp only [LooseOutcome] at this
    right; rw [this.1, this.2]
  · cases e
  · cases e' : run (c.loosened W).prog (W.heap h) <;> rw [e'] at this <;> simp only [LooseOutcome] at this
    rw [this.1, this.2]
  · cases e
  · cases e' : run (c.loosened W).prog (W.heap h) <;> rw [e'] at this <;> simp only [LooseOutcome] at this
    rw [this.1, this.2]
  · cases e
  · cases e' : run (c.loosened W).prog (W.heap h) <;> rw [e'] at this <;> simp only [LooseOutcome] at this

/-- the same can be seen of the threads: what they returned, their panics, the locks they wait for -/
def SeenAlike (ps qs : List (KProg T α)) : Prop := ∀ i : Nat,
  (∀ r, ps[i]? = some (.ret r) ↔ qs[i]? = some (.ret r)) ∧
  (∀ m, ps[i]? = some (.panic m) ↔ qs[i]? = some (.panic m)) ∧
  ∀ n, (∃ k, ps[i]? = some (.lock n k)) ↔ ∃ k, qs[i]? = some (.lock n k)

/-- **C106**, threads: whatever threads can do - with any interleaving, nodes being freed at any moment - one of them
gives up, or they can do it with the looser limits too, with the same results, panics and locks they wait for, and the
same memory but for the limits. -/
theorem C106_threads (pq : List (Client T (Option α) × Client T (Option α))) (same : ∀ x ∈ pq, x.1.Loosens W x.2)
    {h : KHeap T} (u : h.Unlocked) (fresh : Config.LocksExist ⟨h, pq.map fun x => x.1.prog⟩)
    (d : Config (NodeImpl T) (Option α)) (st : DSteps ⟨h, pq.map fun x => x.1.prog⟩ d) :
    (∃ i, d.GivesUp i) ∨
      ∃ d', DSteps ⟨W.heap h, pq.map fun x => x.2.prog⟩ d' ∧ d'.heap = W.heap d.heap ∧
        SeenAlike d.threads d'.threads := by
  have o := owns_start h u (pq.map Prod.fst)
  rw [List.map_map] at o
  rcases eased_steps (eased_start same h) o fresh st with ⟨i, x⟩ | ⟨us, Ls, t, a, _⟩
  · exact .inl ⟨i, quits_givesUp x⟩
  · by_cases nq : ∃ (i : Nat) (p : KProg T (Option α)), d.threads[i]? = some p ∧ Quits (· = none) p
    · obtain ⟨i, x⟩ := nq
      exact .inl ⟨i, quits_givesUp x⟩
    · exact .inr ⟨_, t, rfl, eased_seen a nq⟩

/-- **C106**, threads, the other way round: whatever threads do with the looser limits, with the tighter ones they can
do the same, or they can come to a point where one of them gives up. -/
theorem C106_threads_back (pq : List (Client T (Option α) × Client T (Option α))) (same : ∀ x ∈ pq, x.1.Loosens W x.2)
    {h : KHeap T} (u : h.Unlocked) (fresh : Config.LocksExist ⟨h, pq.map fun x => x.1.prog⟩)
    (d' : Config (NodeImpl T) (Option α)) (st : DSteps ⟨W.heap h, pq.map fun x => x.2.prog⟩ d') :
    ∃ d, DSteps ⟨h, pq.map fun x => x.1.prog⟩ d ∧
      ((∃ i, d.GivesUp i) ∨ d'.heap = W.heap d.heap ∧ SeenAlike d.threads d'.threads) := by
  have o := owns_start h u (pq.map Prod.fst)
  rw [List.map_map] at o
  obtain ⟨d, t, ⟨i, x⟩ | ⟨hh, Ls, a, _⟩⟩ := eased_back (eased_start same h) o fresh st
  · exact ⟨d, t, .inl ⟨i, quits_givesUp x⟩⟩
  · by_cases nq : ∃ (i : Nat) (p : KProg T (Option α)), d.threads[i]? = some p ∧ Quits (· = none) p
    · obtain ⟨i, x⟩ := nq
      exact ⟨d, t, .inl ⟨i, quits_givesUp x⟩⟩
    · exact ⟨d, t, .inr ⟨hh, eased_seen a nq⟩⟩

/-- Threads that create no node never lock one before it exists. -/
theorem C106_built (ps : List (Client T α)) (b : ∀ p ∈ ps, p.Only fun c => ¬c.Builds) (h : KHeap T) :
    Config.LocksExist ⟨h, ps.map Client.prog⟩ := locksExist b h

/-- Threads that only use handles of nodes that exist at the start and handles they get from their calls - what safe code
does - never lock a node before it exists. -/
theorem C106_handles (ps : List (Client T α)) {h : KHeap T} (u : h.Unlocked)
    (links : ∀ n < h.next, (h.get n).LinksIn (· < h.next)) (own : ∀ p ∈ ps, p.Owns (· < h.next)) :
    Config.LocksExist ⟨h, ps.map Client.prog⟩ := locksExist_owns u links own

/-- A thread that has got a result, has panicked, or waits for a lock that is never released, has not given up. -/
theorem C106_not_given_up (d : Config (NodeImpl T) (Option α)) (i : Nat) :
    (∀ a, d.threads[i]? = some (.ret (some a)) → ¬d.GivesUp i) ∧
    ∀ n k, d.threads[i]? = some (.lock n k) → (∀ e, Steps d e → e.heap.held n = true) → ¬d.GivesUp i := by
  constructor
  · intro a ha g
    exact nomatch g.2 d (.refl _) _ ha
  · rintro n k hk hh ⟨⟨e, st, he⟩, -⟩
    have : e.threads[i]? = some (.lock n k) := by
      clear he
      induction st with
      | refl => exact hk
      | @tail e f st s ih =>
        cases s with
        | mk j p p' h' hj hs =>
          simp only [List.getElem?_set]
          split
          · rename_i e; subst e
            rw [ih] at hj; cases hj
            simp only [step1, hh _ st, if_true] at hs
            cases hs
          · exact ih
    rw [this] at he
    cases he

/-! ## Concrete cases -/

/-- no limits at all -/
def unlimited : Loosening T where
  limits := fun _ _ => none
  wider := fun _ _ _ _ => trivial

noncomputable section

/-- set the first slider, give up if that is refused, and give back where the end is -/
def slideTo (x : ℝ) : Client ℝ (Option (Iso ℝ)) :=
  .call (.setJointPosition 0 x) fun r =>
    match r with
    | .error (.outOfLimit _ _ _ _) => .done none
    | _ => .call (.endTransform arm2) fun t => .done (some t)

theorem C106_slide (x : ℝ) : (slideTo x).Loosens unlimited (slideTo x) := by
  refine .call (.setJointPosition 0 x) _ _ trivial (fun r hr => ?_) fun r hr => ?_
  · cases r with
    | ok => exact hr.elim
    | error e => cases e <;> first | exact hr.elim | rfl
  · have last : Client.Loosens unlimited (.call (.endTransform arm2) fun t => .done (some t) : Client ℝ (Option (Iso ℝ)))
        (.call (.endTransform arm2) fun t => .done (some t)) :=
      .call (.endTransform arm2) _ _ trivial (fun _ x => x.elim) fun t _ => .done _
    cases r with
    | ok => exact last
    | error e => cases e <;> first | exact absurd trivial hr | exact last

/-- two threads that set the slider -/
theorem C106_two (x y : ℝ) (l0 l1 : Option (Range ℝ)) (d : Config (NodeImpl ℝ) (Option (Iso ℝ)))
    (st : DSteps ⟨rail l0 l1 0 0, [(slideTo x).prog, (slideTo y).prog]⟩ d) :
    (∃ i, d.GivesUp i) ∨
      ∃ d', DSteps ⟨unlimited.heap (rail l0 l1 0 0), [(slideTo x).prog, (slideTo y).prog]⟩ d' ∧
        d'.heap = unlimited.heap d.heap ∧ SeenAlike d.threads d'.threads := by
  have only : ∀ z, (slideTo z).Only fun c => ¬c.Builds := by
    intro z
    refine ⟨fun b => b, fun r => ?_⟩
    have last : Client.Only (fun c => ¬c.Builds)
        (.call (.endTransform arm2) fun t => .done (some t) : Client ℝ (Option (Iso ℝ))) := ⟨fun b => b, fun _ => trivial⟩
    cases r with
    | ok => exact last
    | error e => cases e <;> first | exact trivial | exact last
  have := C106_threads unlimited [(slideTo x, slideTo x), (slideTo y, slideTo y)]
    (fun p hp => by
      simp only [List.mem_cons, List.not_mem_nil, or_false] at hp
      rcases hp with rfl | rfl <;> exact C106_slide _)
    (rail_unlocked l0 l1 0 0)
    (C106_built [slideTo x, slideTo y] (fun p hp => by
      simp only [List.mem_cons, List.not_mem_nil, or_false] at hp
      rcases hp with rfl | rfl <;> exact only _) _) d st
  exact this

/-- make a slider, set it, give up if that is refused, and give back where it is -/
def makeAndSlide (l : Option (Range ℝ)) (x : ℝ) : Client ℝ (Option (Option ℝ)) :=
  .call (.newNode (slider "s" l 0)) fun n =>
    .call (.setJointPosition n x) fun r =>
      match r with
      | .error (.outOfLimit _ _ _ _) => .done none
      | _ => .call (.jointPosition n) fun o => .done (some o)

theorem makeAndSlide_loosens (l : Option (Range ℝ)) (x : ℝ) :
    (makeAndSlide l x).Loosens unlimited (makeAndSlide none x) := by
  refine .call (.newNode (slider "s" l 0)) _ _ trivial (fun _ r => r.elim) fun n _ => ?_
  refine .call (.setJointPosition n x) _ _ trivial (fun r hr => ?_) fun r hr => ?_
  · cases r with
    | ok => exact hr.elim
    | error e => cases e <;> first | exact hr.elim | rfl
  · have last : Client.Loosens unlimited (.call (.jointPosition n) fun o => .done (some o) : Client ℝ (Option (Option ℝ)))
        (.call (.jointPosition n) fun o => .done (some o)) :=
      .call (.jointPosition n) _ _ trivial (fun _ x => x.elim) fun t _ => .done _
    cases r with
    | ok => exact last
    | error e => cases e <;> first | exact absurd trivial hr | exact last

theorem makeAndSlide_owns (l : Option (Range ℝ)) (x : ℝ) (R : NodeId → Prop) : (makeAndSlide l x).Owns R := by
  intro R' _
  refine ⟨trivial, fun n hn => ⟨hn, fun r _ => ?_⟩⟩
  have last : Client.Tends R' (.call (.jointPosition n) fun o => .done (some o) : Client ℝ (Option (Option ℝ))) :=
    ⟨hn, fun _ _ => trivial⟩
  cases r with
  | ok => exact last
  | error e => cases e <;> first | exact trivial | exact last

/-- two threads that make nodes, beside the rail -/
theorem C106_two_made (l : Option (Range ℝ)) (x y : ℝ) (d : Config (NodeImpl ℝ) (Option (Option ℝ)))
    (st : DSteps ⟨rail l l 0 0, [(makeAndSlide l x).prog, (makeAndSlide l y).prog]⟩ d) :
    (∃ i, d.GivesUp i) ∨
      ∃ d', DSteps ⟨unlimited.heap (rail l l 0 0), [(makeAndSlide none x).prog, (makeAndSlide none y).prog]⟩ d' ∧
        d'.heap = unlimited.heap d.heap ∧ SeenAlike d.threads d'.threads := by
  refine C106_threads unlimited [(makeAndSlide l x, makeAndSlide none x), (makeAndSlide l y, makeAndSlide none y)]
    (fun p hp => ?_) (rail_unlocked l l 0 0)
    (C106_handles [makeAndSlide l x, makeAndSlide l y] (rail_unlocked l l 0 0) (fun n hn => ?_) fun p hp => ?_) d st
  · simp only [List.mem_cons, List.not_mem_nil, or_false] at hp
    rcases hp with rfl | rfl <;> exact makeAndSlide_loosens _ _
  · have hn : n < 2 := hn
    obtain rfl | rfl : n = 0 ∨ n = 1 := by omega
    all_goals constructor <;> simp [rail, NodeImpl.fresh]
  · simp only [List.mem_cons, List.not_mem_nil, or_false] at hp
    rcases hp with rfl | rfl <;> exact makeAndSlide_owns _ _ _

/-- the rail without limits is the loosened rail -/
theorem unlimited_rail (l0 l1 : Option (Range ℝ)) (p0 p1 : ℝ) :
    unlimited.heap (rail l0 l1 p0 p1) = rail none none p0 p1 := by
  simp only [Loosening.heap, rail]
  congr 1
  funext n
  by_cases e : n = 0
  · subst e; rfl
  · by_cases e1 : n = 1
    · subst e1; rfl
    · simp [e, e1]; rfl

theorem rail_mimicWF (l0 l1 : Option (Range ℝ)) (p0 p1 : ℝ) : MimicWF (rail l0 l1 p0 p1) := by
  intro m c hc
  simp only [rail] at hc
  split at hc
  · cases hc
  · split at hc <;> cases hc

/-- on the rail with limits 0 to 1 the client gets through with 1, and with 2 it gives up -/
theorem C106_slide_runs : (∃ t g, run (slideTo 1).prog (rail (some ⟨0, 1⟩) none 0 0) = .ok (some t) g) ∧
    ∃ g, run (slideTo 2).prog (rail (some ⟨0, 1⟩) none 0 0) = .ok none g := by
  have ok : Range.isValid (⟨0, 1⟩ : Range ℝ) 1 = true := by simp [Range.isValid, Scalar.le]
  have no : Range.isValid (⟨0, 1⟩ : Range ℝ) 2 = false := by simp [Range.isValid, Scalar.le]
  constructor
  · have e : run (Node.setJointPosition 0 (1 : ℝ)) (rail (some ⟨0, 1⟩) none 0 0) = .ok (.ok ())
        (setPos 0 1 (rail (some ⟨0, 1⟩) none 0 0)).2 := by
      rw [run_setJointPosition _ _ _ (rail_unlocked _ _ _ _) (rail_mimicWF _ _ _ _)]
      simp [setPos, rail, NodeImpl.fresh, slider, Joint.setJointPosition, Joint.isMovable, Joint.new, ok, mimicLoop]
    have u : (setPos 0 (1 : ℝ) (rail (some ⟨0, 1⟩) none 0 0)).2.Unlocked := by
      exact (sameBut_setPos _ _ _).unlocked (rail_unlocked _ _ _ _)
    refine ⟨endPose (setPos 0 (1 : ℝ) (rail (some ⟨0, 1⟩) none 0 0)).2 arm2.nodes,
      (setPos 0 (1 : ℝ) (rail (some ⟨0, 1⟩) none 0 0)).2, ?_⟩
    show run (Node.setJointPosition 0 (1 : ℝ) >>= _) _ = _
    rw [run_bind, e]
    show run (arm2.endTransform >>= _) _ = _
    rw [run_bind, run_endTransform _ _ u]
    rfl
  · refine ⟨rail (some ⟨0, 1⟩) none 0 0, ?_⟩
    have e : run (Node.setJointPosition 0 (2 : ℝ)) (rail (some ⟨0, 1⟩) none 0 0) =
        .ok (.error (.outOfLimit "a" 2 1 0)) (rail (some ⟨0, 1⟩) none 0 0) := by
      rw [run_setJointPosition _ _ _ (rail_unlocked _ _ _ _) (rail_mimicWF _ _ _ _)]
      simp [setPos, rail, NodeImpl.fresh, slider, Joint.setJointPosition, Joint.isMovable, Joint.new, no]
    show run (Node.setJointPosition 0 (2 : ℝ) >>= _) _ = _
    rw [run_bind, e]
    rfl

/-- with 1 and 2 on the rail with limits 0 to 1, the first thread can get its result, and the second one can give up -/
theorem C106_two_runs :
    (∃ d t, DSteps ⟨rail (some ⟨0, 1⟩) none 0 0, [(slideTo 1).prog, (slideTo 2).prog]⟩ d ∧
      d.threads[0]? = some (.ret (some t))) ∧
    ∃ d, DSteps ⟨rail (some ⟨0, 1⟩) none 0 0, [(slideTo 1).prog, (slideTo 2).prog]⟩ d ∧ d.GivesUp 1 := by
  obtain ⟨⟨t, g, e⟩, g', e'⟩ := C106_slide_runs
  have pr : ∀ p : KProg ℝ (Option (Iso ℝ)), p >>= Prog.ret = p := by
    intro p
    show p.bind Prog.ret = p
    induction p with
    | ret a => rfl
    | panic m => rfl
    | diverge => rfl
    | _ => simp only [Prog.bind, *]
  constructor
  · exact ⟨_, t, (steps_run (f := Prog.ret) e (i := 0) (by rw [pr]; rfl)).drops, rfl⟩
  · refine ⟨_, (steps_run (f := Prog.ret) e' (i := 1) (by rw [pr]; rfl)).drops, quits_givesUp ⟨_, rfl, .ret rfl⟩⟩

/-- **C106** is false for the clamped setter: it puts the slider to 1, without limits to 5. -/
theorem C106_clamped :
    (∃ g, run (Node.setJointPositionClamped 0 5) (rail (some ⟨0, 1⟩) none 0 0) = .ok () g ∧
      (g.get 0).joint.position = 1) ∧
    ∃ g, run (Node.setJointPositionClamped 0 5) (rail none none 0 0) = .ok () g ∧ (g.get 0).joint.position = 5 := by
  constructor
  · refine ⟨_, run_Node_setJointPositionClamped _ _ _ (rail_unlocked _ _ _ _), ?_⟩
    simp [Heap.modify, rail, NodeImpl.fresh, slider, Joint.setJointPositionClamped, Joint.setJointPositionUnchecked,
      Joint.isMovable, Joint.new, clamp_high 0 1 5 (by norm_num) (by norm_num)]
  · refine ⟨_, run_Node_setJointPositionClamped _ _ _ (rail_unlocked _ _ _ _), ?_⟩
    simp [Heap.modify, rail, NodeImpl.fresh, slider, Joint.setJointPositionClamped, Joint.setJointPositionUnchecked,
      Joint.isMovable, Joint.new]

/-- one try, twice the step -/
def hasty : IkSolver ℝ := ⟨1, 1, 2, 1, none, ⟨fun _ b => some b, fun _ b => b, id⟩⟩

theorem hasty_loop {h : KHeap ℝ} (u : h.Unlocked) (s : Sliders h) (pr : ParentsReady h arm1.nodes)
    (z : (h.get 0).joint.position = 0) (x : ℝ) :
    ∃ h1, OnlyWorld [0] h h1 ∧
      run (solveOneLoop hasty arm1 (atX x) (defineOperationalSpace (onlyX [])) (sortedIndices [])) h =
        .ok (.ok [x - ((clampAll [(0, 2 * x)] h1).get 0).joint.position]) (clampAll [(0, 2 * x)] h1) := by
  rw [sortedIndices_nil]
  have p : posList h arm1.movableNodes = [(h.get 0).joint.position] := rfl
  obtain ⟨h1, o, e⟩ := run_solveOneLoop (s := hasty) (arm := arm1) (target := atX x)
    (ops := defineOperationalSpace (onlyX [])) (ign := []) h u s.wf1 pr [2 * x] (by
      intro jac _ hl
      rw [s.pose1, onlyX_diff, p]
      simp only [nextPositions, removeRows_onlyX [] jac hl, onlyX_count]
      simp [Bind.bind, Except.bind, removeIndices, arm1, hasty, addPositionsWithMultiplier, z])
  refine ⟨h1, o, ?_⟩
  rw [e]
  have sl := s.same (o.moved.sameBut.trans (moved_clampAll [(0, 2 * x)] [0] (by simp) h1).sameBut)
  have : arm1.movableNodes.zip [2 * x] = [(0, 2 * x)] := rfl
  rw [this, sl.pose1, onlyX_diff]

/-- **C106** is false for inverse kinematics, even for whether it converges: a solver that makes too large a step
overshoots the target, and with limits it is stopped there. -/
theorem C106_solve :
    (∃ g, run (solveWithConstraints hasty arm1 (atX 10) (onlyX [])) (rail (some ⟨0, 10⟩) none 0 0) = .ok (.ok ()) g) ∧
    ∃ dp dr g, run (solveWithConstraints hasty arm1 (atX 10) (onlyX [])) (rail none none 0 0) =
      .ok (.error (.notConverged 1 dp dr)) g := by
  constructor
  · have s := rail_sliders (some ⟨0, 10⟩) none 0 0
    have u := rail_unlocked (some ⟨0, 10⟩) none 0 0
    obtain ⟨h1, o, e⟩ := hasty_loop u s (rail_ready1 _ _ _ _) rfl 10
    have p := clamp0 s o.moved.sameBut (2 * 10)
    have : ((rail (some ⟨0, 10⟩) none 0 0).get 0).joint.limits = some ⟨0, 10⟩ := rfl
    simp only [this, clamp_high 0 10 (2 * 10) (by norm_num) (by norm_num)] at p
    rw [p] at e
    exact ⟨_, run_solve_reached u s.wf1 rfl (by simp [onlyX, arm1]) (by simp [onlyX_count]; simp [onlyX, arm1])
      (c := onlyX []) (is := []) rfl e ((onlyX_reached 10 10 1 []).trans (by norm_num))⟩
  · have s := rail_sliders none none 0 0
    have u := rail_unlocked none none 0 0
    obtain ⟨h1, o, e⟩ := hasty_loop u s (rail_ready1 _ _ _ _) rfl 10
    have sb := o.moved.sameBut.trans (moved_clampAll [(0, (2 * 10 : ℝ))] [0] (by simp) h1).sameBut
    have p := clamp0 s o.moved.sameBut (2 * 10)
    have : ((rail none none 0 0).get 0).joint.limits = none := rfl
    simp only [this] at p
    rw [p] at e
    have back : ∀ g : KHeap ℝ, SameBut (rail none none 0 0) g →
        ∃ g', SameBut (rail none none 0 0) g' ∧
          run (arm1.setJointPositions (posList (rail none none 0 0) arm1.movableNodes)) g = .ok (.ok ()) g' := by
      intro g sg
      have wf : MimicWF g := by
        intro m c hc
        rw [sg.mimicChildren] at hc
        obtain ⟨a, b⟩ := rail_mimicWF none none 0 0 m c hc
        rw [sg.mimicParent, sg.mimic]
        exact ⟨a, b⟩
      refine ⟨_, sg.trans (sameBut_setAll [(0, 0)] g), ?_⟩
      · rw [run_setJointPositions arm1 _ g (sg.unlocked u) wf rfl]
        have z : arm1.movableNodes.zip (posList (rail none none 0 0) arm1.movableNodes) = [(0, 0)] := rfl
        have mp : (g.get 0).mimicParent = none := by rw [sg.mimicParent]; rfl
        have mc : (g.get 0).mimicChildren = [] := by rw [sg.mimicChildren]; rfl
        have li : (g.get 0).joint.limits = none := by rw [sg.limits]; rfl
        have mv : (g.get 0).joint.isMovable = true := (isMovable_iff _).2 ((s.same sg).movable 0 (.inl rfl))
        have : (setPos 0 (0 : ℝ) g).1 = .ok () := by
          simp [setPos, mp, mc, mimicLoop, Joint.setJointPosition, mv, li]
        rw [z]
        simp [setAll, this]
    obtain ⟨h2, s2, e2⟩ := back _ sb
    obtain ⟨h3, s3, e3⟩ := back _ s2
    exact ⟨_, _, _, run_solve_unreached u s.wf1 rfl (by simp [onlyX, arm1])
      (by simp [onlyX_count]; simp [onlyX, arm1])
      (c := onlyX []) (is := []) rfl e ((onlyX_reached 10 (2 * 10) 1 []).trans (by norm_num)) e2 e3⟩

end

end K
