import Verif.Lemmas.Atomic
import Verif.Lemmas.Sched
import Verif.Props.Concurrency
import Verif.Spec.Serial
/-!
# C65: what is atomic and what is not

The methods of one node are atomic as long as no joint is mimicked; a method of a chain is a sequence of
such sections.
-/

set_option linter.unusedSectionVars false

namespace K
open Prog
variable {T : Type} [Scalar T] {α : Type}

/-- The methods of `Node` that look at one node or change one node. -/
def NodeCall {β : Type} : Call T β → Prop
  | .setLink _ _ | .setOrigin _ _ | .setJointPosition _ _ | .setJointPositionClamped _ _
  | .setJointPositionUnchecked _ _ | .joint _ | .jointPosition _ | .parent _ | .mimicParent _
  | .children _ | .link _ | .isRoot _ | .isEnd _ | .origin _ | .worldTransform _ | .worldVelocity _ => True
  | _ => False

/-- The calls that never hold two locks when no joint is mimicked. -/
def OneLockCall {β : Type} : Call T β → Prop
  | .setMimicParent _ _ _ | .updateVelocities _ | .cloneChain _ _ | .display _ _ => False
  | _ => True

theorem StepsOf.trans {S : Type} {i : Nat} {c d e : Config S α} (a : StepsOf i c d)
    (b : StepsOf i d e) : StepsOf i c e := by
  induction b with
  | refl => exact a
  | tail _ hi hs ih => exact ih.tail hi hs

theorem CallSteps.trans {x y z : KHeap T × List (Client T α)} (a : CallSteps x y) (b : CallSteps y z) :
    CallSteps x z := by
  induction b with
  | refl => exact a
  | tail _ s ih => exact ih.tail s

/-- no joint is mimicked -/
private def Alone (_ : NodeId) (s : NodeImpl T) : Prop := s.mimicChildren = []

private theorem one_section {β : Type} (c : Call T β) (nc : NodeCall c) :
    ∃ n k, c.prog = .lock n k ∧ Inside Alone n k := by
  cases c with
  | setJointPosition n x =>
    refine ⟨n, _, rfl, rfl, fun s hs => ?_⟩
    show Inside Alone n (if s.mimicParent.isSome then _ else _)
    split
    · exact ⟨rfl, _, rfl⟩
    · refine ⟨rfl, fun _ h => h, ?_⟩
      show Inside Alone n (match (s.joint.setJointPosition x).2 with | .error e => _ | .ok () => _)
      cases (s.joint.setJointPosition x).2 with
      | error e => exact ⟨rfl, _, rfl⟩
      | ok u =>
        have e : s.mimicChildren = [] := hs
        show Inside Alone n (tryEach s.mimicChildren _ >>= _)
        rw [e]
        exact ⟨rfl, _, rfl⟩
  | parent n =>
    refine ⟨n, _, rfl, rfl, fun s hs => ?_⟩
    show Inside Alone n (match s.parent with | some weak => _ | none => _)
    cases s.parent with
    | none => exact ⟨rfl, _, rfl⟩
    | some w => exact fun b => ⟨rfl, _, rfl⟩
  | mimicParent n =>
    refine ⟨n, _, rfl, rfl, fun s hs => ?_⟩
    show Inside Alone n (match s.mimicParent with | some weak => _ | none => _)
    cases s.mimicParent with
    | none => exact ⟨rfl, _, rfl⟩
    | some w => exact fun b => ⟨rfl, _, rfl⟩
  | setLink n l => exact ⟨n, _, rfl, rfl, fun _ h => h, rfl, _, rfl⟩
  | setOrigin n l => exact ⟨n, _, rfl, rfl, fun _ h => h, rfl, _, rfl⟩
  | setJointPositionClamped n l => exact ⟨n, _, rfl, rfl, fun _ h => h, rfl, _, rfl⟩
  | setJointPositionUnchecked n l => exact ⟨n, _, rfl, rfl, fun _ h => h, rfl, _, rfl⟩
  | joint n => exact ⟨n, _, rfl, rfl, fun _ _ => ⟨rfl, _, rfl⟩⟩
  | jointPosition n => exact ⟨n, _, rfl, rfl, fun _ _ => ⟨rfl, _, rfl⟩⟩
  | children n => exact ⟨n, _, rfl, rfl, fun _ _ => ⟨rfl, _, rfl⟩⟩
  | link n => exact ⟨n, _, rfl, rfl, fun _ _ => ⟨rfl, _, rfl⟩⟩
  | isRoot n => exact ⟨n, _, rfl, rfl, fun _ _ => ⟨rfl, _, rfl⟩⟩
  | isEnd n => exact ⟨n, _, rfl, rfl, fun _ _ => ⟨rfl, _, rfl⟩⟩
  | origin n => exact ⟨n, _, rfl, rfl, fun _ _ => ⟨rfl, _, rfl⟩⟩
  | worldTransform n => exact ⟨n, _, rfl, rfl, fun _ _ => ⟨rfl, _, rfl⟩⟩
  | worldVelocity n => exact ⟨n, _, rfl, rfl, fun _ _ => ⟨rfl, _, rfl⟩⟩
  | _ => exact nc.elim

/-- the steps of a section are steps of its thread -/
private theorem stepsOf_local {S : Type} {i n : Nat} {h : Heap S} {ts : List (Prog S α)}
    {x y : Prog S α × S} (hl : i < ts.length) (t : LSteps h.dead n x y) :
    StepsOf i ⟨h.modify n fun _ => x.2, ts.set i x.1⟩ ⟨h.modify n fun _ => y.2, ts.set i y.1⟩ := by
  induction t with
  | refl => exact .refl _
  | @tail y z _ b ih =>
    have key : step1 y.1 (h.modify n fun _ => y.2) = some (z.1, h.modify n fun _ => z.2) := by
      cases b with
      | read k s => simp [step1]
      | write f k s => simp [step1, Heap.modify_modify]
      | upgrade m k s => rfl
    have := ih.tail (List.getElem?_set_self hl) key
    rwa [List.set_set] at this

private theorem stepsOf_section {S : Type} {i n : Nat} {h : Heap S} {ts : List (Prog S α)}
    {k q : Prog S α} {s : S} (u : h.Unlocked) (hi : ts[i]? = some (.lock n k))
    (t : LSteps h.dead n (k, h.get n) (q, s)) :
    StepsOf i ⟨h, ts⟩ ⟨(h.setHeld n true).modify n fun _ => s, ts.set i q⟩ := by
  have l := (List.getElem?_eq_some_iff.1 hi).1
  have t0 : StepsOf i ⟨h, ts⟩ ⟨h.setHeld n true, ts.set i k⟩ :=
    (StepsOf.refl _).tail hi (by simp [step1, u n])
  have t1 := stepsOf_local (h := h.setHeld n true) (ts := ts) l t
  rw [Heap.modify_eq_self _ _ _ (by simp)] at t1
  exact t0.trans t1

private theorem lk_client (cl : Client T α) (a : cl.Only NodeCall) :
    Keep Single (fun _ => True) 0 Alone (Pres Alone) [] (fun _ => True) cl.prog := by
  refine keep_client (fun c nc => ?_) cl a
  obtain ⟨n, k, e, i⟩ := one_section c nc
  show Lk _ _ _ _ _ _ _ _
  rw [e]
  exact ⟨rfl, i.lk.mono fun L a h => ⟨h, trivial⟩⟩

private theorem noAlloc_client (cl : Client T α) (a : cl.Only NodeCall) : NoAlloc Alone cl.prog := by
  induction cl with
  | done x => trivial
  | call c k ih =>
    refine NoAlloc.bind ?_ fun r => ih r (a.2 r)
    obtain ⟨n, k, e, i⟩ := one_section c a.1
    rw [e]; exact i.noAlloc

/-- a section of a client is one whole call -/
private theorem call_of_section {h : KHeap T} {cs : List (Client T α)} {d : Config (NodeImpl T) α}
    (u : h.Unlocked) (al : ∀ n, Alone n (h.get n)) (only : ∀ c ∈ cs, c.Only NodeCall)
    (st : SecStep ⟨h, cs.map Client.prog⟩ d) :
    ∃ cs', d.threads = cs'.map Client.prog ∧ CallStep (h, cs) (d.heap, cs') ∧ d.heap.Unlocked ∧
      (∀ n, Alone n (d.heap.get n)) ∧ ∀ c ∈ cs', c.Only NodeCall := by
  have call : ∀ (i : Nat) (p : KProg T α), (cs.map Client.prog)[i]? = some p → (∀ x, p ≠ .ret x) →
      ∃ (β : Type) (c : Call T β) (k : β → Client T α), cs[i]? = some (Client.call c k) ∧
        p = c.prog >>= fun r => (k r).prog := by
    intro i p hi nr
    rw [List.getElem?_map] at hi
    cases e : cs[i]? with
    | none => rw [e] at hi; cases hi
    | some cl =>
      rw [e] at hi
      cases cl with
      | done x => exact absurd (Option.some.inj hi).symm (nr x)
      | call c k => exact ⟨_, c, k, rfl, (Option.some.inj hi).symm⟩
  cases st with
  | sec i n k p s hi body =>
    obtain ⟨β, c, g, ei, ep⟩ := call i _ hi (by simp)
    have oc := only _ (List.mem_of_getElem? ei)
    obtain ⟨m, k0, e0, ins⟩ := one_section c oc.1
    rw [e0] at ep
    have ep' : Prog.lock n k = Prog.lock m (k0 >>= fun r => (g r).prog) := ep
    cases ep'
    obtain ⟨k', e, i', p', l⟩ := ins.steps (al n) body
    have : ∃ r, k' = .unlock n (.ret r) ∧ p = (g r).prog := by
      cases k' with
      | unlock m k1 =>
        obtain ⟨rfl, r, rfl⟩ := i'
        have e' : Prog.unlock _ p = Prog.unlock m ((g r).prog) := e
        exact ⟨r, rfl, by injection e'⟩
      | ret a => exact i'.elim
      | lock m k => exact i'.elim
      | read m k => cases e
      | write m f k => cases e
      | upgrade m k => cases e
      | alloc s k => exact i'.elim
      | panic m => exact i'.elim
      | diverge => cases e
    obtain ⟨r, rfl, rfl⟩ := this
    refine ⟨cs.set i (g r), by rw [List.map_set], ⟨i, c, g, r, ei, ?_⟩, fun x => u x, fun x => ?_,
      fun q hq => ?_⟩
    · rw [e0]; exact l.run_lock u
    · show Alone x ((h.modify n fun _ => s).get x)
      rw [Heap.get_modify]; split
      · subst_vars; exact p'
      · exact al x
    · rcases List.mem_or_eq_of_mem_set hq with hq | rfl
      · exact only q hq
      · exact oc.2 r
  | upgrade i m k hi =>
    obtain ⟨β, c, g, ei, ep⟩ := call i _ hi (by simp)
    have oc := only _ (List.mem_of_getElem? ei)
    obtain ⟨m, k0, e0, ins⟩ := one_section c oc.1
    rw [e0] at ep
    cases ep

private theorem calls_of_sections {h : KHeap T} {cs : List (Client T α)} {d : Config (NodeImpl T) α}
    (u : h.Unlocked) (al : ∀ n, Alone n (h.get n)) (only : ∀ c ∈ cs, c.Only NodeCall)
    (st : SecSteps ⟨h, cs.map Client.prog⟩ d) :
    ∃ cs', d.threads = cs'.map Client.prog ∧ CallSteps (h, cs) (d.heap, cs') ∧ d.heap.Unlocked ∧
      (∀ n, Alone n (d.heap.get n)) ∧ ∀ c ∈ cs', c.Only NodeCall := by
  generalize hx : (⟨h, cs.map Client.prog⟩ : Config (NodeImpl T) α) = x at st
  induction st with
  | refl => subst hx; exact ⟨cs, rfl, .refl _, u, al, only⟩
  | @tail y z _ s ih =>
    obtain ⟨cs1, e, cl, u1, al1, o1⟩ := ih
    obtain ⟨hy, ty⟩ := y
    obtain rfl : ty = _ := e
    obtain ⟨cs2, e2, s2, u2, al2, o2⟩ := call_of_section u1 al1 o1 s
    exact ⟨cs2, e2, cl.tail s2, u2, al2, o2⟩

/-- **C65**: the methods of single nodes are linearizable when no joint is mimicked.  Any number of
threads make any such calls, interleaved in any way, until all locks are free.  Then the clients could
have made the same calls one after the other, with the same results and the same final state.  Moreover,
for every moment `e` of the execution there is a point of the serial one at which each client is where
it is at `e`: either exactly, or at `e` it is within its next call, as far as this call would have got on
its own; so the serial order respects the order in time. -/
theorem C65_linearizable {h : KHeap T} {cs : List (Client T α)} {e d : Config (NodeImpl T) α}
    (u : h.Unlocked) (al : ∀ n, (h.get n).mimicChildren = []) (only : ∀ c ∈ cs, c.Only NodeCall)
    (st : Steps ⟨h, cs.map Client.prog⟩ e) (st' : Steps e d) (u' : d.heap.Unlocked) :
    ∃ (hm : KHeap T) (csm cs' : List (Client T α)), d.threads = cs'.map Client.prog ∧ CallSteps (h, cs) (hm, csm) ∧
      CallSteps (hm, csm) (d.heap, cs') ∧ csm.length = e.threads.length ∧
      (∀ n, e.heap.held n = false → hm.get n = e.heap.get n) ∧
      ∀ (i : Nat) (p : KProg T α) (cl : Client T α), e.threads[i]? = some p → csm[i]? = some cl →
        p = cl.prog ∨ ∃ (β : Type) (c : Call T β) (k : β → Client T α) (q : KProg T β) (h' : KHeap T),
          cl = .call c k ∧ (p = q >>= fun r => (k r).prog) ∧ StepsOf 0 ⟨hm, [c.prog]⟩ ⟨h', [q]⟩ := by
  have na : ∀ p ∈ cs.map Client.prog, NoAlloc Alone p := by
    intro p hp
    obtain ⟨c, hc, rfl⟩ := List.mem_map.1 hp
    exact noAlloc_client c (only c hc)
  have lk : ∀ p ∈ cs.map Client.prog, Keep Single (fun _ => True) 0 Alone (Pres Alone) []
      (fun _ => True) p := by
    intro p hp
    obtain ⟨c, hc, rfl⟩ := List.mem_map.1 hp
    exact lk_client c (only c hc)
  obtain ⟨-, -, nx⟩ := NoAlloc.steps (st.trans st') na al
  obtain ⟨o, a, s1, s2, sm⟩ := steps_sections u u' al lk st st' nx
  obtain ⟨csm, em, cm, um, am, om⟩ := calls_of_sections u al only s1
  obtain ⟨ha, ta⟩ := a
  obtain rfl : ta = _ := em
  obtain ⟨cs', e', c', -⟩ := calls_of_sections um am om s2
  refine ⟨ha, csm, cs', e', cm, c', ?_, ?_, ?_⟩
  · have := sm.len
    simpa using this
  · intro n hn
    refine (sm.free n ?_).symm
    have := sm.held n
    rw [hn] at this
    cases eo : o n with
    | none => rfl
    | some x => rw [eo] at this; cases this
  · intro i p cl hp hc
    have t := sm.thr i p cl.prog hp (by show (csm.map _)[i]? = _; rw [List.getElem?_map, hc]; rfl)
    generalize hq : cl.prog = q at t
    cases t with
    | out p l no => exact .inl rfl
    | inn n k p l me one body =>
      right
      cases cl with
      | done x => cases hq
      | call c g =>
        have oc := om _ (List.mem_of_getElem? hc)
        obtain ⟨m, k0, e0, ins⟩ := one_section c oc.1
        have hq' : c.prog >>= (fun r => (g r).prog) = Prog.lock n k := hq
        rw [e0] at hq'
        have hq'' : Prog.lock m (k0 >>= fun r => (g r).prog) = Prog.lock n k := hq'
        cases hq''
        obtain ⟨q, e, -, -, l⟩ := ins.steps (am _) body
        rw [← sm.dead] at l
        have w := stepsOf_section (ts := [c.prog]) (i := 0) um (by rw [e0]; rfl) l
        exact ⟨_, c, g, q, _, rfl, e, w⟩

/-- **C65**: when no joint is mimicked, every other call (all but `set_mimic_parent`, `clone`,
`update_velocities` and printing) is a sequence of atomic sections: an interleaving of any such calls in
which no node is created, ending with all locks free, is an execution in which the threads take turns,
each turn beginning and ending with all locks free. -/
theorem C65_turns {h : KHeap T} {cs : List (Client T α)} {d : Config (NodeImpl T) α}
    (u : h.Unlocked) (al : ∀ n, (h.get n).mimicChildren = []) (only : ∀ c ∈ cs, c.Only OneLockCall)
    (st : Steps ⟨h, cs.map Client.prog⟩ d) (nx : d.heap.next = h.next) (u' : d.heap.Unlocked) :
    Turns ⟨h, cs.map Client.prog⟩ d := by
  have inv : ∀ n, LockInv (T := T) (fun _ => False) (fun _ => False) (fun _ _ => True)
      (fun _ _ => False) n (h.get n) := fun n =>
    ⟨False.elim, by rw [al n]; simp, fun _ _ => trivial, False.elim⟩
  have lk : ∀ p ∈ cs.map Client.prog, Keep Single (fun _ => True) 0 (LockInv (fun _ => False)
      (fun _ => False) (fun _ _ => True) (fun _ _ => False)) (Pres (LockInv (fun _ => False)
      (fun _ => False) (fun _ _ => True) (fun _ _ => False))) [] (fun _ => True) p := by
    intro p hp
    obtain ⟨c, hc, rfl⟩ := List.mem_map.1 hp
    refine keep_client (φ := OneLockCall) (fun c nc => ?_) c (only c hc)
    refine keep_call (fun _ => rfl) (fun _ _ h => h.elim) (fun _ h => h.elim) (fun _ h => h.elim) False
      (fun _ _ => False) False.elim False.elim False.elim c ?_
    cases c <;> first | exact nc.elim | simp [LockCall]
  obtain ⟨o, a, s1, s2, -⟩ := steps_sections u u' inv lk (.refl _) st nx
  have key : ∀ {x y : Config (NodeImpl T) α}, SecSteps x y → x.heap.Unlocked →
      Turns x y ∧ y.heap.Unlocked := by
    intro x y s ux
    induction s with
    | refl => exact ⟨.refl _, ux⟩
    | @tail y z _ s ih =>
      obtain ⟨t, uy⟩ := ih
      cases s with
      | sec i n k p s hi body =>
        have t1 := (stepsOf_section uy hi body).tail
          (List.getElem?_set_self (List.getElem?_eq_some_iff.1 hi).1) rfl
        rw [List.set_set, Heap.setHeld_modify_setHeld _ _ _ _ (uy n)] at t1
        exact ⟨t.tail i t1 fun x => uy x, fun x => uy x⟩
      | upgrade i m k hi => exact ⟨t.tail i ((StepsOf.refl _).tail hi rfl) uy, uy⟩
  exact (key (s1.trans s2) u).1

/-! ## what is not atomic -/

/-- Setting the positions of a chain is not atomic: two threads set all positions to `x` and all to `y`;
they can end with the first joint at `y` and the second at `x`. -/
theorem C65_chain_torn (x y : T) : ∃ d : Config (NodeImpl T) Unit,
    Steps (start exPair [.call (.setJointPositions ⟨[0, 1], [0, 1], 2⟩ [x, x]) fun _ => .done (),
      .call (.setJointPositions ⟨[0, 1], [0, 1], 2⟩ [y, y]) fun _ => .done ()]) d ∧
    d.threads = [.ret (), .ret ()] ∧ d.heap.Unlocked ∧
    (d.heap.get 0).joint.jointPosition = some y ∧ (d.heap.get 1).joint.jointPosition = some x := by
  let set (n : NodeId) (z : T) : KProg T (Except (KError T) Unit) := Node.setJointPosition n z
  let last (n : NodeId) (z : T) : Except (KError T) Unit → KProg T Unit := fun r =>
    (match r with
      | .error e => return .error e
      | .ok () => tryEach [(n, z)] fun jp => Node.setJointPosition jp.1 jp.2) >>=
        fun _ : Except (KError T) Unit => .ret ()
  let fin : Except (KError T) Unit → KProg T Unit := fun r => (match r with
    | .error e => return .error e
    | .ok () => .ret (.ok ())) >>= fun _ : Except (KError T) Unit => .ret ()
  have e0 : ∀ z, (Client.call (.setJointPositions ⟨[0, 1], [0, 1], 2⟩ [z, z]) fun _ => .done () :
      Client T Unit).prog = set 0 z >>= last 1 z := fun z => by
    show Chain.setJointPositions _ _ >>= (fun _ => Prog.ret ()) = _
    rw [Chain.setJointPositions, if_neg (by simp)]
    show (set 0 z >>= _) >>= _ = _
    rw [Prog.bind_assoc]
    refine congrArg (set 0 z >>= ·) (funext fun r => ?_)
    rcases r with e | u <;> rfl
  have e1 : ∀ z, last 1 z (.ok ()) = set 1 z >>= fin := fun z => by
    show (set 1 z >>= _) >>= _ = _
    rw [Prog.bind_assoc]
    refine congrArg (set 1 z >>= ·) (funext fun r => ?_)
    rcases r with e | u <;> rfl
  let ok : KHeap T → Prop := fun h => h.Unlocked ∧ ∀ m, (h.get m).mimicChildren = [] ∧
    (h.get m).mimicParent = none ∧ (h.get m).joint.isMovable = true ∧ (h.get m).joint.limits = none
  have ok0 : ok exPair := ⟨fun _ => rfl, fun m => by
    simp only [exPair]; split <;> exact ⟨rfl, rfl, rfl, rfl⟩⟩
  have sj : ∀ (j : Joint T) z, j.isMovable = true → j.limits = none → j.setJointPosition z =
      ({ j with position := z, worldTransformCache := none, worldVelocityCache := none }, .ok ()) := by
    intro j z a b; simp [Joint.setJointPosition, a, b]
  have run1 : ∀ (h : KHeap T) n z, ok h → run (set n z) h = .ok (.ok ()) (h.setJoint n z) ∧
      ok (h.setJoint n z) ∧ ((h.setJoint n z).get n).joint.jointPosition = some z ∧
      ∀ m, m ≠ n → (h.setJoint n z).get m = h.get m := by
    intro h n z o
    obtain ⟨u, o⟩ := o
    obtain ⟨a, b, c, d⟩ := o n
    refine ⟨?_, ⟨u.modify n _, fun m => ?_⟩, ?_, fun m ne => Heap.get_modify_of_ne _ _ ne⟩
    · show run (Node.setJointPosition n z) h = _
      rw [run_setJointPosition n z h u (fun m c hc => by rw [(o m).1] at hc; cases hc)]
      simp [setPos, a, b, sj _ z c d, mimicLoop]
    · simp only [Heap.setJoint, Heap.get_modify]; split
      · subst_vars
        rw [sj _ z c d]
        exact ⟨a, b, c, d⟩
      · exact o m
    · simp only [Heap.setJoint, Heap.get_modify_self]
      rw [sj _ z c d]
      have c' : (h.get n).joint.isMovable = true := c
      unfold Joint.isMovable at c'
      unfold Joint.jointPosition
      revert c'
      cases (h.get n).joint.jointType <;> simp
  obtain ⟨r0, k0, p0, f0⟩ := run1 exPair 0 x ok0
  obtain ⟨r1, k1, p1, f1⟩ := run1 _ 0 y k0
  obtain ⟨r2, k2, p2, f2⟩ := run1 _ 1 y k1
  obtain ⟨r3, k3, p3, f3⟩ := run1 _ 1 x k2
  have s0 := steps_run (f := last 1 x) (i := 0) (ts := [set 0 x >>= last 1 x, set 0 y >>= last 1 y]) r0 rfl
  have s1 := steps_run (f := last 1 y) (i := 1) (ts := [last 1 x (.ok ()), set 0 y >>= last 1 y]) r1 rfl
  have s2 := steps_run (f := fin) (i := 1) (ts := [last 1 x (.ok ()), last 1 y (.ok ())]) r2
    (by rw [← e1]; rfl)
  have s3 := steps_run (f := fin) (i := 0) (ts := [last 1 x (.ok ()), .ret ()]) r3 (by rw [← e1]; rfl)
  refine ⟨⟨(((exPair.setJoint 0 x).setJoint 0 y).setJoint 1 y).setJoint 1 x, [.ret (), .ret ()]⟩, ?_, rfl,
    k3.1, ?_, p3⟩
  · rw [show start exPair _ = ⟨exPair, [set 0 x >>= last 1 x, set 0 y >>= last 1 y]⟩ from by
      rw [← e0, ← e0]; rfl]
    exact ((s0.trans s1).trans s2).trans s3
  · show (((((exPair.setJoint 0 x).setJoint 0 y).setJoint 1 y).setJoint 1 x).get 0).joint.jointPosition = _
    rw [f3 0 (by simp), f2 0 (by simp), p1]

private def exAxis (s : String) : Joint T := Joint.new s (.rotational ⟨1, 0, 0⟩)

/-- joints 1 and 2 mimic joint 0; they stand at `p` -/
def exTwins (m : Mimic T) (p : T) : KHeap T where
  get := fun n =>
    if n = 0 then { NodeImpl.fresh (exAxis "a") with mimicChildren := [1, 2] }
    else { NodeImpl.fresh { exAxis "b" with position := p } with
      mimicParent := some 0, mimic := some m }
  next := 3
  dead := fun _ => false
  held := fun _ => false

/-- Setting a mimicked joint is not atomic, not even for single nodes: while one thread sets the master,
a reader can see the first follower moved and then the second one not yet moved. -/
theorem C65_mimic_torn (m : Mimic T) (x p : T) : ∃ d : Config (NodeImpl T) (List (Option T)),
    Steps (start (exTwins m p) [.call (.setJointPosition 0 x) fun _ => .done [],
      .call (.jointPosition 1) fun a => .call (.jointPosition 2) fun b => .done [a, b]]) d ∧
    d.threads = [.ret [], .ret [some (m.mimicPosition x), some p]] ∧
    (d.heap.get 1).joint.jointPosition = some (m.mimicPosition x) ∧
    (d.heap.get 2).joint.jointPosition = some (m.mimicPosition x) := by
  have u : (exTwins m p).Unlocked := fun _ => rfl
  let fin : Except (KError T) Unit → KProg T (List (Option T)) := fun r =>
    ((match r with
      | .error e => pure (.error e)
      | .ok () => .ret (.ok ())) >>= fun r : Except (KError T) Unit => doUnlock 0 >>= fun _ =>
        pure r) >>= fun _ : Except (KError T) Unit => .ret []
  let rest : Except (KError T) Unit → KProg T (List (Option T)) := fun r =>
    ((match r with
      | .error e => pure (.error e)
      | .ok () => tryEach [2] (Node.setMimicChild 0 x)) >>= fun r : Except (KError T) Unit =>
        doUnlock 0 >>= fun _ => pure r) >>= fun _ : Except (KError T) Unit => .ret []
  let rd2 : Option T → KProg T (List (Option T)) := fun a => Node.jointPosition 2 >>= fun b => .ret [a, b]
  let rd : KProg T (List (Option T)) := Node.jointPosition 1 >>= rd2
  let g1 : KHeap T := (exTwins m p).setJoint 0 x
  let g2 : KHeap T := g1.setJoint 1 (m.mimicPosition x)
  let g3 : KHeap T := g2.setJoint 2 (m.mimicPosition x)
  have child : ∀ (h : KHeap T) c, c ≠ 0 → h.Unlocked → (h.get c).mimic = some m →
      run (Node.setMimicChild 0 x c) (h.setHeld 0 true) =
        .ok ((h.get c).joint.setJointPosition (m.mimicPosition x)).2
          ((h.setJoint c (m.mimicPosition x)).setHeld 0 true) := by
    intro h c cn u hm
    have hc : (h.setHeld 0 true).held c = false := by simp [Heap.held_setHeld, cn, u c]
    simp only [Node.setMimicChild, run_bind, run_doLock_free _ _ hc, Res.bind_ok, run_doRead,
      Heap.get_setHeld, hm, run_doWrite, run_doUnlock, run_pure]
    rw [Heap.setHeld_modify_setHeld _ _ _ _ hc]; rfl
  have s0 : Steps (start (exTwins m p) [.call (.setJointPosition 0 x) fun _ => .done [],
      .call (.jointPosition 1) fun a => .call (.jointPosition 2) fun b => .done [a, b]])
      ⟨g1.setHeld 0 true, [Node.setMimicChild 0 x 1 >>= rest, rd]⟩ := by
    have e : Node.setMimicChild 0 x 1 >>= rest = (tryEach [1, 2] (Node.setMimicChild 0 x) >>=
        fun r : Except (KError T) Unit => doUnlock 0 >>= fun _ => pure r) >>=
        fun _ : Except (KError T) Unit => (.ret [] : KProg T (List (Option T))) := by
      show _ = (((Node.setMimicChild 0 x 1) >>= _) >>= _) >>= _
      rw [Prog.bind_assoc, Prog.bind_assoc]
      refine congrArg (Node.setMimicChild 0 x 1 >>= ·) (funext fun r => ?_)
      rcases r with e | u
      · rfl
      · show (tryEach [2] (Node.setMimicChild 0 x) >>= _) >>= _ = _
        rw [Prog.bind_assoc]
    rw [e]
    exact runSched_steps (is := [0, 0, 0]) rfl
  have s1 := steps_run (f := rest) (i := 0) (ts := [Node.setMimicChild 0 x 1 >>= rest, rd])
    (child g1 1 (by simp) u rfl) rfl
  have s2 := steps_run (f := rd2) (i := 1) (ts := [rest (.ok ()), rd])
    (run_Node_jointPosition 1 (g2.setHeld 0 true) rfl) rfl
  have s3 := steps_run (f := fun b => .ret [some (m.mimicPosition x), b]) (i := 1)
    (ts := [rest (.ok ()), rd2 (some (m.mimicPosition x))])
    (run_Node_jointPosition 2 (g2.setHeld 0 true) rfl) rfl
  have e4 : rest (.ok ()) = Node.setMimicChild 0 x 2 >>= fin := by
    show (((Node.setMimicChild 0 x 2) >>= _) >>= _) >>= _ = _
    rw [Prog.bind_assoc, Prog.bind_assoc]
    refine congrArg (Node.setMimicChild 0 x 2 >>= ·) (funext fun r => ?_)
    rcases r with e | u <;> rfl
  have s4 := steps_run (f := fin) (i := 0)
    (ts := [rest (.ok ()), .ret [some (m.mimicPosition x), some p]])
    (child g2 2 (by simp) u rfl) (by rw [e4]; rfl)
  have s5 : Steps ⟨g3.setHeld 0 true, [fin (.ok ()), .ret [some (m.mimicPosition x), some p]]⟩
      ⟨(g3.setHeld 0 true).setHeld 0 false, [.ret [], .ret [some (m.mimicPosition x), some p]]⟩ :=
    runSched_steps (is := [0]) rfl
  exact ⟨_, ((((s0.trans s1).trans s2).trans s3).trans s4).trans s5, rfl, rfl, rfl⟩

/-! ## the hypotheses are met -/

/-- two clients on `exPair`: whatever the interleaving, both could have made their calls one by one -/
example (x y : T) (d : Config (NodeImpl T) (Option T))
    (st : Steps (start exPair [.call (.setJointPosition 0 x) fun _ => .call (.jointPosition 1) .done,
      .call (.setJointPosition 1 y) fun _ => .call (.jointPosition 0) .done]) d)
    (u : d.heap.Unlocked) : ∃ cs', d.threads = cs'.map Client.prog ∧
      CallSteps (exPair, [.call (.setJointPosition 0 x) fun _ => .call (.jointPosition 1) .done,
      .call (.setJointPosition 1 y) fun _ => .call (.jointPosition 0) .done]) (d.heap, cs') := by
  have only : ∀ c ∈ ([.call (.setJointPosition 0 x) fun _ => .call (.jointPosition 1) .done,
      .call (.setJointPosition 1 y) fun _ => .call (.jointPosition 0) .done] : List (Client T (Option T))),
      c.Only NodeCall := by
    intro c hc
    simp only [List.mem_cons, List.not_mem_nil, or_false] at hc
    rcases hc with rfl | rfl <;> exact ⟨trivial, fun _ => ⟨trivial, fun _ => trivial⟩⟩
  have al : ∀ n, ((exPair (T := T)).get n).mimicChildren = [] := fun n => by
    simp only [exPair]; split <;> rfl
  obtain ⟨hm, csm, cs', e, a, b, -⟩ := C65_linearizable (h := exPair) (fun _ => rfl) al only (.refl _) st u
  exact ⟨cs', e, a.trans b⟩

end K
