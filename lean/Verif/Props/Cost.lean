import Verif.Lemmas.CostCalls
import Verif.Lemmas.Calls
import Verif.Lemmas.Fk
import Verif.Props.Region
import Verif.Props.Mimic
/-!
# C94: how many mutexes a call acquires
-/

set_option linter.unusedSectionVars false

namespace K
open Prog

variable {T α β : Type} [Scalar T] {M : Nat}

/-! ## Every execution is counted -/

/-- **C94** (the numbers exist).  Every execution has exactly such numbers: `Tally` leaves out no
interleaving. -/
theorem C94_every_execution {S : Type} (c d : Config S α) : DSteps c d ↔ ∃ k, Tally c k d := by
  constructor
  · intro st
    induction st with
    | refl => exact ⟨_, .refl _⟩
    | tail _ s ih =>
      obtain ⟨k, x⟩ := ih
      cases s with
      | free F => exact ⟨k, .free x F⟩
      | thread s =>
        cases s with
        | mk i p p' h' hi hs =>
          by_cases nl : ∃ n q, p = .lock n q
          · obtain ⟨n, q, rfl⟩ := nl
            simp only [step1] at hs
            split at hs
            · cases hs
            · rename_i free
              cases hs
              exact ⟨_, .lock x i n _ hi (by simpa using free)⟩
          · exact ⟨k, .other x i p p' h' hi (fun n q e => nl ⟨n, q, e⟩) hs⟩
  · rintro ⟨k, x⟩
    induction x with
    | refl => exact .refl _
    | lock x i n p hi free ih =>
      exact .tail ih (.thread (.mk _ i _ p _ hi (by simp [step1, free])))
    | other x i p p' h' hi nl hs ih => exact .tail ih (.thread (.mk _ i p p' h' hi hs))
    | free x F ih => exact .tail ih (.free _ F)

/-! ## Threads -/

/-- **C94**.  Threads work on shared nodes, in any interleaving, while nodes are freed at any moments, and
no node ever has more than `M` mimic children.  When a thread has returned, the number of mutexes it has
acquired is the sum of the numbers of its calls, each as given by `Call.Locks`, whatever the other threads
did. -/
theorem C94_threads (h : KHeap T) (cs : List (Client T α))
    (few : ∀ d, DSteps (Config.ofClients h cs) d → FewMimics M d.heap)
    {k : Nat → Nat} {d : Config (NodeImpl T) α} (x : Tally (Config.ofClients h cs) k d)
    (i : Nat) (cl : Client T α) (hi : cs[i]? = some cl) (a : α) (done : d.threads[i]? = some (.ret a)) :
    cl.Locks M a (k i) := by
  have start : ∃ Ls, Paid (Few M) (fun _ _ => True) (fun i a k => ∀ cl, cs[i]? = some cl → cl.Locks M a k)
      (Config.ofClients h cs) (fun _ => 0) Ls := by
    refine ⟨fun _ => [], fun i p hp => ?_, by simp, by simp, fun _ => List.nodup_nil, fun _ _ => trivial⟩
    simp only [Config.ofClients, List.getElem?_map, Option.map_eq_some_iff] at hp
    obtain ⟨cl, hcl, rfl⟩ := hp
    exact cost_client (P := fun a k => ∀ cl, cs[i]? = some cl → cl.Locks M a k) cl (.inl fun _ => trivial)
      fun a j hj cl' e => by
        rw [hcl] at e; cases e
        rwa [Nat.zero_add]
  obtain ⟨Ls, w⟩ := tally_paid start (fun k d x => few d ((C94_every_execution _ _).2 ⟨k, x⟩)) x
  exact (w.cost i _ done).2 cl hi

/-- **C94** (at any moment).  A thread that makes no call which walks along the links, and whose calls
sum up to at most `b` mutexes, has never acquired more than `b`, also if it panics or waits forever, whatever
the other threads do. -/
theorem C94_most (h : KHeap T) (cs : List (Client T α))
    (few : ∀ d, DSteps (Config.ofClients h cs) d → FewMimics M d.heap)
    {k : Nat → Nat} {d : Config (NodeImpl T) α} (x : Tally (Config.ofClients h cs) k d)
    (i : Nat) (cl : Client T α) (hi : cs[i]? = some cl) (b : Nat) (hb : cl.Most M b) : k i ≤ b := by
  have start : ∃ Ls, Paid (Few M) (fun i k => ∀ cl, cs[i]? = some cl → ∀ b, cl.Most M b → k ≤ b)
      (fun _ _ _ => True) (Config.ofClients h cs) (fun _ => 0) Ls := by
    refine ⟨fun _ => [], fun i p hp => ?_, by simp, by simp, fun _ => List.nodup_nil,
      fun _ _ _ _ _ _ => Nat.zero_le _⟩
    simp only [Config.ofClients, List.getElem?_map, Option.map_eq_some_iff] at hp
    obtain ⟨cl, hcl, rfl⟩ := hp
    refine cost_client (P := fun _ _ => True) cl ?_ fun _ _ _ => trivial
    by_cases ex : ∃ b, cl.Most M b
    · -- the least bound
      obtain ⟨b, hb, least⟩ : ∃ b, cl.Most M b ∧ ∀ b', cl.Most M b' → b ≤ b' := by
        classical
        exact ⟨Nat.find ex, Nat.find_spec ex, fun b' hb' => Nat.find_min' ex hb'⟩
      refine .inr ⟨b, hb, fun j hj cl' e b' hb' => ?_⟩
      rw [hcl] at e; cases e
      have := least b' hb'
      omega
    · refine .inl fun j cl' e b' hb' => ?_
      rw [hcl] at e; cases e
      exact absurd ⟨b', hb'⟩ ex
  obtain ⟨Ls, w⟩ := tally_paid start (fun k d x => few d ((C94_every_execution _ _).2 ⟨k, x⟩)) x
  have len : d.threads.length = cs.length := by
    clear w hi hb few
    induction x with
    | refl => simp [Config.ofClients]
    | lock _ _ _ _ _ _ ih => simpa using ih
    | other _ _ _ _ _ _ _ _ ih => simpa using ih
    | free _ _ ih => simpa using ih
  exact w.most i (by rw [len]; exact (List.getElem?_eq_some_iff.1 hi).1) cl hi b hb

/-! ## When the number of mimic children stays as it is -/

/-- the call registers no mimic children -/
def NoNewMimic {β : Type} : Call T β → Prop
  | .setMimicParent _ _ _ | .cloneChain _ _ => False
  | _ => True

theorem safe_few {β : Type} (c : Call T β) (nm : NoNewMimic c) :
    Safe 0 (fun _ => Few M) (fun _ => True) c.prog := by
  refine safe_call c ?_ (fun n _ => .all (fun _ _ _ hs => hs) n) ?_
  · intro m f hf s hs
    cases c <;> first
      | exact nm.elim
      | exact hf.elim
      | skip
    case setParent => rcases hf with ⟨-, rfl⟩ | ⟨-, rfl⟩ <;> exact hs
    case removeParent => rcases hf with ⟨-, rfl⟩ | ⟨-, rfl⟩ <;> exact hs
    case setLink => rcases hf with ⟨-, rfl⟩; exact hs
    case setOrigin => rcases hf with ⟨-, rfl⟩; exact hs
    case setJointPositionClamped => rcases hf with ⟨-, rfl⟩; exact hs
    case setJointPositionUnchecked => rcases hf with ⟨-, rfl⟩; exact hs
    case chainSetOrigin => rcases hf with ⟨-, rfl⟩; exact hs
    case setJointPositionsClamped => rcases hf with ⟨-, y, -, rfl⟩; exact hs
    case setJointPositionsUnchecked => rcases hf with ⟨-, y, -, rfl⟩; exact hs
    case updateTransforms => rcases hf with ⟨-, t, rfl⟩; exact hs
    case updateVelocities => rcases hf with ⟨-, ⟨t, rfl⟩ | ⟨t, rfl⟩⟩ <;> exact hs
    case updateLinkTransforms => rcases hf with ⟨-, ⟨t, rfl⟩ | ⟨t, rfl⟩⟩ <;> exact hs
    case jacobian => rcases hf with ⟨-, t, rfl⟩; exact hs
    case centerOfMass => rcases hf with ⟨-, t, rfl⟩; exact hs
    case solve => rcases hf with ⟨-, t, rfl⟩ | ⟨-, t, rfl⟩ <;> exact hs
  · cases c <;> first
      | trivial
      | exact nm.elim
      | exact fun m hm => Nat.zero_le _

/-- **C94** (where `M` comes from).  If no thread registers mimic children, no node ever has more of them
than some node had at the beginning. -/
theorem C94_few (h : KHeap T) (cs : List (Client T α)) (few : FewMimics M h)
    (nm : ∀ cl ∈ cs, cl.Only NoNewMimic) (d : Config (NodeImpl T) α)
    (st : DSteps (Config.ofClients h cs) d) : FewMimics M d.heap := by
  refine fun n => (steps_safe (lo := 0) (P := fun _ => Few M) (Q := fun _ => True) st ?_
    ⟨Nat.zero_le _, few⟩).2.2 n
  intro p hp
  obtain ⟨cl, hcl, rfl⟩ := List.mem_map.1 hp
  exact safe_client_of (φ := NoNewMimic) (fun c => safe_few c) cl (nm cl hcl)

/-! ## One thread alone -/

theorem acquisitions_bind {S : Type} (p : Prog S α) (f : α → Prog S β) (h : Heap S) :
    acquisitions (p >>= f) h = acquisitions p h + (match run p h with
      | .ok a h' => acquisitions (f a) h'
      | _ => 0) := by
  show acquisitions (p.bind f) h = _
  induction p generalizing h with
  | ret a => simp [Prog.bind, acquisitions, run]
  | lock n p ih =>
    simp only [Prog.bind, acquisitions, run]
    split
    · rfl
    · rw [ih]; omega
  | unlock n p ih => exact ih _
  | read n p ih => exact ih _ _
  | write n f p ih => exact ih _
  | upgrade n p ih => exact ih _ _
  | alloc s p ih => exact ih _ _
  | panic m => rfl
  | diverge => rfl

/-- thread `i` runs to its end while the others wait -/
theorem tally_run {S : Type} {c : Config S α} {k : Nat → Nat} (i : Nat) (p : Prog S α) (h h' : Heap S)
    (ts : List (Prog S α)) (a : α) (hi : ts[i]? = some p) (x : Tally c k ⟨h, ts⟩) (e : run p h = .ok a h') :
    ∃ k', Tally c k' ⟨h', ts.set i (.ret a)⟩ ∧ k' i = k i + acquisitions p h ∧ ∀ j, j ≠ i → k' j = k j := by
  have lt : i < ts.length := (List.getElem?_eq_some_iff.1 hi).1
  have go : ∀ q, (ts.set i q)[i]? = some q := fun q => List.getElem?_set_self lt
  have ss : ∀ q, (ts.set i q).set i (.ret a) = ts.set i (.ret a) := fun q => List.set_set ..
  induction p generalizing h k ts with
  | ret b =>
    cases e
    refine ⟨k, ?_, rfl, fun _ _ => rfl⟩
    have : ts.set i (.ret a) = ts := by
      obtain ⟨l, e⟩ := List.getElem?_eq_some_iff.1 hi
      rw [← e]; exact List.set_getElem_self l
    rwa [this]
  | lock n p ih =>
    simp only [run] at e
    split at e
    · cases e
    · rename_i free
      obtain ⟨k', x', e', o⟩ := ih _ _ (go p) (.lock x i n p hi (by simpa using free)) e (by simpa using lt)
        (fun q => List.getElem?_set_self (by simpa using lt)) fun q => List.set_set ..
      rw [ss] at x'
      refine ⟨k', x', ?_, fun j hj => by rw [o j hj, if_neg hj]⟩
      rw [e']
      simp only [if_true, acquisitions, if_neg free]
      omega
  | unlock n p ih =>
    have := ih _ _ (go p) (.other x i _ _ _ hi (by simp) rfl) e (by simpa using lt)
      (fun q => List.getElem?_set_self (by simpa using lt)) fun q => List.set_set ..
    rwa [ss] at this
  | read n p ih =>
    have := ih _ _ _ (go _) (.other x i _ _ _ hi (by simp) rfl) e (by simpa using lt)
      (fun q => List.getElem?_set_self (by simpa using lt)) fun q => List.set_set ..
    rwa [ss] at this
  | write n f p ih =>
    have := ih _ _ (go p) (.other x i _ _ _ hi (by simp) rfl) e (by simpa using lt)
      (fun q => List.getElem?_set_self (by simpa using lt)) fun q => List.set_set ..
    rwa [ss] at this
  | upgrade n p ih =>
    have := ih _ _ _ (go _) (.other x i _ _ _ hi (by simp) rfl) e (by simpa using lt)
      (fun q => List.getElem?_set_self (by simpa using lt)) fun q => List.set_set ..
    rwa [ss] at this
  | alloc s p ih =>
    have := ih _ _ _ (go _) (.other x i _ _ _ hi (by simp) rfl) e (by simpa using lt)
      (fun q => List.getElem?_set_self (by simpa using lt)) fun q => List.set_set ..
    rwa [ss] at this
  | panic m => cases e
  | diverge => cases e

/-- **C94** (one call alone). -/
theorem C94_alone (h h' : KHeap T) (few : FewMimics M h) (c : Call T β) (nm : NoNewMimic c) (r : β)
    (e : run c.prog h = .ok r h') : c.Locks M r (acquisitions c.prog h) := by
  have e1 : run (Client.call c .done).prog h = .ok r h' := by
    show run (c.prog >>= fun r => .ret r) h = _
    rw [run_bind, e]; rfl
  have e2 : acquisitions (Client.call c .done).prog h = acquisitions c.prog h := by
    show acquisitions (c.prog >>= fun r => .ret r) h = _
    rw [acquisitions_bind, e]; rfl
  obtain ⟨k, x, ek, -⟩ := tally_run 0 _ h h' [(Client.call c .done).prog] r rfl (.refl _) e1
  obtain ⟨r', k₁, k₂, l, ⟨rfl, rfl⟩, s⟩ := C94_threads h [Client.call c .done]
    (C94_few h _ few fun cl hcl => by
      obtain rfl := List.mem_singleton.1 hcl
      exact ⟨nm, fun _ => trivial⟩) x 0 _ rfl r rfl
  rw [← e2, show acquisitions (Client.call c .done).prog h = k 0 by rw [ek, Nat.zero_add], s]
  exact l

/-- nodes of the list with a parent that is still there -/
def withParent (h : KHeap T) (ns : List NodeId) : Nat := (ns.filter fun n => (liveParent h n).isSome).length

/-- a program that always takes `n` mutexes -/
theorem Takes.acquisitions {S : Type} {n : Nat} {p : Prog S α} (t : Takes (fun _ => True) n n p) (h h' : Heap S)
    (a : α) (e : run p h = .ok a h') : acquisitions p h = n := by
  obtain ⟨k, x, ek, -⟩ := tally_run 0 p h h' [p] a rfl (.refl _) e
  have start : ∃ Ls, Paid (fun _ => True) (fun _ _ => True) (fun i _ k => i = 0 → k = n)
      (⟨h, [p]⟩ : Config S α) (fun _ => 0) Ls := by
    refine ⟨fun _ => [], fun i q hq => ?_, by simp, by simp, fun _ => List.nodup_nil, fun _ _ => trivial⟩
    cases i with
    | succ i => cases hq
    | zero =>
      cases hq
      exact t [] 0 _ _ (fun _ _ => trivial) fun a j h1 h2 => ⟨rfl, fun _ => by omega⟩
  obtain ⟨Ls, w⟩ := tally_paid start (fun _ _ _ _ => trivial) x
  have := (w.cost 0 (.ret a) rfl).2 rfl
  omega

theorem acquisitions_updateTransform (n : NodeId) (h h' : KHeap T) (u : h.Unlocked) (t : Iso T)
    (e : run (Chain.updateTransform n) h = .ok t h') :
    acquisitions (Chain.updateTransform n) h = 3 + (if (liveParent h n).isSome then 1 else 0) := by
  have up : upgradeOpt h (h.get n).parent = liveParent h n := by
    unfold upgradeOpt liveParent; cases (h.get n).parent <;> rfl
  have p : acquisitions (Node.parentWorldTransform n : KProg T _) h =
      1 + (if (liveParent h n).isSome then 1 else 0) := by
    rw [Node.parentWorldTransform, acquisitions_bind,
      (Takes.parent n).acquisitions h _ _ (run_Node_parent n h (u n)), run_Node_parent n h (u n), up]
    cases liveParent h n with
    | none => rfl
    | some q => exact congrArg _ ((Takes.worldTransform q).acquisitions h _ _ (run_Node_worldTransform q h (u q)))
  rw [run_updateTransform n h u] at e
  rw [Chain.updateTransform, acquisitions_bind, p, run_Node_parentWorldTransform n h u]
  show 1 + _ + acquisitions (expect (pwt h n) _ >>= _) h = _
  split at e
  · rename_i X eX
    have r2 : run (do
        let j ← Node.joint n
        let trans := X.mul j.localTransform
        poke n fun s => { s with joint := s.joint.setWorldTransform trans }
        return trans : KProg T (Iso T)) h = .ok (X.mul (h.get n).joint.localTransform)
          (h.setWorld n (X.mul (h.get n).joint.localTransform)) := by
      simp only [run_bind, run_Node_joint n h (u n), Res.bind_ok, run_poke _ _ _ (u n)]
      rfl
    rw [eX]
    show 1 + _ + acquisitions (do
        let j ← Node.joint n
        let trans := X.mul j.localTransform
        poke n fun s => { s with joint := s.joint.setWorldTransform trans }
        return trans : KProg T (Iso T)) h = _
    rw [Takes.acquisitions ((Takes.joint n).bind fun _ => (takes_poke n _).bind fun _ => takes_pure _) h _ _ r2]
    omega
  · cases e

/-- **C94** (exactly).  `update_transforms()` of a thread alone: three mutexes for each node and one more for
each whose parent still exists. -/
theorem C94_update_exact (h h' : KHeap T) (u : h.Unlocked) (c : Chain) (Xs : List (Iso T))
    (e : run c.updateTransforms h = .ok Xs h') :
    acquisitions (c.updateTransforms : KProg T _) h = 3 * c.nodes.length + withParent h c.nodes := by
  obtain ⟨ns, mv, dof⟩ := c
  simp only [Chain.updateTransforms] at e ⊢
  induction ns generalizing h Xs with
  | nil => rfl
  | cons n ns ih =>
    rw [run_mapList_cons] at e
    obtain ⟨t, h1, e1, e2⟩ := Res.bind_eq_ok e
    obtain ⟨ts, h2, e3, e4⟩ := Res.bind_eq_ok e2
    have a1 := acquisitions_updateTransform n h h1 u t e1
    have e0 := e1
    rw [run_updateTransform n h u] at e1
    have same : h1.Unlocked ∧ ∀ m, liveParent h1 m = liveParent h m := by
      split at e1
      · cases e1
        refine ⟨fun m => u m, fun m => ?_⟩
        have hp : ((h.setWorld n ((‹Iso T›).mul (h.get n).joint.localTransform)).get m).parent =
            (h.get m).parent := by
          simp only [Heap.setWorld, Heap.get_modify]; split <;> rfl
        simp only [liveParent, hp]
        rfl
      · cases e1
    have := ih h1 same.1 ts (by rw [e3]; cases e4; rfl)
    simp only [mapList, acquisitions_bind, a1, e0, e3, this, withParent, same.2, List.filter_cons,
      List.length_cons]
    show _ + (_ + 0) = _
    split <;> simp <;> omega

/-! ## Concrete cases -/

/-- a root with a child and two mimic children -/
def exPrice : KHeap T where
  get := fun n =>
    if n = 0 then { NodeImpl.fresh (Joint.new "a" (.rotational ⟨0, 0, 1⟩)) with
      children := [1], mimicChildren := [2, 3] }
    else if n = 1 then { NodeImpl.fresh (Joint.new "b" (.rotational ⟨0, 0, 1⟩)) with parent := some 0 }
    else { NodeImpl.fresh (Joint.new "c" (.rotational ⟨0, 0, 1⟩)) with
      mimicParent := some 0, mimic := some ⟨1, 0⟩ }
  next := 4
  dead := fun _ => false
  held := fun _ => false

theorem exPrice_few : FewMimics 2 (exPrice : KHeap T) := by
  intro n
  simp only [exPrice]
  split
  · simp
  · split <;> simp [NodeImpl.fresh]

/-- **C94** on a root with two mimic children and one child: the upper bound of `set_joint_position` (three)
and the lower one (one, for the child) are both reached, and `update_transforms` of both nodes takes seven,
between the six and eight that are possible. -/
example (x : T) :
    (∃ r h', run (Node.setJointPosition 0 x) exPrice = .ok r h') ∧
    acquisitions (Node.setJointPosition 0 x) exPrice = 3 ∧
    acquisitions (Node.setJointPosition 1 x) exPrice = 1 ∧
    acquisitions (Chain.updateTransforms ⟨[0, 1], [0, 1], 2⟩ : KProg T _) exPrice = 7 :=
  ⟨⟨_, _, rfl⟩, rfl, rfl, rfl⟩

/-- two threads as in `C94_most`: one moves the root and looks at the positions, at most five mutexes -/
example (x : T) : (Client.call (.setJointPosition 0 x) fun _ =>
    .call (.jointPositions ⟨[0, 1], [0, 1], 2⟩) fun _ => .done () : Client T Unit).Most 2 5 :=
  ⟨3, rfl, by omega, fun r j hj => ⟨2, by have := hj.2; omega, 2, rfl, by omega, fun r j hj =>
    ⟨0, by have : j = 2 := hj; omega, trivial⟩⟩⟩

/-- **C94** (why `M` has to hold all the time): while another thread registers mimic children with the
joint, `set_joint_position` takes more mutexes than the joint had mimic children when it was called. -/
theorem C94_few_needed (m : Mimic T) (x : T) :
    let h : KHeap T := ⟨fun _ => NodeImpl.fresh (Joint.new "a" (.rotational ⟨0, 0, 1⟩)), 2, fun _ => false,
      fun _ => false⟩
    FewMimics 0 h ∧ ∃ k d, Tally (Config.ofClients h
      [.call (.setJointPosition 0 x) fun _ => .done (), .call (.setMimicParent 1 0 m) fun _ => .done ()]) k d ∧
      d.threads[0]? = some (.ret ()) ∧ k 0 = 2 := by
  intro h
  refine ⟨fun n => Nat.zero_le _, ?_⟩
  obtain ⟨k₁, x₁, -, o₁⟩ := tally_run 1 _ h _ _ () rfl (.refl (Config.ofClients h
      [.call (.setJointPosition 0 x) fun _ => .done (), .call (.setMimicParent 1 0 m) fun _ => .done ()])) rfl
  obtain ⟨k₂, x₂, e₂, -⟩ := tally_run 0 _ _ _ _ () rfl x₁ rfl
  refine ⟨k₂, _, x₂, rfl, ?_⟩
  rw [e₂, o₁ 0 (by decide)]
  rfl

end K
