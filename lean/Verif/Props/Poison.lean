import Verif.Props.Concurrency
import Verif.Lemmas.Poison
import Verif.Lemmas.Calls
/-!
# C52: poisoned mutexes

A panic while a guard is alive poisons the mutex of the node: every later call on the node panics.
`PSteps` is the interleaving semantics with poisoning (`Model/Poison.lean`).
-/

namespace K
open Prog
variable {T : Type} [Scalar T] {α : Type}

/-! ## threads -/

private theorem ownInv (h : KHeap T) (u : h.Unlocked) (wf : MimicWF h) (al : MimicAllocated h)
    (ts : List (Client T α)) (only : ∀ t ∈ ts, t.Only (fun c => CleanCall h c)) :
    OwnInv (fun _ _ => True) (fun L => L = []) h.next
      (LockInv (fun c => ∃ m, c ∈ (h.get m).mimicChildren)
        (fun n => n < h.next ∧ (h.get n).joint.isMovable = true) (fun _ _ => True) (fun _ _ => True))
      (fun L (_ : α) => L = [] ∧ True) (PConfig.init (start h ts)) := by
  refine ⟨⟨Nat.le_refl _, fun n => ⟨fun ⟨m, hm⟩ => wf m n hm, fun c hc => ⟨⟨n, hc⟩, fun _ => trivial⟩,
    fun _ _ => trivial, fun f => f.2⟩⟩, ?_, fun n => ?_, fun _ => rfl⟩
  · intro k p hp
    have := List.mem_of_getElem? hp
    simp only [PConfig.init, start, List.mem_map] at this
    obtain ⟨t, ht, rfl⟩ := this
    refine ⟨[], keep_client (φ := fun c => CleanCall h c) (fun c hc => ?_) t (only t ht), by simp,
      fun n => by simp [PConfig.init]⟩
    refine keep_call (fun _ => trivial) (fun _ _ _ => trivial) (fun n ⟨m, hm⟩ => al m n hm)
      (fun n f => f.1) False (fun _ _ => False) (fun f => f.elim) (fun f => f.elim) (fun f => f.elim) c ?_
    cases c <;> simp_all [CleanCall, LockCall]
  · simp [PConfig.init, start, u n]

/-- Threads whose calls cannot panic while holding a mutex never poison one: in every execution no
mutex is poisoned, ... -/
theorem C52_never_poisoned (h : KHeap T) (u : h.Unlocked) (wf : MimicWF h) (al : MimicAllocated h)
    (ts : List (Client T α)) (only : ∀ t ∈ ts, t.Only (fun c => CleanCall h c))
    (d : PConfig (NodeImpl T) α) (st : PDSteps (.init (start h ts)) d) (n : NodeId) :
    d.poisoned n = false :=
  (pdsteps_own (fun _ e => e) st (ownInv h u wf al ts only)).1.clean n

/-- ... so that the executions are exactly those of the semantics without poisoning. -/
theorem C52_exact (h : KHeap T) (u : h.Unlocked) (wf : MimicWF h) (al : MimicAllocated h)
    (ts : List (Client T α)) (only : ∀ t ∈ ts, t.Only (fun c => CleanCall h c))
    (d : Config (NodeImpl T) α) :
    (Steps (start h ts) d ↔ ∃ e, PSteps (.init (start h ts)) e ∧ e.plain = d) ∧
      (DSteps (start h ts) d ↔ ∃ e, PDSteps (.init (start h ts)) e ∧ e.plain = d) := by
  refine ⟨⟨fun st => ?_, ?_⟩, fun st => ?_, ?_⟩
  · obtain ⟨o, ps⟩ := Steps.lift st (fun _ => none)
    exact ⟨_, ps, rfl⟩
  · rintro ⟨e, ps, rfl⟩
    exact (psteps_own (fun _ e => e) ps (ownInv h u wf al ts only)).2
  · obtain ⟨o, ps⟩ := DSteps.lift st (fun _ => none)
    exact ⟨_, ps, rfl⟩
  · rintro ⟨e, ps, rfl⟩
    exact (pdsteps_own (fun _ e => e) ps (ownInv h u wf al ts only)).2

/-! ## one thread -/

/-- `set_mimic_parent` stores both -/
def MimicPaired (h : KHeap T) : Prop :=
  ∀ n, (h.get n).mimicParent.isSome → (h.get n).mimic.isSome

/-- the joints that the chain moves are among its nodes, allocated and not Fixed -/
def Chain.Usable (h : KHeap T) (c : Chain) : Prop :=
  ∀ n ∈ c.movableNodes, n ∈ c.nodes ∧ n < h.next ∧ (h.get n).joint.isMovable = true

/-- the chains of the calls that read joint positions are usable -/
def UsesUsable (h : KHeap T) {β : Type} : Call T β → Prop
  | .jointPositions c => c.Usable h
  | .jacobian c => c.Usable h
  | .solve _ c _ _ => c.Usable h
  | _ => True

/-- a panic leaves no mutex locked (so none is poisoned when it unwinds) -/
def PanicsUnlocked {β : Type} : Res (NodeImpl T) β → Prop
  | .panic _ h => h.Unlocked
  | _ => True

private def CleanRes {β : Type} (I : KHeap T → Prop) (Q : β → KHeap T → Prop) : Res (NodeImpl T) β → Prop
  | .ok a h => h.Unlocked ∧ I h ∧ Q a h
  | .panic _ h => h.Unlocked
  | .blocked _ _ => False
  | .diverged => True

private def Clean {β : Type} (I : KHeap T → Prop) (p : KProg T β) : Prop :=
  ∀ h, h.Unlocked → I h → CleanRes I (fun _ _ => True) (run p h)

private theorem CleanRes.unlocked {β : Type} {I : KHeap T → Prop} {Q : β → KHeap T → Prop}
    {r : Res (NodeImpl T) β} (c : CleanRes I Q r) : PanicsUnlocked r := by
  cases r <;> first | exact c | trivial

private theorem Clean.bind {β γ : Type} {I : KHeap T → Prop} {p : KProg T β} {f : β → KProg T γ}
    (hp : Clean I p) (hf : ∀ a, Clean I (f a)) : Clean I (p >>= f) := by
  intro h u i
  rw [run_bind]
  have := hp h u i
  cases e : run p h with
  | ok a h' => rw [e] at this; exact hf a h' this.1 this.2.1
  | panic m h' => rw [e] at this; exact this
  | blocked n h' => rw [e] at this; exact this
  | diverged => trivial

private theorem clean_pure {β : Type} {I : KHeap T → Prop} {a : β} :
    Clean I (pure a : KProg T β) := fun _ u i => ⟨u, i, trivial⟩
private theorem clean_panic {β : Type} {I : KHeap T → Prop} {m : String} :
    Clean I (.panic m : KProg T β) := fun _ u _ => u
private theorem clean_expect {β : Type} {I : KHeap T → Prop} {o : Option β} {m : String} :
    Clean I (expect o m : KProg T β) := by cases o; exact clean_panic; exact clean_pure
private theorem clean_ofExcept {β : Type} {I : KHeap T → Prop} {o : Except String β} :
    Clean I (ofExcept o : KProg T β) := by cases o; exact clean_panic; exact clean_pure

section
variable {lo : Nat} {M F : NodeId → Prop} {R : NodeId → NodeId → Prop}

/-- the invariant of the heap during a call -/
private abbrev HI (lo : Nat) (M F : NodeId → Prop) (R : NodeId → NodeId → Prop) : KHeap T → Prop :=
  HeapInv lo (LockInv (T := T) M F R (fun n c => n ≠ c))

private theorem clean_keep {β : Type} {P : NodeId → NodeImpl T → Prop} {p : KProg T β}
    (k : Keep (fun L n => n ∉ L) (fun L => L = []) lo P (Pres P) [] (fun _ => True) p) :
    Clean (HeapInv lo P) p := by
  intro h u i
  have := run_lk (fun L n h => h) k i (HeldIs.nil u)
  cases e : run p h with
  | ok a h' =>
    rw [e] at this
    obtain ⟨⟨L, ⟨rfl, _⟩, hl⟩, inv⟩ := this
    exact ⟨hl.unlocked, inv, trivial⟩
  | panic m h' =>
    rw [e] at this
    obtain ⟨L, rfl, hl⟩ := this
    exact hl.unlocked
  | blocked n h' => rw [e] at this; exact this
  | diverged => trivial

private theorem clean_call (mlo : ∀ n, M n → n < lo) (flo : ∀ n, F n → n < lo) (D : Prop)
    (ok : List NodeId → NodeId → Prop) (acq : D → ∀ L n, ok L n → n ∉ L)
    (down : D → ∀ L n m, ok L n → R n m → ok (n :: L) m) (ok0 : D → ∀ n, ok [] n)
    {β : Type} (c : Call T β) (l : LockCall F R D (fun L => L = []) c) :
    Clean (HI lo M F R) c.prog :=
  clean_keep (keep_call (fun n => by simp) (fun n c r => by simpa using Ne.symm r) mlo flo D ok acq down
    ok0 c l)

/-- after `update_transforms` every node of the chain has a cached transform -/
private theorem cached_mapList (ns : List NodeId) (h h' : KHeap T) (u : h.Unlocked) (a : List (Iso T))
    (e : run (mapList ns Chain.updateTransform) h = .ok a h') :
    (∀ n, (h.get n).joint.worldTransform.isSome → (h'.get n).joint.worldTransform.isSome) ∧
    ∀ n ∈ ns, (h'.get n).joint.worldTransform.isSome := by
  induction ns generalizing h a with
  | nil => cases e; exact ⟨fun _ h => h, fun n hn => by cases hn⟩
  | cons n ns ih =>
    simp only [mapList, run_bind, run_updateTransform n h u] at e
    cases ep : pwt h n with
    | none => rw [ep] at e; cases e
    | some t =>
      rw [ep] at e
      simp only [Res.bind_ok] at e
      obtain ⟨b, h1, e1, e2⟩ := Res.bind_eq_ok e
      cases e2
      obtain ⟨k1, k2⟩ := ih _ (u.modify n _) _ e1
      have keep : ∀ m, (m = n ∨ (h.get m).joint.worldTransform.isSome) →
          ((h.setWorld n (t.mul (h.get n).joint.localTransform)).get m).joint.worldTransform.isSome := by
        intro m hm
        simp only [Heap.setWorld, Heap.get_modify]
        split
        · rfl
        · rename_i ne; exact hm.resolve_left ne
      refine ⟨fun m hm => k1 m (keep m (.inr hm)), fun m hm => ?_⟩
      rcases List.mem_cons.1 hm with rfl | hm
      · exact k1 m (keep m (.inl rfl))
      · exact k2 m hm

private theorem jacobian_columns (pn : V3 T) (ns : List NodeId) (h : KHeap T) (u : h.Unlocked)
    (hw : ∀ n ∈ ns, (h.get n).joint.worldTransform.isSome)
    (hm : ∀ n ∈ ns, (h.get n).joint.isMovable = true) :
    ∃ cols, run (mapList ns fun n => do
      doLock n
      let s ← doRead n
      let ti ← expect s.joint.worldTransform "called `Option::unwrap()` on a `None` value"
      let col ← ofExcept (jacobianColumn pn s.joint ti)
      doUnlock n
      return col) h = .ok cols h := by
  induction ns with
  | nil => exact ⟨[], rfl⟩
  | cons n ns ih =>
    obtain ⟨cols, ec⟩ := ih (fun m h => hw m (by simp [h])) (fun m h => hm m (by simp [h]))
    obtain ⟨ti, et⟩ := Option.isSome_iff_exists.1 (hw n (by simp))
    obtain ⟨col, ej⟩ : ∃ col, jacobianColumn pn (h.get n).joint ti = .ok col := by
      have m := hm n (by simp)
      unfold Joint.isMovable at m
      unfold jacobianColumn
      cases ej : (h.get n).joint.jointType with
      | fixed => simp [ej] at m
      | linear a => exact ⟨_, rfl⟩
      | rotational a => exact ⟨_, rfl⟩
    refine ⟨col :: cols, ?_⟩
    have one : run (do
        doLock n
        let s ← doRead n
        let ti ← expect s.joint.worldTransform "called `Option::unwrap()` on a `None` value"
        let col ← ofExcept (jacobianColumn pn s.joint ti)
        doUnlock n
        return col : KProg T (List T)) h = .ok col h := by
      simp only [run_bind, run_doLock_free _ _ (u n), Res.bind_ok, run_doRead, Heap.get_setHeld, et,
        run_expect_some, ej, Prog.ofExcept]
      simp only [run, Res.bind_ok, run_doUnlock, Heap.setHeld_setHeld_false _ _ (u n), run_pure]
    rw [show ∀ f : NodeId → KProg T (List T), mapList (n :: ns) f =
      (f n >>= fun y => mapList ns f >>= fun ys => pure (y :: ys)) from fun _ => rfl, run_bind, one]
    simp only [Res.bind_ok, run_bind, ec, run_pure]

variable (mlo : ∀ n, M n → n < lo) (flo : ∀ n, F n → n < lo)
include mlo flo

private theorem clean_plain {β : Type} (c : Call T β)
    (l : LockCall F (fun _ _ => True) False (fun L => L = []) c) :
    Clean (HI lo M F (fun _ _ => True)) c.prog :=
  clean_call mlo flo False (fun _ _ => False) (fun f => f.elim) (fun f => f.elim) (fun f => f.elim) c l

private theorem clean_jacobian (c : Chain) (hc : ∀ n ∈ c.movableNodes, n ∈ c.nodes ∧ F n) :
    Clean (HI (T := T) lo M F (fun _ _ => True)) (jacobian c) := by
  refine (clean_plain (T := T) mlo flo (.endTransform c) trivial).bind fun tn => ?_
  intro h u i
  have hu := clean_plain (T := T) mlo flo (.updateTransforms c) rfl h u i
  rw [run_bind]
  cases e : run (c.updateTransforms : KProg T _) h with
  | ok a h' =>
    rw [show (Call.updateTransforms c : Call T _).prog = c.updateTransforms from rfl, e] at hu
    obtain ⟨u', i', -⟩ := hu
    obtain ⟨cols, ec⟩ := jacobian_columns tn.trans c.movableNodes h' u'
      (fun n hn => (cached_mapList c.nodes h h' u a e).2 n (hc n hn).1)
      (fun n hn => (i'.2 n).movable (hc n hn).2)
    simp only [Res.bind_ok]
    refine Eq.mpr (congrArg _ ec) ?_
    exact ⟨u', i', trivial⟩
  | panic m h' =>
    rw [show (Call.updateTransforms c : Call T _).prog = c.updateTransforms from rfl, e] at hu; exact hu
  | blocked n h' =>
    rw [show (Call.updateTransforms c : Call T _).prog = c.updateTransforms from rfl, e] at hu; exact hu
  | diverged => trivial

private theorem clean_solveOneLoop (s : IkSolver T) (arm : Chain) (t : Iso T) (ops : List Bool)
    (ig : List Nat) (hc : ∀ n ∈ arm.movableNodes, n ∈ arm.nodes ∧ F n) :
    Clean (HI (T := T) lo M F (fun _ _ => True)) (solveOneLoop s arm t ops ig) := by
  refine (clean_plain (T := T) mlo flo (.jointPositions arm) (.inr fun n hn => (hc n hn).2)).bind fun _ => ?_
  refine (clean_plain (T := T) mlo flo (.endTransform arm) trivial).bind fun _ => ?_
  refine (clean_jacobian mlo flo arm hc).bind fun _ => clean_ofExcept.bind fun r => ?_
  cases r with
  | error e => exact clean_pure
  | ok ps =>
    refine (clean_plain (T := T) mlo flo (.setJointPositionsClamped arm ps) trivial).bind fun _ => ?_
    exact (clean_plain (T := T) mlo flo (.endTransform arm) trivial).bind fun _ => clean_pure

private theorem clean_tryLoop (s : IkSolver T) (arm : Chain) (t : Iso T) (ops : List Bool)
    (ig : List Nat) (orig : List T) (k : Nat) (l : Option (V3 T × V3 T))
    (hc : ∀ n ∈ arm.movableNodes, n ∈ arm.nodes ∧ F n) :
    Clean (HI (T := T) lo M F (fun _ _ => True)) (tryLoop s arm t ops ig orig k l) := by
  induction k generalizing l with
  | zero =>
    unfold tryLoop
    refine (clean_plain (T := T) mlo flo (.setJointPositions arm orig) trivial).bind fun r => ?_
    cases r with
    | error e => exact clean_pure
    | ok u => exact clean_expect.bind fun _ => clean_pure
  | succ k ih =>
    unfold tryLoop
    refine (clean_solveOneLoop mlo flo s arm t ops ig hc).bind fun r => ?_
    cases r with
    | error e => exact clean_pure
    | ok d =>
      dsimp only
      split
      · refine (clean_plain (T := T) mlo flo (.jointPositions arm) (.inr fun n hn => (hc n hn).2)).bind
          fun ps => ?_
        exact (clean_plain (T := T) mlo flo (.setJointPositionsClamped arm ps) trivial).bind fun _ => clean_pure
      · exact ih _

private theorem clean_solve (s : IkSolver T) (arm : Chain) (t : Iso T) (cs : Constraints)
    (hc : ∀ n ∈ arm.movableNodes, n ∈ arm.nodes ∧ F n) :
    Clean (HI (T := T) lo M F (fun _ _ => True)) (solveWithConstraints s arm t cs) := by
  unfold solveWithConstraints
  refine (clean_plain (T := T) mlo flo (.jointPositions arm) (.inr fun n hn => (hc n hn).2)).bind
    fun orig => ?_
  refine Clean.bind ?_ fun r => ?_
  · unfold solveInternal
    refine (clean_plain (T := T) mlo flo (.jointPositions arm) (.inr fun n hn => (hc n hn).2)).bind
      fun _ => ?_
    split
    · exact clean_panic
    · dsimp only
      split
      · exact clean_pure
      · refine (clean_keep (keep_ignoredIndices (fun n => by simp) _ _)).bind fun r => ?_
        cases r with
        | error e => exact clean_pure
        | ok ig => exact clean_tryLoop mlo flo _ _ _ _ _ _ _ _ hc
  · cases r with
    | ok u => exact clean_pure
    | error e =>
      refine (clean_plain (T := T) mlo flo (.setJointPositions arm orig) trivial).bind fun r => ?_
      cases r <;> exact clean_pure
end

private theorem run_iterLinks (c : Chain) (h : KHeap T) (u : h.Unlocked) :
    ∃ ls, run (c.iterLinks : KProg T _) h = .ok ls h := by
  have one : ∀ n, run (do
      if (← Node.link n).isSome then
        doLock n
        let s ← doRead n
        let l ← expect s.link "called `Option::unwrap()` on a `None` value"
        doUnlock n
        return some l
      else return none : KProg T (Option (Link T))) h = .ok (h.get n).link h := by
    intro n
    simp only [run_bind, run_Node_link _ _ (u n), Res.bind_ok]
    cases e : (h.get n).link with
    | none => rfl
    | some l =>
      simp only [Option.isSome_some, if_true, run_bind, run_doLock_free _ _ (u n), Res.bind_ok,
        run_doRead, Heap.get_setHeld, e, run_expect_some, run_doUnlock,
        Heap.setHeld_setHeld_false _ _ (u n), run_pure]
  unfold Chain.iterLinks
  rw [run_bind, run_mapList_pure (g := fun n => (h.get n).link) fun n _ => one n]
  exact ⟨_, rfl⟩

/-- Alone, no call (respecting `Respectful`; joint positions, Jacobian and IK on a usable chain) panics
while holding a mutex: single-threaded use never poisons a node. -/
theorem C52_alone (h : KHeap T) (b : Built h) (mp : MimicPaired h) {β : Type} (c : Call T β)
    (r : Respectful h c) (us : UsesUsable h c) : PanicsUnlocked (run c.prog h) := by
  let F : NodeId → Prop := fun n => n < h.next ∧ (h.get n).joint.isMovable = true
  let M : NodeId → Prop := fun c => ∃ m, c ∈ (h.get m).mimicChildren
  have mlo : ∀ n, M n → n < h.next := fun n ⟨m, hm⟩ => b.allocated m n hm
  have flo : ∀ n, F n → n < h.next := fun n f => f.1
  have inv : ∀ R : NodeId → NodeId → Prop, (∀ n, ∀ c ∈ (h.get n).children, R n c) →
      HI h.next M F R h := by
    refine fun R hR => ⟨Nat.le_refl _, fun n => ⟨fun ⟨m, hm⟩ => b.mimic m n hm,
      fun c hc => ⟨⟨n, hc⟩, ?_⟩, hR n, fun f => f.2⟩⟩
    rintro e rfl
    have := (b.mimic n n hc).1; rw [e] at this; cases this
  have plain : LockCall F (fun _ _ => True) False (fun L => L = []) c →
      PanicsUnlocked (run c.prog h) := fun l =>
    (clean_plain mlo flo c l h b.unlocked (inv _ fun _ _ _ => trivial)).unlocked
  cases c
  case updateVelocities => exact r.elim
  case setMimicParent n p m =>
    simp only [Call.prog]
    rw [run_Node_setMimicParent n p m h b.unlocked]; trivial
  case display f c =>
    obtain ⟨rank, hr⟩ := r
    refine (clean_call (T := T) mlo flo True (fun L n => ∀ m ∈ L, rank m < rank n) ?_ ?_ ?_ (.display f c)
      ⟨trivial, rfl⟩ h b.unlocked (inv (fun n c => rank n < rank c) hr)).unlocked
    · exact fun _ L n hn i => Nat.lt_irrefl _ (hn n i)
    · intro _ L n m hn r k hk
      rcases List.mem_cons.1 hk with rfl | hk
      · exact r
      · exact Nat.lt_trans (hn k hk) r
    · exact fun _ n m hm => by cases hm
  case cloneChain f c =>
    refine (clean_keep (P := fun n s => n < h.next → s = h.get n)
      (Chain.keep_clone (T := T) (A := fun L n => n ∉ L) (pk := fun L => L = [])
        (P := fun n s => n < h.next → s = h.get n) (U := Pres fun n s => n < h.next → s = h.get n)
        (lo := h.next) (by simp) rfl c f
        (fun n m hn hm => by
          simp only [List.mem_singleton]
          exact fun e => absurd (r n hn).1 (Nat.not_lt.2 (e ▸ hm)))
        (fun _ _ m _ _ hm hl => absurd hl (Nat.not_lt.2 hm))
        (fun m f hm _ s _ hl => absurd hl (Nat.not_lt.2 hm)) ?_) h b.unlocked
      ⟨Nat.le_refl _, fun n _ => rfl⟩).unlocked
    intro n s s' hn hs e hs' e'
    replace hn := (r n hn).1
    rw [hs hn] at e
    have := mp n e
    rw [← hs' hn, e'] at this; cases this
  case jointPositions c => exact plain (.inr fun n hn => (us n hn).2)
  case iterLinks c =>
    obtain ⟨ls, e⟩ := run_iterLinks c h b.unlocked
    simp only [Call.prog, e]; trivial
  case jacobian c =>
    exact (clean_jacobian mlo flo c us h b.unlocked (inv _ fun _ _ _ => trivial)).unlocked
  case solve s c t cs =>
    exact (clean_solve mlo flo s c t cs us h b.unlocked (inv _ fun _ _ _ => trivial)).unlocked
  all_goals exact plain (by simp [LockCall])

/-- a call that returns keeps `MimicPaired` -/
theorem mimicPaired_call (h h' : KHeap T) (b : Built h) (mp : MimicPaired h) {β : Type} (c : Call T β)
    (r : Respectful h c) (a : β) (ok : run c.prog h = .ok a h') : MimicPaired h' := by
  have plain : (∀ n f, c.MayWrite h.next n f → ∀ s : NodeImpl T,
      (s.mimicParent.isSome → s.mimic.isSome) → (f s).mimicParent.isSome → (f s).mimic.isSome) →
      (c.AllocOK h.next fun _ s => s.mimicParent.isSome → s.mimic.isSome) → MimicPaired h' := by
    intro w al
    have := safe_call (lo := h.next) (P := fun _ s => s.mimicParent.isSome → s.mimic.isSome) c w
      (fun n _ => ⟨fun _ _ h => h, fun _ _ _ _ _ _ h => h⟩) al
    exact (run_safe_ok this ⟨Nat.le_refl _, mp⟩ ok).2.2
  cases c
  case setMimicParent n p m =>
    simp only [Call.prog] at ok
    rw [run_Node_setMimicParent n p m h b.unlocked] at ok
    cases ok
    intro k
    simp only [Heap.get_modify]
    by_cases e1 : k = n <;> by_cases e2 : k = p <;> simp [e1, e2] <;>
      first
      | exact mp _
      | (split <;> simp <;> exact mp _)
  case cloneChain f c =>
    obtain ⟨iv, cl⟩ := Cl.clone_ok b.unlocked c ⟨fun n hn => (r n hn).1, fun n hn => (r n hn).2.1,
        fun n hn => (r n hn).2.2⟩ f ok
    intro k hk
    by_cases hm : k < h.next ∨ h.next + c.nodes.length ≤ k
    · rw [iv.old k hm] at hk ⊢; exact mp k hk
    · have ei := iv.copy (k - h.next) (by omega)
      rw [show h.next + (k - h.next) = k by omega] at ei
      have hj : k - h.next < c.nodes.length := by omega
      rw [ei] at hk ⊢
      simp only [Cl.cell, hj, if_true, Option.isSome_map] at hk
      simp only [Cl.cell, hj, hk, and_self, if_true]
      obtain ⟨p, ep⟩ := Option.isSome_iff_exists.1 hk
      exact ((cl _ (Cl.nd_mem hj)).mimic p ep).2
  all_goals
    refine plain (fun n f w s hs => ?_) ?_
    · first
      | exact w.elim
      | (simp only [Call.MayWrite, WTrans, WClamp] at w
         grind)
    · first
      | trivial
      | simp [Call.AllocOK, NodeImpl.fresh]

private theorem mimicPaired_history (h h' : KHeap T) (u : h.Unlocked)
    (nm : ∀ n, (h.get n).mimicChildren = []) (np : ∀ n, (h.get n).mimicParent = none)
    (hist : ApiHistory h h') : MimicPaired h' := by
  induction hist with
  | nil => intro n hn; rw [np n] at hn; cases hn
  | snoc hist c a r ok ih => exact mimicPaired_call _ _ (C49_history _ _ u nm hist) ih c r a ok

/-- In every state that calls can produce from one without mimic joints, single-threaded calls do not
poison. -/
theorem C52_history (h h' : KHeap T) (u : h.Unlocked) (nm : ∀ n, (h.get n).mimicChildren = [])
    (np : ∀ n, (h.get n).mimicParent = none) (hist : ApiHistory h h') {β : Type} (c : Call T β)
    (r : Respectful h' c) (us : UsesUsable h' c) : PanicsUnlocked (run c.prog h') :=
  C52_alone h' (C49_history h h' u nm hist) (mimicPaired_history h h' u nm np hist) c r us

/-! ## a race that poisons -/

/-- The Jacobian in one thread, a setter in another: there is a schedule in which the first one panics
while holding the mutex of node 0, and a third thread that only reads the position of node 0 panics,
too. -/
theorem C52_race_poisons (x : T) : ∃ d : PConfig (NodeImpl T) Unit,
    PSteps (.init (start exTwo [.call (.jacobian ⟨[0], [0], 1⟩) fun _ => .done (),
      .call (.setJointPosition 0 x) fun _ => .done (),
      .call (.jointPosition 0) fun _ => .done ()])) d ∧
    d.poisoned 0 = true ∧ d.threads[1]? = some (.ret ()) ∧
    d.threads[2]? = some (.panic "PoisonError") := by
  let c : Chain := ⟨[0], [0], 1⟩
  let col : V3 T → KProg T Unit := fun pn => (mapList [0] fun n => do
      doLock n
      let s ← doRead n
      let ti ← expect s.joint.worldTransform "called `Option::unwrap()` on a `None` value"
      let col ← Prog.ofExcept (jacobianColumn pn s.joint ti)
      doUnlock n
      return col) >>= fun _ => .ret ()
  let p1 : KProg T Unit := Node.setJointPosition 0 x >>= fun _ => .ret ()
  let p2 : KProg T Unit := Node.jointPosition 0 >>= fun _ => .ret ()
  have e0 : (Client.call (.jacobian c) fun _ => .done () : Client T Unit).prog =
      c.endTransform >>= fun tn => c.updateTransforms >>= fun _ => col tn.trans := by
    show (_ >>= _) >>= _ = _
    simp only [jacobian, Prog.bind_assoc, col]; rfl
  have u : (exTwo (T := T)).Unlocked := fun _ => rfl
  -- thread 0 computes the end transform and updates the transforms
  have s0 := steps_run (f := fun tn : Iso T => c.updateTransforms >>= fun _ => col tn.trans) (i := 0)
    (ts := [c.endTransform >>= fun tn => c.updateTransforms >>= fun _ => col tn.trans, p1, p2])
    (run_endTransform c exTwo u) rfl
  have r1 : run (c.updateTransforms : KProg T _) exTwo = .ok
      [Iso.one.mul ((exTwo (T := T)).get 0).joint.localTransform]
      (exTwo.setWorld 0 (Iso.one.mul ((exTwo (T := T)).get 0).joint.localTransform)) := by
    have : pwt (exTwo (T := T)) 0 = some Iso.one := rfl
    simp only [Chain.updateTransforms, c, mapList, run_bind, run_updateTransform 0 exTwo u, this,
      Res.bind_ok]
    rfl
  let h1 : KHeap T := exTwo.setWorld 0 (Iso.one.mul ((exTwo (T := T)).get 0).joint.localTransform)
  let tn : Iso T := [0].foldl (fun t n => t.mul ((exTwo (T := T)).get n).joint.localTransform) Iso.one
  have s1 := steps_run (f := fun _ : List (Iso T) => col tn.trans) (i := 0)
    (ts := [c.updateTransforms >>= fun _ => col tn.trans, p1, p2]) r1 rfl
  -- thread 1 sets the position of node 0
  have u1 : h1.Unlocked := u.modify 0 _
  have nm : ∀ m, (h1.get m).mimicChildren = [] := by
    intro m
    simp only [h1, Heap.setWorld, Heap.get_modify, exTwo]
    split <;> rfl
  have s2 := steps_run (f := fun _ => Prog.ret ()) (i := 1) (ts := [col tn.trans, p1, p2])
    (run_setJointPosition 0 x h1 u1 (fun m c hc => by rw [nm] at hc; cases hc)) rfl
  let h2 := h1.setJoint 0 x
  have e2 : (setPos 0 x h1).2 = h2 := rfl
  rw [e2] at s2
  obtain ⟨o, ps⟩ := Steps.lift ((s0.trans s1).trans s2) (fun _ => none)
  -- thread 0 locks node 0 and finds no transform
  have ps1 := ps.tail (PStep.run _ 0 (col tn.trans) _ (h2.setHeld 0 true) rfl rfl fun _ _ _ => rfl)
  have ps2 := ps1.tail (PStep.run _ 0 _ (.panic "called `Option::unwrap()` on a `None` value")
    (h2.setHeld 0 true) rfl rfl fun _ _ _ => rfl)
  have ps3 := ps2.tail (PStep.unwind _ 0 _ 0 rfl rfl)
  have ps4 := ps3.tail (PStep.poison _ 2 0 _ rfl rfl rfl)
  rw [show start exTwo _ = ⟨exTwo, [c.endTransform >>= fun tn => c.updateTransforms >>= fun _ =>
    col tn.trans, p1, p2]⟩ from by rw [← e0]; rfl]
  exact ⟨_, ps4, rfl, rfl, rfl⟩

/-- The links in one thread, `set_link` in another. -/
theorem C52_links_race_poisons (l : Link T) : ∃ d : PConfig (NodeImpl T) Unit,
    PSteps (.init (start exTwo [.call (.setLink 0 (some l)) fun _ =>
        .call (.iterLinks ⟨[0], [0], 1⟩) fun _ => .done (),
      .call (.setLink 0 none) fun _ => .done ()])) d ∧
    d.poisoned 0 = true := by
  refine ⟨_, (prunSched_psteps (is := [0, 0, 0, 0, 0, 0, 1, 1, 1, 0, 0]) (fun _ => rfl) rfl).tail
    (PStep.unwind _ 0 "called `Option::unwrap()` on a `None` value" 0 rfl rfl), rfl⟩

/-! ## the hypotheses are met -/

/-- a state with a mimic joint, reached by calls, and a call that panics there without poisoning -/
example : ∃ h' : KHeap T, ApiHistory exTwo h' ∧ (h'.get 0).mimicChildren = [1] ∧
    PanicsUnlocked (run (Call.updateTransforms (T := T) ⟨[0, 1], [0, 1], 2⟩).prog h') := by
  have hist : ApiHistory (T := T) exTwo _ :=
    .snoc (.nil _) (.setMimicParent 1 0 ⟨1, 0⟩) () (show 1 < 2 from Nat.one_lt_two) rfl
  refine ⟨_, hist, rfl, C52_history _ _ (fun _ => rfl) (fun n => ?_) (fun n => ?_) hist _ trivial trivial⟩
  all_goals
    simp only [exTwo]; split <;> rfl

end K
