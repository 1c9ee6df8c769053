import Verif.Lemmas.BlindApi
import Verif.Props.Ik
import Verif.Spec.Fk
/-!
# C87: cached world transforms and velocities are not seen
-/

namespace K
open Prog
variable {T : Type} [Scalar T] {α β : Type}

omit [Scalar T] in
theorem UpToCaches.refl (C : Slots) (h : KHeap T) : UpToCaches C h h :=
  ⟨rfl, rfl, rfl, fun _ => ⟨⟨_, _, rfl⟩, fun _ => rfl, fun _ => rfl⟩⟩

omit [Scalar T] in
theorem UpToCaches.trans {C : Slots} {h g f : KHeap T} (a : UpToCaches C h g) (b : UpToCaches C g f) :
    UpToCaches C h f := by
  refine ⟨b.next.trans a.next, b.dead.trans a.dead, b.held.trans a.held, fun n => ?_⟩
  obtain ⟨wt, wv, e⟩ := (a.node n).node
  obtain ⟨wt', wv', e'⟩ := (b.node n).node
  exact ⟨⟨wt', wv', by rw [e', e]⟩, fun x => ((b.node n).transform x).trans ((a.node n).transform x),
    fun x => ((b.node n).velocity x).trans ((a.node n).velocity x)⟩

omit [Scalar T] in
theorem UpToCaches.symm {C : Slots} {h g : KHeap T} (a : UpToCaches C h g) : UpToCaches C g h := by
  refine ⟨a.next.symm, a.dead.symm, a.held.symm, fun n => ?_⟩
  obtain ⟨wt, wv, e⟩ := (a.node n).node
  exact ⟨⟨_, _, by rw [e]⟩, fun x => ((a.node n).transform x).symm, fun x => ((a.node n).velocity x).symm⟩

omit [Scalar T] in
theorem UpToCaches.mono {C D : Slots} {h g : KHeap T} (a : UpToCaches D h g) (cd : C ⊆ D) : UpToCaches C h g :=
  ⟨a.next, a.dead, a.held, fun n =>
    ⟨(a.node n).node, fun x => (a.node n).transform (cd x), fun x => (a.node n).velocity (cd x)⟩⟩

omit [Scalar T] in
theorem Blind.upToCaches {X : Ctx} {C : Slots} {h g : KHeap T} (b : Blind X C h g) : UpToCaches C h g :=
  ⟨b.next, b.dead, b.held, b.node⟩

omit [Scalar T] in
theorem UpToCaches.frozen {C : Slots} {h g : KHeap T} (u : UpToCaches C h g) (k : ∀ x ∈ C, x.1 < h.next) :
    Blind (.frozen h) C h g :=
  ⟨u.next, u.dead, u.held, Nat.le_refl _, k, fun _ _ => rfl, fun _ _ d => by simp [d], u.node⟩

omit [Scalar T] in
theorem UpToCaches.free {C : Slots} {h g : KHeap T} (u : UpToCaches C h g) (k : ∀ x ∈ C, x.1 < h.next) :
    Blind (.free h) C h g :=
  ⟨u.next, u.dead, u.held, Nat.le_refl _, k, fun _ => trivial, fun _ => trivial, u.node⟩

/-- **C87.** Cached world transforms and velocities are not seen: on two memories that are equal up to cached values
outside `C`, a client that looks at cached values only after having them computed has the same outcome - the same
result, the same panic, the same lock it waits for - and leaves memories that are again equal up to cached values
outside `C`. -/
theorem C87_sequential (p : Client T α) (C : Slots) (h g : KHeap T) (u : UpToCaches C h g)
    (known : ∀ x ∈ C, x.1 < h.next) (careful : p.Careful h C) : SameRun C (run p.prog h) (run p.prog g) := by
  induction p generalizing C h g with
  | done a => exact .ok u
  | @call β c k ih =>
    obtain ⟨hc, hk, hn⟩ := careful
    have main : ∃ X : Ctx, SameOutcome X c.gain (SameAnswer c) C (run c.prog h) (run c.prog g) := by
      by_cases m : c.MovesNodes
      · exact ⟨.free h, (two_call c (Call.Careful.of_moves (h := h) m) fun _ _ _ => trivial).run (Set.Subset.refl _)
          (u.free known)⟩
      · exact ⟨.frozen h, (two_call c hc.inCtx fun m' => absurd m' m).run (Set.Subset.refl _) (u.frozen known)⟩
    obtain ⟨X, main⟩ := main
    show SameRun C (run (c.prog >>= fun r => (k r).prog) h) (run (c.prog >>= fun r => (k r).prog) g)
    cases e : run c.prog h with
    | ok a h1 =>
      rw [e] at main
      cases e' : run c.prog g with
      | ok b g1 =>
        rw [e'] at main
        cases main with
        | ok q gd cd x =>
          rw [run_bind, run_bind, e, e']
          simp only [Res.bind]
          rw [hk a b q]
          have sub := Set.union_subset cd gd
          have := ih a (C ∪ c.gain) h1 g1 (x.upToCaches.mono sub) (fun y hy => x.known y (sub hy)) (hn a h1 e)
          cases r : run (k a).prog h1 <;> cases r' : run (k a).prog g1 <;> rw [r, r'] at this <;> cases this
          · rename_i v; exact .ok (v.mono Set.subset_union_left)
          · rename_i v; exact .panic (v.mono Set.subset_union_left)
          · rename_i v; exact .blocked (v.mono Set.subset_union_left)
          · exact .diverged
      | panic _ _ => rw [e'] at main; cases main
      | blocked _ _ => rw [e'] at main; cases main
      | diverged => rw [e'] at main; cases main
    | panic m h1 =>
      rw [e] at main
      cases e' : run c.prog g <;> rw [e'] at main <;> cases main
      rw [run_bind, run_bind, e, e']
      rename_i cd x; exact .panic (x.upToCaches.mono cd)
    | blocked m h1 =>
      rw [e] at main
      cases e' : run c.prog g <;> rw [e'] at main <;> cases main
      rw [run_bind, run_bind, e, e']
      rename_i cd x; exact .blocked (x.upToCaches.mono cd)
    | diverged =>
      rw [e] at main
      cases e' : run c.prog g <;> rw [e'] at main <;> cases main
      rw [run_bind, run_bind, e, e']
      exact .diverged

/-- **C87**, threads: whatever threads can do on `h` - with any interleaving, nodes being freed at any moment - they
can do on `g`, with the same results and panics and the same locks held, if they leave the tree as it is and look at
cached values only after having them computed. -/
theorem C87_threads (ps : List (Client T α)) (C : Slots) (h g : KHeap T) (u : UpToCaches C h g)
    (known : ∀ x ∈ C, x.1 < h.next) (steady : ∀ p ∈ ps, p.Steady h C) (d : Config (NodeImpl T) α)
    (st : DSteps ⟨h, ps.map Client.prog⟩ d) :
    ∃ d', DSteps ⟨g, ps.map Client.prog⟩ d' ∧ UpToCaches C d.heap d'.heap ∧
      (∀ (i : Nat) a, d.threads[i]? = some (Prog.ret a) ↔ d'.threads[i]? = some (Prog.ret a)) ∧
      ∀ (i : Nat) m, d.threads[i]? = some (Prog.panic m) ↔ d'.threads[i]? = some (Prog.panic m) := by
  have start : BlindConfig (.frozen h) C (⟨h, ps.map Client.prog⟩ : Config (NodeImpl T) α) ⟨g, ps.map Client.prog⟩ := by
    refine ⟨C, Set.Subset.refl _, u.frozen known, ?_⟩
    rw [List.forall₂_map_left_iff, List.forall₂_map_right_iff, List.forall₂_same]
    exact fun p hp => ⟨C, Set.Subset.refl _, two_client p (steady p hp)⟩
  obtain ⟨d', st', D, cd, b, ts⟩ := start.steps st
  have at' : ∀ i : Nat, (d.threads[i]? = none ∧ d'.threads[i]? = none) ∨ ∃ p q, d.threads[i]? = some p ∧
      d'.threads[i]? = some q ∧ ∃ E, Two (.frozen h) ∅ (fun a b : α => a = b) E p q := by
    intro i
    have hl := ts.length_eq
    by_cases li : i < d.threads.length
    · obtain ⟨E, -, t⟩ := (List.forall₂_iff_get.1 ts).2 i li (hl ▸ li)
      exact .inr ⟨_, _, List.getElem?_eq_getElem li, List.getElem?_eq_getElem (hl ▸ li), E, t⟩
    · exact .inl ⟨List.getElem?_eq_none (by omega), List.getElem?_eq_none (by omega)⟩
  refine ⟨d', st', b.upToCaches.mono cd, fun i a => ?_, fun i m => ?_⟩
  · rcases at' i with ⟨e, e'⟩ | ⟨p, q, e, e', E, t⟩
    · simp [e, e']
    · rw [e, e']
      cases t <;> simp_all
  · rcases at' i with ⟨e, e'⟩ | ⟨p, q, e, e', E, t⟩
    · simp [e, e']
    · rw [e, e']
      cases t <;> simp_all

omit [Scalar T] in
/-- a chain that lists parents first needs no cached values -/
theorem ParentsAhead.known {h : KHeap T} {ns : List NodeId} (a : ParentsAhead h ns) (lt : ∀ n ∈ ns, n < h.next)
    (par : ∀ n ∈ ns, ∀ w, (h.get n).parent = some w → w < h.next) (C : Slots) (K : Set CacheKind) :
    CachesKnown h C K ns := by
  intro pre n post e
  have mem : n ∈ ns := by rw [e]; simp
  refine ⟨lt n mem, fun w hw => ?_⟩
  by_cases d : h.dead w = true
  · exact .inl ⟨par n mem w hw, d⟩
  · have live : liveParent h n = some w := by simp [liveParent, hw, d]
    rcases a pre n post e with x | ⟨p, hp, x⟩
    · rw [live] at x; cases x
    · rw [live] at x; cases x; exact .inr (.inl hp)

/-- the client that tries to solve once and then up to `k` more times as long as it fails -/
def Client.retry (s : IkSolver T) (arm : Chain) (target : Iso T) (c : Constraints) :
    Nat → Client T (Except (KError T) Unit)
  | 0 => .call (.solve s arm target c) .done
  | k + 1 => .call (.solve s arm target c) fun
    | .ok v => .done (.ok v)
    | .error _ => Client.retry s arm target c k

/-- **C87**: a failed solve leaves nothing changed but caches. -/
theorem C87_failed {s : IkSolver T} {arm : Chain} {target : Iso T} {c : Constraints} {h h' : KHeap T} {er : KError T}
    (u : h.Unlocked) (ol : OneLevel h) (w : arm.Wf h) (nd : arm.nodes.Nodup) (re : Restorable h arm)
    (e : run (solveWithConstraints s arm target c) h = .ok (.error er) h') : UpToCaches ∅ h h' := by
  obtain ⟨sb, pos⟩ := C25_restores h h' u ol w nd re er e
  have fx : HeapInv 0 (fun n (s : NodeImpl T) => s.joint.jointType = (h.get n).joint.jointType ∧
      (s.joint.jointType = .fixed → s.joint.position = (h.get n).joint.position)) h' := by
    refine (run_safe_ok (safe_solveWithConstraints s arm target c (fun _ _ _ _ z => z) (fun n _ y x z => ?_) fun n _ =>
      .all (fun n y x z => ?_) n) ⟨Nat.zero_le _, fun n => ⟨rfl, fun _ => rfl⟩⟩ e).2
    · unfold Joint.setJointPositionClamped Joint.isMovable
      by_cases f : x.joint.jointType = .fixed
      · simp only [f]; exact ⟨z.1, fun _ => z.2 f⟩
      · split
        · exact z
        · exact ⟨z.1, fun f' => absurd f' f⟩
    · have kept : (x.joint.setJointPosition y).1.jointType = x.joint.jointType ∧ (x.joint.jointType = .fixed →
          (x.joint.setJointPosition y).1.position = x.joint.position) := by
        rcases x.joint with ⟨nm, jt, po, v, lim, o, c1, c2⟩
        unfold Joint.setJointPosition
        cases lim with
        | none => cases jt <;> simp [Joint.isMovable]
        | some r => cases jt <;> cases hb : r.isValid y <;> simp [Joint.isMovable, hb]
      exact ⟨kept.1.trans z.1, fun f => (kept.2 (kept.1 ▸ f)).trans (z.2 (kept.1 ▸ f))⟩
  refine ⟨sb.next, sb.dead, sb.held, fun n => ⟨?_, fun x => absurd x (Set.notMem_empty _),
    fun x => absurd x (Set.notMem_empty _)⟩⟩
  obtain ⟨p, wt, wv, en⟩ := sb.node n
  have hp : p = (h.get n).joint.position := by
    have pn := pos n
    have fn := fx.2 n
    rw [en] at fn
    simp only [posOf, en, Joint.jointPosition] at pn
    cases jt : (h.get n).joint.jointType with
    | fixed => exact fn.2 jt
    | _ => simpa [jt] using pn
  exact ⟨wt, wv, by rw [en, hp]⟩

/-- **C87**: trying again is pointless.  If a solve fails for an arm that is in a `Restorable` state, every repetition
fails with the same error. -/
theorem C87_retry {s : IkSolver T} {arm : Chain} {target : Iso T} {c : Constraints} {h h' : KHeap T} {er : KError T}
    (u : h.Unlocked) (ol : OneLevel h) (w : arm.Wf h) (nd : arm.nodes.Nodup) (re : Restorable h arm)
    (known : CachesKnown h ∅ {.transform} arm.nodes)
    (e : run (solveWithConstraints s arm target c) h = .ok (.error er) h') (k : Nat) :
    ∃ h'', run (Client.retry s arm target c k).prog h = .ok (.error er) h'' ∧ UpToCaches ∅ h h'' := by
  have sub : ∀ n ∈ arm.movableNodes, n ∈ arm.nodes := by rw [w.1]; exact fun n hn => (List.mem_filter.1 hn).1
  have again : ∀ g, UpToCaches ∅ h g → ∃ g', run (solveWithConstraints s arm target c) g = .ok (.error er) g' ∧
      UpToCaches ∅ h g' := by
    intro g ug
    have := C87_sequential (.call (.solve s arm target c) .done) ∅ h g ug (fun x hx => absurd hx (Set.notMem_empty _))
      ⟨⟨known, sub⟩, fun _ _ q => congrArg _ (Eq.symm q), fun _ _ _ => trivial⟩
    simp only [Client.prog, Call.prog, run_bind, e, Res.bind, run_ret] at this
    cases r : run (solveWithConstraints s arm target c) g <;> rw [r] at this <;> cases this
    rename_i v
    exact ⟨_, rfl, (C87_failed u ol w nd re e).trans v⟩
  have all : ∀ g, UpToCaches ∅ h g → ∃ g', run (Client.retry s arm target c k).prog g = .ok (.error er) g' ∧
      UpToCaches ∅ h g' := by
    induction k with
    | zero =>
      intro g ug
      obtain ⟨g', a, b⟩ := again g ug
      exact ⟨g', by simp [Client.retry, Client.prog, Call.prog, a, Res.bind], b⟩
    | succ k ih =>
      intro g ug
      obtain ⟨g', a, b⟩ := again g ug
      obtain ⟨g'', a', b'⟩ := ih g' b
      exact ⟨g'', by simp [Client.retry, Client.prog, Call.prog, a, Res.bind, a'], b'⟩
  exact all h (.refl _ _)

end K
