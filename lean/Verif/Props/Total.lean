import Verif.Props.Concurrency
import Verif.Props.Topology
import Verif.Props.Serial
import Verif.Props.Clone
import Verif.Props.Traverse
import Verif.Props.Display
import Verif.Props.Links
import Verif.Props.Nullspace
import Verif.Props.NodeApi
import Verif.Props.Ik
import Verif.Props.LinkVel
import Verif.Props.IkEx
import Verif.Lemmas.Halts
/-!
# C73: when a call returns

A program that uses the crate from one thread and respects the conditions below never panics, never waits
for a mutex and never loops.  For every call except `solve` the condition is also necessary
(for `solve` see Props/SolveTotal.lean).
-/

set_option linter.unusedSectionVars false

namespace K
open Prog
variable {T : Type} [Scalar T]

/-! ## The conditions -/

/-- heaps as a program leaves them that links nodes to trees: no mutex locked, mimic data complete, links
consistent -/
structure Sound (h : KHeap T) : Prop where
  built : Built h
  forest : Forest h

/-- the parent of every listed node stands before it in the list or has a cached world transform -/
def ParentsKnown (h : KHeap T) (ns : List NodeId) : Prop :=
  ∀ pre n post, ns = pre ++ n :: post → ∀ p, liveParent h n = some p →
    p ∈ pre ∨ (h.get p).joint.worldTransformCache ≠ none

/-- the same for cached velocities -/
def ParentVelocitiesKnown (h : KHeap T) (ns : List NodeId) : Prop :=
  ∀ pre n post, ns = pre ++ n :: post → ∀ p, liveParent h n = some p →
    p ∈ pre ∨ (h.get p).joint.worldVelocityCache ≠ none

/-- The solvers of nalgebra return results of the right size when there are more columns than rows. -/
structure LinAlg.Sized (la : LinAlg T) : Prop where
  svd : ∀ (r n : Nat) (J : Mat T) (b : List T), 0 < r → r < n → J.length = n →
    (∀ col ∈ J, col.length = r) → b.length = r → (la.svdSolve J b).length = n
  pinv : ∀ (r n : Nat) (J : Mat T), 0 < r → r < n → J.length = n → (∀ col ∈ J, col.length = r) →
    (la.pinv J).length = r ∧ ∀ col ∈ la.pinv J, col.length = n

/-- what `solve_with_constraints` needs -/
structure SolveReady (h : KHeap T) (s : IkSolver T) (arm : Chain) (c : Constraints) : Prop where
  wf : arm.Wf h
  parents : ParentsReady h arm.nodes
  few : c.ignoredJointNames.length ≤ arm.dof
  distinct : c.ignoredJointNames.Nodup
  tries : 0 < s.numMaxTry
  coords : 0 < numConstrained c ∨ arm.dof = c.ignoredJointNames.length
  la : s.la.Sized
  null : ∀ f, s.nullspaceFunction = some f → ∀ q : List T, q.length = arm.dof →
    ∃ y, f q = .ok y ∧ y.length = arm.dof

/-- what a call needs in order to return -/
def Call.Needs (h : KHeap T) {β : Type} : Call T β → Prop
  | .chainSetOrigin c _ | .chainOrigin c | .tryNew c | .display _ c => c.nodes ≠ []
  | .jointPositions c => ∀ n ∈ c.movableNodes, Movable h n
  | .updateTransforms c | .updateLinkTransforms c | .centerOfMass c => ParentsKnown h c.nodes
  | .updateVelocities c => ParentsKnown h c.nodes ∧ ParentVelocitiesKnown h c.nodes ∧
      ∀ n ∈ c.nodes, ¬ Movable h n
  | .jacobian c => ParentsKnown h c.nodes ∧ ∀ n ∈ c.movableNodes, Movable h n ∧
      (n ∈ c.nodes ∨ (h.get n).joint.worldTransformCache ≠ none)
  | .cloneChain _ c => c.nodes = [] ∨ ∃ r, c.nodes.head? = some r ∧ (h.get r).parent = none ∧
      ∀ n ∈ c.nodes, (∀ p, liveParent h n = some p → p ∈ c.nodes) ∧
        ∀ m, liveMimic h n = some m → m ∈ c.nodes ∧ (h.get n).mimic.isSome
  | .solve s c _ cs => SolveReady h s c cs
  | _ => True

/-- The handles in a call belong to nodes that exist; nodes are only attached where they make a tree. -/
def Call.Tidy (h : KHeap T) {β : Type} : Call T β → Prop
  | .setParent n p => n < h.next ∧ p < h.next ∧ (h.get n).parent = none ∧ ¬ Below h n p
  | .removeParent n p => (h.get n).parent = some p
  | .setMimicParent n _ _ => n < h.next
  | .cloneChain _ c => ∀ n ∈ c.nodes, n < h.next ∧ ∀ m, (h.get n).mimicParent = some m → m < h.next
  | _ => True

/-- The bound on the number of iterations that the model gives to traversals is not what stops them. -/
def Call.Enough (h : KHeap T) {β : Type} : Call T β → Prop
  | .iterAncestors f _ | .iterDescendants f _ | .fromRoot f _ | .fromEnd f _ | .fromEndToRoot f _ _
  | .display f _ => h.next + 1 ≤ f
  | .cloneChain f c => h.next + c.nodes.length + 1 ≤ f
  | _ => True

/-- every call the client makes meets these conditions in the state in which it is made -/
def Client.Respects {α : Type} : Client T α → KHeap T → Prop
  | .done _, _ => True
  | .call c k, h => (c.Needs h ∧ c.Tidy h ∧ c.Enough h) ∧
      ∀ r h', run c.prog h = .ok r h' → (k r).Respects h'

/-! ## Transforms -/

theorem ParentsReady.known {h : KHeap T} {ns : List NodeId} (r : ParentsReady h ns) :
    ParentsKnown h ns := fun pre n post e p hp => (r pre n post e p hp).imp id And.right

private theorem transforms_iff (h : KHeap T) (u : h.Unlocked) (rest pre : List NodeId) (g : KHeap T)
    (ow : OnlyWorld pre h g) (inv : ∀ n ∈ pre, (g.get n).joint.worldTransformCache ≠ none) :
    ((∃ Xs g', run (mapList rest Chain.updateTransform) g = .ok Xs g') ↔
      ∀ a n post, rest = a ++ n :: post → ∀ p, liveParent h n = some p →
        p ∈ pre ++ a ∨ (h.get p).joint.worldTransformCache ≠ none) ∧
    ∀ Xs g', run (mapList rest Chain.updateTransform) g = .ok Xs g' → OnlyWorld (pre ++ rest) h g' ∧
      ∀ n ∈ pre ++ rest, (g'.get n).joint.worldTransformCache ≠ none := by
  induction rest generalizing pre g with
  | nil =>
    refine ⟨⟨fun _ a n post e => ?_, fun _ => ⟨[], g, rfl⟩⟩, fun Xs g' e => ?_⟩
    · simp at e
    · cases e; rw [List.append_nil]; exact ⟨ow, inv⟩
  | cons n rest ih =>
    have first : pwt g n ≠ none ↔ ∀ p, liveParent h n = some p →
        p ∈ pre ∨ (h.get p).joint.worldTransformCache ≠ none := by
      rw [pwt_eq, ow.liveParent]
      cases hp : liveParent h n with
      | none => simp
      | some p =>
        simp only [Option.some.injEq, forall_eq']
        by_cases hm : p ∈ pre
        · simp [hm, inv p hm]
        · simp [hm, ow.outside p hm]
    rw [run_mapList_cons, run_updateTransform n g (ow.unlocked u)]
    cases ht : pwt g n with
    | none =>
      refine ⟨⟨fun ⟨Xs, g', e⟩ => ?_, fun k => ?_⟩, fun Xs g' e => ?_⟩
      · simp at e
      · exact absurd ht (first.2 fun p hp => by simpa using k [] n rest rfl p hp)
      · simp at e
    | some t =>
      have ow' : OnlyWorld (pre ++ [n]) h (g.setWorld n (t.mul (g.get n).joint.localTransform)) :=
        (ow.mono fun m hm => by simp [hm]).trans (.set g (by simp) _)
      have inv' : ∀ m ∈ pre ++ [n], ((g.setWorld n (t.mul (g.get n).joint.localTransform)).get
          m).joint.worldTransformCache ≠ none := by
        intro m hm
        by_cases hmn : m = n
        · subst hmn; simp [Heap.setWorld, Joint.setWorldTransform]
        · rcases List.mem_append.1 hm with hm | hm
          · simp only [Heap.setWorld, Heap.get_modify, hmn, if_false]; exact inv m hm
          · exact absurd (List.mem_singleton.1 hm) hmn
      obtain ⟨i1, i2⟩ := ih (pre ++ [n]) _ ow' inv'
      have f := first.1 (by simp [ht])
      simp only [Res.bind_ok]
      refine ⟨⟨fun ⟨Xs, g', e⟩ => ?_, fun k => ?_⟩, fun Xs g' e => ?_⟩
      · obtain ⟨Ys, g1, e1, e2⟩ := Res.bind_eq_ok e
        have k := i1.1 ⟨Ys, g1, e1⟩
        intro a m post sp p hp
        cases a with
        | nil =>
          simp only [List.nil_append, List.cons.injEq] at sp
          obtain ⟨rfl, rfl⟩ := sp
          simpa using f p hp
        | cons b a =>
          simp only [List.cons_append, List.cons.injEq] at sp
          obtain ⟨rfl, sp⟩ := sp
          have := k a m post sp p hp
          rw [List.append_assoc] at this
          exact this
      · obtain ⟨Ys, g1, e1⟩ := i1.2 fun a m post sp p hp => by
          have := k (n :: a) m post (by rw [sp]; rfl) p hp
          rw [List.append_assoc]
          exact this
        exact ⟨_, g1, by rw [e1]; rfl⟩
      · obtain ⟨Ys, g1, e1, e2⟩ := Res.bind_eq_ok e
        cases e2
        have := i2 Ys g' e1
        rw [List.append_assoc] at this
        exact this

theorem updateTransforms_iff (h : KHeap T) (u : h.Unlocked) (c : Chain) :
    (∃ Xs g, run c.updateTransforms h = .ok Xs g) ↔ ParentsKnown h c.nodes := by
  have := (transforms_iff h u c.nodes [] h (.refl _ h) (by simp)).1
  exact this

theorem updateTransforms_leaves {h g : KHeap T} (u : h.Unlocked) {c : Chain} {Xs : List (Iso T)}
    (e : run c.updateTransforms h = .ok Xs g) : OnlyWorld c.nodes h g ∧
      ∀ n ∈ c.nodes, (g.get n).joint.worldTransformCache ≠ none :=
  (transforms_iff h u c.nodes [] h (.refl _ h) (by simp)).2 Xs g e

/-- afterwards all parents are known, wherever they stand -/
private theorem parents_after {h g : KHeap T} {ns : List NodeId} (k : ParentsKnown h ns)
    (ow : OnlyWorld ns h g) (c : ∀ n ∈ ns, (g.get n).joint.worldTransformCache ≠ none) :
    ∀ n ∈ ns, ∃ t, pwt g n = some t := by
  intro n hn
  rw [pwt_eq, ow.liveParent]
  cases hp : liveParent h n with
  | none => exact ⟨_, rfl⟩
  | some p =>
    simp only
    by_cases hm : p ∈ ns
    · exact Option.ne_none_iff_exists'.1 (c p hm)
    · obtain ⟨pre, post, e⟩ := List.append_of_mem hn
      rw [ow.outside p hm]
      rcases k pre n post e p hp with x | x
      · exact absurd (by simp [e, x]) hm
      · exact Option.ne_none_iff_exists'.1 x


theorem updateLinkTransforms_iff (h : KHeap T) (u : h.Unlocked) (c : Chain) :
    (∃ g, run c.updateLinkTransforms h = .ok () g) ↔ ParentsKnown h c.nodes := by
  rw [← updateTransforms_iff h u c]
  constructor
  · rintro ⟨g, e⟩
    simp only [Chain.updateLinkTransforms, run_bind] at e
    obtain ⟨Xs, g1, e1, -⟩ := Res.bind_eq_ok e
    exact ⟨Xs, g1, e1⟩
  · rintro ⟨Xs, g, e⟩
    obtain ⟨ow, ca⟩ := updateTransforms_leaves u e
    have pk := parents_after ((updateTransforms_iff h u c).1 ⟨Xs, g, e⟩) ow ca
    haveI : Nonempty (Iso T) := ⟨Iso.one⟩
    choose! F hF using pk
    obtain ⟨h', hr, -⟩ := place_loop c.nodes g F hF c.nodes [] rfl g (ow.unlocked u) rfl
      (fun m => by simp)
    exact ⟨h', by simp only [Chain.updateLinkTransforms, run_bind, e, Res.bind_ok, hr]⟩

private theorem comLoop_total (ns : List NodeId) (h : KHeap T) (u : h.Unlocked) (acc : ComAcc T) :
    ∃ r, run (comLoop ns acc) h = .ok r h := by
  induction ns generalizing acc with
  | nil => exact ⟨_, rfl⟩
  | cons n ns ih =>
    simp only [comLoop, run_bind, run_Node_worldTransform _ _ (u n), Res.bind_ok]
    cases (h.get n).joint.worldTransform with
    | none => exact ih _
    | some t =>
      simp only [run_bind, run_Node_link _ _ (u n), Res.bind_ok]
      exact ih _

theorem centerOfMass_iff (h : KHeap T) (u : h.Unlocked) (c : Chain) :
    (∃ v g, run (centerOfMass c) h = .ok v g) ↔ ParentsKnown h c.nodes := by
  rw [← updateTransforms_iff h u c]
  constructor
  · rintro ⟨v, g, e⟩
    simp only [centerOfMass, run_bind] at e
    obtain ⟨Xs, g1, e1, -⟩ := Res.bind_eq_ok e
    exact ⟨Xs, g1, e1⟩
  · rintro ⟨Xs, g, e⟩
    obtain ⟨ow, -⟩ := updateTransforms_leaves u e
    obtain ⟨r, er⟩ := comLoop_total c.nodes g (ow.unlocked u) ⟨0, V3.zero⟩
    exact ⟨r.com.unscale r.totalMass, g, by simp only [centerOfMass, run_bind, e, Res.bind_ok, er, run_pure]⟩

/-! ## Velocities -/

private theorem velocities_loop_iff (ns : List NodeId) (h : KHeap T) (u : h.Unlocked)
    (tk : ∀ n ∈ ns, ∃ t, pwt h n = some t) (fx : ∀ n ∈ ns, (h.get n).joint.jointType = .fixed) :
    (∃ Vs g, run (mapList ns Chain.updateVelocity) h = .ok Vs g) ↔ ParentVelocitiesKnown h ns := by
  induction ns generalizing h with
  | nil => exact ⟨fun _ a n post e => by simp at e, fun _ => ⟨[], h, rfl⟩⟩
  | cons n ns ih =>
    obtain ⟨t, ht⟩ := tk n (by simp)
    have first : pwv h n ≠ none ↔ ∀ p, liveParent h n = some p →
        (h.get p).joint.worldVelocityCache ≠ none := by
      unfold pwv
      rw [upgradeOpt_parent]
      cases liveParent h n with
      | none => simp
      | some p => simp [Joint.worldVelocity]
    rw [run_mapList_cons, run_updateVelocity n h u]
    simp only [ht]
    cases hv : pwv h n with
    | none =>
      refine ⟨fun ⟨Xs, g', e⟩ => ?_, fun k => ?_⟩
      · simp at e
      · exact absurd hv (first.2 fun p hp => (k [] n ns rfl p hp).resolve_left (by simp))
    | some v =>
      simp only [fx n (by simp), if_true, Res.bind_ok]
      have f := first.1 (by simp [hv])
      have i := ih (setVel h n v) (setVel_unlocked u n v) (fun m hm => by
        obtain ⟨t, ht⟩ := tk m (by simp [hm])
        refine ⟨t, ?_⟩
        rw [← ht, pwt_eq, pwt_eq, setVel_liveParent]
        cases liveParent h m with
        | none => rfl
        | some p => simp only [setVel_world]) (fun m hm => by rw [setVel_type]; exact fx m (by simp [hm]))
      have shift : ParentVelocitiesKnown (setVel h n v) ns ↔ ParentVelocitiesKnown h (n :: ns) := by
        have sv : ∀ p, ((setVel h n v).get p).joint.worldVelocityCache ≠ none ↔
            p = n ∨ (h.get p).joint.worldVelocityCache ≠ none := by
          intro p
          have := setVel_vel h n p v
          unfold Joint.worldVelocity at this
          rw [this]
          by_cases hp : p = n <;> simp [hp]
        constructor
        · intro k a m post sp p hp
          cases a with
          | nil =>
            simp only [List.nil_append, List.cons.injEq] at sp
            obtain ⟨rfl, rfl⟩ := sp
            exact .inr (f p hp)
          | cons b a =>
            simp only [List.cons_append, List.cons.injEq] at sp
            obtain ⟨rfl, sp⟩ := sp
            rcases k a m post sp p (by rw [setVel_liveParent]; exact hp) with x | x
            · exact .inl (by simp [x])
            · rcases (sv p).1 x with x | x
              · exact .inl (by simp [x])
              · exact .inr x
        · intro k a m post sp p hp
          rw [setVel_liveParent] at hp
          rw [sv]
          rcases k (n :: a) m post (by rw [sp]; rfl) p hp with x | x
          · rcases List.mem_cons.1 x with x | x
            · exact .inr (.inl x)
            · exact .inl x
          · exact .inr (.inr x)
      rw [← shift, ← i]
      constructor
      · rintro ⟨Xs, g', e⟩
        obtain ⟨Ys, g1, e1, -⟩ := Res.bind_eq_ok e
        exact ⟨Ys, g1, e1⟩
      · rintro ⟨Ys, g1, e1⟩
        exact ⟨_, g1, by rw [e1]; rfl⟩

theorem updateVelocities_iff (h : KHeap T) (u : h.Unlocked) (c : Chain) :
    (∃ Vs g, run c.updateVelocities h = .ok Vs g) ↔ ParentsKnown h c.nodes ∧
      ParentVelocitiesKnown h c.nodes ∧ ∀ n ∈ c.nodes, ¬ Movable h n := by
  have fwd : ∀ Xs g, run c.updateTransforms h = .ok Xs g → (∀ n ∈ c.nodes, ¬ Movable h n) →
      ((∃ Vs g', run (mapList c.nodes Chain.updateVelocity) g = .ok Vs g') ↔
        ParentVelocitiesKnown h c.nodes) := by
    intro Xs g e fx
    obtain ⟨ow, ca⟩ := updateTransforms_leaves u e
    have pk := parents_after ((updateTransforms_iff h u c).1 ⟨Xs, g, e⟩) ow ca
    rw [velocities_loop_iff c.nodes g (ow.unlocked u) pk fun n hn => by
      rw [(ow.same n).jointType]; exact Classical.not_not.1 (fx n hn)]
    unfold ParentVelocitiesKnown
    have vc : ∀ p, (g.get p).joint.worldVelocityCache = (h.get p).joint.worldVelocityCache := by
      intro p
      have := ow.same p
      unfold SameButWorld at this
      rw [this]
    simp only [ow.liveParent, vc]
  constructor
  · rintro ⟨Vs, g, e⟩
    have fx : ∀ n ∈ c.nodes, ¬ Movable h n := fun n hn mv =>
      C16_never_returns h u c ⟨n, hn, mv⟩ Vs g e
    have e' := e
    simp only [Chain.updateVelocities, run_bind] at e'
    obtain ⟨Xs, g1, e1, e2⟩ := Res.bind_eq_ok e'
    exact ⟨(updateTransforms_iff h u c).1 ⟨Xs, g1, e1⟩, (fwd Xs g1 e1 fx).1 ⟨_, _, e2⟩, fx⟩
  · rintro ⟨k, kv, fx⟩
    obtain ⟨Xs, g, e⟩ := (updateTransforms_iff h u c).2 k
    obtain ⟨Vs, g', e'⟩ := (fwd Xs g e fx).2 kv
    exact ⟨Vs, g', by simp only [Chain.updateVelocities, run_bind, e, Res.bind_ok, e']⟩

/-! ## Positions and Jacobian -/

theorem jointPositions_iff (h : KHeap T) (u : h.Unlocked) (c : Chain) :
    (∃ ps g, run c.jointPositions h = .ok ps g) ↔ ∀ n ∈ c.movableNodes, Movable h n := by
  unfold Chain.jointPositions
  induction c.movableNodes with
  | nil => exact ⟨(fun _ n hn => by cases hn), fun _ => ⟨[], h, rfl⟩⟩
  | cons n ns ih =>
    rw [run_mapList_cons]
    simp only [run_bind, run_doLock_free _ _ (u n), Res.bind_ok, run_doRead, Heap.get_setHeld]
    by_cases mv : Movable h n
    · simp only [jointPosition_of_movable _ mv, run_expect_some, Res.bind_ok, run_doUnlock, run_pure,
        Heap.setHeld_setHeld_false _ _ (u n), List.forall_mem_cons, mv, true_and]
      rw [← ih]
      constructor
      · rintro ⟨Xs, g', e⟩
        obtain ⟨Ys, g1, e1, -⟩ := Res.bind_eq_ok e
        exact ⟨Ys, g1, e1⟩
      · rintro ⟨Ys, g1, e1⟩
        exact ⟨_, g1, by rw [e1]; rfl⟩
    · have : (h.get n).joint.jointPosition = none := by
        have : (h.get n).joint.jointType = .fixed := Classical.not_not.1 mv
        simp [Joint.jointPosition, this]
      refine ⟨fun ⟨ps, g, e⟩ => ?_, fun k => absurd (k n (by simp)) mv⟩
      simp [this] at e

private theorem columns_iff (pn : V3 T) (ns : List NodeId) (h : KHeap T) (u : h.Unlocked) :
    (∃ J g, run (mapList ns fun n => (do
      doLock n
      let s ← doRead n
      let ti ← expect s.joint.worldTransform "called `Option::unwrap()` on a `None` value"
      let col ← ofExcept (jacobianColumn pn s.joint ti)
      doUnlock n
      return col : KProg T (List T))) h = .ok J g) ↔
    ∀ n ∈ ns, Movable h n ∧ (h.get n).joint.worldTransformCache ≠ none := by
  induction ns with
  | nil => exact ⟨(fun _ n hn => by cases hn), fun _ => ⟨[], h, rfl⟩⟩
  | cons n ns ih =>
    rw [run_mapList_cons]
    simp only [run_bind, run_doLock_free _ _ (u n), Res.bind_ok, run_doRead, Heap.get_setHeld,
      List.forall_mem_cons]
    rw [show (h.get n).joint.worldTransform = (h.get n).joint.worldTransformCache from rfl]
    cases ht : (h.get n).joint.worldTransformCache with
    | none =>
      refine ⟨fun ⟨ps, g, e⟩ => ?_, fun k => absurd rfl k.1.2⟩
      simp at e
    | some t =>
      simp only [run_expect_some, Res.bind_ok]
      by_cases mv : Movable h n
      · obtain ⟨col, jc⟩ : ∃ col, jacobianColumn pn (h.get n).joint t = .ok col := by
          unfold jacobianColumn
          split
          · exact ⟨_, rfl⟩
          · exact ⟨_, rfl⟩
          · rename_i f; exact absurd f mv
        simp only [jc, run_ofExcept_ok, Res.bind_ok, run_doUnlock, run_pure,
          Heap.setHeld_setHeld_false _ _ (u n), mv, ne_eq, reduceCtorEq, not_false_eq_true, true_and]
        rw [← ih]
        constructor
        · rintro ⟨Xs, g', e⟩
          obtain ⟨Ys, g1, e1, -⟩ := Res.bind_eq_ok e
          exact ⟨Ys, g1, e1⟩
        · rintro ⟨Ys, g1, e1⟩
          exact ⟨_, g1, by rw [e1]; rfl⟩
      · have : jacobianColumn pn (h.get n).joint t = .error "impossible, bug of jacobian" := by
          have : (h.get n).joint.jointType = .fixed := Classical.not_not.1 mv
          simp [jacobianColumn, this]
        refine ⟨fun ⟨ps, g, e⟩ => ?_, fun k => absurd k.1.1 mv⟩
        simp [this, Prog.ofExcept] at e

theorem jacobian_iff (h : KHeap T) (u : h.Unlocked) (c : Chain) :
    (∃ J g, run (jacobian c) h = .ok J g) ↔ ParentsKnown h c.nodes ∧
      ∀ n ∈ c.movableNodes, Movable h n ∧
        (n ∈ c.nodes ∨ (h.get n).joint.worldTransformCache ≠ none) := by
  have fwd : ∀ Xs g, run c.updateTransforms h = .ok Xs g → ((∀ n ∈ c.movableNodes, Movable g n ∧
      (g.get n).joint.worldTransformCache ≠ none) ↔ ∀ n ∈ c.movableNodes, Movable h n ∧
        (n ∈ c.nodes ∨ (h.get n).joint.worldTransformCache ≠ none)) := by
    intro Xs g e
    obtain ⟨ow, ca⟩ := updateTransforms_leaves u e
    refine forall₂_congr fun n _ => ?_
    have mv : Movable g n ↔ Movable h n := by unfold Movable; rw [(ow.same n).jointType]
    rw [mv]
    refine and_congr_right fun _ => ?_
    by_cases hn : n ∈ c.nodes
    · simp [hn, ca n hn]
    · simp [hn, ow.outside n hn]
  rw [← updateTransforms_iff h u c]
  simp only [jacobian, run_bind, run_endTransform _ _ u, Res.bind_ok]
  constructor
  · rintro ⟨J, g, e⟩
    obtain ⟨Xs, g1, e1, e2⟩ := Res.bind_eq_ok e
    obtain ⟨ow, -⟩ := updateTransforms_leaves u e1
    exact ⟨⟨Xs, g1, e1⟩, (fwd Xs g1 e1).1 ((columns_iff _ _ g1 (ow.unlocked u)).1 ⟨J, g, e2⟩)⟩
  · rintro ⟨⟨Xs, g1, e1⟩, k⟩
    obtain ⟨ow, -⟩ := updateTransforms_leaves u e1
    obtain ⟨J, g, e2⟩ := (columns_iff (endPose h c.nodes).trans _ g1 (ow.unlocked u)).2 ((fwd Xs g1 e1).2 k)
    exact ⟨J, g, by rw [e1]; exact e2⟩

/-! ## Inverse kinematics -/

private theorem foldl_vadd_length (n : Nat) (cols : List (List T)) (hc : ∀ c ∈ cols, c.length = n)
    (acc : List T) (ha : acc.length = n) : (cols.foldl vadd acc).length = n := by
  induction cols generalizing acc with
  | nil => exact ha
  | cons c cols ih =>
    exact ih (fun c hm => hc c (by simp [hm])) _ (by simp [vadd, ha, hc c (by simp)])

private theorem matVec_len (n : Nat) (m : Mat T) (v : List T) (hm : ∀ c ∈ m, c.length = n) :
    (matVec n m v).length = n := by
  refine foldl_vadd_length n _ (fun c hc => ?_) _ (by simp)
  obtain ⟨i, hi, rfl⟩ := List.getElem_of_mem hc
  simp only [List.getElem_zipWith, List.length_map]
  exact hm _ (List.getElem_mem _)

theorem nullspaceStep_len (n : Nat) (inv jac : Mat T) (err sub : List T)
    (hi : ∀ c ∈ inv, c.length = n) : (nullspaceStep n inv jac err sub).length = n := by
  have a := matVec_len n inv err hi
  have b := matVec_len n (matSub (matOne n) (matMul n inv jac)) sub fun c hc => by
    obtain ⟨i, hi', rfl⟩ := List.getElem_of_mem hc
    simp only [matSub, matOne, matMul, List.getElem_zipWith, vsub, List.length_zipWith, List.getElem_map,
      List.length_map, List.length_range, matVec_len n inv _ hi, Nat.min_self]
  simp [nullspaceStep, vadd, a, b]

theorem nextPositions_total (s : IkSolver T) (ops : List Bool) (ho : ops.length = 6) (ign : List Nat)
    (jac : Mat T) (full orig : List T) (srt : ign.Pairwise (· < ·)) (lt : ∀ j ∈ ign, j < orig.length)
    (lj : jac.length = orig.length) (hj : ∀ col ∈ jac, col.length = 6) (lf : full.length = 6)
    (la : s.la.Sized) (null : ∀ f, s.nullspaceFunction = some f → ∀ q : List T, q.length = orig.length →
      ∃ y, f q = .ok y ∧ y.length = orig.length)
    (co : 0 < countTrue ops ∨ orig.length = ign.length) :
    ∃ r, nextPositions s ops ign orig.length jac (selectFlags ops full) orig = .ok r := by
  have rr : removeRows ops 0 0 jac = .ok (jac.map (selectFlags ops)) := by
    rw [removeRows_eq ops 0 0 jac (Nat.le_refl _) (by intro col hc; rw [hj col hc, ho])]
    simp
  have ri : removeIndices ign 0 (jac.map (selectFlags ops)) =
      .ok (dropFrom 0 ign (jac.map (selectFlags ops))) := by
    rw [removeIndices_ok ign 0 _ srt (by simp) (by simpa [lj] using lt)]
    simp
  generalize hJ0 : dropFrom 0 ign (jac.map (selectFlags ops)) = J at ri
  have lJ : J.length + ign.length = orig.length := by
    have := removeIndices_length _ _ _ _ ri
    simpa only [List.length_map, lj] using this
  have hJ : ∀ col ∈ J, col.length = countTrue ops := by
    intro col hc
    rw [← hJ0] at hc
    have := dropFrom_subset 0 ign _ col hc
    obtain ⟨x, hx, rfl⟩ := List.mem_map.1 this
    exact selectFlags_length ops x (by rw [hj x hx, ho])
  have lerr : (selectFlags ops full).length = countTrue ops :=
    selectFlags_length ops full (by rw [lf, ho])
  have ins : ∀ ys : List T, ys.length = orig.length - ign.length → ∃ zs, insertZeros ign ys = .ok zs := by
    intro ys ly
    obtain ⟨zs, e, -⟩ := insertZeros_ok ign ys srt (fun j hj => by have := lt j hj; omega)
    exact ⟨zs, e⟩
  simp only [nextPositions, rr, ri, Bind.bind, Except.bind]
  by_cases gt : orig.length - ign.length > countTrue ops
  · have c0 : 0 < countTrue ops := by omega
    rw [if_pos gt, if_neg (by omega)]
    rcases hf : s.nullspaceFunction with _ | f
    · obtain ⟨zs, e⟩ := ins _ (la.svd _ _ J _ c0 gt (by omega) hJ lerr)
      simp only [e]
      exact ⟨_, rfl⟩
    · obtain ⟨y, ey, ly⟩ := null f hf orig rfl
      obtain ⟨sub, hs⟩ : ∃ sub, removeIndices ign 0 y = .ok sub :=
        ⟨_, removeIndices_ok ign 0 y srt (by simp) (by simpa [ly] using lt)⟩
      have lsub := removeIndices_length _ _ _ _ hs
      simp only [ey, hs]
      rw [if_neg (by omega)]
      obtain ⟨zs, e⟩ := ins _ (nullspaceStep_len (orig.length - ign.length) (s.la.pinv J) J
        (selectFlags ops full) sub (la.pinv _ _ J c0 gt (by omega) hJ).2)
      simp only [e]
      exact ⟨_, rfl⟩
  · rw [if_neg gt]
    cases s.la.lu J (selectFlags ops full) <;> exact ⟨_, rfl⟩

private theorem Moved.parentsReady {h h' : KHeap T} {ns : List NodeId} (m : Moved ns h h')
    (p : ParentsReady h ns) : ParentsReady h' ns := by
  intro pre n post e q hq
  have lp : liveParent h' n = liveParent h n := by
    unfold liveParent; rw [m.sameBut.parent, m.sameBut.dead]
  rw [lp] at hq
  rcases p pre n post e q hq with x | ⟨x, y⟩
  · exact .inl x
  · exact .inr ⟨x, by rw [m.outside q x]; exact y⟩

private theorem nameIndices_lt {h : KHeap T} {ns : List NodeId} {names : List String} {is : List Nat}
    (e : nameIndices h ns names = .ok is) : ∀ i ∈ is, i < ns.length := by
  induction names generalizing is with
  | nil => cases e; intro i hi; cases hi
  | cons a as ih =>
    rw [nameIndices] at e
    cases hf : ns.findIdx? fun n => (h.get n).joint.name == a with
    | none => simp [hf] at e
    | some k =>
      simp only [hf] at e
      cases hr : nameIndices h ns as with
      | error b => simp [hr] at e
      | ok js =>
        simp only [hr] at e
        cases e
        intro i hi
        rcases List.mem_cons.1 hi with rfl | hi
        · exact (List.findIdx?_eq_some_iff_findIdx_eq.1 hf).1
        · exact ih hr i hi

private theorem solveOneLoop_total (s : IkSolver T) (arm : Chain) (target : Iso T) (c : Constraints)
    (ign : List Nat) (h : KHeap T) (u : h.Unlocked) (w : arm.Wf h) (pr : ParentsReady h arm.nodes)
    (srt : ign.Pairwise (· < ·)) (lt : ∀ j ∈ ign, j < arm.dof)
    (la : s.la.Sized) (null : ∀ f, s.nullspaceFunction = some f → ∀ q : List T, q.length = arm.dof →
      ∃ y, f q = .ok y ∧ y.length = arm.dof)
    (co : 0 < numConstrained c ∨ arm.dof = ign.length) :
    ∃ r h', run (solveOneLoop s arm target (defineOperationalSpace c) ign) h = .ok r h' := by
  obtain ⟨jac, h1, e, o, -, f⟩ := run_jacobian arm h u w pr
  have u1 := o.unlocked u
  have hl : ∀ col ∈ jac, col.length = 6 := by
    intro col hc
    obtain ⟨i, hi, rfl⟩ := List.getElem_of_mem hc
    exact isColumn_length (f.get (i := i) (by rw [f.length_eq]; exact hi) hi)
  have lo : (posList h arm.movableNodes).length = arm.dof := by rw [w.dof]; simp [posList]
  obtain ⟨r, er⟩ := nextPositions_total s (defineOperationalSpace c) rfl ign jac
    (calcPoseDiff target (endPose h arm.nodes)) (posList h arm.movableNodes) srt (by rw [lo]; exact lt)
    (by rw [lo, w.dof, f.length_eq]) hl rfl la (by rw [lo]; exact null)
    (by rw [lo, (C30_count (T := T) c).1]; exact co)
  rw [lo] at er
  unfold posList at er
  change nextPositions s _ ign arm.dof jac (calcPoseDiffWithConstraints target (endPose h arm.nodes)
    (defineOperationalSpace c)) _ = .ok r at er
  simp only [solveOneLoop, run_bind, run_jointPositions h u arm w, Res.bind_ok, run_endTransform _ _ u, e,
    er, run_ofExcept_ok]
  cases r with
  | error x => exact ⟨_, _, rfl⟩
  | ok ps =>
    have m := moved_clamp_chain (h' := h1) w ps
    simp only [run_bind, run_setJointPositionsClamped _ _ _ u1, Res.bind_ok,
      run_endTransform _ _ (m.unlocked u1), run_pure]
    exact ⟨_, _, rfl⟩

private theorem tryLoop_total (s : IkSolver T) (arm : Chain) (target : Iso T) (c : Constraints)
    (ign : List Nat) (orig : List T) (lo : orig.length = arm.dof)
    (srt : ign.Pairwise (· < ·)) (lt : ∀ j ∈ ign, j < arm.dof)
    (la : s.la.Sized) (null : ∀ f, s.nullspaceFunction = some f → ∀ q : List T, q.length = arm.dof →
      ∃ y, f q = .ok y ∧ y.length = arm.dof)
    (co : 0 < numConstrained c ∨ arm.dof = ign.length) (left : Nat) (last : Option (V3 T × V3 T))
    (hl : left = 0 → last ≠ none)
    (h : KHeap T) (u : h.Unlocked) (wf : MimicWF h) (w : arm.Wf h) (pr : ParentsReady h arm.nodes) :
    ∃ r h', run (tryLoop s arm target (defineOperationalSpace c) ign orig left last) h = .ok r h' ∧
      SameBut h h' := by
  induction left generalizing last h with
  | zero =>
    obtain ⟨d, rfl⟩ := Option.ne_none_iff_exists'.1 (hl rfl)
    simp only [tryLoop, run_bind, run_setJointPositions arm orig h u wf lo, Res.bind_ok]
    have sb := sameBut_setAll (arm.movableNodes.zip orig) h
    cases (setAll (arm.movableNodes.zip orig) h).1 with
    | error x => exact ⟨_, _, rfl, sb⟩
    | ok v => exact ⟨_, _, rfl, sb⟩
  | succ left ih =>
    obtain ⟨r, h1, e1⟩ := solveOneLoop_total s arm target c ign h u w pr srt lt la null co
    have m := solveOneLoop_moved s arm target _ ign h h1 u w r e1
    have u1 := m.unlocked u
    have w1 := m.sameBut.chainWf w
    simp only [tryLoop, run_bind, e1, Res.bind_ok]
    cases r with
    | error x => exact ⟨_, _, rfl, m.sameBut⟩
    | ok diff =>
      simp only
      split
      · simp only [run_bind, run_jointPositions h1 u1 arm w1, Res.bind_ok,
          run_setJointPositionsClamped _ _ _ u1, run_pure]
        exact ⟨_, _, rfl, m.sameBut.trans (moved_clamp_chain w1 _).sameBut⟩
      · obtain ⟨r, h', e, sb⟩ := ih (some _) (by simp) h1 u1 (m.sameBut.mimicWF wf) w1 (m.parentsReady pr)
        exact ⟨r, h', e, m.sameBut.trans sb⟩

theorem solve_total (h : KHeap T) (u : h.Unlocked) (wf : MimicWF h) (s : IkSolver T) (arm : Chain)
    (target : Iso T) (c : Constraints) (sr : SolveReady h s arm c) :
    ∃ r h', run (solveWithConstraints s arm target c) h = .ok r h' := by
  have lo : (arm.movableNodes.map fun n => (h.get n).joint.position).length = arm.dof := by
    rw [sr.wf.dof]; simp
  have inner : ∃ r h', run (solveInternal s arm target c) h = .ok r h' ∧ SameBut h h' := by
    simp only [solveInternal, run_bind, run_jointPositions h u arm sr.wf, Res.bind_ok]
    rw [if_neg (Nat.not_lt.2 sr.few)]
    split
    · exact ⟨_, _, rfl, .refl h⟩
    · rw [run_bind, run_ignoredIndices _ _ _ u]
      cases nm : nameIndices h arm.movableNodes c.ignoredJointNames with
      | error a => exact ⟨_, _, rfl, .refl h⟩
      | ok is =>
        obtain ⟨srt, len, -⟩ := sortedIndices_spec nm sr.distinct
        refine tryLoop_total s arm target c (sortedIndices is) _ lo srt ?_ sr.la sr.null ?_ s.numMaxTry none
          (fun e => absurd sr.tries (by omega)) h u wf sr.wf sr.parents
        · intro j hj
          rw [sr.wf.dof]
          exact nameIndices_lt nm j ((List.mergeSort_perm _ _).mem_iff.1 hj)
        · rw [len]; exact sr.coords
  obtain ⟨r, h1, e, sb⟩ := inner
  simp only [solveWithConstraints, run_bind, run_jointPositions h u arm sr.wf, Res.bind_ok, e]
  cases r with
  | ok v => exact ⟨_, _, rfl⟩
  | error x =>
    simp only [run_bind, run_setJointPositions arm _ h1 (sb.unlocked u) (sb.mimicWF wf) lo, Res.bind_ok]
    cases (setAll (arm.movableNodes.zip (arm.movableNodes.map fun n => (h.get n).joint.position)) h1).1 <;>
      exact ⟨_, _, rfl⟩

/-! ## Traversals -/

private theorem Lineage.length_le {h : KHeap T} (f : Forest h) {n : NodeId} {ps : List NodeId}
    (l : Lineage h n ps) : ps.length ≤ h.next + 1 := by
  obtain ⟨rank, hr⟩ := f.acyclic
  have nd := l.nodup fun p c e => hr p c (liveParent_eq_some e).1
  have low : ∀ m ∈ ps.tail, m < h.next := by
    clear nd
    induction l with
    | root e => simp
    | @step n p ps e l ih =>
      intro m hm
      have hp : p < h.next := (f.bound p n ((f.agree p n).2 (liveParent_eq_some e).1)).2
      cases l with
      | root => simp at hm; omega
      | step e' l' =>
        rcases List.mem_cons.1 hm with rfl | hm
        · exact hp
        · exact ih m hm
  have : ps.tail.length ≤ (List.range h.next).length :=
    ((nd.sublist (List.tail_sublist ps)).subperm fun m hm => List.mem_range.2 (low m hm)).length_le
  simp at this
  omega

/-! ## The theorems -/

/-- every call but `solve_with_constraints` -/
def NotSolve {β : Type} : Call T β → Prop
  | .solve _ _ _ _ => False
  | _ => True

private theorem clone_iff (h : KHeap T) (s : Sound h) (f : Nat) (c : Chain)
    (t : (Call.cloneChain f c).Tidy h) (en : (Call.cloneChain f c).Enough h) :
    (∃ r h', run (c.clone f) h = .ok r h') ↔ (Call.cloneChain f c).Needs h := by
  obtain ⟨ns, mv, d⟩ := c
  cases hn : ns with
  | nil => exact ⟨fun _ => .inl rfl, fun _ => ⟨_, _, rfl⟩⟩
  | cons r rest =>
    rw [← hn]
    have hr : (⟨ns, mv, d⟩ : Chain).nodes.head? = some r := by simp [hn]
    have hh : Cl.Handles h ns := ⟨fun n m => (t n m).1,
      fun n _ p e => (s.forest.bound p n ((s.forest.agree p n).2 e)).2, fun n m => (t n m).2⟩
    obtain ⟨a, b⟩ := Cl.run_clone s.built.unlocked ⟨ns, mv, d⟩ hh f r hr
    have eq : (Call.cloneChain (T := T) f ⟨ns, mv, d⟩).Needs h ↔
        (h.get r).parent = none ∧ ∀ n ∈ ns, Cl.Closed h ns n := by
      constructor
      · rintro (x | ⟨r', x, y, z⟩)
        · simp [hn] at x
        · rw [hr] at x; cases x
          exact ⟨y, fun n m => ⟨(z n m).1, (z n m).2⟩⟩
      · rintro ⟨y, z⟩
        exact .inr ⟨r, hr, y, fun n m => ⟨(z n m).parent, (z n m).mimic⟩⟩
    rw [eq]
    constructor
    · rintro ⟨x, h', e⟩
      refine Classical.byContradiction fun k => ?_
      obtain ⟨m, g, e'⟩ := b k
      rw [e] at e'; cases e'
    · intro k
      obtain ⟨g, iv, er⟩ := a k
      obtain ⟨c', e, -⟩ := C09_from_root g (iv.unlocked s.built.unlocked) (iv.forest s.forest k.2) h.next
      exact ⟨c', g, er.trans (e f (by rw [iv.next]; exact en))⟩

/-- **C73** (exactly when a call returns).  In a sound heap, for every call except `solve`, given allocated
handles: it returns if and only if its condition holds. -/
theorem C73_returns_iff (h : KHeap T) (s : Sound h) {β : Type} (c : Call T β) (t : c.Tidy h)
    (en : c.Enough h) (nosolve : NotSolve c) :
    (∃ r h', run c.prog h = .ok r h') ↔ c.Needs h := by
  have u := s.built.unlocked
  have un := fun n => u n
  have yes : ∀ {γ : Type} {p : KProg T γ} {r : γ} {h' : KHeap T}, run p h = .ok r h' →
      ((∃ r h', run p h = .ok r h') ↔ True) := fun e => iff_true_intro ⟨_, _, e⟩
  cases c
  case newNode j => exact yes (run_Node_new j h)
  case setParent n p => exact yes (run_Node_setParent n p h u)
  case removeParent n p => exact yes (run_Node_removeParent n p h u)
  case setMimicParent n p m => exact yes (run_Node_setMimicParent n p m h u)
  case setLink n l => exact yes (run_Node_setLink n l h (u n))
  case setOrigin n x => exact yes (run_Node_setOrigin n x h u)
  case setJointPosition n x => exact yes (run_setJointPosition n x h u s.built.mimic)
  case setJointPositionClamped n x => exact yes (run_Node_setJointPositionClamped n x h u)
  case setJointPositionUnchecked n x => exact yes (run_Node_setJointPositionUnchecked n x h u)
  case joint n => exact yes (run_Node_joint n h (u n))
  case jointPosition n => exact yes (run_Node_jointPosition n h (u n))
  case parent n => exact yes (run_Node_parent n h (u n))
  case mimicParent n => exact yes (run_Node_mimicParent n h (u n))
  case children n => exact yes (run_Node_children n h (u n))
  case link n => exact yes (run_Node_link n h (u n))
  case isRoot n => exact yes (run_Node_isRoot n h (u n))
  case isEnd n => exact yes (run_Node_isEnd n h (u n))
  case origin n => exact yes (run_Node_origin n h (u n))
  case worldTransform n => exact yes (run_Node_worldTransform n h (u n))
  case worldVelocity n => exact yes (run_Node_worldVelocity n h (u n))
  case iterAncestors f n =>
    obtain ⟨ps, l, -⟩ := C10_ancestors h u s.forest n
    exact yes (run_ancestors h u n ps l f (Nat.le_trans (l.length_le s.forest) en))
  case iterDescendants f n =>
    obtain ⟨ns, e, -⟩ := C09_descendants h u s.forest n
    exact yes (e f en)
  case fromNodes ns =>
    obtain ⟨c, e, -⟩ := C07_from_nodes h u ns
    exact yes e
  case fromRoot f n =>
    obtain ⟨c, e, -⟩ := C09_from_root h u s.forest n
    exact yes (e f en)
  case fromEnd f n =>
    obtain ⟨ps, l, -⟩ := C10_ancestors h u s.forest n
    obtain ⟨c, e, -⟩ := C07_from_nodes h u ps.reverse
    refine yes (r := c) (h' := h) ?_
    simp only [Call.prog, Chain.fromEnd, run_bind,
      run_ancestors h u n ps l f (Nat.le_trans (l.length_le s.forest) en), Res.bind_ok, e]
  case fromEndToRoot f n r =>
    obtain ⟨ps, l, -⟩ := C10_ancestors h u s.forest n
    obtain ⟨c, e, -⟩ := C11_from_end_to_root h u s.forest n r ps l
    exact yes (e f (Nat.le_trans (l.length_le s.forest) en))
  case chainSetOrigin c x =>
    obtain ⟨ns, mv, d⟩ := c
    cases ns with
    | nil => exact ⟨fun ⟨r, h', e⟩ => (by cases e), fun k => absurd rfl k⟩
    | cons n ns => exact ⟨fun _ => List.cons_ne_nil _ _, fun _ => ⟨_, _, run_Node_setOrigin n x h u⟩⟩
  case chainOrigin c =>
    obtain ⟨ns, mv, d⟩ := c
    cases ns with
    | nil => exact ⟨fun ⟨r, h', e⟩ => (by cases e), fun k => absurd rfl k⟩
    | cons n ns => exact ⟨fun _ => List.cons_ne_nil _ _, fun _ => ⟨_, _, run_Node_origin n h (u n)⟩⟩
  case iterJoints c =>
    exact yes (run_mapList_pure fun n _ => run_Node_joint n h (u n))
  case iterLinks c => exact yes (C55_iter_links c h u)
  case find c name =>
    obtain ⟨r, e, -⟩ := C44_find h u c name
    exact yes e
  case jointPositions c => exact jointPositions_iff h u c
  case setJointPositions c xs =>
    refine iff_true_intro ?_
    simp only [Call.prog, Chain.setJointPositions]
    split
    · exact ⟨_, _, rfl⟩
    · exact ⟨_, _, run_setAll _ h u s.built.mimic⟩
  case setJointPositionsClamped c xs => exact yes (run_setJointPositionsClamped c xs h u)
  case setJointPositionsUnchecked c xs =>
    exact yes (run_forEach_modify u fun p _ h' u' => run_Node_setJointPositionUnchecked p.1 p.2 h' u')
  case updateTransforms c => exact updateTransforms_iff h u c
  case updateVelocities c => exact updateVelocities_iff h u c
  case updateLinkTransforms c =>
    rw [show (Call.updateLinkTransforms c).Needs h ↔ ParentsKnown h c.nodes from .rfl,
      ← updateLinkTransforms_iff h u c]
    exact ⟨fun ⟨_, g, e⟩ => ⟨g, e⟩, fun ⟨g, e⟩ => ⟨(), g, e⟩⟩
  case cloneChain f c => exact clone_iff h s f c t en
  case tryNew c =>
    by_cases hn : c.nodes = []
    · obtain ⟨ns, mv, d⟩ := c
      cases hn
      exact ⟨fun ⟨r, h', e⟩ => (by cases e), fun k => absurd rfl k⟩
    · refine ⟨fun _ => hn, fun _ => ?_⟩
      obtain ⟨ns, z, e⟩ : ∃ ns z, c.nodes = ns ++ [z] :=
        ⟨_, _, (List.dropLast_append_getLast hn).symm⟩
      obtain ⟨a, b⟩ := C20_try_new h u c ns z e
      by_cases k : ∀ n ∈ ns, ∃ d, (h.get n).children = [d]
      · exact ⟨_, _, a k⟩
      · push Not at k
        exact ⟨_, _, b k⟩
  case endTransform c => exact yes (run_endTransform c h u)
  case display f c =>
    by_cases hn : c.nodes = []
    · obtain ⟨ns, mv, d⟩ := c
      cases hn
      exact ⟨fun ⟨r, h', e⟩ => (by cases e), fun k => absurd rfl k⟩
    · refine ⟨fun _ => hn, fun _ => ?_⟩
      obtain ⟨n, hc⟩ : ∃ n, c.nodes.head? = some n := by
        cases hc : c.nodes with
        | nil => exact absurd hc hn
        | cons n ns => exact ⟨n, rfl⟩
      obtain ⟨ls, e, -⟩ := C43_display h u s.forest c n hc
      exact ⟨_, _, e f en⟩
  case jacobian c => exact jacobian_iff h u c
  case centerOfMass c => exact centerOfMass_iff h u c
  case solve => exact nosolve.elim

/-- **C73** (a call that respects the conditions returns). -/
theorem C73_returns (h : KHeap T) (s : Sound h) {β : Type} (c : Call T β) (nd : c.Needs h) (t : c.Tidy h)
    (en : c.Enough h) : ∃ r h', run c.prog h = .ok r h' := by
  by_cases ns : NotSolve c
  · exact (C73_returns_iff h s c t en ns).2 nd
  · cases c <;> first | exact absurd trivial ns | skip
    exact solve_total h s.built.unlocked s.built.mimic _ _ _ _ nd

/-- **C73** (and leaves a sound heap). -/
theorem C73_kept (h h' : KHeap T) (s : Sound h) {β : Type} (c : Call T β) (t : c.Tidy h) (en : c.Enough h)
    (r : β) (e : run c.prog h = .ok r h') : Sound h' := by
  have u := s.built.unlocked
  have forest : Forest h' := by
    by_cases nt : NoTopologyCall c
    · obtain ⟨a, b⟩ := topology_frame c nt h h' r s.forest.fresh e
      exact s.forest.frame a b
    · cases c <;> first | exact absurd trivial nt | skip
      case setParent n p =>
        obtain ⟨a, b, c, d⟩ := t
        cases (run_Node_setParent n p h u).symm.trans e
        exact s.forest.attach a b c d
      case removeParent n p =>
        cases (run_Node_removeParent n p h u).symm.trans e
        exact s.forest.detach t
      case cloneChain f c =>
        have nd := (clone_iff h s f c t en).1 ⟨r, h', e⟩
        rcases nd with x | ⟨r', hr, hp, cl⟩
        · obtain ⟨ns, mv, d⟩ := c
          cases x
          cases e
          exact s.forest
        · have hh : Cl.Handles h c.nodes := ⟨fun n m => (t n m).1,
            fun n _ p e => (s.forest.bound p n ((s.forest.agree p n).2 e)).2, fun n m => (t n m).2⟩
          have cl' : ∀ n ∈ c.nodes, Cl.Closed h c.nodes n := fun n m => ⟨(cl n m).1, (cl n m).2⟩
          obtain ⟨g, iv, er⟩ := (Cl.run_clone u c hh f r' hr).1 ⟨hp, cl'⟩
          have fg := iv.forest s.forest cl'
          obtain ⟨c', e', -⟩ := C09_from_root g (iv.unlocked u) fg h.next
          have : run (c.clone f) h = .ok c' g := er.trans (e' f (by rw [iv.next]; exact en))
          cases this.symm.trans e
          exact fg
  have built : Built h' := by
    by_cases uv : ∀ d : Chain, ∀ q : β = List (Velocity T), c ≠ q ▸ .updateVelocities d
    · have : Respectful h c := by
        cases c <;> first | trivial | skip
        case updateVelocities d => exact absurd rfl (uv d rfl)
        case cloneChain f c =>
          exact fun n m => ⟨(t n m).1, fun p e => (s.forest.bound p n ((s.forest.agree p n).2 e)).2, (t n m).2⟩
        case display f c =>
          obtain ⟨rank, hr⟩ := s.forest.acyclic
          exact ⟨rank, fun n d hd => hr n d ((s.forest.agree n d).1 hd)⟩
      have := C49_no_self_deadlock h s.built c this
      rw [e] at this
      exact this.2
    · push Not at uv
      obtain ⟨d, rfl, rfl⟩ := uv
      have oc := C16_frame h h' u d r e
      have eq : ∀ m, (h'.get m).mimicChildren = (h.get m).mimicChildren ∧
          (h'.get m).mimicParent = (h.get m).mimicParent ∧ (h'.get m).mimic = (h.get m).mimic := by
        intro m
        obtain ⟨t, v, e⟩ := oc.same m
        rw [e]; exact ⟨rfl, rfl, rfl⟩
      refine ⟨fun n => by rw [oc.held]; exact u n, fun m c hc => ?_, fun m c hc => ?_⟩
      · rw [(eq m).1] at hc
        rw [(eq c).2.1, (eq c).2.2]
        exact s.built.mimic m c hc
      · rw [(eq m).1] at hc
        rw [oc.next]
        exact s.built.allocated m c hc
  exact ⟨built, forest⟩

/-- **C73**.  A program of any length that makes its calls one after the other, each meeting its condition in
the state in which it is made, runs to its end: no call panics, waits for a mutex or loops.  Every state on
the way is sound. -/
theorem C73_total {α : Type} (cl : Client T α) (h : KHeap T) (s : Sound h) (r : cl.Respects h) :
    ∃ a h', run cl.prog h = .ok a h' ∧ Sound h' := by
  induction cl generalizing h with
  | done a => exact ⟨a, h, rfl, s⟩
  | call c k ih =>
    obtain ⟨⟨nd, t, en⟩, rest⟩ := r
    obtain ⟨b, h1, e⟩ := C73_returns h s c nd t en
    obtain ⟨a, h', e', s'⟩ := ih b h1 (C73_kept h h1 s c t en b e) (rest b h1 e)
    exact ⟨a, h', by simp only [Client.prog, run_bind, e, Res.bind_ok, e'], s'⟩

/-- `update_velocities`, which can also wait for a mutex it holds itself (C16) -/
def NotVelocities {β : Type} : Call T β → Prop
  | .updateVelocities _ => False
  | _ => True

/-- **C73** (what happens otherwise).  When the condition of a call does not hold, the call panics; the
exceptions are `update_velocities` (see C16) and `solve`. -/
theorem C73_panics (h : KHeap T) (s : Sound h) {β : Type} (c : Call T β) (t : c.Tidy h) (en : c.Enough h)
    (nosolve : NotSolve c) (nv : NotVelocities c) (bad : ¬ c.Needs h) :
    ∃ m h', run c.prog h = .panic m h' := by
  have key : Respectful h c := by
    cases c <;> first | trivial | exact t | exact nv.elim | skip
    case cloneChain f c =>
      exact fun n m => ⟨(t n m).1, fun p e => (s.forest.bound p n ((s.forest.agree p n).2 e)).2, (t n m).2⟩
    case display f c =>
      obtain ⟨rank, hr⟩ := s.forest.acyclic
      exact ⟨rank, fun n d hd => hr n d ((s.forest.agree n d).1 hd)⟩
  have nb := C49_no_self_deadlock h s.built c key
  cases e : run c.prog h with
  | ok r h' => exact absurd ((C73_returns_iff h s c t en nosolve).1 ⟨r, h', e⟩) bad
  | panic m h' => exact ⟨m, h', rfl⟩
  | blocked n h' => rw [e] at nb; exact nb.elim
  | diverged =>
    by_cases nt : NoTraversal c
    · exact absurd e ((halts_call c nt).run h)
    · cases c <;> first | exact absurd trivial nt | exact absurd trivial bad | skip
      case cloneChain f c =>
        obtain ⟨ns, mv, d⟩ := c
        cases hn : ns with
        | nil => exact absurd (.inl hn) bad
        | cons r rest =>
          have hr : (⟨ns, mv, d⟩ : Chain).nodes.head? = some r := by simp [hn]
          have hh : Cl.Handles h ns := ⟨fun n m => (t n m).1,
            fun n _ p e => (s.forest.bound p n ((s.forest.agree p n).2 e)).2, fun n m => (t n m).2⟩
          obtain ⟨-, b⟩ := Cl.run_clone s.built.unlocked ⟨ns, mv, d⟩ hh f r hr
          obtain ⟨m, g, e'⟩ := b fun ⟨y, z⟩ =>
            bad (.inr ⟨r, hr, y, fun n m => ⟨(z n m).parent, (z n m).mimic⟩⟩)
          cases e.symm.trans e'
      case display f c =>
        obtain ⟨ns, mv, d⟩ := c
        cases ns with
        | nil => cases e
        | cons n ns => exact absurd (List.cons_ne_nil _ _) bad

/-- **C73** (many threads).  Threads that make no call which walks along the links cannot run for ever,
whatever the state they start from and however their steps are interleaved. -/
theorem C73_no_infinite_run {α : Type} (cls : List (Client T α)) (nt : ∀ cl ∈ cls, cl.Only NoTraversal)
    (h : KHeap T) (f : Nat → Config (NodeImpl T) α) (start : f 0 = ⟨h, cls.map Client.prog⟩)
    (st : ∀ k, Step (f k) (f (k + 1))) : False := by
  have all : ∀ k, ∀ p ∈ (f k).threads, Halts p := by
    intro k
    induction k with
    | zero =>
      intro p hp
      rw [start] at hp
      obtain ⟨cl, hcl, rfl⟩ := List.mem_map.1 hp
      exact halts_client cl (nt cl hcl)
    | succ k ih =>
      generalize hd : f (k + 1) = d
      have s := st k
      rw [hd] at s
      cases s with
      | mk i p p' h' hi hs =>
        intro q hq
        rcases List.mem_or_eq_of_mem_set hq with hq | rfl
        · exact ih q hq
        · exact (ih p (List.mem_of_getElem? hi)).step hs
  obtain ⟨k, hk⟩ := finite_executions f st
  exact all k _ hk

/-! ## The empty chain -/

/-- **C73** (the empty chain, in every state).  `origin`, `set_origin`, `SerialChain::try_new` and printing
panic; every other method returns at once and changes nothing. -/
theorem C73_empty (h : KHeap T) (t : Iso T) (fuel : Nat) (xs : List T) (name : String) :
    (∃ m, run (Chain.origin ⟨[], [], 0⟩) h = .panic m h) ∧
    (∃ m, run (Chain.setOrigin ⟨[], [], 0⟩ t) h = .panic m h) ∧
    (∃ m, run (Chain.tryNew ⟨[], [], 0⟩) h = .panic m h) ∧
    (∃ m, run (Chain.display fuel ⟨[], [], 0⟩) h = .panic m h) ∧
    run (Chain.fromNodes []) h = .ok ⟨[], [], 0⟩ h ∧
    run (Chain.endTransform ⟨[], [], 0⟩) h = .ok Iso.one h ∧
    run (Chain.updateTransforms ⟨[], [], 0⟩) h = .ok [] h ∧
    run (Chain.updateVelocities ⟨[], [], 0⟩) h = .ok [] h ∧
    run (Chain.updateLinkTransforms ⟨[], [], 0⟩) h = .ok () h ∧
    run (Chain.jointPositions ⟨[], [], 0⟩) h = .ok [] h ∧
    run (Chain.setJointPositions ⟨[], [], 0⟩ xs) h =
      .ok (if xs = [] then .ok () else .error (.sizeMismatch xs.length 0)) h ∧
    run (Chain.setJointPositionsClamped ⟨[], [], 0⟩ xs) h = .ok () h ∧
    run (Chain.setJointPositionsUnchecked ⟨[], [], 0⟩ xs) h = .ok () h ∧
    run (Chain.iterJoints ⟨[], [], 0⟩) h = .ok [] h ∧
    run (Chain.iterLinks ⟨[], [], 0⟩) h = .ok [] h ∧
    run (Chain.find ⟨[], [], 0⟩ name) h = .ok none h ∧
    run (Chain.clone fuel ⟨[], [], 0⟩) h = .ok ⟨[], [], 0⟩ h ∧
    run (jacobian ⟨[], [], 0⟩) h = .ok [] h := by
  refine ⟨⟨_, rfl⟩, ⟨_, rfl⟩, ⟨_, rfl⟩, ⟨_, rfl⟩, rfl, rfl, rfl, rfl, rfl, rfl, ?_, ?_, ?_, rfl, rfl, rfl, rfl, rfl⟩
  · cases xs <;> rfl
  · rfl
  · rfl

/-! ## Examples -/

/-- In every sound heap the usual program respects the conditions: take the chain of the tree below a root,
update its transforms, read its positions, print it. -/
example (h : KHeap T) (s : Sound h) (r : NodeId) (root : (h.get r).parent = none) :
    (Client.call (.fromRoot (h.next + 1) r) fun c => .call (.updateTransforms c) fun _ =>
      .call (.jointPositions c) fun ps => .call (.display (h.next + 1) c) fun txt =>
        .done (ps, txt) : Client T (List T × String)).Respects h := by
  have u := s.built.unlocked
  obtain ⟨c, e, w, hd, -, -, pf⟩ := C09_from_root h u s.forest r
  have known : ParentsKnown h c.nodes := by
    intro pre n post sp p hp
    have hp' := (liveParent_eq_some hp).1
    rcases pf pre n post sp with rfl | ⟨q, hq, e⟩
    · rw [root] at hp'; cases hp'
    · rw [e] at hp'; cases hp'; exact .inl hq
  have ne : c.nodes ≠ [] := by intro k; simp [k] at hd
  refine ⟨⟨trivial, trivial, Nat.le_refl _⟩, fun c' h' e' => ?_⟩
  cases (e _ (Nat.le_refl _)).symm.trans e'
  refine ⟨⟨known, trivial, trivial⟩, fun Xs g eg => ?_⟩
  have ow := (updateTransforms_leaves u eg).1
  refine ⟨⟨fun n hn => ?_, trivial, trivial⟩, fun ps g' eg' => ?_⟩
  · rw [w.movable, List.mem_filter] at hn
    exact (ow.moved.sameBut.movable n).2 (by simpa using hn.2)
  · have : g' = g := by
      have w' : c.Wf g := ow.moved.sameBut.chainWf w
      cases (run_jointPositions g (ow.unlocked u) c w').symm.trans eg'
      rfl
    subst this
    exact ⟨⟨ne, trivial, by show _ + 1 ≤ _; rw [ow.next]⟩, fun _ _ _ => trivial⟩

/-- a tree is a sound heap -/
theorem exTree_sound : Sound exTree := by
  have mc : ∀ m, (exTree.get m).mimicChildren = [] := by
    intro m; simp only [exTree]; split_ifs <;> rfl
  exact ⟨⟨fun _ => rfl, (fun m c hc => by rw [mc] at hc; cases hc),
    (fun m c hc => by rw [mc] at hc; cases hc)⟩, exTree_forest⟩

/-- linear algebra that always answers zero, with the right sizes -/
noncomputable def zeroLa : LinAlg ℝ :=
  ⟨fun J _ => some (J.map fun _ => 0), fun J _ => J.map fun _ => 0,
   fun J => match J with
    | [] => []
    | col :: _ => col.map fun _ => J.map fun _ => 0⟩

theorem zeroLa_sized : zeroLa.Sized where
  svd r n J b _ _ hn _ _ := by simp [zeroLa, hn]
  pinv r n J h0 hr hn hc := by
    cases J with
    | nil => simp at hn; omega
    | cons c J =>
      constructor
      · simp [zeroLa, hc c (by simp)]
      · intro col hm
        simp only [zeroLa, List.mem_map] at hm
        obtain ⟨x, -, rfl⟩ := hm
        simpa using hn

/-- two sliders, the default solver, one coordinate constrained, one joint ignored -/
example : SolveReady (rail none none 0 0) (IkSolver.default zeroLa) arm2 (onlyX ["b"]) where
  wf := by
    refine ⟨?_, rfl⟩
    have mv : ∀ n, n = 0 ∨ n = 1 → Movable (rail none none 0 0) n := by
      rintro n (rfl | rfl) <;> simp [Movable, rail, slider, Joint.new, NodeImpl.fresh]
    simp [arm2, mv]
  parents := rail_ready2 _ _ _ _
  few := by simp [onlyX, arm2]
  distinct := by simp [onlyX]
  tries := by simp [IkSolver.default, IkSolver.new]
  coords := .inl (by simp [numConstrained, onlyX])
  la := zeroLa_sized
  null f e := by cases e

end K
