import Verif.Spec.Siblings
import Verif.Lemmas.Run
/-!
# Programs that do not notice in which order children are listed
-/

set_option linter.unusedSectionVars false

namespace K
open Prog
variable {T : Type} [Scalar T] {α β γ : Type}

namespace NodeImpl.Sib

theorem refl (s : NodeImpl T) : s.Sib s := ⟨_, .refl _, rfl⟩
theorem symm {s s' : NodeImpl T} (x : s.Sib s') : s'.Sib s := by
  obtain ⟨cs, p, rfl⟩ := x
  exact ⟨_, p.symm, rfl⟩
theorem trans {s s' s'' : NodeImpl T} (x : s.Sib s') (y : s'.Sib s'') : s.Sib s'' := by
  obtain ⟨cs, p, rfl⟩ := x
  obtain ⟨cs', p', rfl⟩ := y
  exact ⟨_, p.trans p', rfl⟩

end NodeImpl.Sib

/-- a write that treats children as a set -/
def SibWrite (f : NodeImpl T → NodeImpl T) : Prop := ∀ s s', s.Sib s' → (f s).Sib (f s')

/-- a value that does not depend on the order of children -/
def SibFree (f : NodeImpl T → α) : Prop := ∀ s cs, s.children.Perm cs → f { s with children := cs } = f s

namespace SameTree
variable {h h' : KHeap T}

theorem refl (h : KHeap T) : SameTree h h := ⟨fun _ => .refl _, rfl, rfl, rfl⟩
theorem symm (x : SameTree h h') : SameTree h' h :=
  ⟨fun n => (x.node n).symm, x.next.symm, x.dead.symm, x.held.symm⟩
theorem trans {h'' : KHeap T} (x : SameTree h h') (y : SameTree h' h'') : SameTree h h'' :=
  ⟨fun n => (x.node n).trans (y.node n), y.next.trans x.next, y.dead.trans x.dead, y.held.trans x.held⟩

theorem setHeld (x : SameTree h h') (n : NodeId) (b : Bool) : SameTree (h.setHeld n b) (h'.setHeld n b) :=
  ⟨x.node, x.next, x.dead, by simp only [Heap.setHeld, x.held]⟩

theorem modify (x : SameTree h h') (n : NodeId) {f : NodeImpl T → NodeImpl T} (hf : SibWrite f) :
    SameTree (h.modify n f) (h'.modify n f) := by
  refine ⟨fun m => ?_, x.next, x.dead, x.held⟩
  simp only [Heap.modify]
  split
  · exact hf _ _ (x.node m)
  · exact x.node m

theorem push (x : SameTree h h') (s : NodeImpl T) : SameTree (h.push s) (h'.push s) := by
  refine ⟨fun m => ?_, by simp only [Heap.push, x.next], by simp only [Heap.push, x.dead, x.next], by simp only [Heap.push, x.held]⟩
  simp only [Heap.push, x.next]
  split
  · exact .refl _
  · exact x.node m

theorem free (x : SameTree h h') (D : NodeId → Bool) : SameTree (h.free D) (h'.free D) :=
  ⟨x.node, x.next, by simp only [Heap.free, x.dead], x.held⟩

end SameTree

/-- a program that does not notice the order of children -/
inductive Orderless : KProg T α → Prop
  | ret (a : α) : Orderless (.ret a)
  | lock {n k} (x : Orderless k) : Orderless (.lock n k)
  | unlock {n k} (x : Orderless k) : Orderless (.unlock n k)
  | read {n k} (e : SibFree k) (x : ∀ s, Orderless (k s)) : Orderless (.read n k)
  | write {n f k} (hf : SibWrite f) (x : Orderless k) : Orderless (.write n f k)
  | upgrade {n k} (x : ∀ b, Orderless (k b)) : Orderless (.upgrade n k)
  | alloc {s k} (x : ∀ n, Orderless (k n)) : Orderless (.alloc s k)
  | panic (m : String) : Orderless (.panic m)
  | diverge : Orderless .diverge

namespace Orderless

theorem outcome {p : KProg T α} (o : Orderless p) {h h' : KHeap T} (x : SameTree h h') :
    SibEnd (run p h) (run p h') := by
  induction o generalizing h h' with
  | ret a => exact .ok a x
  | @lock n k _ ih =>
    simp only [K.run, x.held]
    split
    · exact .blocked n x
    · exact ih (x.setHeld n true)
  | unlock _ ih => exact ih (x.setHeld _ false)
  | @read n k e _ ih =>
    simp only [K.run]
    obtain ⟨cs, p, e'⟩ := x.node n
    rw [e', e _ _ p]
    exact ih _ x
  | write hf _ ih => exact ih (x.modify _ hf)
  | upgrade _ ih => simp only [K.run, x.dead]; exact ih _ x
  | alloc _ ih => simp only [K.run, x.next]; exact ih _ (x.push _)
  | panic m => exact .panic m x
  | diverge => exact .diverged

theorem step {p p' : KProg T α} (o : Orderless p) {h g h' : KHeap T} (x : SameTree h h')
    (e : step1 p h = some (p', g)) : ∃ g', step1 p h' = some (p', g') ∧ SameTree g g' ∧ Orderless p' := by
  cases o with
  | ret a => cases e
  | @lock n k y =>
    simp only [step1] at e
    split at e
    · cases e
    · cases e; rename_i z
      exact ⟨_, by simp only [step1, x.held]; rw [if_neg z], x.setHeld _ _, y⟩
  | unlock y => cases e; exact ⟨_, rfl, x.setHeld _ _, y⟩
  | @read n k s y =>
    cases e
    obtain ⟨cs, p, e'⟩ := x.node n
    exact ⟨_, by simp only [step1]; rw [e', s _ _ p], x, y _⟩
  | write hf y => cases e; exact ⟨_, rfl, x.modify _ hf, y⟩
  | upgrade y => cases e; exact ⟨_, by simp only [step1, x.dead], x, y _⟩
  | alloc y => cases e; exact ⟨_, by simp only [step1, x.next], x.push _, y _⟩
  | panic m => cases e
  | diverge => cases e; exact ⟨_, rfl, x, .diverge⟩

theorem bind {p : KProg T α} (o : Orderless p) {f : α → KProg T β} (hf : ∀ a, Orderless (f a)) :
    Orderless (p >>= f) := by
  show Orderless (p.bind f)
  induction o with
  | ret a => exact hf a
  | lock _ ih => exact .lock ih
  | unlock _ ih => exact .unlock ih
  | read e _ ih => exact .read (fun s cs p => by show (_ : KProg T α).bind f = _; rw [e s cs p]) ih
  | write h _ ih => exact .write h ih
  | upgrade _ ih => exact .upgrade ih
  | alloc _ ih => exact .alloc ih
  | panic m => exact .panic m
  | diverge => exact .diverge

theorem pure (a : α) : Orderless (Pure.pure a : KProg T α) := .ret a

theorem doLock (n : NodeId) : Orderless (doLock n : KProg T Unit) := .lock (.ret _)
theorem doUnlock (n : NodeId) : Orderless (doUnlock n : KProg T Unit) := .unlock (.ret _)
theorem doUpgrade (n : NodeId) : Orderless (doUpgrade n : KProg T Bool) := .upgrade fun _ => .ret _
theorem doWrite {n : NodeId} {f : NodeImpl T → NodeImpl T} (hf : SibWrite f) : Orderless (doWrite n f) :=
  .write hf (.ret _)
/-- what follows must not depend on the order of children -/
theorem doReadBind {n : NodeId} {f : NodeImpl T → KProg T α} (e : SibFree f) (x : ∀ s, Orderless (f s)) :
    Orderless (doRead n >>= f) := .read e x
theorem peekBind {n : NodeId} {f : NodeImpl T → KProg T α} (e : SibFree f) (x : ∀ s, Orderless (f s)) :
    Orderless (peek n >>= f) :=
  .lock (.read (fun s cs p => congrArg (Prog.unlock n) (e s cs p)) fun s => .unlock (x s))
theorem poke {n : NodeId} {f : NodeImpl T → NodeImpl T} (hf : SibWrite f) : Orderless (poke n f) :=
  .lock (.write hf (.unlock (.ret _)))

theorem expect (o : Option α) (m : String) : Orderless (expect o m : KProg T α) := by
  cases o with
  | none => exact .panic m
  | some a => exact .ret a
theorem ofExcept (x : Except String α) : Orderless (ofExcept x : KProg T α) := by
  cases x with
  | error m => exact .panic m
  | ok a => exact .ret a

theorem forEach {f : γ → KProg T Unit} (h : ∀ x, Orderless (f x)) (xs : List γ) : Orderless (forEach xs f) := by
  induction xs with
  | nil => exact .ret _
  | cons x xs ih => exact (h x).bind fun _ => ih
theorem mapList {f : γ → KProg T α} (h : ∀ x, Orderless (f x)) (xs : List γ) : Orderless (mapList xs f) := by
  induction xs with
  | nil => exact .ret _
  | cons x xs ih => exact (h x).bind fun _ => ih.bind fun _ => .ret _
theorem filterList {f : γ → KProg T Bool} (h : ∀ x, Orderless (f x)) (xs : List γ) : Orderless (filterList xs f) := by
  induction xs with
  | nil => exact .ret _
  | cons x xs ih => exact (h x).bind fun _ => ih.bind fun _ => .ret _
theorem findFirst {f : γ → KProg T Bool} (h : ∀ x, Orderless (f x)) (xs : List γ) : Orderless (findFirst xs f) := by
  induction xs with
  | nil => exact .ret _
  | cons x xs ih =>
    refine (h x).bind fun b => ?_
    cases b
    · exact ih
    · exact .ret _
theorem tryEach {ε : Type} {f : γ → KProg T (Except ε Unit)} (h : ∀ x, Orderless (f x)) (xs : List γ) :
    Orderless (tryEach xs f) := by
  induction xs with
  | nil => exact .ret _
  | cons x xs ih =>
    refine (h x).bind fun r => ?_
    cases r with
    | error e => exact .ret _
    | ok => exact ih

/-! ## nodes -/

/-- a write that leaves the children alone -/
theorem write_keep {f : NodeImpl T → NodeImpl T} (h : ∀ s cs, f { s with children := cs } = { f s with children := cs })
    (k : ∀ s, (f s).children = s.children) : SibWrite f := by
  rintro s s' ⟨cs, p, rfl⟩
  exact ⟨cs, by rw [k]; exact p, h s cs⟩

macro "keep" : tactic => `(tactic| exact write_keep (fun _ _ => rfl) (fun _ => rfl))

theorem joint (n : NodeId) : Orderless (Node.joint n : KProg T _) := peekBind (fun _ _ _ => rfl) fun _ => .ret _
theorem jointPosition (n : NodeId) : Orderless (Node.jointPosition n : KProg T _) :=
  peekBind (fun _ _ _ => rfl) fun _ => .ret _
theorem link (n : NodeId) : Orderless (Node.link n : KProg T _) := peekBind (fun _ _ _ => rfl) fun _ => .ret _
theorem isRoot (n : NodeId) : Orderless (Node.isRoot n : KProg T _) := peekBind (fun _ _ _ => rfl) fun _ => .ret _
theorem isEnd (n : NodeId) : Orderless (Node.isEnd n : KProg T _) :=
  peekBind (fun s cs p => by
    show (Pure.pure cs.isEmpty : KProg T Bool) = Pure.pure s.children.isEmpty
    rw [p.isEmpty_eq]) fun _ => .ret _
theorem new (j : Joint T) : Orderless (Node.new j : KProg T _) := .alloc fun _ => .ret _
theorem parent (n : NodeId) : Orderless (Node.parent n : KProg T _) := by
  refine (doLock n).bind fun _ => doReadBind (fun _ _ _ => rfl) fun s => ?_
  cases s.parent with
  | none => exact (doUnlock n).bind fun _ => .ret _
  | some w => exact (doUpgrade w).bind fun _ => (doUnlock n).bind fun _ => .ret _
theorem mimicParent (n : NodeId) : Orderless (Node.mimicParent n : KProg T _) := by
  refine (doLock n).bind fun _ => doReadBind (fun _ _ _ => rfl) fun s => ?_
  cases s.mimicParent with
  | none => exact (doUnlock n).bind fun _ => .ret _
  | some w => exact (doUpgrade w).bind fun _ => (doUnlock n).bind fun _ => .ret _
theorem setParent (n p : NodeId) : Orderless (Node.setParent n p : KProg T _) := by
  refine (poke (by keep)).bind fun _ => poke ?_
  rintro s s' ⟨cs, p, rfl⟩
  exact ⟨_, p.append_right _, rfl⟩
theorem removeParent (n p : NodeId) : Orderless (Node.removeParent n p : KProg T _) := by
  refine (poke (by keep)).bind fun _ => poke ?_
  rintro s s' ⟨cs, p, rfl⟩
  exact ⟨_, p.filter _, rfl⟩
theorem setMimicParent (n p : NodeId) (m : Mimic T) : Orderless (Node.setMimicParent n p m) :=
  (poke (by keep)).bind fun _ => (poke (by keep)).bind fun _ => poke (by keep)
theorem setLink (n : NodeId) (l : Option (Link T)) : Orderless (Node.setLink n l) := poke (by keep)
theorem setOrigin (n : NodeId) (t : Iso T) : Orderless (Node.setOrigin n t) := poke (by keep)
theorem origin (n : NodeId) : Orderless (Node.origin n : KProg T _) := (joint n).bind fun _ => .ret _
theorem worldTransform (n : NodeId) : Orderless (Node.worldTransform n : KProg T _) := (joint n).bind fun _ => .ret _
theorem worldVelocity (n : NodeId) : Orderless (Node.worldVelocity n : KProg T _) := (joint n).bind fun _ => .ret _
theorem parentWorldTransform (n : NodeId) : Orderless (Node.parentWorldTransform n : KProg T _) := by
  refine (parent n).bind fun o => ?_
  cases o with
  | none => exact .ret _
  | some p => exact worldTransform p
theorem parentWorldVelocity (n : NodeId) : Orderless (Node.parentWorldVelocity n : KProg T _) := by
  refine (parent n).bind fun o => ?_
  cases o with
  | none => exact .ret _
  | some p => exact worldVelocity p
theorem setJointPositionClamped (n : NodeId) (x : T) : Orderless (Node.setJointPositionClamped n x) := poke (by keep)
theorem setJointPositionUnchecked (n : NodeId) (x : T) : Orderless (Node.setJointPositionUnchecked n x) := poke (by keep)
theorem setMimicChild (n : NodeId) (x : T) (c : NodeId) : Orderless (Node.setMimicChild n x c) := by
  refine (doLock c).bind fun _ => doReadBind (fun _ _ _ => rfl) fun s => ?_
  cases s.mimic with
  | none => exact (joint n).bind fun _ => (joint c).bind fun _ => (doUnlock c).bind fun _ => .ret _
  | some m => exact (doWrite (by keep)).bind fun _ => (doUnlock c).bind fun _ => .ret _
theorem setJointPosition (n : NodeId) (x : T) : Orderless (Node.setJointPosition n x) := by
  refine (doLock n).bind fun _ => doReadBind (fun _ _ _ => rfl) fun s => ?_
  split
  · exact (doUnlock n).bind fun _ => .ret _
  · refine (doWrite (by keep)).bind fun _ => ?_
    split
    · exact (doUnlock n).bind fun _ => .ret _
    · exact (tryEach (setMimicChild n x) _).bind fun _ => (doUnlock n).bind fun _ => .ret _

/-! ## chains -/

theorem ancestors (fuel : Nat) (o : Option NodeId) : Orderless (ancestors fuel o : KProg T _) := by
  induction fuel generalizing o with
  | zero => cases o with
    | none => exact .ret _
    | some n => exact .diverge
  | succ fuel ih => cases o with
    | none => exact .ret _
    | some n => exact (parent n).bind fun p => (ih p).bind fun _ => .ret _
theorem ancestorsUntil (stop : NodeId) (fuel : Nat) (o : Option NodeId) :
    Orderless (ancestorsUntil stop fuel o : KProg T _) := by
  induction fuel generalizing o with
  | zero => cases o with
    | none => exact .ret _
    | some n => exact .diverge
  | succ fuel ih => cases o with
    | none => exact .ret _
    | some n =>
      refine (parent n).bind fun p => ?_
      split
      · exact .ret _
      · exact (ih p).bind fun _ => .ret _

theorem fromNodes (ns : List NodeId) : Orderless (Chain.fromNodes ns : KProg T _) :=
  (filterList (fun n => (joint n).bind fun _ => .ret _) ns).bind fun _ => .ret _
theorem fromEnd (fuel : Nat) (n : NodeId) : Orderless (Chain.fromEnd fuel n : KProg T _) :=
  (ancestors fuel _).bind fun _ => fromNodes _
theorem fromEndToRoot (fuel : Nat) (e r : NodeId) : Orderless (Chain.fromEndToRoot fuel e r : KProg T _) :=
  (ancestorsUntil r fuel _).bind fun _ => fromNodes _
theorem chainSetOrigin (c : Chain) (t : Iso T) : Orderless (c.setOrigin t) := by
  unfold Chain.setOrigin
  split
  · exact .panic _
  · exact setOrigin _ t
theorem chainOrigin (c : Chain) : Orderless (c.origin : KProg T _) := by
  unfold Chain.origin
  split
  · exact .panic _
  · exact origin _
theorem iterJoints (c : Chain) : Orderless (c.iterJoints : KProg T _) := mapList joint _
theorem iterLinks (c : Chain) : Orderless (c.iterLinks : KProg T _) := by
  refine (mapList (fun n => (link n).bind fun l => ?_) _).bind fun _ => .ret _
  split
  · exact (doLock n).bind fun _ => doReadBind (fun _ _ _ => rfl) fun s =>
      (expect _ _).bind fun _ => (doUnlock n).bind fun _ => .ret _
  · exact .ret _
theorem find (c : Chain) (name : String) : Orderless (c.find name : KProg T _) :=
  findFirst (fun n => (joint n).bind fun _ => .ret _) _
theorem jointPositions (c : Chain) : Orderless (c.jointPositions : KProg T _) :=
  mapList (fun n => (doLock n).bind fun _ => doReadBind (fun _ _ _ => rfl) fun _ =>
    (expect _ _).bind fun _ => (doUnlock n).bind fun _ => .ret _) _
theorem setJointPositions (c : Chain) (xs : List T) : Orderless (c.setJointPositions xs) := by
  unfold Chain.setJointPositions
  split
  · exact .ret _
  · exact tryEach (fun (x : NodeId × T) => setJointPosition x.1 x.2) _
theorem setJointPositionsClamped (c : Chain) (xs : List T) : Orderless (c.setJointPositionsClamped xs) :=
  forEach (fun (x : NodeId × T) => setJointPositionClamped x.1 x.2) _
theorem setJointPositionsUnchecked (c : Chain) (xs : List T) : Orderless (c.setJointPositionsUnchecked xs) :=
  forEach (fun (x : NodeId × T) => setJointPositionUnchecked x.1 x.2) _
theorem updateTransforms (c : Chain) : Orderless (c.updateTransforms : KProg T _) :=
  mapList (fun n => (parentWorldTransform n).bind fun _ => (expect _ _).bind fun _ => (joint n).bind fun _ =>
    (poke (by keep)).bind fun _ => .ret _) _
theorem updateVelocity (n : NodeId) : Orderless (Chain.updateVelocity n : KProg T _) := by
  refine (parentWorldTransform n).bind fun _ => (expect _ _).bind fun pt => (parentWorldVelocity n).bind fun _ =>
    (expect _ _).bind fun pv => (doLock n).bind fun _ => doReadBind (fun _ _ _ => rfl) fun s => bind ?_ fun v =>
    (doUnlock n).bind fun _ => (poke (by keep)).bind fun _ => .ret _
  split
  · exact .ret _
  · exact (parent n).bind fun _ => (expect _ _).bind fun p => (joint p).bind fun _ => (worldTransform n).bind fun _ =>
      (expect _ _).bind fun _ => (joint n).bind fun _ => (expect _ _).bind fun _ => .ret _
  · exact (worldTransform n).bind fun _ => (expect _ _).bind fun _ => (joint n).bind fun _ =>
      (expect _ _).bind fun _ => .ret _
theorem updateVelocities (c : Chain) : Orderless (c.updateVelocities : KProg T _) :=
  (updateTransforms c).bind fun _ => mapList updateVelocity _
theorem updateLinkTransforms (c : Chain) : Orderless (c.updateLinkTransforms : KProg T _) :=
  (updateTransforms c).bind fun _ => forEach (fun n => (parentWorldTransform n).bind fun _ =>
    (expect _ _).bind fun _ => poke (by keep)) _
theorem tryNew (c : Chain) : Orderless (c.tryNew : KProg T _) := by
  unfold Chain.tryNew
  split
  · exact .panic _
  · refine (findFirst (fun n => ?_) _).bind fun _ => .ret _
    show Orderless (peek n >>= fun s => Pure.pure (s.children.length != 1))
    exact peekBind (fun s cs p => by
      show (Pure.pure (cs.length != 1) : KProg T Bool) = Pure.pure (s.children.length != 1)
      rw [p.length_eq]) fun _ => .ret _
theorem foldTransform (ns : List NodeId) (t : Iso T) : Orderless (Chain.foldTransform ns t) := by
  induction ns generalizing t with
  | nil => exact .ret _
  | cons n ns ih => exact (joint n).bind fun _ => ih _
theorem endTransform (c : Chain) : Orderless (c.endTransform : KProg T _) := foldTransform _ _

theorem jacobian (c : Chain) : Orderless (K.jacobian c : KProg T _) :=
  (endTransform c).bind fun _ => (updateTransforms c).bind fun _ => mapList (fun n => (doLock n).bind fun _ =>
    doReadBind (fun _ _ _ => rfl) fun _ => (expect _ _).bind fun _ => (ofExcept _).bind fun _ =>
      (doUnlock n).bind fun _ => .ret _) _
theorem comLoop (ns : List NodeId) (acc : ComAcc T) : Orderless (comLoop ns acc) := by
  induction ns generalizing acc with
  | nil => exact .ret _
  | cons n ns ih =>
    refine (worldTransform n).bind fun o => ?_
    cases o with
    | none => exact ih _
    | some t => exact (link n).bind fun _ => ih _
theorem centerOfMass (c : Chain) : Orderless (K.centerOfMass c : KProg T _) :=
  (updateTransforms c).bind fun _ => (comLoop _ _).bind fun _ => .ret _

/-! ## inverse kinematics -/

theorem solveOneLoop (s : IkSolver T) (c : Chain) (target : Iso T) (ops : List Bool) (ign : List Nat) :
    Orderless (solveOneLoop s c target ops ign) := by
  refine (jointPositions c).bind fun _ => (endTransform c).bind fun _ => (jacobian c).bind fun _ =>
    (ofExcept _).bind fun r => ?_
  cases r with
  | error e => exact .ret _
  | ok xs => exact (setJointPositionsClamped c xs).bind fun _ => (endTransform c).bind fun _ => .ret _
theorem tryLoop (s : IkSolver T) (c : Chain) (target : Iso T) (ops : List Bool) (ign : List Nat) (orig : List T)
    (left : Nat) (last : Option (V3 T × V3 T)) : Orderless (tryLoop s c target ops ign orig left last) := by
  induction left generalizing last with
  | zero =>
    refine (setJointPositions c orig).bind fun r => ?_
    cases r with
    | error e => exact .ret _
    | ok => exact (expect _ _).bind fun _ => .ret _
  | succ left ih =>
    refine (solveOneLoop s c target ops ign).bind fun r => ?_
    cases r with
    | error e => exact .ret _
    | ok d =>
      simp only []
      split
      · exact (jointPositions c).bind fun _ => (setJointPositionsClamped c _).bind fun _ => .ret _
      · exact ih _
theorem jointIndex (name : String) (ns : List NodeId) : Orderless (jointIndex name ns : KProg T _) := by
  induction ns with
  | nil => exact .ret _
  | cons n ns ih =>
    refine (joint n).bind fun j => ?_
    split
    · exact .ret _
    · exact ih.bind fun _ => .ret _
theorem ignoredIndices (c : Chain) (names : List String) : Orderless (ignoredIndices c names : KProg T _) := by
  induction names with
  | nil => exact .ret _
  | cons name names ih =>
    refine (jointIndex name _).bind fun o => ?_
    cases o with
    | none => exact .ret _
    | some i =>
      refine ih.bind fun r => ?_
      cases r <;> exact .ret _
theorem solveInternal (s : IkSolver T) (c : Chain) (target : Iso T) (cs : Constraints) :
    Orderless (solveInternal s c target cs) := by
  refine (jointPositions c).bind fun _ => ?_
  split
  · exact .panic _
  · simp only []
    split
    · exact .ret _
    · refine (ignoredIndices c _).bind fun r => ?_
      cases r with
      | error e => exact .ret _
      | ok is => exact tryLoop s c target _ _ _ _ _
theorem solveWithConstraints (s : IkSolver T) (c : Chain) (target : Iso T) (cs : Constraints) :
    Orderless (solveWithConstraints s c target cs) := by
  refine (jointPositions c).bind fun _ => (solveInternal s c target cs).bind fun r => ?_
  cases r with
  | ok => exact .ret _
  | error e =>
    refine (setJointPositions c _).bind fun r => ?_
    cases r <;> exact .ret _

theorem call (c : Call T β) (free : c.OrderFree) : Orderless c.prog := by
  cases c with
  | newNode j => exact new j
  | cloneChain fuel c => exact free.elim
  | setParent n p => exact setParent n p
  | removeParent n p => exact removeParent n p
  | setMimicParent n p m => exact setMimicParent n p m
  | setLink n l => exact setLink n l
  | setOrigin n t => exact setOrigin n t
  | setJointPosition n x => exact setJointPosition n x
  | setJointPositionClamped n x => exact setJointPositionClamped n x
  | setJointPositionUnchecked n x => exact setJointPositionUnchecked n x
  | joint n => exact joint n
  | jointPosition n => exact jointPosition n
  | parent n => exact parent n
  | mimicParent n => exact mimicParent n
  | children n => exact free.elim
  | link n => exact link n
  | isRoot n => exact isRoot n
  | isEnd n => exact isEnd n
  | origin n => exact origin n
  | worldTransform n => exact worldTransform n
  | worldVelocity n => exact worldVelocity n
  | iterAncestors fuel n => exact ancestors fuel (some n)
  | iterDescendants fuel n => exact free.elim
  | fromNodes ns => exact fromNodes ns
  | fromRoot fuel n => exact free.elim
  | fromEnd fuel n => exact fromEnd fuel n
  | fromEndToRoot fuel e r => exact fromEndToRoot fuel e r
  | chainSetOrigin c t => exact chainSetOrigin c t
  | chainOrigin c => exact chainOrigin c
  | iterJoints c => exact iterJoints c
  | iterLinks c => exact iterLinks c
  | find c name => exact find c name
  | jointPositions c => exact jointPositions c
  | setJointPositions c xs => exact setJointPositions c xs
  | setJointPositionsClamped c xs => exact setJointPositionsClamped c xs
  | setJointPositionsUnchecked c xs => exact setJointPositionsUnchecked c xs
  | updateTransforms c => exact updateTransforms c
  | updateVelocities c => exact updateVelocities c
  | updateLinkTransforms c => exact updateLinkTransforms c
  | tryNew c => exact tryNew c
  | endTransform c => exact endTransform c
  | display fuel c => exact free.elim
  | jacobian c => exact jacobian c
  | centerOfMass c => exact centerOfMass c
  | solve s c target cs => exact solveWithConstraints s c target cs

theorem client {p : Client T α} (h : p.Only Call.OrderFree) : Orderless p.prog := by
  induction p with
  | done a => exact .ret a
  | call c k ih => exact (call c h.1).bind fun r => ih r (h.2 r)

end Orderless

end K
