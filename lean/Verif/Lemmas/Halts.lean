import Verif.Spec.Api
import Verif.Lemmas.Run
import Verif.Lemmas.Finite
/-!
# Calls that cannot loop
-/

set_option linter.unusedSectionVars false

namespace K
open Prog
variable {S α β γ δ ε : Type}

/-- no path through the program reaches `diverge` -/
def Halts : Prog S α → Prop
  | .ret _ => True
  | .lock _ k => Halts k
  | .unlock _ k => Halts k
  | .read _ k => ∀ s, Halts (k s)
  | .write _ _ k => Halts k
  | .upgrade _ k => ∀ b, Halts (k b)
  | .alloc _ k => ∀ m, Halts (k m)
  | .panic _ => True
  | .diverge => False

theorem Halts.bind {p : Prog S α} {f : α → Prog S β} (h : Halts p) (hf : ∀ a, Halts (f a)) :
    Halts (p >>= f) := by
  show Halts (p.bind f)
  induction p with
  | ret a => exact hf a
  | lock n k ih => exact ih h
  | unlock n k ih => exact ih h
  | read n k ih => exact fun s => ih s (h s)
  | write n f k ih => exact ih h
  | upgrade n k ih => exact fun b => ih b (h b)
  | alloc s k ih => exact fun m => ih m (h m)
  | panic m => trivial
  | diverge => exact h

theorem Halts.run {p : Prog S α} (hp : Halts p) (h : Heap S) : run p h ≠ .diverged := by
  induction p generalizing h with
  | ret a => simp [K.run]
  | lock n k ih =>
    simp only [K.run]
    split
    · simp
    · exact ih hp _
  | unlock n k ih => exact ih hp _
  | read n k ih => exact ih _ (hp _) _
  | write n f k ih => exact ih hp _
  | upgrade n k ih => exact ih _ (hp _) _
  | alloc s k ih => exact ih _ (hp _) _
  | panic m => simp [K.run]
  | diverge => exact hp.elim

theorem Halts.step {p q : Prog S α} {h h' : Heap S} (hp : Halts p) (e : step1 p h = some (q, h')) :
    Halts q := by
  cases p with
  | ret a => cases e
  | lock n k => simp only [step1] at e; split at e <;> cases e; exact hp
  | unlock n k => cases e; exact hp
  | read n k => cases e; exact hp _
  | write n f k => cases e; exact hp
  | upgrade n k => cases e; exact hp _
  | alloc s k => cases e; exact hp _
  | panic m => cases e
  | diverge => exact hp.elim

theorem Halts.ret (a : α) : Halts (.ret a : Prog S α) := trivial
theorem Halts.pure (a : α) : Halts (Pure.pure a : Prog S α) := trivial
theorem Halts.panic (m : String) : Halts (.panic m : Prog S α) := trivial
theorem Halts.doLock (n : NodeId) : Halts (doLock n : Prog S Unit) := trivial
theorem Halts.doUnlock (n : NodeId) : Halts (doUnlock n : Prog S Unit) := trivial
theorem Halts.doRead (n : NodeId) : Halts (doRead n : Prog S S) := fun _ => trivial
theorem Halts.doWrite (n : NodeId) (f : S → S) : Halts (doWrite n f : Prog S Unit) := trivial
theorem Halts.doUpgrade (n : NodeId) : Halts (doUpgrade n : Prog S Bool) := fun _ => trivial
theorem Halts.doAlloc (s : S) : Halts (doAlloc s : Prog S NodeId) := fun _ => trivial
theorem Halts.peek (n : NodeId) : Halts (peek n : Prog S S) := fun _ => trivial
theorem Halts.poke (n : NodeId) (f : S → S) : Halts (poke n f : Prog S Unit) := trivial
theorem Halts.expect (o : Option α) (m : String) : Halts (expect o m : Prog S α) := by
  cases o <;> trivial
theorem Halts.ofExcept (x : Except String α) : Halts (Prog.ofExcept x : Prog S α) := by
  cases x <;> trivial

theorem Halts.forEach (xs : List γ) {f : γ → Prog S Unit} (hf : ∀ x, Halts (f x)) :
    Halts (forEach xs f) := by
  induction xs with
  | nil => trivial
  | cons x xs ih => exact (hf x).bind fun _ => ih

theorem Halts.mapList (xs : List γ) {f : γ → Prog S δ} (hf : ∀ x, Halts (f x)) :
    Halts (mapList xs f) := by
  induction xs with
  | nil => trivial
  | cons x xs ih => exact (hf x).bind fun _ => ih.bind fun _ => trivial

theorem Halts.filterList (xs : List γ) {f : γ → Prog S Bool} (hf : ∀ x, Halts (f x)) :
    Halts (filterList xs f) := by
  induction xs with
  | nil => trivial
  | cons x xs ih => exact (hf x).bind fun _ => ih.bind fun _ => trivial

theorem Halts.findFirst (xs : List γ) {f : γ → Prog S Bool} (hf : ∀ x, Halts (f x)) :
    Halts (findFirst xs f) := by
  induction xs with
  | nil => trivial
  | cons x xs ih =>
    refine (hf x).bind fun b => ?_
    cases b
    · exact ih
    · trivial

theorem Halts.tryEach (xs : List γ) {f : γ → Prog S (Except ε Unit)} (hf : ∀ x, Halts (f x)) :
    Halts (tryEach xs f) := by
  induction xs with
  | nil => trivial
  | cons x xs ih =>
    refine (hf x).bind fun b => ?_
    cases b
    · trivial
    · exact ih

variable {T : Type} [Scalar T]

/-- calls without a traversal of the links -/
def NoTraversal {β : Type} : Call T β → Prop
  | .iterAncestors _ _ | .iterDescendants _ _ | .fromRoot _ _ | .fromEnd _ _ | .fromEndToRoot _ _ _
  | .cloneChain _ _ | .display _ _ => False
  | _ => True

macro "halts" : tactic => `(tactic| repeat' (first
  | exact Halts.ret _ | exact Halts.pure _ | exact Halts.panic _ | exact Halts.doLock _
  | exact Halts.doUnlock _ | exact Halts.doRead _ | exact Halts.peek _ | exact Halts.poke _ _
  | exact Halts.doUpgrade _ | exact Halts.doWrite _ _ | exact Halts.doAlloc _
  | exact Halts.expect _ _ | exact Halts.ofExcept _ | assumption
  | refine Halts.bind ?_ ?_ | refine Halts.forEach _ ?_ | refine Halts.mapList _ ?_
  | refine Halts.filterList _ ?_ | refine Halts.findFirst _ ?_ | refine Halts.tryEach _ ?_
  | intro _ | split))

namespace Halts

theorem joint (n : NodeId) : Halts (Node.joint n : KProg T _) := fun _ => trivial

theorem parentWorldTransform (n : NodeId) : Halts (Node.parentWorldTransform n : KProg T _) := by
  simp only [Node.parentWorldTransform, Node.parent, Node.worldTransform, Node.joint]; halts

theorem setJointPosition (n : NodeId) (x : T) : Halts (Node.setJointPosition n x) := by
  unfold Node.setJointPosition; halts

theorem setJointPositions (c : Chain) (xs : List T) : Halts (c.setJointPositions xs) := by
  unfold Chain.setJointPositions
  split
  · trivial
  · exact tryEach _ fun _ => setJointPosition _ _

theorem jointPositions (c : Chain) : Halts (c.jointPositions : KProg T _) := by
  simp only [Chain.jointPositions]; halts

theorem setJointPositionsClamped (c : Chain) (xs : List T) : Halts (c.setJointPositionsClamped xs) := by
  simp only [Chain.setJointPositionsClamped, Node.setJointPositionClamped]; halts

theorem updateTransforms (c : Chain) : Halts (c.updateTransforms : KProg T _) := by
  refine mapList _ fun n => ?_
  unfold Chain.updateTransform
  refine (parentWorldTransform n).bind fun _ => ?_
  simp only [Node.joint]; halts

theorem endTransform (c : Chain) : Halts (c.endTransform : KProg T _) := by
  unfold Chain.endTransform
  generalize (Iso.one : Iso T) = t
  induction c.nodes generalizing t with
  | nil => trivial
  | cons n ns ih => exact (joint n).bind fun _ => ih _

theorem comLoop (ns : List NodeId) (acc : ComAcc T) : Halts (comLoop ns acc) := by
  induction ns generalizing acc with
  | nil => trivial
  | cons n ns ih =>
    simp only [K.comLoop, Node.worldTransform, Node.link, Node.joint]; halts
    all_goals exact ih _

theorem jacobian (c : Chain) : Halts (jacobian c : KProg T _) := by
  unfold K.jacobian
  refine (endTransform c).bind fun _ => (updateTransforms c).bind fun _ => ?_
  halts

theorem solveOneLoop (s : IkSolver T) (arm : Chain) (target : Iso T) (ops : List Bool) (ign : List Nat) :
    Halts (solveOneLoop s arm target ops ign) := by
  unfold K.solveOneLoop
  refine (jointPositions arm).bind fun _ => (endTransform arm).bind fun _ => (jacobian arm).bind fun _ =>
    (ofExcept _).bind fun x => ?_
  split
  · trivial
  · exact (setJointPositionsClamped arm _).bind fun _ => (endTransform arm).bind fun _ => trivial

theorem tryLoop (s : IkSolver T) (arm : Chain) (target : Iso T) (ops : List Bool) (ign : List Nat)
    (orig : List T) (left : Nat) (last : Option (V3 T × V3 T)) :
    Halts (tryLoop s arm target ops ign orig left last) := by
  induction left generalizing last with
  | zero =>
    unfold K.tryLoop
    refine (setJointPositions arm orig).bind fun x => ?_
    halts
  | succ left ih =>
    unfold K.tryLoop
    refine (solveOneLoop s arm target ops ign).bind fun x => ?_
    split
    · trivial
    · simp only
      split
      · exact (jointPositions arm).bind fun _ => (setJointPositionsClamped arm _).bind fun _ => trivial
      · exact ih _

theorem jointIndex (name : String) (ns : List NodeId) : Halts (jointIndex name ns : KProg T _) := by
  induction ns with
  | nil => trivial
  | cons n ns ih =>
    refine (joint n).bind fun _ => ?_
    split
    · trivial
    · exact ih.bind fun _ => trivial

theorem ignoredIndices (arm : Chain) (names : List String) :
    Halts (ignoredIndices arm names : KProg T _) := by
  induction names with
  | nil => trivial
  | cons a as ih =>
    refine (jointIndex a _).bind fun x => ?_
    split
    · exact ih.bind fun y => by cases y <;> trivial
    · trivial

theorem solveWithConstraints (s : IkSolver T) (arm : Chain) (target : Iso T) (c : Constraints) :
    Halts (solveWithConstraints s arm target c) := by
  refine (jointPositions arm).bind fun _ => bind ?_ fun x => ?_
  · refine (jointPositions arm).bind fun _ => ?_
    split
    · trivial
    · simp only
      split
      · trivial
      · refine (ignoredIndices arm _).bind fun y => ?_
        split
        · trivial
        · exact tryLoop _ _ _ _ _ _ _ _
  · split
    · exact (setJointPositions arm _).bind fun y => by cases y <;> trivial
    · trivial

end Halts

/-- No call except a traversal can loop, in whatever state it runs and whatever other threads do. -/
theorem halts_call {β : Type} (c : Call T β) (nt : NoTraversal c) : Halts c.prog := by
  cases c <;> first | exact nt.elim | skip
  case setJointPosition n x => exact Halts.setJointPosition n x
  case setJointPositions c xs => exact Halts.setJointPositions c xs
  case updateTransforms c => exact Halts.updateTransforms c
  case endTransform c => exact Halts.endTransform c
  case jacobian c => exact Halts.jacobian c
  case solve s c x cs => exact Halts.solveWithConstraints s c x cs
  case centerOfMass c =>
    exact (Halts.updateTransforms c).bind fun _ => (Halts.comLoop _ _).bind fun _ => trivial
  case updateLinkTransforms c =>
    refine (Halts.updateTransforms c).bind fun _ => Halts.forEach _ fun n => ?_
    exact (Halts.parentWorldTransform n).bind fun _ => (Halts.expect _ _).bind fun _ => Halts.poke _ _
  case updateVelocities c =>
    refine (Halts.updateTransforms c).bind fun _ => Halts.mapList _ fun n => ?_
    refine (Halts.parentWorldTransform n).bind fun _ => ?_
    simp only [Node.parentWorldVelocity, Node.parent, Node.worldVelocity, Node.worldTransform, Node.joint]
    halts
  all_goals
    simp only [Call.prog, Node.new, Node.setParent, Node.removeParent, Node.setMimicParent, Node.setLink,
      Node.setOrigin, Node.setJointPositionClamped, Node.setJointPositionUnchecked, Node.joint,
      Node.jointPosition, Node.parent, Node.mimicParent, Node.children, Node.link, Node.isRoot, Node.isEnd,
      Node.origin, Node.worldTransform, Node.worldVelocity, Chain.fromNodes, Chain.setOrigin, Chain.origin,
      Chain.iterJoints, Chain.iterLinks, Chain.find, Chain.jointPositions, Chain.setJointPositionsClamped,
      Chain.setJointPositionsUnchecked, Chain.tryNew]
    halts

theorem halts_client {α : Type} (cl : Client T α) (nt : cl.Only NoTraversal) : Halts cl.prog := by
  induction cl with
  | done a => trivial
  | call c k ih => exact (halts_call c nt.1).bind fun r => ih r (nt.2 r)

end K
