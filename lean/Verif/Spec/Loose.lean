import Verif.Spec.Api
/-!
# Specification: limits only refuse (C106)

Two robots of which the second one has looser limits, and the clients that use the one as they use the other as long
as no position is refused.
-/

namespace K
open Prog
variable {T : Type} [Scalar T]

/-- the limits let `x` pass; without limits everything passes -/
def Allows : Option (Range T) → T → Prop
  | none, _ => True
  | some r, x => r.isValid x = true

/-- looser limits for joints, by the name of the joint and the limits it has -/
structure Loosening (T : Type) [Scalar T] where
  limits : String → Option (Range T) → Option (Range T)
  wider : ∀ name l x, Allows l x → Allows (limits name l) x

namespace Loosening
variable (W : Loosening T)

def toJoint (j : Joint T) : Joint T := { j with limits := W.limits j.name j.limits }

/-- the node with looser limits -/
def node (s : NodeImpl T) : NodeImpl T := { s with joint := W.toJoint s.joint }

/-- the memory with looser limits everywhere -/
def heap (h : KHeap T) : KHeap T := { h with get := fun n => W.node (h.get n) }

end Loosening

/-- the position was refused for the limits -/
def Refusal : Except (KError T) Unit → Prop
  | .error (.outOfLimit _ _ _ _) => True
  | _ => False

/-- the same call; nodes are created with the looser limits -/
def Call.loosened (W : Loosening T) : {β : Type} → Call T β → Call T β
  | _, .newNode j => .newNode (W.toJoint j)
  | _, c => c

/-- the same answer; joints have the looser limits -/
def Call.looseAnswer (W : Loosening T) : {β : Type} → Call T β → β → β
  | _, .joint _, j => W.toJoint j
  | _, .iterJoints _, js => js.map W.toJoint
  | _, _, r => r

/-- the calls that do not move positions into the limits -/
def Call.Unclamped : {β : Type} → Call T β → Prop
  | _, .setJointPositionClamped _ _ => False
  | _, .setJointPositionsClamped _ _ => False
  | _, .solve _ _ _ _ => False
  | _, _ => True

/-- the call answered that a position is out of the limits -/
def Call.Refused : {β : Type} → Call T β → β → Prop
  | _, .setJointPosition _ _, r => Refusal r
  | _, .setJointPositions _ _, r => Refusal r
  | _, _, _ => False

/-- the second client makes the calls of the first one on the robot with looser limits, and goes on alike when it gets
the same answers; the first one gives up, with `none`, when a position is refused -/
inductive Client.Loosens {α : Type} (W : Loosening T) : Client T (Option α) → Client T (Option α) → Prop
  | done (a : Option α) : Loosens W (.done a) (.done a)
  | call {β : Type} (c : Call T β) (k k' : β → Client T (Option α)) (ok : c.Unclamped)
      (stops : ∀ r, c.Refused r → k r = .done none)
      (next : ∀ r, ¬c.Refused r → Loosens W (k r) (k' (c.looseAnswer W r))) :
      Loosens W (.call c k) (.call (c.loosened W) k')

/-- thread `i` has given up: left alone it ends with `none`, and whatever happens it gives no other result -/
def Config.GivesUp {α : Type} (d : Config (NodeImpl T) (Option α)) (i : Nat) : Prop :=
  (∃ e, Steps d e ∧ e.threads[i]? = some (.ret none)) ∧
    ∀ e, DSteps d e → ∀ a, e.threads[i]? = some (.ret a) → a = none

/-- no node is created while a thread already holds the lock it is going to have: nobody has a handle of a node that
does not exist yet -/
def Config.LocksExist {α : Type} (c : Config (NodeImpl T) α) : Prop :=
  ∀ d, DSteps c d → ∀ (i : Nat) s k, d.threads[i]? = some (.alloc s k) → d.heap.held d.heap.next = false

/-- the calls that create nodes -/
def Call.Builds : {β : Type} → Call T β → Prop
  | _, .newNode _ => True
  | _, .cloneChain _ _ => True
  | _, _ => False

/-- the outcome, with the looser limits in memory -/
def Res.loosened {α : Type} (W : Loosening T) : Res (NodeImpl T) α → Res (NodeImpl T) α
  | .ok a h => .ok a (W.heap h)
  | .panic m h => .panic m (W.heap h)
  | .blocked n h => .blocked n (W.heap h)
  | .diverged => .diverged

end K
