import Verif.Model.Chain
/-!
# Specification for C96: what a sequence of position setters leaves behind

The position setters of nodes and chains as a small language (`Setting`), and, for each of them, the list of
writes it stands for (`Setting.writes`: which joint gets which value) and its answer (`Setting.answer`).  Both
are read off the kinds, limits and mimic data of the joints (`h`), not off their positions.
-/

namespace K
open Prog

variable {T : Type} [Scalar T]

/-- a call of one of the six position setters -/
inductive Setting (T : Type) where
  | set (n : NodeId) (x : T)
  | clamp (n : NodeId) (x : T)
  | put (n : NodeId) (x : T)
  | setAll (c : Chain) (xs : List T)
  | clampAll (c : Chain) (xs : List T)
  | putAll (c : Chain) (xs : List T)

/-- the call -/
def Setting.call : Setting T → KProg T (Except (KError T) Unit)
  | .set n x => Node.setJointPosition n x
  | .clamp n x => do Node.setJointPositionClamped n x; return .ok ()
  | .put n x => do Node.setJointPositionUnchecked n x; return .ok ()
  | .setAll c xs => c.setJointPositions xs
  | .clampAll c xs => do c.setJointPositionsClamped xs; return .ok ()
  | .putAll c xs => do c.setJointPositionsUnchecked xs; return .ok ()

/-- calls one after the other, whatever they answer; the answers -/
def settings : List (Setting T) → KProg T (List (Except (KError T) Unit))
  | [] => .ret []
  | a :: as => do
    let r ← a.call
    let rs ← settings as
    return r :: rs

/-- why the joint of `n` does not take the position `x` -/
def refusal (h : KHeap T) (n : NodeId) (x : T) : Option (KError T) :=
  match (h.get n).joint.jointType, (h.get n).joint.limits with
  | .fixed, _ => some (.setToFixed (h.get n).joint.name)
  | _, none => none
  | _, some r =>
    if Scalar.le r.min x && Scalar.le x r.max then none
    else some (.outOfLimit (h.get n).joint.name x r.max r.min)

/-- the joints `cs` follow a master at `x`, until one refuses -/
def follow (h : KHeap T) (x : T) : List NodeId → List (NodeId × T) × Except (KError T) Unit
  | [] => ([], .ok ())
  | c :: cs =>
    match (h.get c).mimic with
    | none => ([], .ok ())
    | some m =>
      match refusal h c (x * m.multiplier + m.origin) with
      | some e => ([], .error e)
      | none => ((c, x * m.multiplier + m.origin) :: (follow h x cs).1, (follow h x cs).2)

/-- the writes of `set_joint_position`, and its answer -/
def setOne (h : KHeap T) (n : NodeId) (x : T) : List (NodeId × T) × Except (KError T) Unit :=
  if (h.get n).mimicParent.isSome then ([], .ok ())
  else
    match refusal h n x with
    | some e => ([], .error e)
    | none => ((n, x) :: (follow h x (h.get n).mimicChildren).1, (follow h x (h.get n).mimicChildren).2)

/-- one `set_joint_position` after the other, until one fails -/
def setEach (h : KHeap T) : List (NodeId × T) → List (NodeId × T) × Except (KError T) Unit
  | [] => ([], .ok ())
  | (n, x) :: ps =>
    match (setOne h n x).2 with
    | .error e => ((setOne h n x).1, .error e)
    | .ok () => ((setOne h n x).1 ++ (setEach h ps).1, (setEach h ps).2)

/-- what the clamped setter writes -/
def clampOne (h : KHeap T) (n : NodeId) (x : T) : List (NodeId × T) :=
  match (h.get n).joint.jointType, (h.get n).joint.limits with
  | .fixed, _ => []
  | _, none => [(n, x)]
  | _, some r => [(n, if Scalar.lt x r.min then r.min else if Scalar.lt r.max x then r.max else x)]

/-- what a call writes -/
def Setting.writes (h : KHeap T) : Setting T → List (NodeId × T)
  | .set n x => (setOne h n x).1
  | .clamp n x => clampOne h n x
  | .put n x => [(n, x)]
  | .setAll c xs => if xs.length = c.dof then (setEach h (c.movableNodes.zip xs)).1 else []
  | .clampAll c xs => (c.movableNodes.zip xs).flatMap fun p => clampOne h p.1 p.2
  | .putAll c xs => c.movableNodes.zip xs

/-- what a call answers -/
def Setting.answer (h : KHeap T) : Setting T → Except (KError T) Unit
  | .set n x => (setOne h n x).2
  | .setAll c xs =>
    if xs.length = c.dof then (setEach h (c.movableNodes.zip xs)).2 else .error (.sizeMismatch xs.length c.dof)
  | _ => .ok ()

/-- the values written to node `k` -/
def valuesTo (k : NodeId) (ws : List (NodeId × T)) : List T :=
  ws.filterMap fun w => if w.1 = k then some w.2 else none

/-- the last value the calls `as` write to node `k`, if any -/
def lastTo (h : KHeap T) (k : NodeId) (as : List (Setting T)) : Option T :=
  (valuesTo k (as.flatMap (Setting.writes h))).getLast?

/-- a node whose joint has been written -/
def NodeImpl.movedTo (s : NodeImpl T) (x : T) : NodeImpl T :=
  { s with joint := { s.joint with position := x, worldTransformCache := none, worldVelocityCache := none } }

/-- a node after the last write to it -/
def NodeImpl.after (s : NodeImpl T) : Option T → NodeImpl T
  | none => s
  | some x => s.movedTo x

end K
