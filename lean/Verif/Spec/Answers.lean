import Verif.Spec.Api
import Mathlib.Data.List.Forall2
/-!
# What a call can answer whatever the other threads do

`Answer h c r`: the call `c`, made at any time after the nodes of `h` were created, may return `r`.  It
speaks only of what no call changes: the ids, names, types, limits and velocities of the joints of `h`, and
the arguments of the call.
-/

namespace K
variable {T : Type} [Scalar T]

/-- the data of a joint that no call changes -/
def Joint.sameData (j j' : Joint T) : Prop :=
  j'.name = j.name ∧ j'.jointType = j.jointType ∧ j'.limits = j.limits ∧ j'.velocity = j.velocity

/-- `j` can be the joint of node `n` -/
def JointOf (h : KHeap T) (n : NodeId) (j : Joint T) : Prop := n < h.next → (h.get n).joint.sameData j

/-- the error with which joint `j` refuses the value `x` -/
def Refuses (j : Joint T) (x : T) (e : KError T) : Prop :=
  (j.jointType = .fixed ∧ e = .setToFixed j.name) ∨
  (j.jointType ≠ .fixed ∧ ∃ r, j.limits = some r ∧ ¬ (Scalar.le r.min x = true ∧ Scalar.le x r.max = true) ∧
    e = .outOfLimit j.name x r.max r.min)

/-- the errors of setting node `n` to `x`: its own refusal, or that of a joint that follows it -/
def SetErr (h : KHeap T) (n : NodeId) (x : T) (e : KError T) : Prop :=
  (∃ j, JointOf h n j ∧ Refuses j x e) ∨
  ∃ (c : NodeId) (j : Joint T) (m : Mimic T), JointOf h c j ∧ Refuses j (x * m.multiplier + m.origin) e

/-- number of constrained coordinates -/
def Constraints.count (cs : Constraints) : Nat :=
  ([cs.positionX, cs.positionY, cs.positionZ, cs.rotationX, cs.rotationY, cs.rotationZ].filter id).length

/-- what every chain satisfies -/
structure ChainOf (h : KHeap T) (c : Chain) : Prop where
  dof : c.dof = c.movableNodes.length
  movable : (∀ n ∈ c.nodes, n < h.next) → c.movableNodes = c.nodes.filter fun n => (h.get n).joint.isMovable

/-- `name` is the name of a movable joint of the chain, as far as its nodes are known -/
def Named (h : KHeap T) (c : Chain) (name : String) : Prop :=
  (∀ n ∈ c.movableNodes, n < h.next) → ∃ n ∈ c.movableNodes, (h.get n).joint.name = name
/-- `name` is not the name of any movable joint of the chain, as far as its nodes are known -/
def Unnamed (h : KHeap T) (c : Chain) (name : String) : Prop :=
  ∀ n ∈ c.movableNodes, n < h.next → (h.get n).joint.name ≠ name

/-- the errors of the IK solver -/
inductive SolveErr (h : KHeap T) (s : IkSolver T) (c : Chain) (cs : Constraints) : KError T → Prop
  /-- fewer usable joints than constrained coordinates -/
  | precondition (few : c.dof - cs.ignoredJointNames.length < cs.count) :
      SolveErr h s c cs (.precondition (c.dof - cs.ignoredJointNames.length) cs.count)
  /-- an ignored name that is no joint of the chain -/
  | invalidName (name : String) (hn : name ∈ cs.ignoredJointNames) (un : Unnamed h c name)
      (enough : cs.count ≤ c.dof - cs.ignoredJointNames.length) : SolveErr h s c cs (.invalidJointName name)
  /-- all tries were used and the last one missed -/
  | notConverged (p r : V3 T) (tries : 0 < s.numMaxTry)
      (miss : ¬ (Scalar.lt p.norm s.allowableTargetDistance = true ∧
        Scalar.lt r.norm s.allowableTargetAngle = true))
      (enough : cs.count ≤ c.dof - cs.ignoredJointNames.length)
      (named : ∀ name ∈ cs.ignoredJointNames, Named h c name) :
      SolveErr h s c cs (.notConverged s.numMaxTry p r)
  /-- the linear solver gave up on a square system -/
  | inverse (tries : 0 < s.numMaxTry) (square : c.dof - cs.ignoredJointNames.length = cs.count)
      (named : ∀ name ∈ cs.ignoredJointNames, Named h c name) : SolveErr h s c cs .inverseMatrix
  /-- some joint refused the value it is set back to -/
  | restore (n : NodeId) (hn : n ∈ c.movableNodes) (x : T) (e : KError T) (he : SetErr h n x e) :
      SolveErr h s c cs e
  /-- a record that is no chain -/
  | size (ne : c.movableNodes.length ≠ c.dof) :
      SolveErr h s c cs (.sizeMismatch c.movableNodes.length c.dof)

/-- see the file comment -/
def Answer (h : KHeap T) : {β : Type} → Call T β → β → Prop
  | _, .newNode _, m => h.next ≤ m
  | _, .setJointPosition n x, r => ∀ e, r = .error e → SetErr h n x e
  | _, .joint n, j => JointOf h n j
  | _, .jointPosition n, o => n < h.next → (o = none ↔ (h.get n).joint.jointType = .fixed)
  | _, .iterAncestors _ n, l => ∃ rest, l = n :: rest
  | _, .iterDescendants _ n, l => ∃ rest, l = n :: rest
  | _, .fromNodes ns, c => c.nodes = ns ∧ ChainOf h c
  | _, .fromRoot _ n, c => (∃ rest, c.nodes = n :: rest) ∧ ChainOf h c
  | _, .fromEnd _ n, c => (∃ init, c.nodes = init ++ [n]) ∧ ChainOf h c
  | _, .fromEndToRoot _ e r, c => (∃ init, c.nodes = init ++ [e]) ∧ r ∉ c.nodes.tail ∧ ChainOf h c
  | _, .iterJoints c, js => List.Forall₂ (JointOf h) c.movableNodes js
  | _, .iterLinks c, ls => ls.length ≤ c.nodes.length
  | _, .find c name, o => (∀ m, o = some m → m ∈ c.nodes) ∧
      ((∀ n ∈ c.nodes, n < h.next) → o = c.nodes.find? fun n => (h.get n).joint.name == name)
  | _, .jointPositions c, xs => xs.length = c.movableNodes.length
  | _, .setJointPositions c xs, r =>
      (xs.length ≠ c.dof → r = .error (.sizeMismatch xs.length c.dof)) ∧
      (xs.length = c.dof → ∀ e, r = .error e → ∃ nx ∈ c.movableNodes.zip xs, SetErr h nx.1 nx.2 e)
  | _, .updateTransforms c, ts => ts.length = c.nodes.length
  | _, .updateVelocities c, vs => vs.length = c.nodes.length
  | _, .cloneChain _ c, c' => ChainOf h c' ∧
      (c.nodes = [] → c' = ⟨[], [], 0⟩) ∧ (c.nodes ≠ [] → ∃ r rest, c'.nodes = r :: rest ∧ h.next ≤ r)
  | _, .tryNew c, o => ∀ c', o = some c' → c' = c
  | _, .jacobian c, m => m.length = c.movableNodes.length ∧ ∀ col ∈ m, col.length = 6
  | _, .solve s c _ cs, r =>
      cs.ignoredJointNames.length ≤ c.dof ∧
      (∀ e, r = .error e → SolveErr h s c cs e) ∧
      (r = .ok () → 0 < s.numMaxTry ∧ cs.count ≤ c.dof - cs.ignoredJointNames.length ∧
        ∀ name ∈ cs.ignoredJointNames, Named h c name)
  | _, _, _ => True

/-- the calls that return a `Result` -/
inductive Fallible (T : Type) where
  | set (n : NodeId) (x : T)
  | setAll (c : Chain) (xs : List T)
  | solve (s : IkSolver T) (c : Chain) (target : Iso T) (cs : Constraints)

/-- the call -/
def Fallible.call : Fallible T → Call T (Except (KError T) Unit)
  | .set n x => .setJointPosition n x
  | .setAll c xs => .setJointPositions c xs
  | .solve s c t cs => .solve s c t cs

/-- From the contracts `φ` of the calls it follows that the client returns only values in `Q`. -/
def Client.Yields {α : Type} (φ : ∀ {β : Type}, Call T β → β → Prop) (Q : α → Prop) : Client T α → Prop
  | .done a => Q a
  | .call c k => ∀ r, φ c r → (k r).Yields φ Q

/-- run `p`, then `f` -/
def Client.andThen {α γ : Type} : Client T γ → (γ → Client T α) → Client T α
  | .done a, f => f a
  | .call c k, f => .call c fun r => (k r).andThen f

end K
