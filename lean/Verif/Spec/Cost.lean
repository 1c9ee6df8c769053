import Verif.Spec.Api
/-!
# How often a call locks a mutex

The nodes are shared, so the price of a call is the number of mutexes it has to acquire: each is a point
where it may have to wait for another thread.  `Tally` is an execution of several threads together with
the number of acquisitions of each; `Call.Locks` says what the number may be when a call has returned,
`Call.Most` what it may be at any moment.
-/

namespace K
open Prog

variable {S α T : Type} [Scalar T]

/-- An execution (any interleaving, nodes freed at any moments) in which thread `i` has acquired `k i`
mutexes. -/
inductive Tally : Config S α → (Nat → Nat) → Config S α → Prop where
  | refl (c : Config S α) : Tally c (fun _ => 0) c
  | lock {c d : Config S α} {k : Nat → Nat} (x : Tally c k d) (i n : Nat) (p : Prog S α)
      (hi : d.threads[i]? = some (.lock n p)) (free : d.heap.held n = false) :
      Tally c (fun j => if j = i then k j + 1 else k j) ⟨d.heap.setHeld n true, d.threads.set i p⟩
  | other {c d : Config S α} {k : Nat → Nat} (x : Tally c k d) (i : Nat) (p p' : Prog S α) (h' : Heap S)
      (hi : d.threads[i]? = some p) (nl : ∀ n q, p ≠ .lock n q) (hs : step1 p d.heap = some (p', h')) :
      Tally c k ⟨h', d.threads.set i p'⟩
  | free {c d : Config S α} {k : Nat → Nat} (x : Tally c k d) (F : NodeId → Bool) :
      Tally c k ⟨d.heap.free F, d.threads⟩

/-- how many mutexes a program acquires when it runs alone -/
def acquisitions : Prog S α → Heap S → Nat
  | .ret _, _ => 0
  | .lock n p, h => if h.held n then 0 else acquisitions p (h.setHeld n true) + 1
  | .unlock n p, h => acquisitions p (h.setHeld n false)
  | .read n p, h => acquisitions (p (h.get n)) h
  | .write n f p, h => acquisitions p (h.modify n f)
  | .upgrade n p, h => acquisitions (p (!h.dead n)) h
  | .alloc s p, h => acquisitions (p h.next) (h.push s)
  | .panic _, _ => 0
  | .diverge, _ => 0

/-- every node has at most `M` mimic children -/
def FewMimics (M : Nat) (h : KHeap T) : Prop := ∀ n, (h.get n).mimicChildren.length ≤ M

/-- `k` is at least `lo` and at most `hi` -/
def Between (lo hi k : Nat) : Prop := lo ≤ k ∧ k ≤ hi

/-- The price of a call of `solve_with_constraints`, at most. `n` nodes, `m` movable, `a` names of
joints to ignore. -/
def solvePrice (M tries n m a : Nat) : Nat :=
  2 * m + a * m + tries * (7 * n + 3 * m) + 2 * (m * (1 + M))

/-- How many mutexes a call has acquired when it has returned `r`, if no node has more than `M` mimic
children. -/
def Call.Locks (M : Nat) {β : Type} : Call T β → β → Nat → Prop
  | .newNode _, _, k => k = 0
  | .setParent _ _, _, k => k = 2
  | .removeParent _ _, _, k => k = 2
  | .setMimicParent _ _ _, _, k => k = 3
  | .setLink _ _, _, k => k = 1
  | .setOrigin _ _, _, k => k = 1
  | .setJointPosition _ _, _, k => Between 1 (1 + M) k
  | .setJointPositionClamped _ _, _, k => k = 1
  | .setJointPositionUnchecked _ _, _, k => k = 1
  | .joint _, _, k => k = 1
  | .jointPosition _, _, k => k = 1
  | .parent _, _, k => k = 1
  | .mimicParent _, _, k => k = 1
  | .children _, _, k => k = 1
  | .link _, _, k => k = 1
  | .isRoot _, _, k => k = 1
  | .isEnd _, _, k => k = 1
  | .origin _, _, k => k = 1
  | .worldTransform _, _, k => k = 1
  | .worldVelocity _, _, k => k = 1
  | .iterAncestors _ _, r, k => k = r.length
  | .iterDescendants _ _, r, k => k = r.length
  | .fromNodes ns, _, k => k = ns.length
  | .fromRoot _ _, r, k => k = 2 * r.nodes.length
  | .fromEnd _ _, r, k => k = 2 * r.nodes.length
  | .fromEndToRoot _ _ _, r, k => k = 2 * r.nodes.length
  | .chainSetOrigin _ _, _, k => k = 1
  | .chainOrigin _, _, k => k = 1
  | .iterJoints c, _, k => k = c.movableNodes.length
  | .iterLinks c, r, k => k = c.nodes.length + r.length
  | .find c _, none, k => k = c.nodes.length
  | .find c _, some x, k => ∃ i, k = i + 1 ∧ c.nodes[i]? = some x
  | .jointPositions c, _, k => k = c.movableNodes.length
  | .setJointPositions c xs, r, k =>
    if xs.length = c.dof then
      Between 0 (min c.movableNodes.length xs.length * (1 + M)) k ∧
        (r = .ok () → min c.movableNodes.length xs.length ≤ k)
    else k = 0
  | .setJointPositionsClamped c xs, _, k => k = min c.movableNodes.length xs.length
  | .setJointPositionsUnchecked c xs, _, k => k = min c.movableNodes.length xs.length
  | .updateTransforms c, _, k => Between (3 * c.nodes.length) (4 * c.nodes.length) k
  | .updateVelocities c, _, k => Between (7 * c.nodes.length) (10 * c.nodes.length) k
  | .updateLinkTransforms c, _, k => Between (5 * c.nodes.length) (7 * c.nodes.length) k
  | .cloneChain _ c, r, k =>
    if c.nodes = [] then k = 0
    else Between (2 + 5 * c.nodes.length + 2 * r.nodes.length)
      (2 + 11 * c.nodes.length + 2 * r.nodes.length) k
  | .tryNew c, none, k => Between 1 (c.nodes.length - 1) k
  | .tryNew c, some _, k => k = c.nodes.length - 1
  | .endTransform c, _, k => k = c.nodes.length
  | .display _ _, _, _ => True
  | .jacobian c, _, k =>
    Between (4 * c.nodes.length + c.movableNodes.length) (5 * c.nodes.length + c.movableNodes.length) k
  | .centerOfMass c, _, k => Between (4 * c.nodes.length) (6 * c.nodes.length) k
  | .solve s c _ cs, r, k =>
    Between c.movableNodes.length
      (solvePrice M s.numMaxTry c.nodes.length c.movableNodes.length cs.ignoredJointNames.length) k ∧
    (r = .ok () → 6 * c.nodes.length + 5 * c.movableNodes.length ≤ k)

/-- How many mutexes a call may have acquired at any moment before it returns, also if it panics or
waits forever; no bound is given for the calls that walk along the links of the nodes. -/
def Call.Most (M : Nat) {β : Type} : Call T β → Option Nat
  | .newNode _ => some 0
  | .setParent _ _ | .removeParent _ _ => some 2
  | .setMimicParent _ _ _ => some 3
  | .setLink _ _ | .setOrigin _ _ => some 1
  | .setJointPosition _ _ => some (1 + M)
  | .setJointPositionClamped _ _ | .setJointPositionUnchecked _ _ | .joint _ | .jointPosition _
  | .parent _ | .mimicParent _ | .children _ | .link _ | .isRoot _ | .isEnd _ | .origin _
  | .worldTransform _ | .worldVelocity _ => some 1
  | .iterAncestors _ _ | .iterDescendants _ _ | .fromRoot _ _ | .fromEnd _ _ | .fromEndToRoot _ _ _
  | .cloneChain _ _ | .display _ _ => none
  | .fromNodes ns => some ns.length
  | .chainSetOrigin _ _ | .chainOrigin _ => some 1
  | .iterJoints c => some c.movableNodes.length
  | .iterLinks c => some (2 * c.nodes.length)
  | .find c _ => some c.nodes.length
  | .jointPositions c => some c.movableNodes.length
  | .setJointPositions c xs => some (min c.movableNodes.length xs.length * (1 + M))
  | .setJointPositionsClamped c xs | .setJointPositionsUnchecked c xs =>
    some (min c.movableNodes.length xs.length)
  | .updateTransforms c => some (4 * c.nodes.length)
  | .updateVelocities c => some (10 * c.nodes.length)
  | .updateLinkTransforms c => some (7 * c.nodes.length)
  | .tryNew c => some (c.nodes.length - 1)
  | .endTransform c => some c.nodes.length
  | .jacobian c => some (5 * c.nodes.length + c.movableNodes.length)
  | .centerOfMass c => some (6 * c.nodes.length)
  | .solve s c _ cs =>
    some (solvePrice M s.numMaxTry c.nodes.length c.movableNodes.length cs.ignoredJointNames.length)

/-- the numbers of the calls added up: what a client has acquired when it has returned `a` -/
def Client.Locks (M : Nat) : Client T α → α → Nat → Prop
  | .done b, a, k => a = b ∧ k = 0
  | .call c f, a, k => ∃ r k₁ k₂, c.Locks M r k₁ ∧ (f r).Locks M a k₂ ∧ k = k₁ + k₂

/-- the client never acquires more than `k` mutexes -/
def Client.Most (M : Nat) : Client T α → Nat → Prop
  | .done _, _ => True
  | .call c f, k => ∃ b, c.Most M = some b ∧ b ≤ k ∧
    ∀ r j, c.Locks M r j → ∃ k', j + k' ≤ k ∧ (f r).Most M k'

end K
