import Verif.Spec.Api
/-!
# A build without overflow checks

`Model/Chain.lean` and `Model/Ik.lean` follow the debug profile, where a `usize` subtraction below zero panics.
In the release profile it wraps modulo `W`, the number of `usize` values.  The crate subtracts in four places:
`src/chain.rs:550`, `src/ik.rs:224`, `src/ik.rs:238` (and `250`), `src/ik.rs:300`; `src/ik.rs:232` never goes below
zero.  The definitions with a release version are repeated here, all others are shared.
-/

namespace K
open Prog
variable {T : Type} [Scalar T]

/-- `a - b` without overflow checks -/
def wrappingSub (W a b : Nat) : Nat := if b ≤ a then a - b else W + a - b

/-- What `remove_column(k)` and `remove_row(k)` do for an index that comes from a wrapped subtraction.  This is
code of nalgebra on an index far outside the matrix; the model leaves it open: any program, with any effect on
the nodes. -/
abbrev Wrapped (T : Type) := (α : Type) → Nat → List α → KProg T (List α)

/-- `src/chain.rs:547-557` `SerialChain::try_new`. -/
def Chain.tryNewR (W : Nat) (c : Chain) : KProg T (Option Chain) := do
  let bad ← findFirst (c.nodes.take (wrappingSub W c.nodes.length 1))
    fun n => do return (← Node.children n).length != 1
  return match bad with
    | some _ => none
    | none => some c

/-- Loops `src/ik.rs:237-239` and `249-251`. -/
def removeIndicesR (W : Nat) (wr : Wrapped T) {α : Type} : List Nat → Nat → List α → KProg T (List α)
  | [], _, xs => .ret xs
  | ji :: rest, i, xs =>
    if ji < i then do
      let ys ← wr α (wrappingSub W ji i) xs
      removeIndicesR W wr rest (i + 1) ys
    else if ji - i < xs.length then removeIndicesR W wr rest (i + 1) (xs.eraseIdx (ji - i))
    else .panic "Column index out of range."

/-- `src/ik.rs:228-282`. -/
def nextPositionsR (W : Nat) (wr : Wrapped T) (s : IkSolver T) (ops : List Bool) (ignored : List Nat) (dof : Nat)
    (jac : Mat T) (err orig : List T) : KProg T (Except (KError T) (List T)) := do
  let required := countTrue ops
  let available := wrappingSub W dof ignored.length
  let jac ← ofExcept (removeRows ops 0 0 jac)
  let jac ← removeIndicesR W wr ignored 0 jac
  if available > required then
    if required = 0 then .panic "Cannot compute the SVD of an empty matrix."
    else
      match s.nullspaceFunction with
      | some f => do
        let inv := s.la.pinv jac
        let sub ← ofExcept (f orig)
        let sub ← removeIndicesR W wr ignored 0 sub
        if sub.length ≠ available then .panic "Matrix multiplication dimensions mismatch."
        else
          let dq := nullspaceStep available inv jac err sub
          let dq ← ofExcept (insertZeros ignored dq)
          return .ok (addPositionsWithMultiplier s.jacobianMultiplier orig dq)
      | none => do
        let dq := s.la.svdSolve jac err
        let dq ← ofExcept (insertZeros ignored dq)
        return .ok (addPositionsWithMultiplier s.jacobianMultiplier orig dq)
  else
    match s.la.lu jac err with
    | some x => return .ok (addPositionsWithMultiplier s.jacobianMultiplier orig x)
    | none => return .error .inverseMatrix

/-- `src/ik.rs:215-289` `solve_one_loop_with_constraints`. -/
def solveOneLoopR (W : Nat) (wr : Wrapped T) (s : IkSolver T) (arm : Chain) (target : Iso T) (ops : List Bool)
    (ignored : List Nat) : KProg T (Except (KError T) (List T)) := do
  let orig ← arm.jointPositions
  let tn ← arm.endTransform
  let err := calcPoseDiffWithConstraints target tn ops
  let jac ← jacobian arm
  match ← nextPositionsR W wr s ops ignored arm.dof jac err orig with
  | .error e => return .error e
  | .ok positions =>
    arm.setJointPositionsClamped positions
    let t ← arm.endTransform
    return .ok (calcPoseDiffWithConstraints target t ops)

/-- Loop `src/ik.rs:323-345`. -/
def tryLoopR (W : Nat) (wr : Wrapped T) (s : IkSolver T) (arm : Chain) (target : Iso T) (ops : List Bool)
    (ignored : List Nat) (orig : List T) :
    Nat → Option (V3 T × V3 T) → KProg T (Except (KError T) Unit)
  | 0, last => tryLoop s arm target ops ignored orig 0 last
  | left + 1, _ => do
    match ← solveOneLoopR W wr s arm target ops ignored with
    | .error e => return .error e
    | .ok diff =>
      let d := targetDiffToLenRotDiff diff ops
      if reached s d.1 d.2 then
        let nonChecked ← arm.jointPositions
        arm.setJointPositionsClamped nonChecked
        return .ok ()
      else tryLoopR W wr s arm target ops ignored orig left (some d)

/-- `src/ik.rs:291-346` `solve_with_constraints_internal`. -/
def solveInternalR (W : Nat) (wr : Wrapped T) (s : IkSolver T) (arm : Chain) (target : Iso T) (c : Constraints) :
    KProg T (Except (KError T) Unit) := do
  let ops := defineOperationalSpace c
  let required := countTrue ops
  let orig ← arm.jointPositions
  let available := wrappingSub W arm.dof c.ignoredJointNames.length
  if available < required then return .error (.precondition available required)
  else
    match ← ignoredIndices arm c.ignoredJointNames with
    | .error e => return .error e
    | .ok ignored =>
      tryLoopR W wr s arm target ops (ignored.mergeSort (fun a b => decide (a ≤ b))) orig s.numMaxTry none

/-- `src/ik.rs:457-469` `solve_with_constraints`. -/
def solveWithConstraintsR (W : Nat) (wr : Wrapped T) (s : IkSolver T) (arm : Chain) (target : Iso T)
    (c : Constraints) : KProg T (Except (KError T) Unit) := do
  let orig ← arm.jointPositions
  let re ← solveInternalR W wr s arm target c
  match re with
  | .error e =>
    match ← arm.setJointPositions orig with
    | .error e' => return .error e'
    | .ok () => return .error e
  | .ok () => return .ok ()

/-- a call of the API in a release build -/
def Call.progR (W : Nat) (wr : Wrapped T) {β : Type} : Call T β → KProg T β
  | .tryNew c => c.tryNewR W
  | .solve s c target cs => solveWithConstraintsR W wr s c target cs
  | c => c.prog

/-- the program a client executes in a release build -/
def Client.progR (W : Nat) (wr : Wrapped T) {α : Type} : Client T α → KProg T α
  | .done a => .ret a
  | .call c k => c.progR W wr >>= fun r => (k r).progR W wr

end K
